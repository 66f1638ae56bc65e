import Verif.Props.C26_Relate
import Verif.Lemmas.Mono
import Mathlib.Data.List.Sublists

/-! C67: does the sidedness test accept every piece that can be pulled to its chord without sweeping over a constraint? -/

set_option linter.unusedSectionVars false

namespace Verif

variable {P C B K : Type}

/-- removing vertices leaves a sub-sequence -/
theorem Collapse.sublist {free : P → P → P → Prop} {l m : List P} (h : Collapse free l m) : m.Sublist l := by
  induction h with
  | refl => exact List.Sublist.refl _
  | tail h hf ih => exact (List.Sublist.append_left ((List.sublist_cons_self _ _).cons_cons _) _).trans ih

variable [LinearOrder B]

/-- C67, sub-lines with nothing inside.  When every context geometry is met by both chord and sub-line or by neither, and no geometry
disjoint from both meets a triangle of three vertices of the sub-line (taken in their order), the sidedness test accepts.  The full
statement, acceptance of every sub-line that can be deformed into its chord without sweeping over a geometry, is false, see below. -/
theorem C67_accept_partial {lib : Lib P C B K} (hb : BoxSound lib) (hrefl : ∀ p, lib.equals2D p p = true) {c : Coords P} {ps : List P}
    (hlen : c.len = ps.length) (hne : 2 ≤ ps.length) (hpt : ∀ k (hk : k < ps.length), c.pt k = .ok ps[k]) (ctx : List (Geo P C))
    (hxor : ∀ g ∈ ctx, lib.intersects (.seg c) g = lib.intersects (.line c) g)
    (hfree : ∀ x y z, [x, y, z].Sublist ps → SweepsNothing lib c ctx x y z) :
    Yields (Homotopy.homotopy lib c ctx) true := by
  obtain ⟨b, hy⟩ := C29_terminates lib hlen hne hpt ctx
  cases b with
  | true => exact hy
  | false =>
    rcases C29_reject_stuck hb hrefl hlen hne hpt ctx hy with ⟨g, hg, hn⟩ | ⟨l, hc, hl, hs⟩
    · exact absurd (hxor g hg) hn
    · match l, hl with
      | x :: y :: z :: w, _ =>
        refine absurd (hfree x y z ?_) (hs [] x y z w rfl)
        refine List.Sublist.trans ?_ hc.sublist
        exact ((List.nil_sublist w).cons_cons z).cons_cons y |>.cons_cons x

/-- Specification: continuous deformation of a vertex list, in steps: a vertex is put on an edge (`on`: the new vertex is on the edge),
or a vertex is removed together with a triangle that `free` allows. -/
inductive Sweep (on free : P → P → P → Prop) : List P → List P → Prop
  | refl (l) : Sweep on free l l
  | insert {l u a x b w} (h : Sweep on free l (u ++ a :: b :: w)) (ho : on a x b) : Sweep on free l (u ++ a :: x :: b :: w)
  | remove {l u a b c w} (h : Sweep on free l (u ++ a :: b :: c :: w)) (hf : free a b c) : Sweep on free l (u ++ a :: c :: w)

/-- what the code does is such a deformation -/
theorem Collapse.sweep {on free : P → P → P → Prop} {l m : List P} (h : Collapse free l m) : Sweep on free l m := by
  induction h with
  | refl => exact .refl _
  | tail h hf ih => exact .remove ih hf

/-- a sub-line of the shape of the letter Z -/
def zLine : List (Int × Int) := [(0, 10), (10, 10), (0, 0), (10, 0)]
/-- two constraint points, one in each of the two regions beside the diagonal stroke that do not lie between Z and chord -/
def zCtx : List (Geo (Int × Int) (Int × Int)) := [.ctx (1, 4), .ctx (9, 6)]

/-- C67 refuted.  The Z meets no constraint point and neither does its chord; it can be pulled to its chord without sweeping over a
point (cut the diagonal stroke where the chord crosses it, then remove the corners); the sidedness test rejects it. -/
theorem C67_refuted :
    (∀ g ∈ zCtx, pointLib.intersects (.seg (coordsOf zLine)) g = false ∧ pointLib.intersects (.line (coordsOf zLine)) g = false) ∧
    Sweep (fun a x b => onSeg x a b = true) (fun x y z => SweepsNothing pointLib (coordsOf zLine) zCtx x y z) zLine [(0, 10), (10, 0)] ∧
    Yields (Homotopy.homotopy pointLib (coordsOf zLine) zCtx) false := by
  have hfr : ∀ x y z, (∀ g ∈ zCtx, pointLib.intersects (Homotopy.triangle x y z) g = false) →
      SweepsNothing pointLib (coordsOf zLine) zCtx x y z := fun x y z h g hg _ _ => h g hg
  refine ⟨by decide +kernel, ?_, ?_⟩
  · let on : Int × Int → Int × Int → Int × Int → Prop := fun a x b => onSeg x a b = true
    let free : Int × Int → Int × Int → Int × Int → Prop := fun x y z => SweepsNothing pointLib (coordsOf zLine) zCtx x y z
    have h0 : Sweep on free zLine ([(0, 10)] ++ (10, 10) :: (0, 0) :: [(10, 0)]) := .refl _
    have h1 : Sweep on free zLine ([(0, 10)] ++ (10, 10) :: (5, 5) :: (0, 0) :: [(10, 0)]) :=
      Sweep.insert h0 (show onSeg (5, 5) (10, 10) (0, 0) = true by decide +kernel)
    have h2 : Sweep on free zLine ([] ++ (0, 10) :: (5, 5) :: [(0, 0), (10, 0)]) :=
      Sweep.remove (u := []) (a := (0, 10)) (b := (10, 10)) (c := (5, 5)) (w := [(0, 0), (10, 0)]) h1 (hfr (0, 10) (10, 10) (5, 5) (by decide +kernel))
    have h3 : Sweep on free zLine ([(0, 10)] ++ (5, 5) :: (10, 0) :: []) :=
      Sweep.remove (u := [(0, 10)]) (a := (5, 5)) (b := (0, 0)) (c := (10, 0)) (w := []) h2 (hfr (5, 5) (0, 0) (10, 0) (by decide +kernel))
    exact Sweep.remove (on := on) (free := free) (u := []) (a := (0, 10)) (b := (5, 5)) (c := (10, 0)) (w := []) h3 (hfr (0, 10) (5, 5) (10, 0) (by decide +kernel))
  · have hr : Homotopy.homotopy pointLib (coordsOf zLine) zCtx 20 = .ok false := by decide +kernel
    exact (Homotopy.homotopy_le pointLib (coordsOf zLine) zCtx).yields hr

/-- non-trivial case of `C67_accept_partial`: the Z with constraint points on either side of it -/
example : Yields (Homotopy.homotopy pointLib (coordsOf zLine) [.ctx (5, 12), .ctx (-3, 4), .ctx (12, 3)]) true := by
  refine C67_accept_partial (ps := zLine) (fun a b _ => by simp [pointLib, Box.intersects]) (fun p => by simp [pointLib]) (by decide +kernel) (by decide)
    (by decide +kernel) _ (by decide +kernel) ?_
  intro x y z hs
  have key : ∀ l ∈ zLine.sublists', l.length = 3 → ∀ g ∈ ([.ctx (5, 12), .ctx (-3, 4), .ctx (12, 3)] : List (Geo (Int × Int) (Int × Int))),
      pointLib.intersects (Homotopy.triangle (l.getD 0 0) (l.getD 1 0) (l.getD 2 0)) g = false := by decide +kernel
  exact fun g hg _ _ => key _ (List.mem_sublists'.2 hs) rfl g hg

end Verif
