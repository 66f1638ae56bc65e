import Verif.Spec.Planar
import Verif.Props.C26_Relate
import Mathlib.AlgebraicTopology.FundamentalGroupoid.Basic

/-! Removing a vertex from a polyline is a deformation of the curve inside the triangle removed. -/

set_option linter.unusedSectionVars false

namespace Verif
namespace Planar

open unitInterval

/-- homotopy of paths inside `U` -/
def Into (U : Set ℂ) {a b : ℂ} (p q : Path a b) : Prop := ∃ F : p.Homotopy q, ∀ x, F x ∈ U

theorem Into.deforms {U : Set ℂ} {a b : ℂ} {p q : Path a b} (h : Into U p q) : Deforms U p q := by
  obtain ⟨F, hF⟩ := h
  refine ⟨fun s t => F (s, t), F.continuous, fun t => by simp, fun t => by simp, fun s => by simp, fun s t => hF _⟩

theorem Deforms.into {U : Set ℂ} {a b : ℂ} {p q : Path a b} (h : Deforms U p q) : Into U p q := by
  obtain ⟨F, h1, h2, h3, h4, h5⟩ := h
  refine ⟨⟨⟨⟨fun x => F x.1 x.2, h1⟩, fun t => h2 t, fun t => h3 t⟩, ?_⟩, fun x => h5 _ _⟩
  rintro s t (rfl | rfl)
  · exact (h4 s).1
  · exact (h4 s).2

theorem Into.refl {U : Set ℂ} {a b : ℂ} {p : Path a b} (h : ∀ t, p t ∈ U) : Into U p p :=
  ⟨Path.Homotopy.refl p, fun x => by simpa using h x.2⟩

theorem Into.trans {U : Set ℂ} {a b : ℂ} {p q r : Path a b} (h1 : Into U p q) (h2 : Into U q r) : Into U p r := by
  obtain ⟨F, hF⟩ := h1
  obtain ⟨G, hG⟩ := h2
  refine ⟨F.trans G, fun x => ?_⟩
  rw [Path.Homotopy.trans_apply]
  split
  · exact hF _
  · exact hG _

theorem Into.hcomp {U : Set ℂ} {a b c : ℂ} {p p' : Path a b} {q q' : Path b c} (h1 : Into U p p') (h2 : Into U q q') :
    Into U (p.trans q) (p'.trans q') := by
  obtain ⟨F, hF⟩ := h1
  obtain ⟨G, hG⟩ := h2
  refine ⟨F.hcomp G, fun x => ?_⟩
  rw [Path.Homotopy.hcomp_apply]
  split
  · exact hF _
  · exact hG _

theorem Deforms.trans {U : Set ℂ} {a b c d : ℂ} {p : Path a b} {q : Path a c} {r : Path a d} (h1 : Deforms U p q) (h2 : Deforms U q r) : Deforms U p r := by
  have e1 : b = c := by
    obtain ⟨F, -, -, f3, f4, -⟩ := h1
    have := (f4 1).2
    rw [f3] at this
    simpa using this.symm
  subst e1
  have e2 : b = d := by
    obtain ⟨F, -, -, f3, f4, -⟩ := h2
    have := (f4 1).2
    rw [f3] at this
    simpa using this.symm
  subst e2
  exact (h1.into.trans h2.into).deforms

theorem Deforms.prepend {U : Set ℂ} {a b c d : ℂ} {s : Path a b} {p : Path b c} {q : Path b d} (hs : ∀ t, s t ∈ U) (h : Deforms U p q) :
    Deforms U (s.trans p) (s.trans q) := by
  have e1 : c = d := by
    obtain ⟨F, -, -, f3, f4, -⟩ := h
    have := (f4 1).2
    rw [f3] at this
    simpa using this.symm
  subst e1
  exact ((Into.refl hs).hcomp h.into).deforms

/-- two paths in a convex set are homotopic in it -/
theorem Into.of_convex {U V : Set ℂ} (hV : Convex ℝ V) (hU : V ⊆ U) {a b : ℂ} {p q : Path a b} (hp : ∀ t, p t ∈ V) (hq : ∀ t, q t ∈ V) : Into U p q := by
  refine ⟨⟨⟨⟨fun x => (1 - (x.1 : ℝ)) • p x.2 + (x.1 : ℝ) • q x.2, by fun_prop⟩, fun t => by simp, fun t => by simp⟩, ?_⟩, fun x => hU ?_⟩
  · rintro s t (rfl | rfl)
    · simp only [Path.coe_toContinuousMap, ContinuousMap.coe_mk, Path.source]; module
    · simp only [Path.coe_toContinuousMap, ContinuousMap.coe_mk, Path.target]; module
  · exact hV (hp x.2) (hq x.2) (by linarith [x.1.2.2]) x.1.2.1 (by ring)

theorem segPath_mem (a b : ℂ) (t : I) : segPath a b t ∈ segment ℝ a b := by
  refine ⟨1 - (t : ℝ), t, by linarith [t.2.2], t.2.1, by ring, ?_⟩
  simp only [segPath, Path.coe_mk_mk]
  module

theorem trans_mem {U : Set ℂ} {a b c : ℂ} {p : Path a b} {q : Path b c} (hp : ∀ t, p t ∈ U) (hq : ∀ t, q t ∈ U) (t : I) : p.trans q t ∈ U := by
  rw [Path.trans_apply]
  split
  · exact hp _
  · exact hq _

/-- a path along vertices stays on the line -/
theorem polyPath_mem : ∀ (l : List ℂ) (a : ℂ) (t : I), polyPath a l t ∈ lineSet (a :: l)
  | [], a, t => rfl
  | b :: l, a, t => by
    refine trans_mem (U := lineSet (a :: b :: l)) ?_ ?_ t
    · exact fun t => .inl (segPath_mem a b t)
    · exact fun t => .inr (polyPath_mem l b t)

theorem mem_lineSet_of_mem : ∀ {l : List ℂ} {z : ℂ}, z ∈ l → z ∈ lineSet l
  | [a], z, h => by simpa [lineSet] using h
  | a :: b :: l, z, h => by
    rcases List.mem_cons.1 h with rfl | h
    · exact .inl (left_mem_segment ℝ _ _)
    · exact .inr (mem_lineSet_of_mem h)

/-- the line lies in the hull -/
theorem lineSet_subset_hullSet : ∀ l : List ℂ, lineSet l ⊆ hullSet l
  | [] => by simp [lineSet]
  | [a] => by simp [lineSet, hullSet]
  | a :: b :: l => by
    have hsub : hullSet (b :: l) ⊆ hullSet (a :: b :: l) := convexHull_mono (fun z hz => List.mem_cons_of_mem _ hz)
    refine Set.union_subset ?_ ((lineSet_subset_hullSet (b :: l)).trans hsub)
    exact segment_subset_convexHull (by simp) (by simp)

theorem hullSet_convex (l : List ℂ) : Convex ℝ (hullSet l) := convex_convexHull ℝ _

theorem hullSet_mono {l m : List ℂ} (h : ∀ z ∈ l, z ∈ m) : hullSet l ⊆ hullSet m := convexHull_mono h

/-- removing the vertex `b` between `a` and `c` deforms the path inside the triangle -/
theorem corner {U : Set ℂ} {a b c : ℂ} {d : ℂ} {r : Path c d} (ht : hullSet [a, b, c] ⊆ U) (hr : ∀ t, r t ∈ U) :
    Deforms U ((segPath a b).trans ((segPath b c).trans r)) ((segPath a c).trans r) := by
  have hab : ∀ t, segPath a b t ∈ hullSet [a, b, c] := fun t =>
    segment_subset_convexHull (s := {z | z ∈ [a, b, c]}) (by simp) (by simp) (segPath_mem a b t)
  have hbc : ∀ t, segPath b c t ∈ hullSet [a, b, c] := fun t =>
    segment_subset_convexHull (s := {z | z ∈ [a, b, c]}) (by simp) (by simp) (segPath_mem b c t)
  have hac : ∀ t, segPath a c t ∈ hullSet [a, b, c] := fun t =>
    segment_subset_convexHull (s := {z | z ∈ [a, b, c]}) (by simp) (by simp) (segPath_mem a c t)
  have h1 : Into U (((segPath a b).trans (segPath b c)).trans r) ((segPath a c).trans r) :=
    (Into.of_convex (hullSet_convex _) ht (trans_mem hab hbc) hac).hcomp (Into.refl hr)
  have hall : ∀ t, (segPath a b).trans ((segPath b c).trans r) t ∈ U := trans_mem (fun t => ht (hab t)) (trans_mem (fun t => ht (hbc t)) hr)
  exact (Into.trans ⟨(Path.Homotopy.transAssoc _ _ _).symm, fun x => hall _⟩ h1).deforms

/-- the statement for lists: removing a vertex -/
theorem deforms_remove {U : Set ℂ} {a b c : ℂ} (ht : hullSet [a, b, c] ⊆ U) : ∀ (u w : List ℂ), lineSet (u ++ a :: b :: c :: w) ⊆ U →
    Deforms U (curve (u ++ a :: b :: c :: w)) (curve (u ++ a :: c :: w)) := by
  intro u w hl
  cases u with
  | nil =>
    refine corner (r := polyPath c w) ht (fun t => hl (.inr (.inr ?_)))
    exact polyPath_mem w c t
  | cons x u =>
    induction u generalizing x with
    | nil =>
      refine Deforms.prepend (s := segPath x a) (p := polyPath a (b :: c :: w)) (q := polyPath a (c :: w)) (fun t => hl (.inl (segPath_mem x a t))) ?_
      refine corner (r := polyPath c w) ht (fun t => hl (.inr (.inr (.inr ?_))))
      exact polyPath_mem w c t
    | cons y u ih =>
      refine Deforms.prepend (s := segPath x y) (p := polyPath y (u ++ a :: b :: c :: w)) (q := polyPath y (u ++ a :: c :: w))
        (fun t => hl (.inl (segPath_mem x y t))) (ih y (fun z hz => hl (.inr hz)))

theorem lineSet_append_cons : ∀ (u : List ℂ) (a : ℂ) (w : List ℂ), lineSet (u ++ a :: w) = lineSet (u ++ [a]) ∪ lineSet (a :: w)
  | [], a, w => by
    rw [List.nil_append, List.nil_append, Set.union_eq_self_of_subset_left]
    simpa [lineSet] using mem_lineSet_of_mem (l := a :: w) (by simp)
  | [x], a, w => by
    simp only [List.cons_append, List.nil_append, lineSet]
    ext z
    have : z = a → z ∈ lineSet (a :: w) := fun h => h ▸ mem_lineSet_of_mem (by simp)
    simp only [Set.mem_union, Set.mem_singleton_iff]
    tauto
  | x :: y :: u, a, w => by
    have := lineSet_append_cons (y :: u) a w
    simp only [List.cons_append, lineSet] at this ⊢
    rw [this, Set.union_assoc]

/-- the line after removing a vertex stays in `U` -/
theorem lineSet_remove {U : Set ℂ} {a b c : ℂ} (ht : hullSet [a, b, c] ⊆ U) {u w : List ℂ} (hl : lineSet (u ++ a :: b :: c :: w) ⊆ U) :
    lineSet (u ++ a :: c :: w) ⊆ U := by
  rw [lineSet_append_cons] at hl ⊢
  refine Set.union_subset (fun z hz => hl (.inl hz)) ?_
  simp only [lineSet]
  refine Set.union_subset ?_ (fun z hz => hl (.inr (.inr (.inr hz))))
  exact (segment_subset_convexHull (s := {z | z ∈ [a, b, c]}) (by simp) (by simp)).trans ht

/-- a sequence of removals, each with its triangle in `U`, deforms the curve inside `U` -/
theorem deforms_collapse {U : Set ℂ} {l m : List ℂ} (h : Collapse (fun a b c => hullSet [a, b, c] ⊆ U) l m) (hl : lineSet l ⊆ U) (hne : l ≠ []) :
    Deforms U (curve l) (curve m) ∧ lineSet m ⊆ U := by
  induction h with
  | refl =>
    refine ⟨?_, hl⟩
    match l, hne with
    | a :: l, _ => exact (Into.refl (fun t => hl (polyPath_mem l a t))).deforms
  | @tail u a b c w h hf ih =>
    obtain ⟨i1, i2⟩ := ih
    refine ⟨?_, lineSet_remove hf i2⟩
    have h2 := deforms_remove hf u w i2
    have hhead : ∀ m : List ℂ, Collapse (fun a b c => hullSet [a, b, c] ⊆ U) l m → m.head? = l.head? := by
      intro m hm
      induction hm with
      | refl => rfl
      | @tail u _ _ _ _ _ _ ih => rw [← ih]; cases u <;> rfl
    match l, hne with
    | x :: l, _ =>
      have e1 := hhead _ h
      have e2 := hhead _ (h.tail hf)
      cases u with
      | nil =>
        simp only [List.nil_append, List.head?_cons, Option.some.injEq] at e1
        subst e1
        exact Deforms.trans (p := polyPath a l) (q := polyPath a (b :: c :: w)) (r := polyPath a (c :: w)) i1 h2
      | cons y u =>
        simp only [List.cons_append, List.head?_cons, Option.some.injEq] at e1
        subst e1
        exact Deforms.trans (p := polyPath y l) (q := polyPath y (u ++ a :: b :: c :: w)) (r := polyPath y (u ++ a :: c :: w)) i1 h2

end Planar
end Verif
