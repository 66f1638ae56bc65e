import Verif.Props.C113_Blurred
import Mathlib.Analysis.Complex.Convex

/-! C114: the search measures distances to boxes of the index as distances to the polygons of their corners. -/

set_option linter.unusedSectionVars false

namespace Verif
namespace Planar

section
variable {P C : Type}

/-- **C114**, the polygon: it covers exactly the points of the box -/
theorem C114_polygon {pos : P → ℂ} {region : C → Set ℂ} {mk : EReal → EReal → P} (hmk : ∀ x y : ℝ, pos (mk x y) = ⟨x, y⟩) {x0 y0 x1 y1 : ℝ} (hx : x0 ≤ x1) (hy : y0 ≤ y1) :
    shape pos region (Box.toPolygon mk ⟨x0, y0, x1, y1⟩ : Geo P C) = boxSet ⟨x0, y0, x1, y1⟩ := by
  have e : {z | z ∈ [(⟨x0, y0⟩ : ℂ), ⟨x0, y1⟩, ⟨x1, y1⟩, ⟨x1, y0⟩, ⟨x0, y0⟩]} = ({x0, x1} : Set ℝ) ×ℂ {y0, y1} := by
    ext z
    simp only [List.mem_cons, List.not_mem_nil, or_false, Set.mem_ofPred_eq, Complex.mem_reProdIm, Set.mem_insert_iff, Set.mem_singleton_iff, Complex.ext_iff]
    tauto
  have hp : (Coords.points ⟨[mk x0 y0, mk x0 y1, mk x1 y1, mk x1 y0, mk x0 y0], [0, 1, 2, 3, 4]⟩).map pos = [(⟨x0, y0⟩ : ℂ), ⟨x0, y1⟩, ⟨x1, y1⟩, ⟨x1, y0⟩, ⟨x0, y0⟩] := by
    simp [Coords.points, hmk]
  simp only [Box.toPolygon, shape, hp, hullSet, e, Complex.convexHull_reProdIm, convexHull_pair, segment_eq_Icc hx, segment_eq_Icc hy]
  ext z
  simp only [Complex.mem_reProdIm, Set.mem_Icc, boxSet, Set.mem_ofPred_eq, EReal.coe_le_coe_iff]
  tauto

/-- the least box around bounded constraints has real sides -/
theorem box_real {region : C → Set ℂ} (hn : ∀ g, (region g).Nonempty) (hbd : ∀ g, Bornology.IsBounded (region g)) {gs : List C} (hg : gs ≠ []) {b : Box EReal}
    (hb : ∀ c, b ≤ c ↔ ∀ g ∈ gs, region g ⊆ boxSet c) : ∃ x0 y0 x1 y1 : ℝ, x0 ≤ x1 ∧ y0 ≤ y1 ∧ b = ⟨x0, y0, x1, y1⟩ := by
  obtain ⟨R, hR⟩ : ∃ R : ℝ, ∀ g ∈ gs, ∀ z ∈ region g, ‖z‖ ≤ R := by
    clear hg hb
    induction gs with
    | nil => exact ⟨0, by simp⟩
    | cons g gs ih =>
      obtain ⟨R, hR⟩ := ih
      obtain ⟨S, hS⟩ := (hbd g).exists_norm_le
      refine ⟨max R S, fun x hx z hz => ?_⟩
      rcases List.mem_cons.1 hx with rfl | hx
      · exact (hS z hz).trans (le_max_right _ _)
      · exact (hR x hx z hz).trans (le_max_left _ _)
  have h1 : b ≤ ⟨((-R : ℝ) : EReal), ((-R : ℝ) : EReal), (R : EReal), (R : EReal)⟩ := (hb _).2 (fun g hg z hz => by
    have h := hR g hg z hz
    have h1 := abs_le.1 ((Complex.abs_re_le_norm z).trans h)
    have h2 := abs_le.1 ((Complex.abs_im_le_norm z).trans h)
    exact ⟨EReal.coe_le_coe_iff.2 h1.1, EReal.coe_le_coe_iff.2 h1.2, EReal.coe_le_coe_iff.2 h2.1, EReal.coe_le_coe_iff.2 h2.2⟩)
  obtain ⟨g, hg⟩ := List.exists_mem_of_ne_nil _ hg
  obtain ⟨z, hz⟩ := hn g
  obtain ⟨z1, z2, z3, z4⟩ := (hb b).1 (Box.le_refl' b) g hg hz
  obtain ⟨x0, y0, x1, y1⟩ := b
  obtain ⟨b1, b2, b3, b4⟩ := h1
  simp only at z1 z2 z3 z4 b1 b2 b3 b4
  have real : ∀ {x : EReal} {l u : ℝ}, (l : EReal) ≤ x → x ≤ (u : EReal) → ∃ r : ℝ, x = r := fun {x l u} h1 h2 =>
    ⟨x.toReal, (EReal.coe_toReal (fun h => by rw [h] at h2; exact absurd h2 (by simp)) (fun h => by rw [h] at h1; exact absurd h1 (by simp))).symm⟩
  obtain ⟨x0, rfl⟩ := real b1 z1
  obtain ⟨y0, rfl⟩ := real b2 z3
  obtain ⟨x1, rfl⟩ := real z2 b3
  obtain ⟨y1, rfl⟩ := real z4 b4
  exact ⟨x0, y0, x1, y1, EReal.coe_le_coe_iff.1 (z1.trans z2), EReal.coe_le_coe_iff.1 (z3.trans z4), rfl⟩

/-- Specification: a library as in C113, without any assumption on distances to boxes; constraints are bounded, and the distance to a box is the distance to the polygon of
its corners (knn/knn.go:30-42 `ScoreFn`). -/
structure Drawn (ε ρ : ℝ) (pos : P → ℂ) (inner outer region : C → Set ℂ) (mk : EReal → EReal → P) (lib : Lib P C EReal ℝ) : Prop where
  nonempty : ∀ g, (region g).Nonempty
  bounded : ∀ g, Bornology.IsBounded (region g)
  sub : ∀ g, inner g ⊆ outer g
  near : ∀ g, ∀ z ∈ outer g, ∃ w ∈ region g, dist z w ≤ ρ
  seen : ∀ a g, (shape pos region a ∩ inner g).Nonempty → lib.intersects a (.ctx g) = true
  only : ∀ a g, lib.intersects a (.ctx g) = true → (shape pos region a ∩ outer g).Nonempty
  boxes : ∀ a b, lib.intersects a b = true → (lib.bounds a).intersects (lib.bounds b) = true
  distance : ∀ a b, (shape pos region a).Nonempty → (shape pos region b).Nonempty →
    ∃ d, lib.distance a b = .fin d ∧ |d - gap (shape pos region a) (shape pos region b)| ≤ ε
  score : ∀ a b, lib.boxDistance a b = lib.distance a (Box.toPolygon mk b)
  corner : ∀ x y : ℝ, pos (mk x y) = ⟨x, y⟩
  bounds : ∀ a, (shape pos region a).Nonempty → ∀ b, lib.bounds a ≤ b ↔ shape pos region a ⊆ boxSet b
  hullIndexed : ∀ c, WellIndexed c → WellIndexed (lib.convexHull c)
  hullCorners : ∀ c, WellIndexed c → {z | z ∈ (lib.convexHull c).points.map pos} = (hullSet (c.points.map pos)).extremePoints ℝ
  hullOnce : ∀ c, WellIndexed c → ((lib.convexHull c).points.map pos).Nodup
  equals2D : ∀ p q, lib.equals2D p q = true ↔ pos p = pos q

/-- what the theorems of C113 assume of distances to boxes holds -/
theorem Drawn.blurred {ε ρ : ℝ} {pos : P → ℂ} {inner outer region : C → Set ℂ} {mk : EReal → EReal → P} {lib : Lib P C EReal ℝ}
    (h : Drawn ε ρ pos inner outer region mk lib) : Blurred ε ρ pos inner outer region lib := by
  refine ⟨h.nonempty, h.sub, h.near, h.seen, h.only, h.boxes, h.distance, fun a b gs ha hg hb => ?_, h.bounds, h.hullIndexed, h.hullCorners, h.hullOnce, h.equals2D⟩
  obtain ⟨x0, y0, x1, y1, h1, h2, rfl⟩ := box_real h.nonempty h.bounded hg hb
  have e := C114_polygon (region := region) h.corner h1 h2
  obtain ⟨g, hg⟩ := List.exists_mem_of_ne_nil _ hg
  have := h.distance a (Box.toPolygon mk ⟨x0, y0, x1, y1⟩) ha (by rw [e]; exact (h.nonempty g).mono ((hb _).1 (Box.le_refl' _) g hg))
  rwa [← h.score, e] at this

variable {pos : P → ℂ} {inner outer region : C → Set ℂ} {mk : EReal → EReal → P} {env : Env P C EReal ℝ} {pts : Int → List P} {h : Int} {cs : List C} {τ ε ρ m : ℝ}
  {ids : Nat → Int} {cv : List Int} {dirty d : Int → Bool} {fuel : Nat} {out : Out P C EReal}

/-- **C114** for one line: C113 with distances to boxes as the code computes them -/
theorem C114_line (he : EnvOK env) (hl : LnrOK env.lnr) (hi : InstOK env h (pts h)) (hinj : Function.Injective ids)
    (hcv : ∀ i ∈ cv, 0 ≤ i ∧ i < (pts h).length) (hx : Drawn ε ρ pos inner outer region mk env.lib) (hh : env.heap.Legal (within τ))
    (hτ : 0 ≤ τ ∧ 0 ≤ ε ∧ τ + 3 * ε + ρ ≤ m) (hm : (env.inst h).opts.minDist = .fin m) (hc : Constraints env h cs)
    (hr : simplify env ids h cv dirty fuel = .ok (out, d)) :
    BlurredResult pos inner outer region cs (env.inst h).opts (τ + 4 * ε) (m + ε) (pts h) (verticesAt (pts h) out.simple) :=
  C113_line he hl hi hinj hcv ⟨hx.blurred, hh, hτ, hm, hc⟩ hr

/-- C114 for the lines of a feature class -/
theorem C114_feature_class {idsOf : Int → Nat → Int} {handles : List Int} {o : Opts ℝ} {res : List (Int × Out P C EReal)}
    (hx : Drawn ε ρ pos inner outer region mk env.lib) (hh : env.heap.Legal (within τ))
    (hτ : 0 ≤ τ ∧ 0 ≤ ε ∧ τ + 3 * ε + ρ ≤ m) (hm : (env.inst h).opts.minDist = .fin m) (hc : Constraints env h cs) (hcl : ClassOK env pts ids idsOf handles)
    (hr : simplifyFeatureClass env ids idsOf handles o dirty fuel = .ok res) (hmem : (h, out) ∈ res) :
    BlurredResult pos inner outer region cs (env.inst h).opts (τ + 4 * ε) (m + ε) (pts h) (verticesAt (pts h) out.simple) :=
  C113_feature_class ⟨hx.blurred, hh, hτ, hm, hc⟩ hcl hr hmem

end

end Planar

namespace Io

open Verif.Text Verif.Planar

/-- **C114** for the saved file -/
theorem C114_program {P C Props : Type} (w : World (Fl ℝ) P Props C) (E : Engine P C EReal ℝ) (b f : Str) {obj : ArgObj (Fl ℝ)} {kind : OffsetKind}
    {docs : List (Doc (Fl ℝ))} {ctx : List C} (hr : Reads w b f obj kind docs ctx) (hord : ∀ l, (w.enc.ord l).Perm l) (hlen : docs.length ≤ maxInt)
    (hd : ∀ d ∈ docs, HasGeometry d ∧ docParts d ≠ [] ∧ ∀ x ∈ docParts d, x.1 ≤ maxInt ∧ (x.2.1 = ['n', 'u', 'l', 'l'] ∨ (w.enc.unmarshal x.2.1).isSome))
    (hE : E.OK (E.opts (optsFromCfg obj)) kind (docs.flatMap (fun d => (docParts d).map (fun x => x.2.2.map E.toPoint))))
    {pos : P → ℂ} {inner outer region : C → Set ℂ} {mk : EReal → EReal → P} {τ ε ρ m : ℝ} (hx : Drawn ε ρ pos inner outer region mk E.lib) (hh : E.heap.Legal (within τ))
    (hτ : 0 ≤ τ ∧ 0 ≤ ε ∧ τ + 3 * ε + ρ ≤ m) (hm : obj.minDist = .fin m) :
    ∃ out N, (∀ fuel ≥ N, main (program w E fuel) b f = .saved (trim obj.output) (out.map w.marshal)) ∧
      List.Forall₂ (WrittenAs (BlurredResult pos inner outer region ctx (asked (E.mul obj.threshold obj.threshold) obj) (τ + 4 * ε) (m + ε)) w.enc E.toPoint) docs out :=
  C113_program w E b f hr hord hlen hd hE hx.blurred hh hτ hm

end Io

namespace Planar

/-! ### concrete case: exact geometry with bounded constraints, distances to boxes as the code computes them -/

/-- bounded constraints -/
abbrev Plot : Type := {s : Set ℂ // s.Nonempty ∧ Bornology.IsBounded s}

/-- forget that constraints are bounded -/
def toRegion : Geo ℂ Plot → Geo ℂ Region
  | .point p => .point p
  | .line c => .line c
  | .poly c => .poly c
  | .seg c => .seg c
  | .ctx g => .ctx ⟨g.1, g.2.1⟩

theorem shape_toRegion (a : Geo ℂ Plot) : shape id (fun r : Region => r.1) (toRegion a) = shape id (fun r : Plot => r.1) a := by cases a <;> rfl

/-- the point with given coordinates -/
noncomputable def cornerAt (x y : EReal) : ℂ := ⟨x.toReal, y.toReal⟩

/-- exact geometry, the distance to a box is that to the polygon of its corners -/
noncomputable def drawnLib : Lib ℂ Plot EReal ℝ where
  convexHull := exactLib.convexHull
  bounds a := exactLib.bounds (toRegion a)
  intersects a b := exactLib.intersects (toRegion a) (toRegion b)
  intersection a b := exactLib.intersection (toRegion a) (toRegion b)
  distance a b := exactLib.distance (toRegion a) (toRegion b)
  boxDistance a b := exactLib.distance (toRegion a) (Box.toPolygon cornerAt b)
  ptInRing := exactLib.ptInRing
  equals2D := exactLib.equals2D
  ptDistance := exactLib.ptDistance

theorem drawnLib_drawn : Drawn 0 0 id (fun r : Plot => r.1) (fun r : Plot => r.1) (fun r : Plot => r.1) cornerAt drawnLib where
  nonempty g := g.2.1
  bounded g := g.2.2
  sub _ _ h := h
  near _ z hz := ⟨z, hz, by simp⟩
  seen a g h := (exactLib_exact.intersects (toRegion a) (toRegion (.ctx g))).2 (by rw [shape_toRegion, shape_toRegion]; exact h)
  only a g h := by
    have := (exactLib_exact.intersects (toRegion a) (toRegion (.ctx g))).1 h
    rw [shape_toRegion, shape_toRegion] at this
    exact this
  boxes a b h := exactLib_exact.boxSound (toRegion a) (toRegion b) h
  distance a b _ _ := ⟨_, rfl, by simp [shape_toRegion]⟩
  score _ _ := rfl
  corner x y := by simp [cornerAt]
  bounds a h b := by
    have := exactLib_exact.bounds (toRegion a) (by rw [shape_toRegion]; exact h) b
    rw [shape_toRegion] at this
    exact this
  hullIndexed := exactLib_exact.hullIndexed
  hullCorners := exactLib_exact.hullCorners
  hullOnce := exactLib_exact.hullOnce
  equals2D := exactLib_exact.equals2D

/-- two bounded constraints, one above and one below the peak -/
def sky : Plot := ⟨{z | 0 ≤ z.re ∧ z.re ≤ 1 ∧ 2 ≤ z.im ∧ z.im ≤ 3}, ⟨⟨0, 2⟩, by norm_num⟩, by
  refine (Metric.isBounded_iff_subset_closedBall 0).2 ⟨4, fun z hz => ?_⟩
  rw [mem_closedBall_zero_iff]
  have := Complex.norm_le_abs_re_add_abs_im z
  rw [abs_of_nonneg hz.1, abs_of_nonneg (by linarith [hz.2.2.1])] at this
  linarith [hz.2.1, hz.2.2.2]⟩

def ground : Plot := ⟨{⟨0, -1⟩}, ⟨_, rfl⟩, Bornology.isBounded_singleton⟩

/-- the peak between the two: it is simplified, the search looks at polygons of boxes, and neither constraint is touched -/
example : ∃ fuel out d, simplify (Demo.env drawnLib exactLnr (fun a b p => .fin (gap {p} (segment ℝ a b))) (.fin 0) (fun _ => ⟨peak, [sky, ground], peakOpts⟩))
      (fun n => n) 0 [] (fun _ => false) fuel = .ok (out, d) ∧
    BlurredResult id (fun r : Plot => r.1) (fun r : Plot => r.1) (fun r : Plot => r.1) [sky, ground] peakOpts 0 (1 / 2) peak (verticesAt peak out.simple) := by
  set env := Demo.env drawnLib exactLnr (fun a b p => .fin (gap {p} (segment ℝ a b))) (.fin 0) (fun _ => ⟨peak, [sky, ground], peakOpts⟩) with henv
  have he : EnvOK env := Demo.env_ok (fun p g => exactLib_point p (toRegion g))
  have hl : LnrOK env.lnr := exactLnr_ok (lines := fun _ => peakLine)
  have hi : InstOK env 0 ((fun _ => peak) (0 : Int)) :=
    Demo.inst_ok (lines := fun _ => ⟨peak, [sky, ground], peakOpts⟩) (by simp [peak]) (fun a b p => by simp [Fl.fin_le_fin, gap_nonneg])
      (by simp [peakOpts, Fl.fin_le_fin]) (Exact.hulls (env := { env with lib := sharpest id (fun r : Plot => r.1) drawnLib }) drawnLib_drawn.blurred.exact _)
  have hinj : Function.Injective (fun n : Nat => (n : Int)) := fun a b h => by simpa using h
  have hh : env.heap.Legal (within 0) := ⟨Hdb.listHeap_legal.push, Hdb.listHeap_legal.pop_none, Hdb.listHeap_legal.pop_perm,
    fun q x r h1 h2 y hy => within_zero (Hdb.listHeap_legal.pop_min q x r h1 h2 y hy)⟩
  have hc : Constraints env 0 [sky, ground] := by
    have := (Demo.ctxdb_spec drawnLib 0 [sky, ground]).2.map (fun nd : Node ℂ Plot EReal => (nd.geom, nd.mbr))
    rw [List.map_map] at this
    exact this
  obtain ⟨⟨out, d⟩, N, hy⟩ := C10_terminates (pts := fun _ => peak) (cv := []) he hl hi hinj (by simp) (fun _ => false)
  have := C114_line (pts := fun _ => peak) (m := 1 / 2) he hl hi hinj (by simp) drawnLib_drawn hh (by norm_num) rfl hc (hy N le_rfl)
  norm_num at this
  exact ⟨N, out, d, hy N le_rfl, this⟩

end Planar
end Verif
