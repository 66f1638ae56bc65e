import Verif.Props.C04_Decompose
import Mathlib.Analysis.Convex.Segment
import Mathlib.Analysis.Normed.Module.Basic
import Mathlib.Topology.MetricSpace.HausdorffDistance

/-! C07: unconstrained simplification respects the tolerance. -/

namespace Verif

variable {P C B K : Type}

/-- if the offset score of a sub-line is at most a bound, so is every interior distance that is a number -/
theorem maxOffset_interior_le [LinearOrder K] [Zero K] (distFn : P → P → P → Fl K) (pts : List P) {i j t : Int} (hi : 0 ≤ i)
    (hj : j < pts.length) (h1 : i < t) (h2 : t < j) {k : Int} {v bound : Fl K}
    (hsc : maxOffset distFn (Coords.sub pts i j) = .ok (k, v)) (hv : v.le bound = true)
    {a b p : P} (ha : pts[i.toNat]? = some a) (hb : pts[j.toNat]? = some b) (hp : pts[t.toNat]? = some p)
    (hn : distFn a b p ≠ .nan) : (distFn a b p).le bound = true := by
  have hlen : (Coords.sub pts i j).len = j + 1 - i := Coords.len_sub _ _ _ (by omega)
  have hq : ∀ k, 0 ≤ k → k < (Coords.sub pts i j).len →
      (Coords.sub pts i j).pt k = .ok ((pts[(i + k).toNat]?).getD a) := by
    intro k hk1 hk2
    obtain ⟨p, hp, hp'⟩ := Coords.pt_sub_ok (pts := pts) (i := i) (j := j) hk1 (by omega) hi hj
    rw [hp, hp']; rfl
  obtain ⟨k', v', e, n1, l1, m1, -⟩ := maxOffset_spec distFn _ _ (by omega) hq
  rw [hsc] at e; cases e
  have e0 : (pts[(i + 0).toNat]?).getD a = a := by rw [show i + 0 = i by omega, ha]; rfl
  have e1 : (pts[(i + ((Coords.sub pts i j).len - 1)).toNat]?).getD a = b := by
    rw [show i + ((Coords.sub pts i j).len - 1) = j by omega, hb]; rfl
  have e2 : (pts[(i + (t - i)).toNat]?).getD a = p := by rw [show i + (t - i) = t by omega, hp]; rfl
  have := m1 (t - i) (by omega) (by omega)
  rw [e0, e1, e2] at this
  exact Fl.le_trans (this hn) hv

/-- C07.  For each piece `[I, J]` of an unconstrained decomposition and each dropped vertex `t` strictly inside, the distance from that
vertex to the segment of the piece is not greater than the threshold (or it is NaN). -/
theorem C07_piece_tolerance [LinearOrder K] [Zero K] (lib : Lib P C B K) (ids : Nat → Int) (g : Nat) (pts : List P)
    (distFn : P → P → P → Fl K) (threshold : Fl K) (inst : Int) (fuel : Nat) (hlen : 2 ≤ pts.length) (hhull : HullOk lib pts)
    (hthr : (Fl.fin 0).le threshold = true) (hulls : List (Node P C B)) (g' : Nat)
    (hrun : decompose lib ids g ⟨some (coordsOf pts)⟩ (maxOffset distFn) (scoreRelation threshold) inst fuel = .ok (hulls, g')) :
    ∀ nd ∈ hulls, ∀ t, nd.range.I < t → t < nd.range.J → ∀ a b p,
      pts[nd.range.I.toNat]? = some a → pts[nd.range.J.toNat]? = some b → pts[t.toNat]? = some p →
      distFn a b p ≠ .nan → (distFn a b p).le threshold = true := by
  obtain ⟨c1, -, c3, -⟩ := C04_decompose_cover lib ids g pts _ _ inst fuel hlen hhull
    (maxOffset_splitsInside distFn _ hthr pts) hulls g' hrun
  intro nd hnd t h1 h2 a b p ha hb hp hn
  obtain ⟨k, v, hsc, hv⟩ := c3 nd hnd
  have := c1.mem (List.mem_map_of_mem hnd)
  exact maxOffset_interior_le distFn pts (by omega) (by omega) h1 h2 hsc hv ha hb hp hn

/-- every vertex index lies in some piece of a chain -/
theorem Chain.exists_mem {a b t : Int} {rs : List Rng} (h : Chain a b rs) (h1 : a ≤ t) (h2 : t ≤ b) (hab : a < b) :
    ∃ r ∈ rs, r.I ≤ t ∧ t ≤ r.J := by
  induction rs generalizing a with
  | nil => simp only [Chain] at h; omega
  | cons x rs ih =>
    obtain ⟨e1, e2, e3⟩ := h
    by_cases ht : t ≤ x.J
    · exact ⟨x, by simp, by omega, ht⟩
    · obtain ⟨r, hr, h⟩ := ih e3 (by omega) (by omega)
      exact ⟨r, by simp [hr], h⟩

section Real
open Metric

variable {E : Type} [NormedAddCommGroup E] [NormedSpace ℝ E]

/-- real-number distance of a point to a segment, the specification of `geom.DistanceToPoint` -/
noncomputable def segDist (a b p : E) : Fl ℝ := .fin (infDist p (segment ℝ a b))

/-- the squared distance, the specification of `geom.SquareDistanceToPoint` -/
noncomputable def segDistSq (a b p : E) : Fl ℝ := .fin (infDist p (segment ℝ a b) ^ 2)

theorem C07_aux (lib : Lib E C B ℝ) (ids : Nat → Int) (g : Nat) (pts : List E) (square : Bool) (ε : ℝ) (hε : 0 ≤ ε)
    (inst : Int) (fuel : Nat) (hlen : 2 ≤ pts.length) (hhull : HullOk lib pts) (hulls : List (Node E C B)) (g' : Nat)
    (hrun : decompose lib ids g ⟨some (coordsOf pts)⟩ (maxOffset (if square then segDistSq else segDist))
      (scoreRelation (.fin (if square then ε * ε else ε))) inst fuel = .ok (hulls, g')) :
    ∀ (t : Nat) (p : E), pts[t]? = some p → ∃ nd ∈ hulls, nd.range.I ≤ (t : Int) ∧ (t : Int) ≤ nd.range.J ∧
      ∃ a b, pts[nd.range.I.toNat]? = some a ∧ pts[nd.range.J.toNat]? = some b ∧ infDist p (segment ℝ a b) ≤ ε := by
  have hthr : (Fl.fin (0 : ℝ)).le (.fin (if square then ε * ε else ε)) = true := by
    simp only [Fl.fin_le_fin, decide_eq_true_eq]; split <;> positivity
  have hc := (C04_decompose_cover lib ids g pts _ _ inst fuel hlen hhull (maxOffset_splitsInside _ _ hthr pts) hulls g' hrun).1
  have htol := C07_piece_tolerance lib ids g pts _ _ inst fuel hlen hhull hthr hulls g' hrun
  intro t p hp
  have ht : t < pts.length := by
    by_contra h
    rw [List.getElem?_eq_none (by omega)] at hp; cases hp
  obtain ⟨r, hr, h1, h2⟩ := hc.exists_mem (t := t) (by omega) (by omega) (by omega)
  obtain ⟨nd, hnd, rfl⟩ := List.mem_map.1 hr
  have hb := hc.mem (List.mem_map_of_mem hnd)
  have hI : nd.range.I.toNat < pts.length := by omega
  have hJ : nd.range.J.toNat < pts.length := by omega
  refine ⟨nd, hnd, h1, h2, pts[nd.range.I.toNat], pts[nd.range.J.toNat], List.getElem?_eq_getElem hI, List.getElem?_eq_getElem hJ, ?_⟩
  by_cases e1 : (t : Int) = nd.range.I
  · have : t = nd.range.I.toNat := by omega
    rw [this, List.getElem?_eq_getElem hI] at hp
    cases hp
    rw [infDist_zero_of_mem (left_mem_segment ℝ _ _)]; exact hε
  · by_cases e2 : (t : Int) = nd.range.J
    · have : t = nd.range.J.toNat := by omega
      rw [this, List.getElem?_eq_getElem hJ] at hp
      cases hp
      rw [infDist_zero_of_mem (right_mem_segment ℝ _ _)]; exact hε
    · have := htol nd hnd t (by omega) (by omega) _ _ p (List.getElem?_eq_getElem hI) (List.getElem?_eq_getElem hJ)
        (by rw [Int.toNat_natCast]; exact hp) (by cases square <;> simp [segDist, segDistSq])
      cases square with
      | false => simpa [segDist] using this
      | true =>
        simp only [segDistSq, if_true, Fl.fin_le_fin, decide_eq_true_eq] at this
        nlinarith [infDist_nonneg (x := p) (s := segment ℝ pts[nd.range.I.toNat] pts[nd.range.J.toNat])]

/-- C07 over the reals (plane, space or any normed space): every vertex of the input lies within `ε` of the segment joining two kept
vertices, namely the ends of a piece that contains it. -/
theorem C07_real_tolerance (lib : Lib E C B ℝ) (ids : Nat → Int) (g : Nat) (pts : List E) (ε : ℝ) (hε : 0 ≤ ε)
    (inst : Int) (fuel : Nat) (hlen : 2 ≤ pts.length) (hhull : HullOk lib pts) (hulls : List (Node E C B)) (g' : Nat)
    (hrun : decompose lib ids g ⟨some (coordsOf pts)⟩ (maxOffset segDist) (scoreRelation (.fin ε)) inst fuel = .ok (hulls, g')) :
    ∀ (t : Nat) (p : E), pts[t]? = some p → ∃ nd ∈ hulls, nd.range.I ≤ (t : Int) ∧ (t : Int) ≤ nd.range.J ∧
      ∃ a b, pts[nd.range.I.toNat]? = some a ∧ pts[nd.range.J.toNat]? = some b ∧ infDist p (segment ℝ a b) ≤ ε :=
  C07_aux lib ids g pts false ε hε inst fuel hlen hhull hulls g' hrun

/-- C07 for the squared score with the squared threshold -/
theorem C07_real_tolerance_square (lib : Lib E C B ℝ) (ids : Nat → Int) (g : Nat) (pts : List E) (ε : ℝ) (hε : 0 ≤ ε)
    (inst : Int) (fuel : Nat) (hlen : 2 ≤ pts.length) (hhull : HullOk lib pts) (hulls : List (Node E C B)) (g' : Nat)
    (hrun : decompose lib ids g ⟨some (coordsOf pts)⟩ (maxOffset segDistSq) (squareScoreRelation (.fin (ε * ε))) inst fuel
      = .ok (hulls, g')) :
    ∀ (t : Nat) (p : E), pts[t]? = some p → ∃ nd ∈ hulls, nd.range.I ≤ (t : Int) ∧ (t : Int) ≤ nd.range.J ∧
      ∃ a b, pts[nd.range.I.toNat]? = some a ∧ pts[nd.range.J.toNat]? = some b ∧ infDist p (segment ℝ a b) ≤ ε :=
  C07_aux lib ids g pts true ε hε inst fuel hlen hhull hulls g' hrun

end Real

/-- the run of C04's example meets the hypotheses: heights 0 3 1 7 0, threshold 2 -/
example : ∃ hulls g', decompose demoLib (fun n => n) 0 ⟨some (coordsOf [0, 3, 1, 7, 0])⟩ (maxOffset fun _ _ p => .fin p)
    (scoreRelation (.fin 2)) 9 20 = .ok (hulls, g') ∧ hulls.length = 3 :=
  ⟨_, _, rfl, rfl⟩

end Verif
