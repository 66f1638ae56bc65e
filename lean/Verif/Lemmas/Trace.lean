import Verif.Spec.Trace
import Verif.Spec.Chain
import Verif.Spec.Cover
import Mathlib.Analysis.Convex.Topology
import Mathlib.Analysis.Convex.Between
import Mathlib.Analysis.Normed.Module.Convex
import Mathlib.Topology.MetricSpace.HausdorffDistance
import Mathlib.Topology.MetricSpace.Thickening

/-! A line whose vertices are near a segment is near it as a whole, in both directions. -/

set_option linter.unusedSectionVars false

namespace Verif

open Metric

section
variable {E : Type} [NormedAddCommGroup E] [NormedSpace ℝ E]

theorem isCompact_segment (a b : E) : IsCompact (segment ℝ a b) := by
  rw [← convexHull_pair]; exact (Set.toFinite {a, b}).isCompact_convexHull ℝ

theorem segment_near {a b p : E} {ε : ℝ} (h : infDist p (segment ℝ a b) ≤ ε) : ∃ y ∈ segment ℝ a b, dist p y ≤ ε := by
  obtain ⟨y, hy, e⟩ := (isCompact_segment a b).exists_infDist_eq_dist ⟨a, left_mem_segment ℝ a b⟩ p
  exact ⟨y, hy, e ▸ h⟩

/-- the points within `ε` of a segment -/
def tube (ε : ℝ) (a b : E) : Set E := {x | ∃ y ∈ segment ℝ a b, dist x y ≤ ε}

theorem tube_eq {ε : ℝ} (hε : 0 ≤ ε) (a b : E) : tube ε a b = cthickening ε (segment ℝ a b) := by
  rw [(isCompact_segment a b).cthickening_eq_biUnion_closedBall hε]
  ext x
  simp [tube]

theorem tube_convex {ε : ℝ} (hε : 0 ≤ ε) (a b : E) : Convex ℝ (tube ε a b) := by
  rw [tube_eq hε]; exact (convex_segment a b).cthickening ε

theorem tube_closed {ε : ℝ} (hε : 0 ≤ ε) (a b : E) : IsClosed (tube ε a b) := by
  rw [tube_eq hε]; exact isClosed_cthickening

theorem mem_trace_of_mem : ∀ {l : List E} {z : E}, z ∈ l → z ∈ trace l
  | [a], z, h => by simpa [trace] using h
  | a :: b :: l, z, h => by
    rcases List.mem_cons.1 h with rfl | h
    · exact .inl (left_mem_segment ℝ _ _)
    · exact .inr (mem_trace_of_mem h)

theorem trace_subset_convex {s : Set E} (hs : Convex ℝ s) : ∀ l : List E, (∀ x ∈ l, x ∈ s) → trace l ⊆ s
  | [], _ => Set.empty_subset _
  | [a], h => by simpa [trace] using h
  | a :: b :: l, h => by
    have ha := h a (by simp)
    have hb := h b (by simp)
    exact Set.union_subset (hs.segment_subset ha hb) (trace_subset_convex hs (b :: l) (fun x hx => h x (by simp [List.mem_cons.1 hx])))

theorem isPreconnected_trace : ∀ l : List E, IsPreconnected (trace l)
  | [] => isPreconnected_empty
  | [a] => isPreconnected_singleton
  | a :: b :: l =>
    IsPreconnected.union b (right_mem_segment ℝ a b) (mem_trace_of_mem (by simp)) (convex_segment a b).isPreconnected (isPreconnected_trace (b :: l))

theorem segment_split {a b q w : E} (hq : q ∈ segment ℝ a b) (hw : w ∈ segment ℝ a b) : w ∈ segment ℝ a q ∪ segment ℝ q b := by
  rw [segment_eq_image_lineMap] at hq hw
  obtain ⟨t, ht, rfl⟩ := hq
  obtain ⟨s, hs, rfl⟩ := hw
  have key : ∀ u v : ℝ, s ∈ segment ℝ u v → AffineMap.lineMap a b s ∈ segment ℝ (AffineMap.lineMap a b u) (AffineMap.lineMap a b v) := by
    intro u v h
    rw [← image_segment]
    exact ⟨s, h, rfl⟩
  rcases le_total s t with h | h
  · left
    have := key 0 t (by rw [segment_eq_Icc ht.1]; exact ⟨hs.1, h⟩)
    simpa using this
  · right
    have := key t 1 (by rw [segment_eq_Icc ht.2]; exact ⟨h, hs.2⟩)
    simpa using this

/-- The points of the line near the part of the segment before `q` and those near the part behind it are closed sets that cover the line.  If both are met,
they have a common point; it is near two points on different sides of `q`, hence near `q`. -/
theorem trace_passes {l : List E} {a b q x y : E} {ε : ℝ} (hε : 0 ≤ ε) (hl : ∀ x ∈ l, x ∈ tube ε a b) (hq : q ∈ segment ℝ a b) (hx : x ∈ l)
    (hy : y ∈ l) (hxq : x ∈ tube ε a q) (hyq : y ∈ tube ε q b) : ∃ z ∈ trace l, dist z q ≤ ε := by
  have hsub := trace_subset_convex (tube_convex hε a b) l hl
  have hpre := isPreconnected_trace l
  rw [isPreconnected_closed_iff] at hpre
  obtain ⟨z, hz, ⟨x, hx, dx⟩, ⟨y, hy, dy⟩⟩ := hpre (tube ε a q) (tube ε q b) (tube_closed hε a q) (tube_closed hε q b)
    (by
      intro z hz
      obtain ⟨w, hw, dw⟩ := hsub hz
      rcases segment_split hq hw with h | h
      · exact .inl ⟨w, h, dw⟩
      · exact .inr ⟨w, h, dw⟩)
    ⟨x, mem_trace_of_mem hx, hxq⟩ ⟨y, mem_trace_of_mem hy, hyq⟩
  refine ⟨z, hz, ?_⟩
  have hqxy : q ∈ segment ℝ x y := by
    rw [mem_segment_iff_wbtw] at hq hx hy ⊢
    exact (hq.trans_left_right hx).trans_right_left hy
  have := (convex_closedBall z ε).segment_subset (mem_closedBall'.2 dx) (mem_closedBall'.2 dy) hqxy
  exact mem_closedBall'.1 this

/-- the two directions -/
theorem near_segment {l : List E} {a b : E} {ε : ℝ} (hε : 0 ≤ ε) (ha : a ∈ l) (hb : b ∈ l) (hl : ∀ x ∈ l, x ∈ tube ε a b) : SetNear ε (trace l) (segment ℝ a b) := by
  refine ⟨fun x hx => trace_subset_convex (tube_convex hε a b) l hl hx, fun q hq => ?_⟩
  have hself : ∀ {u v w : E}, w ∈ segment ℝ u v → w ∈ tube ε u v := fun h => ⟨_, h, by simpa using hε⟩
  exact trace_passes hε hl hq ha hb (hself (left_mem_segment ℝ a q)) (hself (right_mem_segment ℝ q b))

/-- A line near a segment: it passes near every point between two of its vertices, at most twice as far away. -/
theorem near_inner {l : List E} {a b x y : E} {ε : ℝ} (hε : 0 ≤ ε) (hl : ∀ x ∈ l, x ∈ tube ε a b) (hx : x ∈ l) (hy : y ∈ l) :
    ∀ q ∈ segment ℝ x y, ∃ z ∈ trace l, dist q z ≤ 2 * ε := by
  obtain ⟨c, hc, dc⟩ := hl x hx
  obtain ⟨d, hd, dd⟩ := hl y hy
  rw [segment_eq_image_lineMap] at hc hd
  obtain ⟨s, hs, rfl⟩ := hc
  obtain ⟨t, ht, rfl⟩ := hd
  have key : ∀ u v : ℝ, ∀ w ∈ segment ℝ u v, AffineMap.lineMap a b w ∈ segment ℝ (AffineMap.lineMap a b u) (AffineMap.lineMap a b v) := by
    intro u v w h
    rw [← image_segment]
    exact ⟨w, h, rfl⟩
  rintro q ⟨u, v, hu, hv, huv, rfl⟩
  have hm : u * s + v * t ∈ Set.Icc (0 : ℝ) 1 := by
    refine ⟨add_nonneg (mul_nonneg hu hs.1) (mul_nonneg hv ht.1), ?_⟩
    nlinarith [hs.2, ht.2]
  have hmem : AffineMap.lineMap a b (u * s + v * t) ∈ segment ℝ a b := by
    rw [segment_eq_image_lineMap]; exact ⟨_, hm, rfl⟩
  have hcomb : AffineMap.lineMap a b (u * s + v * t) = u • AffineMap.lineMap a b s + v • AffineMap.lineMap a b t := by
    obtain rfl : u = 1 - v := by linarith
    simp only [AffineMap.lineMap_apply_module]
    module
  have hdist : dist (u • x + v • y) (AffineMap.lineMap a b (u * s + v * t)) ≤ ε := by
    rw [hcomb, dist_eq_norm, show u • x + v • y - (u • AffineMap.lineMap a b s + v • AffineMap.lineMap a b t) =
      u • (x - AffineMap.lineMap a b s) + v • (y - AffineMap.lineMap a b t) by module]
    refine (norm_add_le _ _).trans ?_
    rw [norm_smul, norm_smul, Real.norm_of_nonneg hu, Real.norm_of_nonneg hv]
    rw [dist_eq_norm] at dc dd
    nlinarith
  have hseg : ∀ {p : E} {r w : ℝ}, r ∈ Set.Icc (0 : ℝ) 1 → w ∈ Set.Icc (0 : ℝ) 1 → dist p (AffineMap.lineMap a b r) ≤ ε →
      (r ≤ w → p ∈ tube ε a (AffineMap.lineMap a b w)) ∧ (w ≤ r → p ∈ tube ε (AffineMap.lineMap a b w) b) := by
    intro p r w hr hw hd
    constructor
    · intro h
      have := key 0 w r (by rw [segment_eq_Icc hw.1]; exact ⟨hr.1, h⟩)
      rw [AffineMap.lineMap_apply_zero] at this
      exact ⟨_, this, hd⟩
    · intro h
      have := key w 1 r (by rw [segment_eq_Icc hw.2]; exact ⟨h, hr.2⟩)
      rw [AffineMap.lineMap_apply_one] at this
      exact ⟨_, this, hd⟩
  have hz : ∃ z ∈ trace l, dist z (AffineMap.lineMap a b (u * s + v * t)) ≤ ε := by
    have e1 : u * s + v * t - s = v * (t - s) := by linear_combination s * huv
    have e2 : u * s + v * t - t = u * (s - t) := by linear_combination t * huv
    rcases le_total s t with h | h
    · have h1 := mul_nonneg hv (sub_nonneg.2 h)
      have h2 := mul_nonneg hu (sub_nonneg.2 h)
      exact trace_passes hε hl hmem hx hy ((hseg hs hm dc).1 (by linarith)) ((hseg ht hm dd).2 (by linarith))
    · have h1 := mul_nonneg hv (sub_nonneg.2 h)
      have h2 := mul_nonneg hu (sub_nonneg.2 h)
      exact trace_passes hε hl hmem hy hx ((hseg ht hm dd).1 (by linarith)) ((hseg hs hm dc).2 (by linarith))
  obtain ⟨z, hz, dz⟩ := hz
  have := dist_triangle_right (u • x + v • y) z (AffineMap.lineMap a b (u * s + v * t))
  exact ⟨z, hz, by linarith⟩

/-! ### the pieces of a line -/

theorem trace_append_cons : ∀ (u : List E) (a : E) (w : List E), trace (u ++ a :: w) = trace (u ++ [a]) ∪ trace (a :: w)
  | [], a, w => by
    rw [List.nil_append, List.nil_append, Set.union_eq_self_of_subset_left]
    simpa [trace] using mem_trace_of_mem (l := a :: w) (by simp)
  | [x], a, w => by
    simp only [List.cons_append, List.nil_append, trace]
    ext z
    have : z = a → z ∈ trace (a :: w) := fun h => h ▸ mem_trace_of_mem (by simp)
    simp only [Set.mem_union, Set.mem_singleton_iff]
    tauto
  | x :: y :: u, a, w => by
    have := trace_append_cons (y :: u) a w
    simp only [List.cons_append, trace] at this ⊢
    rw [this, Set.union_assoc]

theorem SetNear.union {ε : ℝ} {s t s' t' : Set E} (h : SetNear ε s t) (h' : SetNear ε s' t') : SetNear ε (s ∪ s') (t ∪ t') := by
  refine ⟨fun x hx => ?_, fun y hy => ?_⟩
  · rcases hx with hx | hx
    · obtain ⟨y, hy, hd⟩ := h.1 x hx; exact ⟨y, .inl hy, hd⟩
    · obtain ⟨y, hy, hd⟩ := h'.1 x hx; exact ⟨y, .inr hy, hd⟩
  · rcases hy with hy | hy
    · obtain ⟨x, hx, hd⟩ := h.2 y hy; exact ⟨x, .inl hx, hd⟩
    · obtain ⟨x, hx, hd⟩ := h'.2 y hy; exact ⟨x, .inr hx, hd⟩

end

section
variable {P : Type} {ps : List P}

/-- the vertices from `a` to `b`, split at `j` -/
theorem between_split {a j b : Int} (h0 : 0 ≤ a) (h1 : a ≤ j) (h2 : j ≤ b) (h3 : b < ps.length) :
    ∃ x u t, ps[j.toNat]? = some x ∧ between ps a j = u ++ [x] ∧ between ps j b = x :: t ∧ between ps a b = u ++ x :: t := by
  have hj : j.toNat < ps.length := by omega
  refine ⟨ps[j.toNat], (ps.drop a.toNat).take (j - a).toNat, (ps.drop (j.toNat + 1)).take (b - j).toNat, List.getElem?_eq_getElem hj, ?_, ?_, ?_⟩
  · rw [between, show (j + 1 - a).toNat = (j - a).toNat + 1 by omega, List.take_add_one, List.getElem?_drop,
      show a.toNat + (j - a).toNat = j.toNat by omega, List.getElem?_eq_getElem hj]
    rfl
  · rw [between, List.drop_eq_getElem_cons hj, show (b + 1 - j).toNat = (b - j).toNat + 1 by omega, List.take_succ_cons]
  · rw [between, show (b + 1 - a).toNat = (j - a).toNat + ((b - j).toNat + 1) by omega, List.take_add, List.drop_drop,
      show a.toNat + (j - a).toNat = j.toNat by omega, List.drop_eq_getElem_cons hj, List.take_succ_cons]

theorem between_self {a : Int} (h0 : 0 ≤ a) (h1 : a < ps.length) : ∃ x, ps[a.toNat]? = some x ∧ between ps a a = [x] := by
  have ha : a.toNat < ps.length := by omega
  refine ⟨ps[a.toNat], List.getElem?_eq_getElem ha, ?_⟩
  rw [between, show (a + 1 - a).toNat = 1 by omega, List.drop_eq_getElem_cons ha]
  rfl

theorem between_all : between ps 0 ((ps.length : Int) - 1) = ps := by
  rw [between, List.take_of_length_le (by simp)]
  rfl

theorem mem_between {i j : Int} (h0 : 0 ≤ i) {x : P} (hx : x ∈ between ps i j) : ∃ t : Nat, i ≤ t ∧ (t : Int) ≤ j ∧ ps[t]? = some x := by
  obtain ⟨k, hk⟩ := List.getElem?_of_mem hx
  rw [between, List.getElem?_take] at hk
  split at hk
  · rw [List.getElem?_drop] at hk
    exact ⟨_, by omega, by omega, hk⟩
  · cases hk

theorem mem_between_of {i j : Int} (h0 : 0 ≤ i) {t : Nat} (h1 : i ≤ t) (h2 : (t : Int) ≤ j) {x : P} (hx : ps[t]? = some x) : x ∈ between ps i j := by
  refine List.mem_of_getElem? (i := t - i.toNat) ?_
  rw [between, List.getElem?_take_of_lt (by omega), List.getElem?_drop, ← hx]
  congr 1; omega

theorem verticesAt_cons_some {i : Int} {x : P} (h : ps[i.toNat]? = some x) (is : List Int) : verticesAt ps (i :: is) = x :: verticesAt ps is := by
  simp [verticesAt, h]

/-- a relation between lines that holds for one vertex, and for lines joined at a common vertex, holds for a line and its kept vertices if it holds for the pieces
and their segments -/
theorem pieces_induct {R : List P → List P → Prop} (one : ∀ x, R [x] [x])
    (join : ∀ u w x t m, R (u ++ [x]) [w, x] → R (x :: t) (x :: m) → R (u ++ x :: t) (w :: x :: m)) :
    ∀ (rs : List Rng) (a b : Int), 0 ≤ a → b < ps.length → Chain a b rs →
    (∀ r ∈ rs, ∀ x y, ps[r.I.toNat]? = some x → ps[r.J.toNat]? = some y → R (between ps r.I r.J) [x, y]) →
    R (between ps a b) (verticesAt ps (a :: rs.map Rng.J))
  | [], a, b, h0, h1, hc, _ => by
    have : a = b := hc
    subst this
    obtain ⟨x, e1, e2⟩ := between_self h0 h1
    rw [e2, List.map_nil, verticesAt_cons_some e1]
    exact one x
  | r :: rs, a, b, h0, h1, hc, hr => by
    obtain ⟨rfl, c2, c3⟩ := hc
    have hle := c3.le
    obtain ⟨y, u, t, e1, e2, e3, e4⟩ := between_split (ps := ps) (a := r.I) (j := r.J) (b := b) h0 (by omega) hle h1
    have hi : r.I.toNat < ps.length := by omega
    have n1 := hr r (by simp) _ y (List.getElem?_eq_getElem hi) e1
    have n2 := pieces_induct one join rs r.J b (by omega) h1 c3 (fun r' hr' => hr r' (by simp [hr']))
    rw [e3, verticesAt_cons_some e1] at n2
    rw [e2] at n1
    rw [e4, List.map_cons, verticesAt_cons_some (List.getElem?_eq_getElem hi), verticesAt_cons_some e1]
    exact join _ _ _ _ _ n1 n2

end

section
variable {E : Type} [NormedAddCommGroup E] [NormedSpace ℝ E] {ps : List E}

theorem trace_pair (a b : E) : trace [a, b] = segment ℝ a b := by
  simp only [trace]
  exact Set.union_eq_self_of_subset_right (by simpa using right_mem_segment ℝ a b)

/-- pieces that are near their segments make a line that is near the line of the segments -/
theorem near_chain {ε : ℝ} (hε : 0 ≤ ε) (rs : List Rng) (a b : Int) (h0 : 0 ≤ a) (h1 : b < ps.length) (hc : Chain a b rs)
    (hr : ∀ r ∈ rs, ∀ x y, ps[r.I.toNat]? = some x → ps[r.J.toNat]? = some y → SetNear ε (trace (between ps r.I r.J)) (segment ℝ x y)) :
    SetNear ε (trace (between ps a b)) (trace (verticesAt ps (a :: rs.map Rng.J))) := by
  refine pieces_induct (R := fun l m => SetNear ε (trace l) (trace m)) (fun x => ?_) (fun u w x t m n1 n2 => ?_) rs a b h0 h1 hc (fun r h x y hx hy => ?_)
  · exact ⟨fun z hz => ⟨z, hz, by simpa using hε⟩, fun z hz => ⟨z, hz, by simpa using hε⟩⟩
  · rw [trace_append_cons, trace]
    rw [trace_pair] at n1
    exact n1.union n2
  · rw [trace_pair]
    exact hr r h x y hx hy

end

end Verif
