import Verif.Props.C130_Measured
import Mathlib.Order.Filter.Finite
import Mathlib.Topology.Order.LeftRight
import Mathlib.Analysis.Convex.Topology

/-! C131: where no decision is on the edge, near lines are saved with the same vertex numbers. -/

set_option linter.unusedSectionVars false

open Filter Topology

namespace Verif
namespace Planar

/-! ### specification -/

/-- whether the segment meets the set does not change when its ends are moved a little -/
def SteadyPair (s : Set ℂ) (x y : ℂ) : Prop :=
  ∃ r > 0, ∀ x' y', dist x x' ≤ r → dist y y' ≤ r → ((segment ℝ x' y' ∩ s).Nonempty ↔ (segment ℝ x y ∩ s).Nonempty)

/-- the same for a triangle -/
def SteadyTriple (s : Set ℂ) (x y z : ℂ) : Prop :=
  ∃ r > 0, ∀ x' y' z', dist x x' ≤ r → dist y y' ≤ r → dist z z' ≤ r → ((convexHull ℝ {x', y', z'} ∩ s).Nonempty ↔ (convexHull ℝ {x, y, z} ∩ s).Nonempty)

/-- Specification: no decision on the line `zs` is on the edge.  Whether segments and triangles meet obstacles does not change with small moves, no distance is the minimum distance,
what is not allowed is not straight, no largest offset is the tolerance, and where a sub-line has to be cut only one vertex is the farthest. -/
structure OffEdge (off : Int → Int → Int → ℝ) (R : Rules) (zs : List ℂ) : Prop where
  meets : R.geom = true ∨ R.side = true → ∀ s ∈ R.obstacles, ∀ i j : Int, 0 ≤ i → i < j → j < zs.length → SteadyPair s (vtx zs i) (vtx zs j)
  triangles : R.side = true → ∀ s ∈ R.obstacles, ∀ x ∈ zs, ∀ y ∈ zs, ∀ z ∈ zs, SteadyTriple s x y z
  distances : R.dist = true → ∀ s ∈ R.obstacles, ∀ i j : Int, 0 ≤ i → i < j → j < zs.length →
    gap (chordSet (between zs i j)) s ≠ R.minDist ∧ gap (lineSet (between zs i j)) s ≠ R.minDist
  bent : ∀ i j : Int, 0 ≤ i → i + 1 < j → j < zs.length → ¬ Allowed R (between zs i j) → ∀ a ∈ between zs i j, ∀ b ∈ between zs i j, ∃ z ∈ between zs i j, z ∉ segment ℝ a b
  tolerance : ∀ i j : Int, 0 ≤ i → i + 1 < j → j < zs.length → (∀ k, i < k → k < j → off i j k < R.tolerance) ∨ ∃ k, i < k ∧ k < j ∧ R.tolerance < off i j k
  farthest : ∀ i j : Int, 0 ≤ i → i + 1 < j → j < zs.length → ¬ NearBy off R.tolerance i j ∨ ¬ Allowed R (between zs i j) →
    ∃ k, i < k ∧ k < j ∧ ∀ l, i < l → l < j → l ≠ k → off i j l < off i j k

/-! ### steady decisions -/

theorem small {c : ℝ} (h : 0 < c) : ∀ᶠ η in 𝓝[>] (0 : ℝ), 0 < η ∧ η < c := Ioo_mem_nhdsGT h

theorem exists_close {A s : Set ℂ} (h1 : A.Nonempty) (h2 : s.Nonempty) {r : ℝ} (h : gap A s < r) : ∃ z ∈ A, ∃ w ∈ s, dist z w < r := by
  by_contra hn
  push Not at hn
  exact absurd ((le_gap_iff h1 h2).2 hn) (not_le.2 h)

theorem SteadyPair.firm {s : Set ℂ} {x y : ℂ} (hs : s.Nonempty) (h : SteadyPair s x y) : ∀ᶠ η in 𝓝[>] (0 : ℝ), FirmPair η s x y := by
  obtain ⟨r, r0, h⟩ := h
  by_cases hm : (segment ℝ x y ∩ s).Nonempty
  · filter_upwards [small r0] with η hη
    exact .inr (fun x' y' hx hy => (h x' y' (hx.trans hη.2.le) (hy.trans hη.2.le)).2 hm)
  · have hg : r ≤ gap (segment ℝ x y) s := by
      by_contra hc
      obtain ⟨z, hz, w, hw, hd⟩ := exists_close ⟨_, left_mem_segment ℝ x y⟩ hs (not_le.1 hc)
      have hd' : ∀ p : ℂ, dist p (w - z + p) ≤ r := fun p => by
        rw [dist_eq_norm, sub_add_cancel_right, norm_neg, ← dist_eq_norm, dist_comm]
        exact hd.le
      refine hm ((h _ _ (hd' x) (hd' y)).1 ⟨w, ?_, hw⟩)
      have := (mem_segment_translate ℝ (w - z)).2 hz
      rwa [sub_add_cancel] at this
    filter_upwards [small r0] with η hη
    exact .inl (hη.2.trans_le hg)

theorem SteadyTriple.firm {s : Set ℂ} {x y z : ℂ} (hs : s.Nonempty) (h : SteadyTriple s x y z) : ∀ᶠ η in 𝓝[>] (0 : ℝ), FirmTriple η s x y z := by
  obtain ⟨r, r0, h⟩ := h
  by_cases hm : (convexHull ℝ {x, y, z} ∩ s).Nonempty
  · filter_upwards [small r0] with η hη
    exact .inr (fun x' y' z' hx hy hz => (h x' y' z' (hx.trans hη.2.le) (hy.trans hη.2.le) (hz.trans hη.2.le)).2 hm)
  · have hg : r ≤ gap (convexHull ℝ {x, y, z}) s := by
      by_contra hc
      obtain ⟨q, hq, w, hw, hd⟩ := exists_close ⟨x, subset_convexHull ℝ _ (by simp)⟩ hs (not_le.1 hc)
      have hd' : ∀ p : ℂ, dist p (w - q + p) ≤ r := fun p => by
        rw [dist_eq_norm, sub_add_cancel_right, norm_neg, ← dist_eq_norm, dist_comm]
        exact hd.le
      refine hm ((h _ _ _ (hd' x) (hd' y) (hd' z)).1 ⟨w, ?_, hw⟩)
      have h1 := (AffineEquiv.constVAdd ℝ ℂ (w - q)).toAffineMap.image_convexHull ({x, y, z} : Set ℂ)
      have h2 : w ∈ (AffineEquiv.constVAdd ℝ ℂ (w - q)).toAffineMap '' convexHull ℝ {x, y, z} := ⟨q, hq, by simp⟩
      rw [h1] at h2
      simpa [Set.image_insert_eq] using h2
    filter_upwards [small r0] with η hη
    exact .inl (hη.2.trans_le hg)

/-- a segment off a closed set is steady -/
theorem steadyPair_of_off {s : Set ℂ} (hs : IsClosed s) {x y : ℂ} (h : ¬ (segment ℝ x y ∩ s).Nonempty) : SteadyPair s x y := by
  rcases s.eq_empty_or_nonempty with rfl | hn
  · exact ⟨1, one_pos, fun _ _ _ _ => by simp⟩
  have hc : IsCompact (segment ℝ x y) := by rw [← convexHull_pair]; exact (Set.toFinite {x, y}).isCompact_convexHull ℝ
  obtain ⟨r, r0, hr⟩ := (Set.disjoint_iff_inter_eq_empty.2 (Set.not_nonempty_iff_eq_empty.1 h)).exists_thickenings hc hs
  refine ⟨r / 2, by linarith, fun x' y' hx hy => iff_of_false (fun ⟨z, hz, hzs⟩ => ?_) h⟩
  obtain ⟨z', hz', hd⟩ := segment_near (η := r / 2) (a := x') (b := y') (a' := x) (b' := y) (by rwa [dist_comm]) (by rwa [dist_comm]) z hz
  exact Set.disjoint_left.1 hr (Metric.mem_thickening_iff.2 ⟨z', hz', by linarith⟩) (Metric.self_subset_thickening r0 _ hzs)

/-- a segment that meets the interior of a set is steady -/
theorem steadyPair_of_interior {s : Set ℂ} {x y : ℂ} (h : (segment ℝ x y ∩ interior s).Nonempty) : SteadyPair s x y := by
  obtain ⟨z, hz, hzs⟩ := h
  obtain ⟨r, r0, hr⟩ := Metric.isOpen_iff.1 isOpen_interior z hzs
  refine ⟨r / 2, by linarith, fun x' y' hx hy => iff_of_true ?_ ⟨z, hz, interior_subset hzs⟩⟩
  obtain ⟨z', hz', hd⟩ := segment_near hx hy z hz
  exact ⟨z', hz', interior_subset (hr (by rw [Metric.mem_ball, dist_comm]; linarith))⟩

/-! ### room to spare -/

theorem eventually_rng {n : Nat} {p : Int → Int → ℝ → Prop} (h : ∀ i j : Int, 0 ≤ i → i < j → j < n → ∀ᶠ η in 𝓝[>] (0 : ℝ), p i j η) :
    ∀ᶠ η in 𝓝[>] (0 : ℝ), ∀ i j : Int, 0 ≤ i → i < j → j < n → p i j η := by
  have h1 : ∀ᶠ η in 𝓝[>] (0 : ℝ), ∀ i ∈ Set.Icc (0 : Int) n, ∀ j ∈ Set.Icc (0 : Int) n, i < j → j < n → p i j η := by
    refine (eventually_all_finite (Set.finite_Icc _ _)).2 (fun i hi => (eventually_all_finite (Set.finite_Icc _ _)).2 (fun j _ => ?_))
    by_cases hij : i < j ∧ j < n
    · filter_upwards [h i j hi.1 hij.1 hij.2] with η hη _ _
      exact hη
    · exact .of_forall (fun η a b => absurd ⟨a, b⟩ hij)
  filter_upwards [h1] with η hη i j a b c
  exact hη i ⟨a, by omega⟩ j ⟨by omega, by omega⟩ b c

theorem eventually_mem {α : Type} {l : List α} {p : α → ℝ → Prop} (h : ∀ a ∈ l, ∀ᶠ η in 𝓝[>] (0 : ℝ), p a η) : ∀ᶠ η in 𝓝[>] (0 : ℝ), ∀ a ∈ l, p a η :=
  (eventually_all_finite (List.finite_toSet l)).2 h

theorem eventually_between {p : Int → ℝ → Prop} {i j : Int} (h : ∀ k, i < k → k < j → ∀ᶠ η in 𝓝[>] (0 : ℝ), p k η) : ∀ᶠ η in 𝓝[>] (0 : ℝ), ∀ k, i < k → k < j → p k η := by
  filter_upwards [(eventually_all_finite (Set.finite_Ioo i j)).2 (fun k hk => h k hk.1 hk.2)] with η hη k a b
  exact hη k ⟨a, b⟩

theorem eventually_apart {g m : ℝ} (h : g ≠ m) : ∀ᶠ η in 𝓝[>] (0 : ℝ), g < m - η ∨ m + η ≤ g := by
  rcases lt_or_gt_of_ne h with h | h
  · filter_upwards [small (sub_pos.2 h)] with η hη
    exact .inl (by linarith [hη.2])
  · filter_upwards [small (sub_pos.2 h)] with η hη
    exact .inr (by linarith [hη.2])

/-- where no decision is on the edge, all decisions are made with some room to spare -/
theorem OffEdge.firm {off : Int → Int → Int → ℝ} {R : Rules} {zs : List ℂ} (h : OffEdge off R zs) (hf : R.obstacles.Finite) (hn : ∀ s ∈ R.obstacles, s.Nonempty) :
    ∀ᶠ η in 𝓝[>] (0 : ℝ), Firm off (2 * η) η R zs := by
  have a1 : ∀ᶠ η in 𝓝[>] (0 : ℝ), R.geom = true ∨ R.side = true → ∀ s ∈ R.obstacles, ∀ i j : Int, 0 ≤ i → i < j → j < zs.length → FirmPair η s (vtx zs i) (vtx zs j) := by
    by_cases hg : R.geom = true ∨ R.side = true
    · filter_upwards [(eventually_all_finite hf).2 (fun s hs => eventually_rng (fun i j x y z => (h.meets hg s hs i j x y z).firm (hn s hs)))] with η hη _
      exact hη
    · exact .of_forall (fun _ c => absurd c hg)
  have a2 : ∀ᶠ η in 𝓝[>] (0 : ℝ), R.side = true → ∀ s ∈ R.obstacles, ∀ x ∈ zs, ∀ y ∈ zs, ∀ z ∈ zs, FirmTriple η s x y z := by
    by_cases hg : R.side = true
    · filter_upwards [(eventually_all_finite hf).2 (fun s hs => eventually_mem (l := zs) (fun x hx => eventually_mem (l := zs) (fun y hy => eventually_mem (l := zs)
        (fun z hz => (h.triangles hg s hs x hx y hy z hz).firm (hn s hs)))))] with η hη _
      exact hη
    · exact .of_forall (fun _ c => absurd c hg)
  have a3 : ∀ᶠ η in 𝓝[>] (0 : ℝ), R.dist = true → ∀ s ∈ R.obstacles, ∀ i j : Int, 0 ≤ i → i < j → j < zs.length →
      (gap (chordSet (between zs i j)) s < R.minDist - η ∨ R.minDist + η ≤ gap (chordSet (between zs i j)) s) ∧
      (gap (lineSet (between zs i j)) s < R.minDist - η ∨ R.minDist + η ≤ gap (lineSet (between zs i j)) s) := by
    by_cases hg : R.dist = true
    · filter_upwards [(eventually_all_finite hf).2 (fun s hs => eventually_rng (fun i j x y z =>
        (eventually_apart (h.distances hg s hs i j x y z).1).and (eventually_apart (h.distances hg s hs i j x y z).2)))] with η hη _
      exact hη
    · exact .of_forall (fun _ c => absurd c hg)
  have a4 : ∀ᶠ η in 𝓝[>] (0 : ℝ), ∀ i j : Int, 0 ≤ i → i < j → j < zs.length → i + 1 < j → ¬ Allowed R (between zs i j) →
      ∀ a ∈ between zs i j, ∀ b ∈ between zs i j, ∃ z ∈ between zs i j, 2 * η < gap {z} (segment ℝ a b) := by
    refine eventually_rng (fun i j x _ z => ?_)
    by_cases hg : i + 1 < j ∧ ¬ Allowed R (between zs i j)
    · have : ∀ᶠ η in 𝓝[>] (0 : ℝ), ∀ a ∈ between zs i j, ∀ b ∈ between zs i j, ∃ z ∈ between zs i j, 2 * η < gap {z} (segment ℝ a b) := by
        refine eventually_mem (fun a ha => eventually_mem (fun b hb => ?_))
        obtain ⟨p, hp, hps⟩ := h.bent i j x hg.1 z hg.2 a ha b hb
        have hcl : IsClosed (segment ℝ a b) := by
          rw [← convexHull_pair]; exact ((Set.toFinite {a, b}).isCompact_convexHull ℝ).isClosed
        obtain ⟨r, r0, hr⟩ := Metric.isOpen_iff.1 hcl.isOpen_compl p hps
        have hgap : r ≤ gap {p} (segment ℝ a b) := (le_gap_iff (s := {p}) ⟨_, rfl⟩ ⟨_, left_mem_segment ℝ _ _⟩).2 (fun u hu v hv => by
          obtain rfl := hu
          by_contra hc
          exact hr (show v ∈ Metric.ball u r by rw [Metric.mem_ball, dist_comm]; exact not_le.1 hc) hv)
        filter_upwards [small (half_pos r0)] with η hη
        exact ⟨p, hp, by linarith [hη.2]⟩
      filter_upwards [this] with η hη _ _
      exact hη
    · exact .of_forall (fun _ c d => absurd ⟨c, d⟩ hg)
  have a5 : ∀ᶠ η in 𝓝[>] (0 : ℝ), ∀ i j : Int, 0 ≤ i → i < j → j < zs.length → i + 1 < j → NearBy off (R.tolerance - 2 * η) i j ∨ ¬ NearBy off (R.tolerance + 2 * η) i j := by
    refine eventually_rng (fun i j x _ z => ?_)
    by_cases hg : i + 1 < j
    · rcases h.tolerance i j x hg z with h1 | ⟨k, k1, k2, hk⟩
      · have : ∀ᶠ η in 𝓝[>] (0 : ℝ), NearBy off (R.tolerance - 2 * η) i j := eventually_between (fun k k1 k2 => by
          filter_upwards [small (half_pos (sub_pos.2 (h1 k k1 k2)))] with η hη
          linarith [hη.2])
        filter_upwards [this] with η hη _
        exact .inl hη
      · filter_upwards [small (half_pos (sub_pos.2 hk))] with η hη _
        exact .inr (fun hc => by linarith [hc k k1 k2, hη.2])
    · exact .of_forall (fun _ c => absurd c hg)
  have a6 : ∀ᶠ η in 𝓝[>] (0 : ℝ), ∀ i j : Int, 0 ≤ i → i < j → j < zs.length → i + 1 < j → ¬ NearBy off R.tolerance i j ∨ ¬ Allowed R (between zs i j) →
      ∃ k, i < k ∧ k < j ∧ ∀ l, i < l → l < j → l ≠ k → off i j l + 2 * (2 * η) < off i j k := by
    refine eventually_rng (fun i j x _ z => ?_)
    by_cases hg : i + 1 < j ∧ (¬ NearBy off R.tolerance i j ∨ ¬ Allowed R (between zs i j))
    · obtain ⟨k, k1, k2, hk⟩ := h.farthest i j x hg.1 z hg.2
      have : ∀ᶠ η in 𝓝[>] (0 : ℝ), ∀ l, i < l → l < j → l ≠ k → off i j l + 2 * (2 * η) < off i j k := eventually_between (fun l l1 l2 => by
        by_cases e : l = k
        · exact .of_forall (fun _ c => absurd e c)
        · filter_upwards [small (half_pos (half_pos (sub_pos.2 (hk l l1 l2 e))))] with η hη _
          linarith [hη.2])
      filter_upwards [this] with η hη _ _
      exact ⟨k, k1, k2, hη⟩
    · exact .of_forall (fun _ c d => absurd ⟨c, d⟩ hg)
  filter_upwards [a1, a2, a3, a4, a5, a6] with η b1 b2 b3 b4 b5 b6
  exact ⟨b1, b2, b3, fun i j x y z => b4 i j x (by omega) z y, fun i j x y z => b5 i j x (by omega) z y, fun i j x y z => b6 i j x (by omega) z y⟩

theorem FirmPair.steady {r : ℝ} (r0 : 0 < r) {s : Set ℂ} {x y : ℂ} (h : FirmPair r s x y) : SteadyPair s x y := ⟨r, r0, fun _ _ hx hy => (h.iff r0.le hx hy).symm⟩

theorem FirmTriple.steady {r : ℝ} (r0 : 0 < r) {s : Set ℂ} {x y z : ℂ} (h : FirmTriple r s x y z) : SteadyTriple s x y z :=
  ⟨r, r0, fun _ _ _ hx hy hz => (h.iff r0.le hx hy hz).symm⟩

/-- room to spare means that no decision is on the edge -/
theorem Firm.offEdge {off : Int → Int → Int → ℝ} {R : Rules} {zs : List ℂ} {δ η : ℝ} (hδ : 0 < δ) (hη : 0 < η) (h : Firm off δ η R zs) : OffEdge off R zs := by
  refine ⟨fun hg s hs i j a b c => (h.meets hg s hs i j a b c).steady hη, fun hg s hs x hx y hy z hz => (h.triangles hg s hs x hx y hy z hz).steady hη, fun hg s hs i j a b c => ?_,
    fun i j a b c hn u hu v hv => ?_, fun i j a b c => ?_, fun i j a b c hn => ?_⟩
  · obtain ⟨h1, h2⟩ := h.distances hg s hs i j a b c
    constructor
    · intro e
      rw [e] at h1
      rcases h1 with h1 | h1 <;> linarith
    · intro e
      rw [e] at h2
      rcases h2 with h2 | h2 <;> linarith
  · obtain ⟨z, hz, hgap⟩ := h.bent i j a b c hn u hu v hv
    refine ⟨z, hz, fun hm => ?_⟩
    rw [gap_meet (s := {z}) ⟨z, rfl, hm⟩] at hgap
    linarith
  · rcases h.tolerance i j a b c with h1 | h1
    · exact .inl (fun k k1 k2 => lt_of_le_of_lt (h1 k k1 k2) (by linarith))
    · refine .inr ?_
      unfold NearBy at h1
      push Not at h1
      obtain ⟨k, k1, k2, hk⟩ := h1
      exact ⟨k, k1, k2, lt_of_le_of_lt (by linarith) hk⟩
  · obtain ⟨k, k1, k2, hk⟩ := h.farthest i j a b c hn
    exact ⟨k, k1, k2, fun l l1 l2 e => lt_of_le_of_lt (by linarith) (hk l l1 l2 e)⟩

/-- **C131, general position.**  Let the segments and triangles of a line meet the obstacles steadily, let no sub-line be straight and let every sub-line have one farthest vertex.
Then all tolerances but finitely many and all minimum distances but finitely many leave no decision on the edge, whatever relations are asked for. -/
theorem C131_general {off : Int → Int → Int → ℝ} {O : Set (Set ℂ)} {zs : List ℂ} (hf : O.Finite)
    (hm : ∀ s ∈ O, ∀ i j : Int, 0 ≤ i → i < j → j < zs.length → SteadyPair s (vtx zs i) (vtx zs j)) (ht : ∀ s ∈ O, ∀ x ∈ zs, ∀ y ∈ zs, ∀ z ∈ zs, SteadyTriple s x y z)
    (hb : ∀ i j : Int, 0 ≤ i → i + 1 < j → j < zs.length → ∀ a ∈ between zs i j, ∀ b ∈ between zs i j, ∃ z ∈ between zs i j, z ∉ segment ℝ a b)
    (hk : ∀ i j : Int, 0 ≤ i → i + 1 < j → j < zs.length → ∃ k, i < k ∧ k < j ∧ ∀ l, i < l → l < j → l ≠ k → off i j l < off i j k) :
    ∃ T M : Set ℝ, T.Finite ∧ M.Finite ∧ ∀ R : Rules, R.obstacles = O → R.tolerance ∉ T → R.minDist ∉ M → OffEdge off R zs := by
  refine ⟨(fun q : Int × Int × Int => off q.1 q.2.1 q.2.2) '' (Set.Icc 0 (zs.length : Int) ×ˢ Set.Icc 0 (zs.length : Int) ×ˢ Set.Icc 0 (zs.length : Int)),
    (fun q : Set ℂ × Int × Int => gap (chordSet (between zs q.2.1 q.2.2)) q.1) '' (O ×ˢ Set.Icc 0 (zs.length : Int) ×ˢ Set.Icc 0 (zs.length : Int)) ∪
      (fun q : Set ℂ × Int × Int => gap (lineSet (between zs q.2.1 q.2.2)) q.1) '' (O ×ˢ Set.Icc 0 (zs.length : Int) ×ˢ Set.Icc 0 (zs.length : Int)),
    ((Set.finite_Icc _ _).prod ((Set.finite_Icc _ _).prod (Set.finite_Icc _ _))).image _,
    ((hf.prod ((Set.finite_Icc _ _).prod (Set.finite_Icc _ _))).image _).union ((hf.prod ((Set.finite_Icc _ _).prod (Set.finite_Icc _ _))).image _), fun R hR hT hM => ?_⟩
  subst hR
  refine ⟨fun _ => hm, fun _ => ht, fun _ s hs i j a b c => ⟨fun e => hM (.inl ⟨(s, i, j), ⟨hs, ⟨a, by dsimp only; omega⟩, ⟨by dsimp only; omega, by dsimp only; omega⟩⟩, e⟩),
    fun e => hM (.inr ⟨(s, i, j), ⟨hs, ⟨a, by dsimp only; omega⟩, ⟨by dsimp only; omega, by dsimp only; omega⟩⟩, e⟩)⟩, fun i j a b c _ => hb i j a b c, fun i j a b c => ?_, fun i j a b c _ => hk i j a b c⟩
  by_cases h : ∃ k, i < k ∧ k < j ∧ R.tolerance < off i j k
  · exact .inr h
  · push Not at h
    exact .inl (fun k k1 k2 => lt_of_le_of_ne (h k k1 k2) (fun e => hT ⟨(i, j, k), ⟨⟨a, by dsimp only; omega⟩, ⟨by dsimp only; omega, by dsimp only; omega⟩, ⟨by dsimp only; omega, by dsimp only; omega⟩⟩, e⟩))

end Planar

namespace Io
open Verif.Text Verif.Planar

/-- **C131, the procedure.**  If no decision on a line is on the edge, there is a distance `r` such that for all lines whose places are within `r` of those of the line the same vertex
numbers are prescribed, if the same vertices must be kept. -/
theorem C131_prescribed {R : Rules} (hf : R.obstacles.Finite) (hn : ∀ s ∈ R.obstacles, s.Nonempty) {zs : List ℂ} (h : OffEdge (offsetOf zs) R zs) :
    ∃ r > 0, ∀ zs', Shaken r zs zs' → ∀ zss zss', (∀ v, Must R (Junction zss zs) zs v ↔ Must R (Junction zss' zs') zs' v) → prescribed R zss zs = prescribed R zss' zs' := by
  obtain ⟨r, hF, r0⟩ := ((h.firm hf hn).and self_mem_nhdsWithin).exists
  exact ⟨r, r0, fun zs' hs zss zss' hm => C127_prescribed (le_of_lt r0) hs hF hm⟩

/-- **C131, motions.** -/
theorem C131_prescribedStops {R : Rules} (hf : R.obstacles.Finite) (hn : ∀ s ∈ R.obstacles, s.Nonempty) {ms : List (ℂ × ℝ)} (ht : Timed ms)
    (h : OffEdge (syncOffset ms) R (ms.map Prod.fst)) :
    ∃ r > 0, ∀ ms', ShakenMotion r ms ms' → ∀ zss zss', (∀ v, Must R (Junction zss (ms.map Prod.fst)) (ms.map Prod.fst) v ↔
      Must R (Junction zss' (ms'.map Prod.fst)) (ms'.map Prod.fst) v) → prescribedStops R zss ms = prescribedStops R zss' ms' := by
  obtain ⟨r, hF, r0⟩ := ((h.firm hf hn).and self_mem_nhdsWithin).exists
  exact ⟨r, r0, fun ms' hs zss zss' hm => C127_prescribedStops (le_of_lt r0) hs ht hF hm⟩

/-- **C131 for the program.**  For every request there is a distance `room zs` for every line `zs`, positive if no decision on `zs` is on the edge, such that in all runs with this
request a line within that distance of `zs` is saved with the vertex numbers prescribed for `zs`, if the same vertices must be kept. -/
theorem C131_program {R : Rules} (hf : R.obstacles.Finite) (hn : ∀ s ∈ R.obstacles, s.Nonempty) :
    ∃ room : List ℂ → ℝ, (∀ zs, OffEdge (offsetOf zs) R zs → 0 < room zs) ∧
      ∀ {P C Props : Type} {w : World (Fl ℝ) P Props C} {E : Engine P C EReal ℝ} {b f : Str} {obj : ArgObj (Fl ℝ)} {docs : List (Doc (Fl ℝ))} {ctx : List C} {pos : P → ℂ}
        {region : C → Set ℂ} {t m : ℝ}, ExactProgram w E b f obj docs ctx pos region t m → rulesAsked region obj ctx t m = R →
        ∃ out N, (∀ fuel ≥ N, main (program w E fuel) b f = .saved (trim obj.output) (out.map w.marshal)) ∧
          List.Forall₂ (WrittenAs (fun l q => ∀ zs zss, OffEdge (offsetOf zs) R zs → Shaken (room zs) zs (l.map pos) →
            (∀ v, Must R (Junction zss zs) zs v ↔ Must R (Junction (if obj.isFeatureClass then placesOf pos E.toPoint docs else []) (l.map pos)) (l.map pos) v) →
            q = verticesAt l (prescribed R zss zs)) w.enc E.toPoint) docs out := by
  classical
  refine ⟨fun zs => if h : OffEdge (offsetOf zs) R zs then (C131_prescribed hf hn h).choose else 0, fun zs h => ?_, fun X hR => ?_⟩
  · beta_reduce
    rw [dif_pos h]
    exact (C131_prescribed hf hn h).choose_spec.1
  · obtain ⟨out, N, h1, h2⟩ := X.prescribed
    refine ⟨out, N, h1, h2.imp (fun d o hw => hw.weaken (fun l q hq zs zss hS hz hm => ?_))⟩
    beta_reduce at hz
    rw [dif_pos hS] at hz
    rw [hq, hR, (C131_prescribed hf hn hS).choose_spec.2 _ hz _ _ hm]

/-- **C131 for the program on motions.** -/
theorem C131_sed {R : Rules} (hf : R.obstacles.Finite) (hn : ∀ s ∈ R.obstacles, s.Nonempty) :
    ∃ room : List (ℂ × ℝ) → ℝ, (∀ ms, Timed ms → OffEdge (syncOffset ms) R (ms.map Prod.fst) → 0 < room ms) ∧
      ∀ {C Props : Type} {w : World (Fl ℝ) Pt3 Props C} {E : Engine Pt3 C EReal ℝ} {b f : Str} {obj : ArgObj (Fl ℝ)} {docs : List (Doc (Fl ℝ))} {ctx : List C}
        {region : C → Set ℂ} {t m : ℝ}, SedProgram w E b f obj docs ctx region t m → rulesAsked region obj ctx t m = R →
        ∃ out N, (∀ fuel ≥ N, main (program w E fuel) b f = .saved (trim obj.output) (out.map w.marshal)) ∧
          List.Forall₂ (WrittenAs (fun l q => ∀ ms ms' zss, l = ms'.map timed → Timed ms → OffEdge (syncOffset ms) R (ms.map Prod.fst) → ShakenMotion (room ms) ms ms' →
            (∀ v, Must R (Junction zss (ms.map Prod.fst)) (ms.map Prod.fst) v ↔ Must R (Junction (classPlaces E obj docs) (ms'.map Prod.fst)) (ms'.map Prod.fst) v) →
            q = (verticesAt ms' (prescribedStops R zss ms)).map timed) w.enc E.toPoint) docs out := by
  classical
  refine ⟨fun ms => if h : Timed ms ∧ OffEdge (syncOffset ms) R (ms.map Prod.fst) then (C131_prescribedStops hf hn h.1 h.2).choose else 0, fun ms ht h => ?_, fun X hR => ?_⟩
  · beta_reduce
    rw [dif_pos ⟨ht, h⟩]
    exact (C131_prescribedStops hf hn ht h).choose_spec.1
  · obtain ⟨out, N, h1, h2⟩ := X.prescribed
    refine ⟨out, N, h1, h2.imp (fun d o hw => hw.weaken (fun l q hq ms ms' zss hl ht hS hz hm => ?_))⟩
    beta_reduce at hz
    rw [dif_pos ⟨ht, hS⟩] at hz
    have ht' : Timed ms' := by
      obtain ⟨u, rfl, rfl, -⟩ := hz.pairs
      unfold Timed at ht ⊢
      rw [List.pairwise_map] at ht ⊢
      exact ht
    rw [hq ms' hl ht', hR, (C131_prescribedStops hf hn ht hS).choose_spec.2 _ hz _ _ hm]

end Io

/-! ### concrete cases -/

namespace Real
open Io Text Planar

/-- the tent is off the edge: its offset 1 is not the tolerance 1/4, and the constraint is far away -/
theorem tent_offEdge (fc : Bool) : OffEdge (offsetOf tent) (rulesAsked (fun r : Region => r.1) (scaledConfig fc (1 / 4) (1 / 2)) [farPoint] (1 / 4) (1 / 2)) tent :=
  (tent_firm fc).offEdge (by norm_num) (by norm_num)

theorem shuttle_offEdge (fc : Bool) : OffEdge (syncOffset shuttle) (rulesAsked (fun r : Region => r.1) (shuttleConfig fc) [farPoint] (1 / 2) (1 / 2)) (shuttle.map Prod.fst) :=
  (shuttle_firm fc).offEdge (by norm_num) (by norm_num)

theorem far_finite {obj : ArgObj (Fl ℝ)} {t m : ℝ} : (rulesAsked (fun r : Region => r.1) obj [farPoint] t m).obstacles.Finite := by
  simp [rulesAsked]

theorem far_nonempty {obj : ArgObj (Fl ℝ)} {t m : ℝ} : ∀ s ∈ (rulesAsked (fun r : Region => r.1) obj [farPoint] t m).obstacles, s.Nonempty := by
  rintro s ⟨g, -, rfl⟩
  exact g.2

/-- C131 for the program: there is a distance within which all lines near the tent that go to the right are saved with the vertex numbers prescribed for the tent -/
example : ∃ r > 0, ∀ zs' : List ℂ, Shaken r tent zs' → zs'.Pairwise (fun a b => a.re < b.re) →
    ∃ (out : List (LineFeature (Fl ℝ) Str)) (N : Nat),
      (∀ fuel ≥ N, main (program (world ordsC (scaledConfig false (1 / 4) (1 / 2)) (.geometry (.line (coordsOf' zs'))) (.geometry (.line (coordsOf' tent))) [farPoint]) engine fuel)
        "e30=".toList ['-'] = .saved ['o'] (out.map (fun _ => []))) ∧
      List.Forall₂ (WrittenAs (fun l q => l = zs' →
          q = verticesAt l (prescribed (rulesAsked (fun r : Region => r.1) (scaledConfig false (1 / 4) (1 / 2)) [farPoint] (1 / 4) (1 / 2)) [] tent))
        (world ordsC (scaledConfig false (1 / 4) (1 / 2)) (.geometry (.line (coordsOf' zs'))) (.geometry (.line (coordsOf' tent))) [farPoint]).enc engine.toPoint)
        [.geometry (.line (coordsOf' zs')), .geometry (.line (coordsOf' tent))] out := by
  obtain ⟨room, h0, h⟩ := C131_program (R := rulesAsked (fun r : Region => r.1) (scaledConfig false (1 / 4) (1 / 2)) [farPoint] (1 / 4) (1 / 2)) far_finite far_nonempty
  refine ⟨room tent, h0 _ (tent_offEdge false), fun zs' hz hp => ?_⟩
  have hl : zs'.length = 3 := by have := hz.length_eq; simpa [tent] using this.symm
  obtain ⟨out, N, h1, h2⟩ := h
    (scaled_program false (t := 1 / 4) (m := 1 / 2) (by norm_num) (by norm_num) (coordsOf' zs') (coordsOf' tent) (by simp [coordsOf', hl]) (by simp [coordsOf', tent]) [farPoint]) rfl
  refine ⟨out, N, h1, h2.imp (fun d o hw => hw.weaken (fun l q hq e => ?_))⟩
  subst e
  refine hq tent [] (tent_offEdge false) (by rw [List.map_id]; exact hz) (fun v => ?_)
  rw [List.map_id]
  exact iff_of_false (not_must rfl (by simp [tent]) v) (not_must rfl hp v)

/-- C131 for the program on motions -/
example (fc : Bool) : ∃ r > 0, ∀ ms' : List (ℂ × ℝ), ShakenMotion r shuttle ms' → Timed ms' →
    ∃ (out : List (LineFeature (Fl ℝ) Str)) (N : Nat),
      (∀ fuel ≥ N, main (program (world id (shuttleConfig fc) (coordsOfMotion ms') (coordsOfMotion shuttle) [farPoint]) stopEngine fuel) "e30=".toList ['-'] =
        .saved ['o'] (out.map (fun _ => []))) ∧
      List.Forall₂ (WrittenAs (fun l q => l = ms'.map timed →
          q = (verticesAt ms' (prescribedStops (rulesAsked (fun r : Region => r.1) (shuttleConfig fc) [farPoint] (1 / 2) (1 / 2)) [] shuttle)).map timed)
        (world id (shuttleConfig fc) (coordsOfMotion ms') (coordsOfMotion shuttle) [farPoint]).enc stopEngine.toPoint) [coordsOfMotion ms', coordsOfMotion shuttle] out := by
  have ht : 2 ≤ shuttle.length ∧ Timed shuttle := ⟨by simp [shuttle], by simp [shuttle, Timed]⟩
  obtain ⟨room, h0, h⟩ := C131_sed (R := rulesAsked (fun r : Region => r.1) (shuttleConfig fc) [farPoint] (1 / 2) (1 / 2)) far_finite far_nonempty
  refine ⟨room shuttle, h0 _ ht.2 (shuttle_offEdge fc), fun ms' hz ht' => ?_⟩
  have hl : ms'.length = 3 := by have := hz.length_eq; simpa [shuttle] using this.symm
  obtain ⟨out, N, h1, h2⟩ := h
    (sed_program (shuttleConfig fc) ⟨rfl, rfl, rfl, rfl, rfl⟩ (t := 1 / 2) (m := 1 / 2) ⟨rfl, by norm_num⟩ ⟨rfl, by norm_num⟩ ms' shuttle ⟨by omega, ht'⟩ ht [farPoint]) rfl
  refine ⟨out, N, h1, h2.imp (fun d o hw => hw.weaken (fun l q hq e => ?_))⟩
  exact hq shuttle ms' [] e ht.2 (shuttle_offEdge fc) hz (fun v => iff_of_false (fun h => by have := h.1; cases this) (fun h => by have := h.1; cases this))

theorem tent_bent : ∀ a ∈ tent, ∀ b ∈ tent, ∃ z ∈ tent, z ∉ segment ℝ a b := by
  have key : ∀ x y u v p q : ℝ, (∀ c d : ℝ, 0 ≤ c → 0 ≤ d → c + d = 1 → c * x + d * u = p → c * y + d * v = q → False) → (⟨p, q⟩ : ℂ) ∉ segment ℝ (⟨x, y⟩ : ℂ) ⟨u, v⟩ := by
    rintro x y u v p q h ⟨c, d, hc, hd, hcd, e⟩
    have e1 := congrArg Complex.re e
    have e2 := congrArg Complex.im e
    simp at e1 e2
    exact h c d hc hd hcd e1 e2
  intro a ha b hb
  simp only [tent, List.mem_cons, List.not_mem_nil, or_false] at ha hb
  rcases ha with rfl | rfl | rfl <;> rcases hb with rfl | rfl | rfl
  all_goals first
    | exact ⟨⟨1, 1⟩, by simp [tent], key _ _ _ _ _ _ (fun c d hc hd h1 h2 h3 => by linarith)⟩
    | exact ⟨⟨2, 0⟩, by simp [tent], key _ _ _ _ _ _ (fun c d hc hd h1 h2 h3 => by linarith)⟩
    | exact ⟨⟨0, 0⟩, by simp [tent], key _ _ _ _ _ _ (fun c d hc hd h1 h2 h3 => by linarith)⟩

/-- the tent is in general position with respect to a point far away -/
example : ∃ T M : Set ℝ, T.Finite ∧ M.Finite ∧ ∀ R : Rules, R.obstacles = {s | ∃ g ∈ [farPoint], g.1 = s} → R.tolerance ∉ T → R.minDist ∉ M → OffEdge (offsetOf tent) R tent := by
  have h := tent_offEdge false
  refine C131_general (far_finite (obj := scaledConfig false (1 / 4) (1 / 2)) (t := 0) (m := 0)) (h.meets (.inl rfl)) (h.triangles rfl) (fun i j h0 h1 h2 => ?_) (fun i j h0 h1 h2 => ?_)
  · simp only [tent, List.length_cons, List.length_nil] at h2
    obtain rfl : i = 0 := by omega
    obtain rfl : j = 2 := by omega
    exact tent_bent
  · simp only [tent, List.length_cons, List.length_nil] at h2
    exact ⟨1, by omega, by omega, fun l l0 l1 hl => by omega⟩

end Real

end Verif
