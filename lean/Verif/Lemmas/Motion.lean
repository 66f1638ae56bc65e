import Verif.Lemmas.Trace
import Verif.Spec.Motion
import Mathlib.Tactic.FieldSimp

/-! Lines in space and time: motions. -/

namespace Verif

open Metric

/-- where the uniform move from `a` to `b` is at a time -/
noncomputable def along (a b : ℂ × ℝ) (t : ℝ) : ℂ := a.1 + ((t - a.2) / (b.2 - a.2)) • (b.1 - a.1)

variable {a b : ℂ × ℝ} {t : ℝ} {z : ℂ} {l : List (ℂ × ℝ)}

theorem mem_segment_iff (h : a.2 < b.2) : (z, t) ∈ segment ℝ a b ↔ a.2 ≤ t ∧ t ≤ b.2 ∧ z = along a b t := by
  have hd : b.2 - a.2 ≠ 0 := by linarith
  constructor
  · rintro ⟨u, v, hu, hv, huv, e⟩
    obtain rfl : u = 1 - v := by linarith
    have e1 : (1 - v) • a.1 + v • b.1 = z := congrArg Prod.fst e
    have e2 : (1 - v) * a.2 + v * b.2 = t := by simpa using congrArg Prod.snd e
    refine ⟨by nlinarith, by nlinarith, ?_⟩
    have : (t - a.2) / (b.2 - a.2) = v := by rw [← e2]; field_simp; ring
    rw [along, this, ← e1]
    module
  · rintro ⟨h1, h2, rfl⟩
    have hv : 0 ≤ (t - a.2) / (b.2 - a.2) := div_nonneg (by linarith) (by linarith)
    have hv1 : (t - a.2) / (b.2 - a.2) ≤ 1 := (div_le_one (by linarith)).2 (by linarith)
    refine ⟨1 - (t - a.2) / (b.2 - a.2), (t - a.2) / (b.2 - a.2), by linarith, hv, by ring, ?_⟩
    refine Prod.ext ?_ ?_
    · simp only [along, Prod.fst_add, Prod.smul_fst]
      module
    · simp only [Prod.snd_add, Prod.smul_snd, smul_eq_mul]
      field_simp
      ring

theorem along_left : along a b a.2 = a.1 := by simp [along]

theorem along_right (h : a.2 < b.2) : along a b b.2 = b.1 := by
  have hd : b.2 - a.2 ≠ 0 := by linarith
  simp [along, div_self hd]

/-- the places within `ε` of the uniform move -/
def moveTube (ε : ℝ) (a b : ℂ × ℝ) : Set (ℂ × ℝ) := {q | a.2 ≤ q.2 ∧ q.2 ≤ b.2 ∧ ‖q.1 - along a b q.2‖ ≤ ε}

theorem moveTube_convex (ε : ℝ) (a b : ℂ × ℝ) : Convex ℝ (moveTube ε a b) := by
  rintro p ⟨p1, p2, p3⟩ q ⟨q1, q2, q3⟩ u v hu hv huv
  obtain rfl : u = 1 - v := by linarith
  refine ⟨?_, ?_, ?_⟩
  · simp only [Prod.snd_add, Prod.smul_snd, smul_eq_mul]; nlinarith
  · simp only [Prod.snd_add, Prod.smul_snd, smul_eq_mul]; nlinarith
  · have : ((1 - v) • p + v • q).1 - along a b ((1 - v) • p + v • q).2 = (1 - v) • (p.1 - along a b p.2) + v • (q.1 - along a b q.2) := by
      simp only [along, Prod.snd_add, Prod.smul_snd, Prod.fst_add, Prod.smul_fst, smul_eq_mul]
      rw [show ((1 - v) * p.2 + v * q.2 - a.2) / (b.2 - a.2) = (1 - v) * ((p.2 - a.2) / (b.2 - a.2)) + v * ((q.2 - a.2) / (b.2 - a.2)) by ring]
      module
    rw [this]
    refine (norm_add_le _ _).trans ?_
    rw [norm_smul, norm_smul, Real.norm_of_nonneg hu, Real.norm_of_nonneg hv]
    nlinarith

theorem trace_times (ha : a ∈ l) (hb : b ∈ l) (h1 : a.2 ≤ t) (h2 : t ≤ b.2) : ∃ z, (z, t) ∈ trace l := by
  have hp : IsPreconnected (Prod.snd '' trace l) := (isPreconnected_trace l).image _ continuous_snd.continuousOn
  have := hp.Icc_subset (Set.mem_image_of_mem Prod.snd (mem_trace_of_mem ha)) (Set.mem_image_of_mem Prod.snd (mem_trace_of_mem hb)) ⟨h1, h2⟩
  obtain ⟨⟨z, t'⟩, hz, rfl⟩ := this
  exact ⟨z, hz⟩

/-- a line whose vertices stay within `ε` of the uniform move between two of them stays within `ε` at all times -/
theorem sync_piece {ε : ℝ} (hab : a.2 < b.2) (ha : a ∈ l) (hb : b ∈ l) (hl : ∀ x ∈ l, x ∈ moveTube ε a b) : Sync ε (trace l) (trace [a, b]) := by
  have hs := trace_subset_convex (moveTube_convex ε a b) l hl
  rw [trace_pair]
  have h1 : ∀ x ∈ trace l, (along a b x.2, x.2) ∈ segment ℝ a b ∧ dist x.1 (along a b x.2) ≤ ε := by
    intro x hx
    obtain ⟨t1, t2, t3⟩ := hs hx
    exact ⟨(mem_segment_iff hab).2 ⟨t1, t2, rfl⟩, by rwa [dist_eq_norm]⟩
  refine ⟨fun x hx => ⟨_, (h1 x hx).1, rfl, (h1 x hx).2⟩, ?_⟩
  rintro ⟨w, t⟩ hw
  obtain ⟨t1, t2, rfl⟩ := (mem_segment_iff hab).1 hw
  obtain ⟨z, hz⟩ := trace_times ha hb t1 t2
  exact ⟨_, hz, rfl, (h1 _ hz).2⟩

/-- the uniform move between two places near a uniform move is near it, hence near every other place that is near it at that time -/
theorem along_inner {ε : ℝ} {x y p : ℂ × ℝ} (hxy : x.2 < y.2) (hx : x ∈ moveTube ε a b) (hy : y ∈ moveTube ε a b) (hp : p ∈ moveTube ε a b)
    (h1 : x.2 ≤ p.2) (h2 : p.2 ≤ y.2) : ‖p.1 - along x y p.2‖ ≤ 2 * ε := by
  have h := (moveTube_convex ε a b).segment_subset hx hy ((mem_segment_iff hxy).2 ⟨h1, h2, rfl⟩)
  have h3 := h.2.2
  have h4 := hp.2.2
  have := norm_sub_le (p.1 - along a b p.2) (along x y p.2 - along a b p.2)
  rw [sub_sub_sub_cancel_right] at this
  linarith

/-- a line that stays within `ε` of a uniform move is within `2 * ε` of the uniform move between two of its vertices, at all times -/
theorem sync_inner {ε : ℝ} {x y : ℂ × ℝ} (hxy : x.2 < y.2) (hx : x ∈ l) (hy : y ∈ l) (hl : ∀ p ∈ l, p ∈ moveTube ε a b)
    (ht : ∀ p ∈ l, x.2 ≤ p.2 ∧ p.2 ≤ y.2) : Sync (2 * ε) (trace l) (trace [x, y]) := by
  have hs := trace_subset_convex (moveTube_convex ε a b) l hl
  have hc : Convex ℝ {q : ℂ × ℝ | x.2 ≤ q.2 ∧ q.2 ≤ y.2} := by
    rintro p ⟨p1, p2⟩ q ⟨q1, q2⟩ u v hu hv huv
    obtain rfl : u = 1 - v := by linarith
    constructor <;> simp only [Prod.snd_add, Prod.smul_snd, smul_eq_mul] <;> nlinarith
  have ht' := trace_subset_convex hc l ht
  rw [trace_pair]
  have h1 : ∀ z ∈ trace l, (along x y z.2, z.2) ∈ segment ℝ x y ∧ dist z.1 (along x y z.2) ≤ 2 * ε := by
    intro z hz
    obtain ⟨t1, t2⟩ := ht' hz
    exact ⟨(mem_segment_iff hxy).2 ⟨t1, t2, rfl⟩, by rw [dist_eq_norm]; exact along_inner hxy (hl x hx) (hl y hy) (hs hz) t1 t2⟩
  refine ⟨fun z hz => ⟨_, (h1 z hz).1, rfl, (h1 z hz).2⟩, ?_⟩
  rintro ⟨w, t⟩ hw
  obtain ⟨t1, t2, rfl⟩ := (mem_segment_iff hxy).1 hw
  obtain ⟨z, hz⟩ := trace_times hx hy t1 t2
  exact ⟨_, hz, rfl, (h1 _ hz).2⟩

theorem Sync.union {ε : ℝ} {s t s' t' : Set (ℂ × ℝ)} (h : Sync ε s t) (h' : Sync ε s' t') : Sync ε (s ∪ s') (t ∪ t') := by
  refine ⟨fun x hx => ?_, fun y hy => ?_⟩
  · rcases hx with hx | hx
    · obtain ⟨y, hy, hd⟩ := h.1 x hx; exact ⟨y, .inl hy, hd⟩
    · obtain ⟨y, hy, hd⟩ := h'.1 x hx; exact ⟨y, .inr hy, hd⟩
  · rcases hy with hy | hy
    · obtain ⟨x, hx, hd⟩ := h.2 y hy; exact ⟨x, .inl hx, hd⟩
    · obtain ⟨x, hx, hd⟩ := h'.2 y hy; exact ⟨x, .inr hx, hd⟩

/-- nothing of the line is earlier than its first vertex -/
theorem trace_first : ∀ {l : List (ℂ × ℝ)} {a : ℂ × ℝ}, Timed (a :: l) → ∀ q ∈ trace (a :: l), a.2 ≤ q.2
  | [], a, _, q, hq => by rw [trace] at hq; rw [Set.mem_singleton_iff.1 hq]
  | b :: l, a, h, q, hq => by
    have hab : a.2 < b.2 := List.rel_of_pairwise_cons h (by simp)
    rcases hq with hq | hq
    · exact ((mem_segment_iff hab).1 hq).1
    · exact hab.le.trans (trace_first (List.Pairwise.of_cons h) q hq)

/-- a line with increasing times is at one place at a time -/
theorem trace_unique : ∀ {l : List (ℂ × ℝ)}, Timed l → ∀ {t : ℝ} {z w : ℂ}, (z, t) ∈ trace l → (w, t) ∈ trace l → z = w
  | [], _, _, _, _, hz, _ => by simp [trace] at hz
  | [a], _, t, z, w, hz, hw => by
    simp only [trace, Set.mem_singleton_iff] at hz hw
    rw [← hw] at hz
    exact congrArg Prod.fst hz
  | a :: b :: l, h, t, z, w, hz, hw => by
    have hab : a.2 < b.2 := List.rel_of_pairwise_cons h (by simp)
    have hb : Timed (b :: l) := List.Pairwise.of_cons h
    -- a place in both parts is the vertex between them
    have key : ∀ {z w : ℂ}, (z, t) ∈ segment ℝ a b → (w, t) ∈ trace (b :: l) → z = w := by
      intro z w hz hw
      obtain ⟨h1, h2, rfl⟩ := (mem_segment_iff hab).1 hz
      have h3 : b.2 ≤ t := trace_first hb _ hw
      obtain rfl : t = b.2 := le_antisymm h2 h3
      rw [along_right hab]
      exact trace_unique hb (mem_trace_of_mem (by simp)) hw
    rcases hz with hz | hz <;> rcases hw with hw | hw
    · rw [((mem_segment_iff hab).1 hz).2.2, ((mem_segment_iff hab).1 hw).2.2]
    · exact key hz hw
    · exact (key hw hz).symm
    · exact trace_unique hb hz hw

end Verif
