import Verif.Lemmas.PlanarLine
import Mathlib.Analysis.SpecialFunctions.Complex.Arg
import Mathlib.Analysis.SpecialFunctions.Complex.Log

/-! Two lines and the segments between their ends: if the segments meet, a segment meets the other line or the lines meet.  (Winding numbers: the closed
curves made of a line and its segment cross an even number of times.) -/

set_option linter.unusedSectionVars false

namespace Verif
namespace Planar

open Complex

/-- the angle under which the segment from `p` to `q` is seen from `w` -/
noncomputable def angle (p q w : ℂ) : ℝ := arg ((q - w) / (p - w))

/-- the sum of these angles along a line -/
noncomputable def turn : List ℂ → ℂ → ℝ
  | [], _ => 0
  | [_], _ => 0
  | a :: b :: l, w => angle a b w + turn (b :: l) w

theorem ratio_slit {p q w : ℂ} (h : w ∉ segment ℝ p q) : (q - w) / (p - w) ∈ slitPlane := by
  have hp : p - w ≠ 0 := by
    intro e
    rw [sub_eq_zero] at e
    exact h (e ▸ left_mem_segment ℝ p q)
  by_contra hn
  rw [mem_slitPlane_iff, not_or, not_lt, not_not] at hn
  obtain ⟨h1, h2⟩ := hn
  obtain ⟨r, hr⟩ : ∃ r : ℝ, (q - w) / (p - w) = r := ⟨_, Complex.ext rfl (by simpa using h2)⟩
  rw [hr, ofReal_re] at h1
  rw [div_eq_iff hp] at hr
  refine h ⟨-r / (1 - r), 1 / (1 - r), div_nonneg (by linarith) (by linarith), div_nonneg (by linarith) (by linarith), ?_, ?_⟩
  · rw [← add_div, div_eq_one_iff_eq (by linarith)]; ring
  · have hne : (1 - r : ℂ) ≠ 0 := by
      have : (1 - r : ℝ) ≠ 0 := by linarith
      exact_mod_cast this
    have e : q = r * (p - w) + w := by rw [← hr]; ring
    rw [e]
    simp only [real_smul]
    push_cast
    field_simp
    ring

theorem ratio_continuousAt {p q w : ℂ} (h : p ≠ w) : ContinuousAt (fun w => (q - w) / (p - w)) w :=
  (continuousAt_const.sub continuousAt_id).div (continuousAt_const.sub continuousAt_id) (sub_ne_zero.2 h)

theorem angle_continuousAt {p q w : ℂ} (h : w ∉ segment ℝ p q) : ContinuousAt (angle p q) w := by
  have hp : p ≠ w := fun e => h (e ▸ left_mem_segment ℝ p q)
  exact ContinuousAt.comp (g := arg) (continuousAt_arg (ratio_slit h)) (ratio_continuousAt hp)

theorem turn_continuousAt : ∀ {l : List ℂ} {w : ℂ}, w ∉ lineSet l → ContinuousAt (turn l) w
  | [], _, _ => continuousAt_const
  | [_], _, _ => continuousAt_const
  | a :: b :: l, w, h => by
    simp only [lineSet, Set.mem_union, not_or] at h
    exact (angle_continuousAt h.1).add (turn_continuousAt h.2)

theorem exp_arg {z : ℂ} (h : z ≠ 0) : exp (arg z * I) = z / ‖z‖ := by
  have hn : ((‖z‖ : ℝ) : ℂ) ≠ 0 := by exact_mod_cast (norm_ne_zero_iff.2 h)
  rw [eq_div_iff hn, mul_comm]
  exact norm_mul_exp_arg_mul_I z

/-- the sum of the angles is the angle between the ends, up to whole turns -/
theorem exp_turn : ∀ {l : List ℂ} {w a b : ℂ}, w ∉ lineSet l → l.head? = some a → l.getLast? = some b →
    exp (turn l w * I) = ((b - w) / (a - w)) / ‖(b - w) / (a - w)‖
  | [c], w, a, b, h, ha, hb => by
    simp only [List.head?_cons, List.getLast?_singleton, Option.some.injEq] at ha hb
    subst ha hb
    have : c - w ≠ 0 := fun e => h (by rw [sub_eq_zero] at e; simp [lineSet, e])
    simp [turn, div_self this]
  | c :: d :: l, w, a, b, h, ha, hb => by
    simp only [lineSet, Set.mem_union, not_or] at h
    simp only [List.head?_cons, Option.some.injEq] at ha
    subst ha
    have ih := exp_turn h.2 (List.head?_cons) (by rwa [List.getLast?_cons_cons] at hb)
    have hc : c - w ≠ 0 := fun e => h.1 (by rw [sub_eq_zero] at e; exact e ▸ left_mem_segment ℝ c d)
    have hd : d - w ≠ 0 := fun e => h.1 (by rw [sub_eq_zero] at e; exact e ▸ right_mem_segment ℝ c d)
    have e1 : exp ((turn (c :: d :: l) w : ℝ) * I) = exp (arg ((d - w) / (c - w)) * I) * exp (turn (d :: l) w * I) := by
      rw [← exp_add]
      simp only [turn, angle]
      push_cast
      ring_nf
    rw [e1, ih, exp_arg (div_ne_zero hd hc)]
    have n1 : ((‖c - w‖ : ℝ) : ℂ) ≠ 0 := by exact_mod_cast (norm_ne_zero_iff.2 hc)
    have n2 : ((‖d - w‖ : ℝ) : ℂ) ≠ 0 := by exact_mod_cast (norm_ne_zero_iff.2 hd)
    rw [norm_div, norm_div, norm_div]
    push_cast
    field_simp

/-- a continuous angle with a constant direction is constant -/
theorem angle_constant {s : Set ℂ} (hs : IsPreconnected s) {f : ℂ → ℝ} (hf : ∀ w ∈ s, ContinuousAt f w) {c : ℂ} (hc : ∀ w ∈ s, exp (f w * I) = c) {x y : ℂ}
    (hx : x ∈ s) (hy : y ∈ s) : f x = f y := by
  have hcont : ContinuousOn f s := fun w hw => (hf w hw).continuousWithinAt
  have hint : ∀ w ∈ s, ∃ n : ℤ, f w = f x + n * (2 * Real.pi) := by
    intro w hw
    have := (hc w hw).trans (hc x hx).symm
    rw [exp_eq_exp_iff_exists_int] at this
    obtain ⟨n, hn⟩ := this
    refine ⟨n, ?_⟩
    have h2 : ((f w : ℝ) : ℂ) = ((f x + n * (2 * Real.pi) : ℝ) : ℂ) := by
      have hI : (I : ℂ) ≠ 0 := I_ne_zero
      refine mul_right_cancel₀ hI ?_
      rw [hn]
      push_cast
      ring
    exact_mod_cast h2
  have hpi := Real.pi_pos
  have key : ∀ u ∈ s, ∀ v ∈ s, ¬ f u < f v := by
    intro u hu v hv huv
    obtain ⟨n, hn⟩ := hint u hu
    obtain ⟨m, hm⟩ := hint v hv
    have hnm : n < m := by
      by_contra hcon
      have : (m : ℝ) ≤ n := by exact_mod_cast (not_lt.1 hcon)
      nlinarith
    have hnm' : (n : ℝ) + 1 ≤ m := by exact_mod_cast hnm
    have hmid : f u + Real.pi ∈ Set.Icc (f u) (f v) := ⟨by linarith, by rw [hn, hm]; nlinarith⟩
    obtain ⟨w, hw, e⟩ := (hs.image f hcont).Icc_subset ⟨u, hu, rfl⟩ ⟨v, hv, rfl⟩ hmid
    obtain ⟨k, hk⟩ := hint w hw
    rw [e, hn] at hk
    have : (2 * (k - n) : ℝ) = 1 := by
      have h3 : (2 * (k - n) - 1 : ℝ) * Real.pi = 0 := by linarith
      rcases mul_eq_zero.1 h3 with h | h
      · linarith
      · exact absurd h hpi.ne'
    have : (2 * (k - n) : ℤ) = 1 := by exact_mod_cast this
    omega
  exact le_antisymm (not_lt.1 (key y hy x hx)) (not_lt.1 (key x hx y hy))

/-- on which side of the line through `p` and `q` the point `w` lies -/
def side (p q w : ℂ) : ℝ := (q.re - w.re) * (p.im - w.im) - (q.im - w.im) * (p.re - w.re)

theorem ratio_im {p q w : ℂ} : ((q - w) / (p - w)).im = -side p q w / normSq (p - w) := by
  rw [div_im]
  simp only [side, sub_re, sub_im]
  ring

theorem side_segment {p q x y : ℂ} {s t : ℝ} (hst : s + t = 1) : side p q (s • x + t • y) = s * side p q x + t * side p q y := by
  have : s = 1 - t := by linarith
  subst this
  simp only [side, add_re, add_im, real_smul, mul_re, mul_im, ofReal_re, ofReal_im]
  ring

theorem side_zero {p q w : ℂ} (h : w ∈ segment ℝ p q) : side p q w = 0 := by
  obtain ⟨s, t, -, -, hst, rfl⟩ := h
  rw [side_segment hst]
  simp [side]

theorem on_line {p q w : ℂ} (hpq : p ≠ q) (h : side p q w = 0) : ∃ r : ℝ, w = p + r • (q - p) := by
  have hne : q - p ≠ 0 := sub_ne_zero.2 hpq.symm
  refine ⟨((w - p) / (q - p)).re, ?_⟩
  have him : ((w - p) / (q - p)).im = 0 := by
    rw [div_im]
    have hs : (w - p).im * (q - p).re - (w - p).re * (q - p).im = 0 := by
      simp only [side, sub_re, sub_im] at h ⊢
      linarith
    rw [← sub_div, hs, zero_div]
  have e : (w - p) / (q - p) = ((((w - p) / (q - p)).re : ℝ) : ℂ) := Complex.ext rfl (by simpa using him)
  rw [real_smul, ← e, div_mul_cancel₀ _ hne]
  ring

/-- two segments that meet, none of which contains an end of the other, cross -/
theorem cross_sides {a a' b b' z : ℂ} (hz : z ∈ segment ℝ a a') (hz' : z ∈ segment ℝ b b') (h1 : a ∉ segment ℝ b b') (h3 : b ∉ segment ℝ a a')
    (h4 : b' ∉ segment ℝ a a') : side a a' b * side a a' b' < 0 := by
  have hne : a ≠ a' := by
    rintro rfl
    rw [segment_same, Set.mem_singleton_iff] at hz
    exact h1 (hz ▸ hz')
  obtain ⟨s, t, hs, ht, hst, e⟩ := hz'
  have hc := side_zero hz
  rw [← e, side_segment hst] at hc
  have hs0 : s ≠ 0 := by
    rintro rfl
    have : t = 1 := by linarith
    subst this
    rw [zero_smul, one_smul, zero_add] at e
    exact h4 (e ▸ hz)
  have ht0 : t ≠ 0 := by
    rintro rfl
    have : s = 1 := by linarith
    subst this
    rw [zero_smul, one_smul, add_zero] at e
    exact h3 (e ▸ hz)
  have hs' : 0 < s := lt_of_le_of_ne hs (Ne.symm hs0)
  have ht' : 0 < t := lt_of_le_of_ne ht (Ne.symm ht0)
  rcases lt_trichotomy (side a a' b) 0 with h | h | h
  · have : 0 < side a a' b' := by
      by_contra hcon
      nlinarith [mul_neg_of_pos_of_neg hs' h]
    exact mul_neg_of_neg_of_pos h this
  · exfalso
    have hb' : side a a' b' = 0 := by
      rw [h, mul_zero, zero_add] at hc
      exact (mul_eq_zero.1 hc).resolve_left ht0
    obtain ⟨u, hu⟩ := on_line hne h
    obtain ⟨v, hv⟩ := on_line hne hb'
    have hin : ∀ r : ℝ, 0 ≤ r → r ≤ 1 → a + r • (a' - a) ∈ segment ℝ a a' := by
      intro r h0 h1
      refine ⟨1 - r, r, by linarith, h0, by ring, ?_⟩
      module
    have hu' : u < 0 ∨ 1 < u := by
      by_contra hcon
      rw [not_or, not_lt, not_lt] at hcon
      exact h3 (hu ▸ hin u hcon.1 hcon.2)
    have hv' : v < 0 ∨ 1 < v := by
      by_contra hcon
      rw [not_or, not_lt, not_lt] at hcon
      exact h4 (hv ▸ hin v hcon.1 hcon.2)
    -- the coordinate of the common point
    have hzc : z = a + (s * u + t * v) • (a' - a) := by
      rw [← e, hu, hv]
      have : s = 1 - t := by linarith
      subst this
      module
    obtain ⟨x, y, hx, hy, hxy, e'⟩ := hz
    have hzy : s * u + t * v = y := by
      have : (s * u + t * v - y) • (a' - a) = 0 := by
        have e2 : a + (s * u + t * v) • (a' - a) = a + y • (a' - a) := by
          rw [← hzc, ← e']
          have : x = 1 - y := by linarith
          subst this
          module
        rw [sub_smul, sub_eq_zero]
        exact add_left_cancel e2
      rcases smul_eq_zero.1 this with h | h
      · linarith
      · exact absurd (sub_eq_zero.1 h).symm hne
    have ha : ∀ p q : ℝ, 0 ≤ p → 0 ≤ q → p + q = 1 → p * u + q * v = 0 → a ∈ segment ℝ b b' := by
      intro p q hp hq hpq h0
      refine ⟨p, q, hp, hq, hpq, ?_⟩
      rw [hu, hv]
      have : p = 1 - q := by linarith
      subst this
      have : (1 - q) • (a + u • (a' - a)) + q • (a + v • (a' - a)) = a + ((1 - q) * u + q * v) • (a' - a) := by module
      rw [this, h0, zero_smul, add_zero]
    rcases hu' with hu' | hu' <;> rcases hv' with hv' | hv'
    · nlinarith [mul_neg_of_pos_of_neg hs' hu', mul_neg_of_pos_of_neg ht' hv']
    · have hd : 0 < v - u := by linarith
      refine h1 (ha (v / (v - u)) (-u / (v - u)) (div_nonneg (by linarith) hd.le) (div_nonneg (by linarith) hd.le) ?_ ?_)
      · field_simp; ring
      · field_simp; ring
    · have hd : 0 < u - v := by linarith
      refine h1 (ha (-v / (u - v)) (u / (u - v)) (div_nonneg (by linarith) hd.le) (div_nonneg (by linarith) hd.le) ?_ ?_)
      · field_simp; ring
      · field_simp; ring
    · nlinarith [mul_lt_mul_of_pos_left hu' hs', mul_lt_mul_of_pos_left hv' ht']
  · have : side a a' b' < 0 := by
      by_contra hcon
      nlinarith [mul_pos hs' h]
    exact mul_neg_of_pos_of_neg h this

/-- Two lines and the segments between their ends: if the segments meet, a segment meets the other line or the lines meet. -/
theorem chords_meet {l m : List ℂ} (h : (chordSet l ∩ chordSet m).Nonempty) :
    (chordSet l ∩ lineSet m).Nonempty ∨ (chordSet m ∩ lineSet l).Nonempty ∨ (lineSet l ∩ lineSet m).Nonempty := by
  by_contra hcon
  rw [not_or, not_or, Set.not_nonempty_iff_eq_empty, Set.not_nonempty_iff_eq_empty, Set.not_nonempty_iff_eq_empty] at hcon
  obtain ⟨n1, n2, n3⟩ := hcon
  have d1 : ∀ w, w ∈ chordSet l → w ∉ lineSet m := fun w hw hw' => by have : w ∈ (∅ : Set ℂ) := n1 ▸ ⟨hw, hw'⟩; exact this
  have d2 : ∀ w, w ∈ chordSet m → w ∉ lineSet l := fun w hw hw' => by have : w ∈ (∅ : Set ℂ) := n2 ▸ ⟨hw, hw'⟩; exact this
  have d3 : ∀ w, w ∈ lineSet l → w ∉ lineSet m := fun w hw hw' => by have : w ∈ (∅ : Set ℂ) := n3 ▸ ⟨hw, hw'⟩; exact this
  obtain ⟨z, ⟨a, a', ha, ha', hza⟩, b, b', hb, hb', hzb⟩ := h
  have c1 : chordSet l = segment ℝ a a' := by ext w; simp [chordSet, ha, ha']
  have c2 : chordSet m = segment ℝ b b' := by ext w; simp [chordSet, hb, hb']
  rw [c1] at d1
  rw [c2] at d2
  have mb : b ∈ lineSet m := mem_lineSet_of_mem (List.mem_of_head? hb)
  have mb' : b' ∈ lineSet m := mem_lineSet_of_mem (List.mem_of_getLast? hb')
  have ma : a ∈ lineSet l := mem_lineSet_of_mem (List.mem_of_head? ha)
  have hb1 : b ∉ segment ℝ a a' := fun hw => d1 _ hw mb
  have hb2 : b' ∉ segment ℝ a a' := fun hw => d1 _ hw mb'
  have hsides := cross_sides hza hzb (fun hw => d2 _ hw ma) hb1 hb2
  -- the winding number of the closed curve is the same at both ends of the other line
  have hne : ∀ w, w ∉ lineSet l → a - w ≠ 0 ∧ a' - w ≠ 0 := by
    intro w hw
    constructor <;> intro e <;> rw [sub_eq_zero] at e
    · exact hw (e ▸ ma)
    · exact hw (e ▸ mem_lineSet_of_mem (List.mem_of_getLast? ha'))
  have t1 : turn l b + angle a' a b = turn l b' + angle a' a b' := by
    refine angle_constant (f := fun w => turn l w + angle a' a w) (c := 1) (isPreconnected_lineSet m) (fun w hw => ?_) (fun w hw => ?_) mb mb'
    · have h1 : w ∉ lineSet l := fun h => d3 w h hw
      have h2 : w ∉ segment ℝ a' a := by rw [segment_symm]; exact fun h => d1 w h hw
      exact (turn_continuousAt h1).add (angle_continuousAt h2)
    · have h1 : w ∉ lineSet l := fun h => d3 w h hw
      obtain ⟨e1, e2⟩ := hne w h1
      have : exp (((turn l w + angle a' a w : ℝ) : ℂ) * I) = exp (turn l w * I) * exp (angle a' a w * I) := by
        rw [← exp_add]; push_cast; ring_nf
      rw [this, exp_turn h1 ha ha', angle, exp_arg (div_ne_zero e1 e2)]
      have k1 : ((‖a - w‖ : ℝ) : ℂ) ≠ 0 := by exact_mod_cast (norm_ne_zero_iff.2 e1)
      have k2 : ((‖a' - w‖ : ℝ) : ℂ) ≠ 0 := by exact_mod_cast (norm_ne_zero_iff.2 e2)
      rw [norm_div, norm_div]
      push_cast
      field_simp
  -- along the other segment the angle is continuous after turning it by half a turn
  have hslit : ∀ w ∈ segment ℝ b b', -((a - w) / (a' - w)) ∈ slitPlane := by
    intro w hw
    obtain ⟨e1, e2⟩ := hne w (d2 w hw)
    by_cases hs : side a' a w = 0
    · -- only at the crossing
      have hside : ∀ w, side a' a w = -side a a' w := fun w => by simp only [side]; ring
      have hzz : w = z := by
        obtain ⟨s, t, hs0, ht0, hst, rfl⟩ := hw
        obtain ⟨s', t', hs0', ht0', hst', rfl⟩ := hzb
        have q1 : side a a' (s • b + t • b') = 0 := by have := hside (s • b + t • b'); linarith
        have q2 := side_zero hza
        rw [side_segment hst] at q1
        rw [side_segment hst'] at q2
        have : t = t' := by
          have es : s = 1 - t := by linarith
          have es' : s' = 1 - t' := by linarith
          subst es es'
          have hd : side a a' b - side a a' b' ≠ 0 := by
            intro h0
            have : side a a' b = side a a' b' := by linarith
            rw [this] at hsides
            nlinarith [mul_self_nonneg (side a a' b')]
          have h0 : (t - t') * (side a a' b - side a a' b') = 0 := by linarith
          rcases mul_eq_zero.1 h0 with h | h
          · linarith
          · exact absurd h hd
        subst this
        have : s = s' := by linarith
        rw [this]
      subst hzz
      obtain ⟨s, t, hs0, ht0, hst, rfl⟩ := hza
      have es : s = 1 - t := by linarith
      subst es
      have f1 : a - ((1 - t) • a + t • a') = t • (a - a') := by module
      have f2 : a' - ((1 - t) • a + t • a') = (-(1 - t)) • (a - a') := by module
      rw [f1] at e1 ⊢
      rw [f2] at e2 ⊢
      have g1 : t ≠ 0 := fun h => e1 (by rw [h, zero_smul])
      have g2 : (1 - t) ≠ 0 := fun h => e2 (by rw [h, neg_zero, zero_smul])
      have g3 : a - a' ≠ 0 := fun h => e1 (by rw [h, smul_zero])
      have g2' : ((1 - t : ℝ) : ℂ) ≠ 0 := by exact_mod_cast g2
      have e : -(t • (a - a') / (-(1 - t)) • (a - a')) = ((t / (1 - t) : ℝ) : ℂ) := by
        simp only [real_smul]
        push_cast at g2' ⊢
        field_simp
      rw [e]
      left
      rw [ofReal_re]
      exact div_pos (lt_of_le_of_ne ht0 (Ne.symm g1)) (lt_of_le_of_ne hs0 (Ne.symm g2))
    · right
      rw [neg_im, ratio_im, neg_div, neg_neg]
      exact div_ne_zero hs (by rw [ne_eq, normSq_eq_zero]; exact e2)
  have t2 : turn l b + arg (-((a - b) / (a' - b))) = turn l b' + arg (-((a - b') / (a' - b'))) := by
    refine angle_constant (f := fun w => turn l w + arg (-((a - w) / (a' - w)))) (c := -1) (convex_segment b b').isPreconnected (fun w hw => ?_) (fun w hw => ?_)
      (left_mem_segment ℝ b b') (right_mem_segment ℝ b b')
    · obtain ⟨e1, e2⟩ := hne w (d2 w hw)
      refine (turn_continuousAt (d2 w hw)).add ?_
      exact ContinuousAt.comp (g := arg) (continuousAt_arg (hslit w hw)) (ratio_continuousAt (sub_ne_zero.1 e2)).neg
    · have h1 := d2 w hw
      obtain ⟨e1, e2⟩ := hne w h1
      have : exp (((turn l w + arg (-((a - w) / (a' - w))) : ℝ) : ℂ) * I) = exp (turn l w * I) * exp (arg (-((a - w) / (a' - w))) * I) := by
        rw [← exp_add]; push_cast; ring_nf
      rw [this, exp_turn h1 ha ha', exp_arg (neg_ne_zero.2 (div_ne_zero e1 e2))]
      have k1 : ((‖a - w‖ : ℝ) : ℂ) ≠ 0 := by exact_mod_cast (norm_ne_zero_iff.2 e1)
      have k2 : ((‖a' - w‖ : ℝ) : ℂ) ≠ 0 := by exact_mod_cast (norm_ne_zero_iff.2 e2)
      rw [norm_neg, norm_div, norm_div]
      push_cast
      field_simp
  -- but the two ends are on different sides
  have hdiff : ∀ w, w ∉ lineSet l → (0 < side a a' w → angle a' a w - arg (-((a - w) / (a' - w))) = Real.pi) ∧
      (side a a' w < 0 → angle a' a w - arg (-((a - w) / (a' - w))) = -Real.pi) := by
    intro w hw
    obtain ⟨e1, e2⟩ := hne w hw
    have hpos : 0 < normSq (a' - w) := normSq_pos.2 e2
    have him : ((a - w) / (a' - w)).im = side a a' w / normSq (a' - w) := by
      rw [ratio_im]
      congr 1
      simp only [side]
      ring
    constructor
    · intro h
      rw [angle, arg_neg_eq_arg_sub_pi_of_im_pos (by rw [him]; exact div_pos h hpos)]
      ring
    · intro h
      rw [angle, arg_neg_eq_arg_add_pi_of_im_neg (by rw [him]; exact div_neg_of_neg_of_pos h hpos)]
      ring
  have w1 : b ∉ lineSet l := fun h => d3 b h mb
  have w2 : b' ∉ lineSet l := fun h => d3 b' h mb'
  have hpi := Real.pi_pos
  rcases lt_trichotomy (side a a' b) 0 with h | h | h
  · have h' : 0 < side a a' b' := by
      by_contra hcon
      nlinarith [mul_nonneg_of_nonpos_of_nonpos h.le (not_lt.1 hcon)]
    have := (hdiff b w1).2 h
    have := (hdiff b' w2).1 h'
    linarith
  · rw [h, zero_mul] at hsides
    exact lt_irrefl _ hsides
  · have h' : side a a' b' < 0 := by
      by_contra hcon
      nlinarith [mul_nonneg h.le (not_lt.1 hcon)]
    have := (hdiff b w1).1 h
    have := (hdiff b' w2).2 h'
    linarith

end Planar
end Verif
