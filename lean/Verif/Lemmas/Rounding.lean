import Mathlib.Analysis.SpecialFunctions.Sqrt
import Mathlib.Analysis.Complex.Norm
import Mathlib.Tactic.Linarith
import Mathlib.Tactic.Ring
import Mathlib.Tactic.FieldSimp
import Mathlib.Tactic.NormNum

/-! Propagation of rounding errors through the expressions of `offset/sed.go`, as statements about real numbers. A primed variable is a computed value, the
variable without prime the exact one; `κ` bounds relative errors and `η` absolute ones. -/

namespace Verif

open Real

variable {κ η : ℝ}

/-- the time that has passed, relative to the whole time -/
theorem ratio_err (k0 : 0 ≤ κ) (k1 : κ ≤ 1 / 64) {D D' s s' : ℝ} (hD : 0 < D) (s0 : 0 ≤ s) (s1 : s ≤ D) (hD' : |D' - D| ≤ κ * D) (hs' : |s' - s| ≤ κ * s) :
    63 / 64 * D ≤ D' ∧ 0 ≤ s' ∧ s' ≤ 65 / 64 * D ∧ |s' / D' - s / D| ≤ 2.04 * κ ∧ 0 ≤ s' / D' ∧ s' / D' ≤ 1.04 := by
  have a1 := abs_le.1 hD'
  have a2 := abs_le.1 hs'
  have b1 : κ * D ≤ 1 / 64 * D := mul_le_mul_of_nonneg_right k1 hD.le
  have b2 : κ * s ≤ 1 / 64 * s := mul_le_mul_of_nonneg_right k1 s0
  have b3 : κ * s ≤ κ * D := mul_le_mul_of_nonneg_left s1 k0
  have hD1 : 63 / 64 * D ≤ D' := by linarith [a1.1]
  have hDp : 0 < D' := by linarith
  have s0' : 0 ≤ s' := by linarith [a2.1]
  have hl1 : s / D ≤ 1 := (div_le_one hD).2 s1
  have hl0 : 0 ≤ s / D := div_nonneg s0 hD.le
  have hq : |s' / D' - s / D| ≤ 2.04 * κ := by
    have e : s' / D' - s / D = ((s' - s) - s / D * (D' - D)) / D' := by field_simp; ring
    rw [e, abs_div, abs_of_pos hDp, div_le_iff₀ hDp]
    have h1 := abs_sub (s' - s) (s / D * (D' - D))
    rw [abs_mul, abs_of_nonneg hl0] at h1
    have h2 : s / D * |D' - D| ≤ 1 * (κ * D) := mul_le_mul hl1 hD' (abs_nonneg _) zero_le_one
    have h3 : κ * (63 / 64 * D) ≤ κ * D' := mul_le_mul_of_nonneg_left hD1 k0
    have h4 : 0 ≤ κ * D := mul_nonneg k0 hD.le
    linarith
  refine ⟨hD1, s0', by linarith [a2.2], hq, div_nonneg s0' hDp.le, ?_⟩
  have := (abs_le.1 hq).2
  linarith

/-- sed.go:44 the distance travelled: `mij` is `L`, `v` the speed before and `m` the value after the multiplication -/
theorem travel_err (k0 : 0 ≤ κ) (k1 : κ ≤ 1 / 64) (n0 : 0 ≤ η) {L L' D D' s s' v m : ℝ} (hL : 0 ≤ L) (hL' : |L' - L| ≤ 3 * κ * L + η) (hD : 0 < D) (s0 : 0 ≤ s)
    (s1 : s ≤ D) (hD' : |D' - D| ≤ κ * D) (hs' : |s' - s| ≤ κ * s) (hv : |v - L' / D'| ≤ κ * |L' / D'| + η) :
    |v * s'| ≤ 1.2 * L + 2 * η + 2 * (η * D) ∧ (|m - v * s'| ≤ κ * |v * s'| + η → |m - L * (s / D)| ≤ 8 * κ * L + 3 * η + 2 * (η * D)) := by
  obtain ⟨c1, c2, c3, c4, c5, c6⟩ := ratio_err k0 k1 hD s0 s1 hD' hs'
  have hDp : 0 < D' := by linarith
  have kL : 0 ≤ κ * L := mul_nonneg k0 hL
  have kL1 : κ * L ≤ 1 / 64 * L := mul_le_mul_of_nonneg_right k1 hL
  have kkL : κ * (κ * L) ≤ 1 / 64 * (κ * L) := mul_le_mul_of_nonneg_right k1 kL
  have kn : κ * η ≤ 1 / 64 * η := mul_le_mul_of_nonneg_right k1 n0
  have nD : 0 ≤ η * D := mul_nonneg n0 hD.le
  have knD : κ * (η * D) ≤ 1 / 64 * (η * D) := mul_le_mul_of_nonneg_right k1 nD
  -- without rounding of the quotient
  have h1 : |L' * (s' / D') - L * (s / D)| ≤ 5.2 * (κ * L) + 1.04 * η := by
    have e : L' * (s' / D') - L * (s / D) = (L' - L) * (s' / D') + L * (s' / D' - s / D) := by ring
    rw [e]
    refine (abs_add_le _ _).trans ?_
    rw [abs_mul, abs_mul, abs_of_nonneg hL, abs_of_nonneg c5]
    have t1 : |L' - L| * (s' / D') ≤ (3 * κ * L + η) * 1.04 := mul_le_mul hL' c6 c5 (by linarith)
    have t2 : L * |s' / D' - s / D| ≤ L * (2.04 * κ) := mul_le_mul_of_nonneg_left c4 hL
    linarith
  have hLa : |L'| ≤ 1.05 * L + η := by
    have := abs_le.1 hL'
    rw [abs_le]; constructor <;> linarith [this.1, this.2]
  have h2 : |v * s' - L' * (s' / D')| ≤ 1.11 * (κ * L) + 0.02 * η + 1.02 * (η * D) := by
    have e : v * s' - L' * (s' / D') = (v - L' / D') * s' := by field_simp
    rw [e, abs_mul, abs_of_nonneg c2]
    have t1 : |v - L' / D'| * s' ≤ (κ * |L' / D'| + η) * s' := mul_le_mul_of_nonneg_right hv c2
    have t2 : (κ * |L' / D'| + η) * s' = κ * (|L'| * (s' / D')) + η * s' := by rw [abs_div, abs_of_pos hDp]; ring
    have t3 : |L'| * (s' / D') ≤ (1.05 * L + η) * 1.04 := mul_le_mul hLa c6 c5 (by linarith)
    have t4 := mul_le_mul_of_nonneg_left t3 k0
    have t5 : η * s' ≤ η * (65 / 64 * D) := mul_le_mul_of_nonneg_left c3 n0
    linarith
  have hl1 : s / D ≤ 1 := (div_le_one hD).2 s1
  have hl0 : 0 ≤ s / D := div_nonneg s0 hD.le
  have hLl : L * (s / D) ≤ L := by simpa using mul_le_mul_of_nonneg_left hl1 hL
  have hLl0 : 0 ≤ L * (s / D) := mul_nonneg hL hl0
  have h3 : |v * s' - L * (s / D)| ≤ 6.31 * (κ * L) + 1.06 * η + 1.02 * (η * D) := by
    have := abs_sub_le (v * s') (L' * (s' / D')) (L * (s / D))
    linarith
  have h4 : |v * s'| ≤ 1.1 * L + 1.06 * η + 1.02 * (η * D) := by
    have := abs_le.1 h3
    rw [abs_le]; constructor <;> linarith [this.1, this.2]
  refine ⟨by linarith, fun hm => ?_⟩
  have := abs_sub_le m (v * s') (L * (s / D))
  have t := mul_le_mul_of_nonneg_left h4 k0
  linarith

/-- sed.go:45 one coordinate of the way travelled: `d` is the whole way, `c` the cosine or sine -/
theorem way_err (k0 : 0 ≤ κ) (k1 : κ ≤ 1 / 64) (n0 : 0 ≤ η) {L D lam m d c : ℝ} (hL : 0 ≤ L) (hD : 0 ≤ D) (l0 : 0 ≤ lam) (l1 : lam ≤ 1)
    (hm : |m - L * lam| ≤ 8 * κ * L + 3 * η + 2 * (η * D)) (hc : |c| ≤ 1) (hd : |c * L - d| ≤ 4 * κ * L) :
    |m * c| ≤ 1.2 * L + 3 * η + 2 * (η * D) ∧ ∀ w, |w - m * c| ≤ κ * |m * c| + η → |w - d * lam| ≤ 14 * κ * L + 5 * η + 3 * (η * D) := by
  have kL : 0 ≤ κ * L := mul_nonneg k0 hL
  have kL1 : κ * L ≤ 1 / 64 * L := mul_le_mul_of_nonneg_right k1 hL
  have kn : κ * η ≤ 1 / 64 * η := mul_le_mul_of_nonneg_right k1 n0
  have nD : 0 ≤ η * D := mul_nonneg n0 hD
  have knD : κ * (η * D) ≤ 1 / 64 * (η * D) := mul_le_mul_of_nonneg_right k1 nD
  have hm' : |m| ≤ 1.2 * L + 3 * η + 2 * (η * D) := by
    have := abs_le.1 hm
    have a : L * lam ≤ L := by simpa using mul_le_mul_of_nonneg_left l1 hL
    have b : 0 ≤ L * lam := mul_nonneg hL l0
    rw [abs_le]; constructor <;> linarith [this.1, this.2]
  have hmc : |m * c| ≤ 1.2 * L + 3 * η + 2 * (η * D) := by
    rw [abs_mul]
    exact (mul_le_of_le_one_right (abs_nonneg _) hc).trans hm'
  refine ⟨hmc, fun w hw => ?_⟩
  have e : m * c - d * lam = (m - L * lam) * c + lam * (c * L - d) := by ring
  have h1 : |m * c - d * lam| ≤ 12 * κ * L + 3 * η + 2 * (η * D) := by
    rw [e]
    refine (abs_add_le _ _).trans ?_
    rw [abs_mul, abs_mul, abs_of_nonneg l0]
    have t1 := mul_le_of_le_one_right (abs_nonneg (m - L * lam)) hc
    have t2 := mul_le_of_le_one_left (abs_nonneg (c * L - d)) l1
    linarith
  have := abs_sub_le w (m * c) (d * lam)
  have t := mul_le_mul_of_nonneg_left hmc k0
  linarith

/-- cosine or sine of the computed differences against the exact differences -/
theorem direction_err (k0 : 0 ≤ κ) (k1 : κ ≤ 1 / 64) {L N d d' c : ℝ} (hL : 0 ≤ L) (hN : |N - L| ≤ κ * L) (hdL : |d| ≤ L) (hd : |d' - d| ≤ κ * |d|) (hc : |c| ≤ 1)
    (h : |c * N - d'| ≤ κ * N) : |c * L - d| ≤ 4 * κ * L := by
  have kL : 0 ≤ κ * L := mul_nonneg k0 hL
  have kkL : κ * (κ * L) ≤ 1 / 64 * (κ * L) := mul_le_mul_of_nonneg_right k1 kL
  have e : c * L - d = (c * N - d') + (d' - d) - c * (N - L) := by ring
  rw [e]
  have h1 := abs_sub ((c * N - d') + (d' - d)) (c * (N - L))
  have h2 := abs_add_le (c * N - d') (d' - d)
  have h3 : |c * (N - L)| ≤ κ * L := by
    rw [abs_mul]; exact (mul_le_of_le_one_left (abs_nonneg _) hc).trans hN
  have h4 : κ * N ≤ κ * (L + κ * L) := mul_le_mul_of_nonneg_left (by linarith [(abs_le.1 hN).2]) k0
  have h5 : κ * |d| ≤ κ * L := mul_le_mul_of_nonneg_left hdL k0
  linarith

/-- the Euclidean norm of two numbers -/
theorem norm_err {x y x' y' e : ℝ} (hx : |x' - x| ≤ e) (hy : |y' - y| ≤ e) : |√(x' ^ 2 + y' ^ 2) - √(x ^ 2 + y ^ 2)| ≤ 1.5 * e := by
  have n : ∀ a b : ℝ, √(a ^ 2 + b ^ 2) = ‖(⟨a, b⟩ : ℂ)‖ := fun a b => by rw [Complex.norm_eq_sqrt_sq_add_sq]
  rw [n, n]
  refine (abs_norm_sub_norm_le _ _).trans ?_
  rw [Complex.norm_eq_sqrt_sq_add_sq]
  have e0 : 0 ≤ e := (abs_nonneg _).trans hx
  refine Real.sqrt_le_iff.2 ⟨by linarith, ?_⟩
  simp only [Complex.sub_re, Complex.sub_im]
  have h1 : (x' - x) ^ 2 ≤ e ^ 2 := by rw [← sq_abs]; exact pow_le_pow_left₀ (abs_nonneg _) hx 2
  have h2 : (y' - y) ^ 2 ≤ e ^ 2 := by rw [← sq_abs]; exact pow_le_pow_left₀ (abs_nonneg _) hy 2
  nlinarith [sq_nonneg e]

/-- relative errors of both numbers -/
theorem norm_rel {x y x' y' : ℝ} (k0 : 0 ≤ κ) (hx : |x' - x| ≤ κ * |x|) (hy : |y' - y| ≤ κ * |y|) :
    |√(x' ^ 2 + y' ^ 2) - √(x ^ 2 + y ^ 2)| ≤ κ * √(x ^ 2 + y ^ 2) := by
  have n : ∀ a b : ℝ, √(a ^ 2 + b ^ 2) = ‖(⟨a, b⟩ : ℂ)‖ := fun a b => by rw [Complex.norm_eq_sqrt_sq_add_sq]
  conv_lhs => rw [n, n]
  refine (abs_norm_sub_norm_le _ _).trans ?_
  rw [Complex.norm_eq_sqrt_sq_add_sq]
  refine Real.sqrt_le_iff.2 ⟨by positivity, ?_⟩
  simp only [Complex.sub_re, Complex.sub_im]
  rw [mul_pow, Real.sq_sqrt (by positivity)]
  have h1 : (x' - x) ^ 2 ≤ (κ * |x|) ^ 2 := by rw [← sq_abs]; exact pow_le_pow_left₀ (abs_nonneg _) hx 2
  have h2 : (y' - y) ^ 2 ≤ (κ * |y|) ^ 2 := by rw [← sq_abs (y' - y)]; exact pow_le_pow_left₀ (abs_nonneg _) hy 2
  rw [mul_pow, sq_abs] at h1 h2
  linarith

/-- the values before the root stay small -/
theorem root_bounds (k0 : 0 ≤ κ) (k1 : κ ≤ 1 / 64) (n1 : η ≤ 1 / 64) {q q' : ℝ} (q0 : 0 ≤ q) (q1 : q ≤ 1) (hq : |q' - q| ≤ κ * q + η) :
    |q' * q'| ≤ 2 ∧ ∀ p, |p - q' * q'| ≤ κ * |q' * q'| + η → |1 + p| ≤ 3 ∧ ∀ r, |r - (1 + p)| ≤ κ * |1 + p| → 0 ≤ r ∧ r ≤ 4 := by
  have a1 : |q' - q| ≤ κ + η := hq.trans (by nlinarith)
  have a2 : |q'| ≤ 1.04 := by
    have := abs_le.1 a1
    rw [abs_le]; constructor <;> linarith [this.1, this.2]
  have h2 : |q' * q'| ≤ 1.0816 := by
    rw [abs_mul]
    have := mul_le_mul a2 a2 (abs_nonneg _) (by norm_num)
    linarith
  refine ⟨by linarith, fun p hp => ?_⟩
  have hp' : |p - q' * q'| ≤ 1 / 30 := hp.trans (by have := mul_le_mul k1 h2 (abs_nonneg _) (by norm_num); linarith)
  have b := abs_le.1 hp'
  have c := abs_le.1 h2
  have d : 0 ≤ q' * q' := mul_self_nonneg _
  have h3 : |1 + p| ≤ 2.12 := by rw [abs_le]; constructor <;> linarith [b.1, b.2, c.1, c.2]
  refine ⟨by linarith, fun r hr => ?_⟩
  have hr' : |r - (1 + p)| ≤ 1 / 30 := hr.trans (by have := mul_le_mul k1 h3 (abs_nonneg _) (by norm_num); linarith)
  have e := abs_le.1 hr'
  constructor <;> linarith [b.1, b.2, c.1, c.2, e.1, e.2]

/-- sed.go:85 `1 + q * q` and its root, for the quotient `q` of the smaller by the larger number -/
theorem root_err (k0 : 0 ≤ κ) (k1 : κ ≤ 1 / 64) (n0 : 0 ≤ η) (n1 : η ≤ 1 / 64) {q q' p r w : ℝ} (q0 : 0 ≤ q) (q1 : q ≤ 1) (hq : |q' - q| ≤ κ * q + η)
    (hp : |p - q' * q'| ≤ κ * |q' * q'| + η) (hr : |r - (1 + p)| ≤ κ * |1 + p|) (hw : |w - √r| ≤ κ * √r) :
    |w - √(1 + q * q)| ≤ 5 * κ + 2 * η := by
  have a1 : |q' - q| ≤ κ + η := hq.trans (by nlinarith)
  have a2 : |q'| ≤ 1.04 := by
    have := abs_le.1 a1
    rw [abs_le]; constructor <;> linarith [this.1, this.2]
  have h1 : |q' * q' - q * q| ≤ 2.04 * (κ + η) := by
    rw [show q' * q' - q * q = (q' - q) * (q' + q) by ring, abs_mul]
    have : |q' + q| ≤ 2.04 := by
      have := abs_le.1 a2
      rw [abs_le]; constructor <;> linarith [this.1, this.2]
    have := mul_le_mul a1 this (abs_nonneg _) (by linarith)
    linarith
  have h2 : |q' * q'| ≤ 1.0816 := by
    rw [abs_mul]
    have := mul_le_mul a2 a2 (abs_nonneg _) (by norm_num)
    linarith
  have h3 : |p - q * q| ≤ 3.1216 * κ + 3.04 * η := by
    have := abs_sub_le p (q' * q') (q * q)
    have t := mul_le_mul_of_nonneg_left h2 k0
    linarith
  have hqq : q * q ≤ 1 := by nlinarith
  have hqq0 : 0 ≤ q * q := mul_nonneg q0 q0
  have h4 : |1 + p| ≤ 2.1 := by
    have := abs_le.1 h3
    rw [abs_le]; constructor <;> linarith [this.1, this.2]
  have h5 : |r - (1 + q * q)| ≤ 5.23 * κ + 3.04 * η := by
    have := abs_sub_le r (1 + p) (1 + q * q)
    rw [show 1 + p - (1 + q * q) = p - q * q by ring] at this
    have t := mul_le_mul_of_nonneg_left h4 k0
    linarith
  have hr0 : 0.85 ≤ r := by have := (abs_le.1 h5).1; linarith
  have hr1 : r ≤ 2.25 := by have := (abs_le.1 h5).2; linarith
  have s1 : 0.9 ≤ √r := by rw [Real.le_sqrt' (by norm_num)]; linarith
  have s2 : √r ≤ 1.5 := by rw [Real.sqrt_le_left (by norm_num)]; linarith
  have s3 : 1 ≤ √(1 + q * q) := by rw [Real.one_le_sqrt]; linarith
  have h6 : |√r - √(1 + q * q)| ≤ 3 * κ + 2 * η := by
    have e : (√r - √(1 + q * q)) * (√r + √(1 + q * q)) = r - (1 + q * q) := by
      have e1 := Real.mul_self_sqrt (show 0 ≤ r by linarith)
      have e2 := Real.mul_self_sqrt (show 0 ≤ 1 + q * q by linarith)
      linear_combination e1 - e2
    have e' : |√r - √(1 + q * q)| * (√r + √(1 + q * q)) ≤ 5.23 * κ + 3.04 * η := by
      rw [← abs_of_nonneg (show 0 ≤ √r + √(1 + q * q) by linarith), ← abs_mul, e]; exact h5
    have : |√r - √(1 + q * q)| * 1.9 ≤ |√r - √(1 + q * q)| * (√r + √(1 + q * q)) := mul_le_mul_of_nonneg_left (by linarith) (abs_nonneg _)
    linarith
  have := abs_sub_le w (√r) (√(1 + q * q))
  have t := mul_le_mul_of_nonneg_left s2 k0
  linarith

/-- a computed square below the square of the tolerance -/
theorem square_root_err (k0 : 0 ≤ κ) (k1 : κ ≤ 1 / 64) (n0 : 0 ≤ η) {S r ε : ℝ} (ε0 : 0 ≤ ε) (hr : |r - S| ≤ 2.1 * κ * S + 2.1 * η)
    (hle : r ≤ (1 + κ) * (ε * ε) + η) : √S ≤ (1 + 2 * κ) * ε + 2 * √η := by
  have s0 := Real.sqrt_nonneg η
  rw [Real.sqrt_le_left (by positivity)]
  have l1 := (abs_le.1 hr).1
  have e2 : √η * √η = η := Real.mul_self_sqrt n0
  have q1 : 0 ≤ ε * √η := mul_nonneg ε0 s0
  have q3 : 0 ≤ ε * ε := mul_self_nonneg ε
  have l2 : (1 - 2.1 * κ) * S ≤ (1 + κ) * (ε * ε) + 3.1 * η := by linarith
  have l3 : (1 - 2.1 * κ) * ((1 + 2 * κ) * ε + 2 * √η) ^ 2 = (1 - 2.1 * κ) * (1 + 2 * κ) ^ 2 * (ε * ε) + 4 * ((1 - 2.1 * κ) * (1 + 2 * κ) * (ε * √η)) +
      4 * ((1 - 2.1 * κ) * η) := by linear_combination 4 * (1 - 2.1 * κ) * e2
  have l4 : (1 + κ) * (ε * ε) ≤ (1 - 2.1 * κ) * (1 + 2 * κ) ^ 2 * (ε * ε) := by
    refine mul_le_mul_of_nonneg_right ?_ q3
    have : (1 - 2.1 * κ) * (1 + 2 * κ) ^ 2 - (1 + κ) = κ * (0.9 - 4.4 * κ - 8.4 * κ ^ 2) := by ring
    have h4 : κ ^ 2 ≤ 1 / 64 * κ := by rw [sq]; exact mul_le_mul_of_nonneg_right k1 k0
    have h3 : 0 ≤ κ * (0.9 - 4.4 * κ - 8.4 * κ ^ 2) := mul_nonneg k0 (by linarith)
    linarith
  have l5 : 0 ≤ (1 - 2.1 * κ) * (1 + 2 * κ) * (ε * √η) := mul_nonneg (mul_nonneg (by linarith) (by linarith)) q1
  have l6 : 3.1 * η ≤ 4 * ((1 - 2.1 * κ) * η) := by
    have := mul_le_mul_of_nonneg_right k1 n0
    linarith
  have l7 : (1 - 2.1 * κ) * S ≤ (1 - 2.1 * κ) * ((1 + 2 * κ) * ε + 2 * √η) ^ 2 := by linarith
  exact le_of_mul_le_mul_left l7 (by linarith)

end Verif
