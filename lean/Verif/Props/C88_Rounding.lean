import Verif.Lemmas.Rounding
import Verif.Props.C81_Frechet
import Verif.Props.C87_ConstrainedMotion

/-! C88: the synchronised score computed with rounding. -/

set_option linter.unusedSectionVars false

namespace Verif

open Real

/-- arithmetic with rounding: as long as the exact result stays below `Ω`, an operation returns a finite number; its error is at most `κ` times the result, for
multiplications, divisions and the length of a vector (which may underflow) at most `η` more. The sine and the cosine of the direction of a vector are within `κ`.
Nothing is said about results above `Ω`, about infinities and NaN. -/
structure Arith.Rounds (A : Arith ℝ) (κ η Ω : ℝ) : Prop where
  add : ∀ x y, |x + y| ≤ Ω → ∃ r, A.add (.fin x) (.fin y) = .fin r ∧ |r - (x + y)| ≤ κ * |x + y|
  sub : ∀ x y, |x - y| ≤ Ω → ∃ r, A.sub (.fin x) (.fin y) = .fin r ∧ |r - (x - y)| ≤ κ * |x - y|
  mul : ∀ x y, |x * y| ≤ Ω → ∃ r, A.mul (.fin x) (.fin y) = .fin r ∧ |r - x * y| ≤ κ * |x * y| + η
  div : ∀ x y, y ≠ 0 → |x / y| ≤ Ω → ∃ r, A.div (.fin x) (.fin y) = .fin r ∧ |r - x / y| ≤ κ * |x / y| + η
  sqrt : ∀ x, 0 ≤ x → x ≤ Ω → ∃ r, A.sqrt (.fin x) = .fin r ∧ |r - √x| ≤ κ * √x
  magnitude : ∀ x y, √(x ^ 2 + y ^ 2) ≤ Ω → ∃ r, A.magnitude (.fin x) (.fin y) = .fin r ∧ |r - √(x ^ 2 + y ^ 2)| ≤ κ * √(x ^ 2 + y ^ 2) + η
  cosOf : ∀ x y, ∃ r, A.cosOf (.fin x) (.fin y) = .fin r ∧ |r| ≤ 1 ∧ |r * √(x ^ 2 + y ^ 2) - x| ≤ κ * √(x ^ 2 + y ^ 2)
  sinOf : ∀ x y, ∃ r, A.sinOf (.fin x) (.fin y) = .fin r ∧ |r| ≤ 1 ∧ |r * √(x ^ 2 + y ^ 2) - y| ≤ κ * √(x ^ 2 + y ^ 2)

/-- exact arithmetic is the special case without errors and without limit -/
theorem Arith.Exact.rounds {A : Arith ℝ} (hA : A.Exact) (Ω : ℝ) : A.Rounds 0 0 Ω where
  add x y _ := ⟨_, hA.add x y, by simp⟩
  sub x y _ := ⟨_, hA.sub x y, by simp⟩
  mul x y _ := ⟨_, hA.mul x y, by simp⟩
  div x y h _ := ⟨_, hA.div x y h, by simp⟩
  sqrt x h _ := ⟨_, hA.sqrt x h, by simp⟩
  magnitude x y _ := ⟨_, hA.magnitude x y, by simp [sq]⟩
  cosOf x y := ⟨_, hA.cosOf x y, abs_cos_le_one _, by rw [sq, sq, mul_comm, magnitude_cos]; simp⟩
  sinOf x y := ⟨_, hA.sinOf x y, abs_sin_le_one _, by rw [sq, sq, mul_comm, magnitude_sin]; simp⟩

section
variable {A : Arith ℝ} {κ η Ω : ℝ}

/-- sed.go:71-76 the sign is dropped -/
theorem abs_rounds (hA : A.Rounds κ η Ω) (k0 : 0 ≤ κ) (k1 : κ ≤ 1 / 64) {z : ℝ} (hz : |z| ≤ Ω) :
    ∃ r, (if (Fl.fin z).lt (.fin 0) then A.sub (.fin 0) (.fin z) else .fin z) = Fl.fin r ∧ 0 ≤ r ∧ |(r - |z|)| ≤ κ * |z| := by
  by_cases h : z < 0
  · rw [if_pos (by simpa using h)]
    obtain ⟨r, e, hr⟩ := hA.sub 0 z (by simpa using hz)
    rw [zero_sub, abs_neg, abs_of_neg h] at hr
    refine ⟨r, e, ?_, by rwa [abs_of_neg h]⟩
    have := (abs_le.1 hr).1
    nlinarith
  · rw [if_neg (by simpa using h), abs_of_nonneg (not_lt.1 h)]
    exact ⟨z, rfl, not_lt.1 h, by simpa using mul_nonneg k0 (not_lt.1 h)⟩

/-- sed.go:82-85 for the larger and the smaller number -/
theorem hypot_step (hA : A.Rounds κ η Ω) (k0 : 0 ≤ κ) (k1 : κ ≤ 1 / 64) (n0 : 0 ≤ η) (n1 : η ≤ 1 / 64) {m n : ℝ} (hn : 0 ≤ n) (hnm : n ≤ m)
    (hΩ : 4 + 2 * m ≤ Ω) :
    ∃ r, (if (Fl.fin m).le (.fin 0) && (Fl.fin 0).le (.fin m) then Fl.fin 0
       else A.mul (.fin m) (A.sqrt (A.add (.fin 1) (A.mul (A.div (.fin n) (.fin m)) (A.div (.fin n) (.fin m)))))) = .fin r ∧
      |r - √(m ^ 2 + n ^ 2)| ≤ 7 * κ * √(m ^ 2 + n ^ 2) + 2 * (η * √(m ^ 2 + n ^ 2)) + η := by
  by_cases hm : m = 0
  · subst hm
    obtain rfl : n = 0 := le_antisymm hnm hn
    exact ⟨0, by simp, by simpa using n0⟩
  have m0 : 0 < m := lt_of_le_of_ne (hn.trans hnm) (Ne.symm hm)
  rw [if_neg (by simp only [Fl.fin_le_fin, Bool.and_eq_true, decide_eq_true_eq, not_and]; intro h; exact absurd h (not_le.2 m0))]
  have q0 : 0 ≤ n / m := div_nonneg hn m0.le
  have q1 : n / m ≤ 1 := (div_le_one m0).2 hnm
  obtain ⟨q, eq, hq⟩ := hA.div n m hm (by rw [abs_of_nonneg q0]; linarith)
  rw [abs_of_nonneg q0] at hq
  obtain ⟨b1, b2⟩ := root_bounds k0 k1 n1 q0 q1 hq
  obtain ⟨p, ep, hp⟩ := hA.mul q q (by linarith)
  obtain ⟨b3, b4⟩ := b2 p hp
  obtain ⟨r, er, hr⟩ := hA.add 1 p (by linarith)
  obtain ⟨b5, b6⟩ := b4 r hr
  obtain ⟨w, ew, hw⟩ := hA.sqrt r b5 (by linarith)
  have hwe := root_err k0 k1 n0 n1 q0 q1 hq hp hr hw
  have hs2 : √(1 + n / m * (n / m)) ≤ 1.5 := by
    rw [Real.sqrt_le_left (by norm_num)]
    nlinarith
  have hs0 := Real.sqrt_nonneg (1 + n / m * (n / m))
  have hw2 : |w| ≤ 1.7 := by
    have := abs_le.1 hwe
    rw [abs_le]; constructor <;> linarith [this.1, this.2]
  have hmw : |m * w| ≤ 1.7 * m := by
    rw [abs_mul, abs_of_pos m0, mul_comm]; exact mul_le_mul_of_nonneg_right hw2 m0.le
  obtain ⟨h, eh, hh⟩ := hA.mul m w (by linarith)
  refine ⟨h, by rw [eq, ep, er, ew, eh], ?_⟩
  have e : √(m ^ 2 + n ^ 2) = m * √(1 + n / m * (n / m)) := by
    rw [show m ^ 2 + n ^ 2 = m ^ 2 * (1 + n / m * (n / m)) by field_simp, Real.sqrt_mul (by positivity), Real.sqrt_sq m0.le]
  have hmH : m ≤ √(m ^ 2 + n ^ 2) := Real.le_sqrt_of_sq_le (by nlinarith)
  have t1 : |m * w - √(m ^ 2 + n ^ 2)| ≤ m * (5 * κ + 2 * η) := by
    rw [e, ← mul_sub, abs_mul, abs_of_pos m0]; exact mul_le_mul_of_nonneg_left hwe m0.le
  have t2 := abs_sub_le h (m * w) (√(m ^ 2 + n ^ 2))
  have t3 := mul_le_mul_of_nonneg_left hmw k0
  have t4 := mul_le_mul_of_nonneg_left hmH k0
  have t5 := mul_le_mul_of_nonneg_left hmH n0
  have t6 := mul_nonneg k0 m0.le
  linarith

/-- sed.go:70-86 the Euclidean norm with rounding -/
theorem hypot_rounds (hA : A.Rounds κ η Ω) (k0 : 0 ≤ κ) (k1 : κ ≤ 1 / 64) (n0 : 0 ≤ η) (n1 : η ≤ 1 / 64) {p q G : ℝ} (hG : G = √(p ^ 2 + q ^ 2))
    (hΩ : 4 + 2.1 * G ≤ Ω) : ∃ r, hypot A (.fin 1) (.fin p) (.fin q) = .fin r ∧ |r - G| ≤ 9 * κ * G + 3 * (η * G) + η := by
  have G0 : 0 ≤ G := hG ▸ Real.sqrt_nonneg _
  have hp : |p| ≤ G := by rw [hG]; exact Real.abs_le_sqrt (by nlinarith)
  have hq : |q| ≤ G := by rw [hG]; exact Real.abs_le_sqrt (by nlinarith)
  obtain ⟨p', ep, p0, hp'⟩ := abs_rounds hA k0 k1 (z := p) (by linarith)
  obtain ⟨q', eq, q0, hq'⟩ := abs_rounds hA k0 k1 (z := q) (by linarith)
  have hH : |√(p' ^ 2 + q' ^ 2) - G| ≤ κ * G := by
    have := norm_rel (x := |p|) (y := |q|) k0 (by rwa [abs_abs]) (by rwa [abs_abs]) (κ := κ) (x' := p') (y' := q')
    rwa [sq_abs, sq_abs, ← hG] at this
  have kG : 0 ≤ κ * G := mul_nonneg k0 G0
  have kG1 : κ * G ≤ 1 / 64 * G := mul_le_mul_of_nonneg_right k1 G0
  have nG : 0 ≤ η * G := mul_nonneg n0 G0
  have hHG := abs_le.1 hH
  have fin : ∀ r, |r - √(p' ^ 2 + q' ^ 2)| ≤ 7 * κ * √(p' ^ 2 + q' ^ 2) + 2 * (η * √(p' ^ 2 + q' ^ 2)) + η → |r - G| ≤ 9 * κ * G + 3 * (η * G) + η := by
    intro r hr
    have t1 := abs_sub_le r (√(p' ^ 2 + q' ^ 2)) G
    have hle : √(p' ^ 2 + q' ^ 2) ≤ 65 / 64 * G := by linarith [hHG.2]
    have t2 := mul_le_mul_of_nonneg_left hle k0
    have t3 := mul_le_mul_of_nonneg_left hle n0
    linarith
  have hle : √(p' ^ 2 + q' ^ 2) ≤ 65 / 64 * G := by linarith [hHG.2]
  have hp1 : p' ≤ √(p' ^ 2 + q' ^ 2) := Real.le_sqrt_of_sq_le (by nlinarith)
  have hq1 : q' ≤ √(p' ^ 2 + q' ^ 2) := Real.le_sqrt_of_sq_le (by nlinarith)
  unfold hypot
  simp only [ep, eq]
  by_cases h : p' < q'
  · simp only [Fl.fin_lt_fin, h, decide_true, if_true]
    obtain ⟨r, e, hr⟩ := hypot_step hA k0 k1 n0 n1 p0 h.le (by linarith)
    rw [add_comm] at hr
    exact ⟨r, e, fin r hr⟩
  · simp only [Fl.fin_lt_fin, h, decide_false, Bool.false_eq_true, if_false]
    obtain ⟨r, e, hr⟩ := hypot_step hA k0 k1 n0 n1 q0 (not_lt.1 h) (by linarith)
    exact ⟨r, e, fin r hr⟩

/-- sed.go:65-67 the square of the norm with rounding -/
theorem squareHypot_rounds (hA : A.Rounds κ η Ω) (k0 : 0 ≤ κ) (k1 : κ ≤ 1 / 64) (n0 : 0 ≤ η) (n1 : η ≤ 1 / 64) {p q : ℝ} (hΩ : 2 * (p ^ 2 + q ^ 2) + 1 ≤ Ω) :
    ∃ r, squareHypot A (.fin p) (.fin q) = .fin r ∧ |r - (p ^ 2 + q ^ 2)| ≤ 2.1 * κ * (p ^ 2 + q ^ 2) + 2.1 * η := by
  have hp := sq_nonneg p
  have hq := sq_nonneg q
  obtain ⟨a, ea, ha⟩ := hA.mul p p (by rw [← sq, abs_of_nonneg hp]; linarith)
  obtain ⟨b, eb, hb⟩ := hA.mul q q (by rw [← sq, abs_of_nonneg hq]; linarith)
  rw [← sq, abs_of_nonneg hp] at ha
  rw [← sq, abs_of_nonneg hq] at hb
  have t1 : |a + b - (p ^ 2 + q ^ 2)| ≤ κ * (p ^ 2 + q ^ 2) + 2 * η := by
    rw [show a + b - (p ^ 2 + q ^ 2) = (a - p ^ 2) + (b - q ^ 2) by ring]
    have := abs_add_le (a - p ^ 2) (b - q ^ 2)
    linarith
  have kG : κ * (p ^ 2 + q ^ 2) ≤ 1 / 64 * (p ^ 2 + q ^ 2) := mul_le_mul_of_nonneg_right k1 (by linarith)
  have kG0 : 0 ≤ κ * (p ^ 2 + q ^ 2) := mul_nonneg k0 (by linarith)
  have t2 : |a + b| ≤ 65 / 64 * (p ^ 2 + q ^ 2) + 2 * η := by
    have := abs_le.1 t1
    rw [abs_le]; constructor <;> linarith [this.1, this.2]
  obtain ⟨r, er, hr⟩ := hA.add a b (by linarith)
  refine ⟨r, by rw [squareHypot, ea, eb, er], ?_⟩
  have t3 := abs_sub_le r (a + b) (p ^ 2 + q ^ 2)
  have t4 := mul_le_mul_of_nonneg_left t2 k0
  have t5 : κ * η ≤ 1 / 64 * η := mul_le_mul_of_nonneg_right k1 n0
  linarith

/-- sed.go:45-46 one coordinate: `N` is the length of the computed differences, `m` the computed distance travelled, `c` the computed cosine or sine -/
theorem coord_rounds (hA : A.Rounds κ η Ω) (k0 : 0 ≤ κ) (k1 : κ ≤ 1 / 64) (n0 : 0 ≤ η) {a b p d c s r t R D L N m : ℝ} (ha : |a| ≤ R) (hb : |b| ≤ R)
    (hp : |p| ≤ R) (L0 : 0 ≤ L) (L3 : L ≤ 2.9 * R) (hD : r - s = D) (D0 : 0 < D) (lam0 : 0 ≤ (t - s) / D) (lam1 : (t - s) / D ≤ 1)
    (hN : |N - L| ≤ κ * L) (hm : |m - L * ((t - s) / D)| ≤ 8 * κ * L + 3 * η + 2 * (η * D)) (hba : |b - a| ≤ L) (hd : |d - (b - a)| ≤ κ * |b - a|)
    (hc1 : |c| ≤ 1) (hc : |c * N - d| ≤ κ * N) (hΩ : 8 * R + 16 * η + 16 * (η * D) + D ≤ Ω) :
    ∃ x, A.sub (.fin p) (A.add (.fin a) (A.mul (.fin m) (.fin c))) = .fin x ∧ |x - (p - atTime a b s r t)| ≤ 48 * κ * R + 6 * η + 4 * (η * D) := by
  have R0 : 0 ≤ R := (abs_nonneg _).trans ha
  have nD : 0 ≤ η * D := mul_nonneg n0 D0.le
  have hcd := direction_err k0 k1 L0 hN hba hd hc1 hc
  obtain ⟨w1, w2⟩ := way_err k0 k1 n0 L0 D0.le lam0 lam1 hm hc1 hcd
  obtain ⟨w, ew, hw⟩ := hA.mul m c (by linarith)
  have hw' := w2 w hw
  have hat : |atTime a b s r t| ≤ R := by
    have : atTime a b s r t = (1 - (t - s) / D) * a + (t - s) / D * b := by rw [atTime, hD]; ring
    rw [this]
    refine (abs_add_le _ _).trans ?_
    rw [abs_mul, abs_mul, abs_of_nonneg lam0, abs_of_nonneg (show 0 ≤ 1 - (t - s) / D by linarith)]
    have h1 := mul_le_mul_of_nonneg_left ha (show 0 ≤ 1 - (t - s) / D by linarith)
    have h2 := mul_le_mul_of_nonneg_left hb lam0
    linarith
  have eat : a + w - atTime a b s r t = w - (b - a) * ((t - s) / D) := by rw [atTime, hD]; ring
  have kR : 0 ≤ κ * R := mul_nonneg k0 R0
  have kR1 : κ * R ≤ 1 / 64 * R := mul_le_mul_of_nonneg_right k1 R0
  have kkR : κ * (κ * R) ≤ 1 / 64 * (κ * R) := mul_le_mul_of_nonneg_right k1 kR
  have kLR : κ * L ≤ κ * (2.9 * R) := mul_le_mul_of_nonneg_left L3 k0
  have kn : κ * η ≤ 1 / 64 * η := mul_le_mul_of_nonneg_right k1 n0
  have knD : κ * (η * D) ≤ 1 / 64 * (η * D) := mul_le_mul_of_nonneg_right k1 nD
  have h1 : |a + w - atTime a b s r t| ≤ 40.6 * (κ * R) + 5 * η + 3 * (η * D) := by rw [eat]; linarith
  have h2 : |a + w| ≤ R + (40.6 * (κ * R) + 5 * η + 3 * (η * D)) := by
    have e1 := abs_le.1 h1
    have e2 := abs_le.1 hat
    rw [abs_le]; constructor <;> linarith [e1.1, e1.2, e2.1, e2.2]
  obtain ⟨x, ex, hx⟩ := hA.add a w (by linarith)
  have h3 : |x - atTime a b s r t| ≤ 42.3 * (κ * R) + 5.1 * η + 3.1 * (η * D) := by
    have e1 := abs_sub_le x (a + w) (atTime a b s r t)
    have e2 := mul_le_mul_of_nonneg_left h2 k0
    linarith
  have h4 : |p - x| ≤ 2 * R + (42.3 * (κ * R) + 5.1 * η + 3.1 * (η * D)) := by
    have e1 := abs_le.1 h3
    have e2 := abs_le.1 hat
    have e3 := abs_le.1 hp
    rw [abs_le]; constructor <;> linarith [e1.1, e1.2, e2.1, e2.2, e3.1, e3.2]
  obtain ⟨y, ey, hy⟩ := hA.sub p x (by linarith)
  refine ⟨y, by rw [ew, ex, ey], ?_⟩
  have e1 := abs_sub_le y (p - x) (p - atTime a b s r t)
  rw [show p - x - (p - atTime a b s r t) = -(x - atTime a b s r t) by ring, abs_neg] at e1
  have e2 := mul_le_mul_of_nonneg_left h4 k0
  linarith

/-- what the norm is applied to: both coordinates with rounding -/
theorem sedDist_rounds (hA : A.Rounds κ η Ω) (k0 : 0 ≤ κ) (k1 : κ ≤ 1 / 64) (n0 : 0 ≤ η) (hyp : Fl ℝ → Fl ℝ → Fl ℝ) {ax ay s bx by' r px py t R D : ℝ}
    (hax : |ax| ≤ R) (hay : |ay| ≤ R) (hbx : |bx| ≤ R) (hby : |by'| ≤ R) (hpx : |px| ≤ R) (hpy : |py| ≤ R) (hst : s < r) (hs : s ≤ t) (ht : t ≤ r)
    (hD : r - s = D) (hsp : 4 * R + 2 * η ≤ Ω * D) (hΩ : 8 * R + 16 * η + 16 * (η * D) + D ≤ Ω) :
    ∃ x y, sedDist A hyp (tpt ax ay s) (tpt bx by' r) (tpt px py t) = hyp (.fin x) (.fin y) ∧
      |x - (px - atTime ax bx s r t)| ≤ 48 * κ * R + 6 * η + 4 * (η * D) ∧ |y - (py - atTime ay by' s r t)| ≤ 48 * κ * R + 6 * η + 4 * (η * D) := by
  have D0 : 0 < D := by linarith
  have R0 : 0 ≤ R := (abs_nonneg _).trans hax
  have nD : 0 ≤ η * D := mul_nonneg n0 D0.le
  have bnd : ∀ u v : ℝ, |u| ≤ R → |v| ≤ R → |u - v| ≤ 2 * R := fun u v hu hv => (abs_sub u v).trans (by linarith)
  obtain ⟨dx, edx, hdx⟩ := hA.sub bx ax (by linarith [bnd _ _ hbx hax])
  obtain ⟨dy, edy, hdy⟩ := hA.sub by' ay (by linarith [bnd _ _ hby hay])
  obtain ⟨D', eD, hD'⟩ := hA.sub r s (by rw [hD, abs_of_pos D0]; linarith)
  obtain ⟨s', es, hs'⟩ := hA.sub t s (by rw [abs_of_nonneg (by linarith)]; linarith)
  rw [hD, abs_of_pos D0] at hD'
  rw [abs_of_nonneg (show 0 ≤ t - s by linarith)] at hs'
  generalize hL : √((bx - ax) ^ 2 + (by' - ay) ^ 2) = L at *
  have L0 : 0 ≤ L := hL ▸ Real.sqrt_nonneg _
  have L3 : L ≤ 2.9 * R := by
    rw [← hL, Real.sqrt_le_left (by linarith)]
    have h1 : (bx - ax) ^ 2 ≤ (2 * R) ^ 2 := by rw [← sq_abs]; exact pow_le_pow_left₀ (abs_nonneg _) (bnd _ _ hbx hax) 2
    have h2 : (by' - ay) ^ 2 ≤ (2 * R) ^ 2 := by rw [← sq_abs]; exact pow_le_pow_left₀ (abs_nonneg _) (bnd _ _ hby hay) 2
    nlinarith
  have hN := norm_rel (κ := κ) k0 hdx hdy
  rw [hL] at hN
  have kL : 0 ≤ κ * L := mul_nonneg k0 L0
  have kL1 : κ * L ≤ 1 / 64 * L := mul_le_mul_of_nonneg_right k1 L0
  have kkL : κ * (κ * L) ≤ 1 / 64 * (κ * L) := mul_le_mul_of_nonneg_right k1 kL
  have hN2 : √(dx ^ 2 + dy ^ 2) ≤ L + κ * L := by linarith [(abs_le.1 hN).2]
  obtain ⟨L', eL, hL'⟩ := hA.magnitude dx dy (by linarith)
  have hL'' : |L' - L| ≤ 3 * κ * L + η := by
    have t1 := abs_sub_le L' (√(dx ^ 2 + dy ^ 2)) L
    have t2 := mul_le_mul_of_nonneg_left hN2 k0
    linarith
  have lam0 : 0 ≤ (t - s) / D := div_nonneg (by linarith) D0.le
  have lam1 : (t - s) / D ≤ 1 := (div_le_one D0).2 (by linarith)
  obtain ⟨c1, c2, c3, -, -, -⟩ := ratio_err k0 k1 D0 (by linarith) (by linarith) hD' hs'
  have D0' : 0 < D' := by linarith
  obtain ⟨v, ev, hv⟩ := hA.div L' D' D0'.ne' (by
    have Ω0 : 0 ≤ Ω := by linarith
    rw [abs_div, abs_of_pos D0', div_le_iff₀ D0']
    have h1 : |L'| ≤ L + (3 * κ * L + η) := by
      have := abs_le.1 hL''
      rw [abs_le]; constructor <;> linarith [this.1, this.2]
    have h2 := mul_le_mul_of_nonneg_left c1 Ω0
    linarith)
  obtain ⟨hvs, hm⟩ := travel_err (m := 0) k0 k1 n0 L0 hL'' D0 (by linarith) (show t - s ≤ D by linarith) hD' hs' hv
  clear hm
  obtain ⟨m, em, hm'⟩ := hA.mul v s' (by linarith)
  have hm := (travel_err (m := m) k0 k1 n0 L0 hL'' D0 (by linarith) (show t - s ≤ D by linarith) hD' hs' hv).2 hm'
  obtain ⟨c, ec, hc1, hc⟩ := hA.cosOf dx dy
  obtain ⟨e, ee, he1, he⟩ := hA.sinOf dx dy
  have hxL : |bx - ax| ≤ L := by rw [← hL]; exact Real.abs_le_sqrt (le_add_of_nonneg_right (sq_nonneg _))
  have hyL : |by' - ay| ≤ L := by rw [← hL]; exact Real.abs_le_sqrt (le_add_of_nonneg_left (sq_nonneg _))
  obtain ⟨x, ex, hx⟩ := coord_rounds hA k0 k1 n0 hax hbx hpx L0 L3 hD D0 lam0 lam1 hN hm hxL hdx hc1 hc hΩ
  obtain ⟨y, ey, hy⟩ := coord_rounds hA k0 k1 n0 hay hby hpy L0 L3 hD D0 lam0 lam1 hN hm hyL hdy he1 he hΩ
  refine ⟨x, y, ?_, hx, hy⟩
  simp only [sedDist, tpt, edx, edy, eD, es, eL, ev, em, ec, ee, ex, ey]

/-- the exact distance is at most three times the bound of the coordinates -/
theorem sed_le {a b p : ℂ × ℝ} {R : ℝ} (hab : a.2 < b.2) (h1 : a.2 ≤ p.2) (h2 : p.2 ≤ b.2) (ha : |a.1.re| ≤ R ∧ |a.1.im| ≤ R) (hb : |b.1.re| ≤ R ∧ |b.1.im| ≤ R)
    (hp : |p.1.re| ≤ R ∧ |p.1.im| ≤ R) : ‖p.1 - along a b p.2‖ ≤ 3 * R := by
  have R0 : 0 ≤ R := (abs_nonneg _).trans ha.1
  have l0 : 0 ≤ (p.2 - a.2) / (b.2 - a.2) := div_nonneg (by linarith) (by linarith)
  have l1 : (p.2 - a.2) / (b.2 - a.2) ≤ 1 := (div_le_one (by linarith)).2 (by linarith)
  have key : ∀ u v w : ℝ, |u| ≤ R → |v| ≤ R → |w| ≤ R → (w - atTime u v a.2 b.2 p.2) ^ 2 ≤ (2 * R) ^ 2 := by
    intro u v w hu hv hw
    have e : atTime u v a.2 b.2 p.2 = (1 - (p.2 - a.2) / (b.2 - a.2)) * u + (p.2 - a.2) / (b.2 - a.2) * v := by rw [atTime]; ring
    have : |atTime u v a.2 b.2 p.2| ≤ R := by
      rw [e]
      refine (abs_add_le _ _).trans ?_
      rw [abs_mul, abs_mul, abs_of_nonneg l0, abs_of_nonneg (show 0 ≤ 1 - (p.2 - a.2) / (b.2 - a.2) by linarith)]
      have t1 := mul_le_mul_of_nonneg_left hu (show 0 ≤ 1 - (p.2 - a.2) / (b.2 - a.2) by linarith)
      have t2 := mul_le_mul_of_nonneg_left hv l0
      linarith
    rw [← sq_abs]
    exact pow_le_pow_left₀ (abs_nonneg _) ((abs_sub _ _).trans (by linarith)) 2
  obtain ⟨e1, e2⟩ := atTime_along a b p.2
  rw [Complex.norm_eq_sqrt_sq_add_sq, Real.sqrt_le_left (by linarith), Complex.sub_re, Complex.sub_im, e1, e2]
  have k1 := key _ _ _ ha.1 hb.1 hp.1
  have k2 := key _ _ _ ha.2 hb.2 hp.2
  nlinarith [sq_nonneg R]

/-- the error of the score, for coordinates up to `R` and a move that takes the time `D` -/
def sedError (κ η R D : ℝ) : ℝ := 115 * κ * R + 14 * η * (1 + R + D)

/-- **C88**, the score: with rounding the synchronised score of a vertex is a finite number, and it differs from the distance to the position interpolated in time
by at most `sedError`; the squared score is bounded from below by the square of the distance, up to similar errors. -/
theorem C88_score (hA : A.Rounds κ η Ω) (k0 : 0 ≤ κ) (k1 : κ ≤ 1 / 64) (n0 : 0 ≤ η) (n1 : η ≤ 1 / 64) {a b p : ℂ × ℝ} {R D : ℝ} (hab : a.2 < b.2)
    (h1 : a.2 ≤ p.2) (h2 : p.2 ≤ b.2) (ha : |a.1.re| ≤ R ∧ |a.1.im| ≤ R) (hb : |b.1.re| ≤ R ∧ |b.1.im| ≤ R) (hp : |p.1.re| ≤ R ∧ |p.1.im| ≤ R)
    (hD : b.2 - a.2 = D) (hsp : 4 * R + 2 * η ≤ Ω * D) (hΩ : 10 * R + 20 * η + 20 * (η * D) + D + 4 ≤ Ω) :
    (∃ r, sedDist A (hypot A (.fin 1)) (timed a) (timed b) (timed p) = .fin r ∧ |r - ‖p.1 - along a b p.2‖| ≤ sedError κ η R D) ∧
    (2 * (5 * R + 10 * (η * (1 + D))) ^ 2 + 1 ≤ Ω → ∃ r, sedDist A (squareHypot A) (timed a) (timed b) (timed p) = .fin r ∧
      ∀ ε, 0 ≤ ε → r ≤ (1 + κ) * (ε * ε) + η → ‖p.1 - along a b p.2‖ ≤ ε + (2 * κ * ε + 2 * √η + sedError κ η R D)) := by
  have R0 : 0 ≤ R := (abs_nonneg _).trans ha.1
  have D0 : 0 < D := by linarith
  have nD : 0 ≤ η * D := mul_nonneg n0 D0.le
  have nR : 0 ≤ η * R := mul_nonneg n0 R0
  have kR : 0 ≤ κ * R := mul_nonneg k0 R0
  have kR1 : κ * R ≤ 1 / 64 * R := mul_le_mul_of_nonneg_right k1 R0
  have kn : κ * η ≤ 1 / 64 * η := mul_le_mul_of_nonneg_right k1 n0
  have knD : κ * (η * D) ≤ 1 / 64 * (η * D) := mul_le_mul_of_nonneg_right k1 nD
  have nn : η * η ≤ 1 / 64 * η := mul_le_mul_of_nonneg_right n1 n0
  have nnD : η * (η * D) ≤ 1 / 64 * (η * D) := mul_le_mul_of_nonneg_right n1 nD
  have hG := sed_le hab h1 h2 ha hb hp
  have hc : ∀ hyp, ∃ x y, sedDist A hyp (timed a) (timed b) (timed p) = hyp (.fin x) (.fin y) ∧
      |√(x ^ 2 + y ^ 2) - ‖p.1 - along a b p.2‖| ≤ 72 * (κ * R) + 9 * η + 6 * (η * D) := by
    intro hyp
    obtain ⟨x, y, e, hx, hy⟩ := sedDist_rounds hA k0 k1 n0 hyp ha.1 ha.2 hb.1 hb.2 hp.1 hp.2 hab h1 h2 hD hsp (by linarith)
    refine ⟨x, y, e, ?_⟩
    obtain ⟨e1, e2⟩ := atTime_along a b p.2
    have := norm_err hx hy
    rw [Complex.norm_eq_sqrt_sq_add_sq, Complex.sub_re, Complex.sub_im, e1, e2]
    linarith
  constructor
  · obtain ⟨x, y, e, hxy⟩ := hc (hypot A (.fin 1))
    have g1 : √(x ^ 2 + y ^ 2) ≤ 4.2 * R + 9 * η + 6 * (η * D) := by linarith [(abs_le.1 hxy).2]
    obtain ⟨r, er, hr⟩ := hypot_rounds hA k0 k1 n0 n1 (p := x) (q := y) rfl (by linarith)
    refine ⟨r, e.trans er, ?_⟩
    have t1 := abs_sub_le r (√(x ^ 2 + y ^ 2)) ‖p.1 - along a b p.2‖
    have t2 := mul_le_mul_of_nonneg_left g1 k0
    have t3 := mul_le_mul_of_nonneg_left g1 n0
    rw [sedError]
    linarith
  · intro hΩ2
    obtain ⟨x, y, e, hxy⟩ := hc (squareHypot A)
    have g0 := Real.sqrt_nonneg (x ^ 2 + y ^ 2)
    have g1 : √(x ^ 2 + y ^ 2) ≤ 5 * R + 10 * (η * (1 + D)) := by linarith [(abs_le.1 hxy).2]
    have gs : √(x ^ 2 + y ^ 2) ^ 2 = x ^ 2 + y ^ 2 := Real.sq_sqrt (by positivity)
    have g2 := pow_le_pow_left₀ g0 g1 2
    rw [gs] at g2
    obtain ⟨r, er, hr⟩ := squareHypot_rounds hA k0 k1 n0 n1 (p := x) (q := y) (by linarith)
    refine ⟨r, e.trans er, fun ε ε0 hle => ?_⟩
    have hroot := square_root_err k0 k1 n0 ε0 hr hle
    rw [sedError]
    linarith [(abs_le.1 hxy).1]

/-! ### the simplified line -/

/-- a motion with coordinates up to `R` that takes the time `T` at most, with `τ` at least between two vertices -/
structure Bounded (R T τ : ℝ) (ps : List (ℂ × ℝ)) : Prop where
  re : ∀ p ∈ ps, |p.1.re| ≤ R
  im : ∀ p ∈ ps, |p.1.im| ≤ R
  span : ∀ p ∈ ps, ∀ q ∈ ps, q.2 - p.2 ≤ T
  pos : 0 < τ
  apart : ps.Pairwise (fun p q => τ ≤ q.2 - p.2)

/-- the precision is sufficient and the numbers cannot overflow -/
structure Limits (κ η Ω R T τ : ℝ) : Prop where
  k0 : 0 ≤ κ
  k1 : κ ≤ 1 / 64
  n0 : 0 ≤ η
  n1 : η ≤ 1 / 64
  speed : 4 * R + 2 * η ≤ Ω * τ
  range : 10 * R + 20 * η + 20 * (η * T) + T + 4 ≤ Ω
  square : 2 * (5 * R + 10 * (η * (1 + T))) ^ 2 + 1 ≤ Ω

theorem Bounded.timed {R T τ : ℝ} {ps : List (ℂ × ℝ)} (h : Bounded R T τ ps) : Timed ps := h.apart.imp (fun {p q} hpq => by linarith [h.pos])

/-- the tolerance that is kept with rounding -/
noncomputable def roundedEps (κ η R T ε : ℝ) : ℝ := ε + (2 * κ * ε + 2 * √η + sedError κ η R T)

/-- an accepted score is an exact distance below the larger tolerance -/
theorem accepted_rounds {R T τ ε thr : ℝ} (hA : A.Rounds κ η Ω) (hlim : Limits κ η Ω R T τ) {ps : List (ℂ × ℝ)} (hb : Bounded R T τ ps) (hε : 0 ≤ ε) {square : Bool}
    (hthr : thr ≤ if square then (1 + κ) * (ε * ε) + η else ε) {i t j : Nat} (hit : i < t) (htj : t < j) {a b p : ℂ × ℝ} (ha : ps[i]? = some a)
    (hbj : ps[j]? = some b) (hp : ps[t]? = some p)
    (h : (if square then sedDist A (squareHypot A) else sedDist A (hypot A (.fin 1))) (timed a) (timed b) (timed p) ≠ .nan →
      ((if square then sedDist A (squareHypot A) else sedDist A (hypot A (.fin 1))) (timed a) (timed b) (timed p)).le (.fin thr) = true) :
    ‖p.1 - along a b p.2‖ ≤ roundedEps κ η R T ε := by
  obtain ⟨k0, k1, n0, n1, l1, l2, l3⟩ := hlim
  have mem : ∀ {i : Nat} {x : ℂ × ℝ}, ps[i]? = some x → x ∈ ps := fun h => List.mem_of_getElem? h
  have hlt : ∀ i j : Nat, i < j → ∀ x y, ps[i]? = some x → ps[j]? = some y → τ ≤ y.2 - x.2 := by
    intro i j hij x y hx hy
    obtain ⟨h1, rfl⟩ := List.getElem?_eq_some_iff.1 hx
    obtain ⟨h2, rfl⟩ := List.getElem?_eq_some_iff.1 hy
    exact List.pairwise_iff_getElem.1 hb.apart i j h1 h2 hij
  have t1 := hlt _ _ hit _ _ ha hp
  have t2 := hlt _ _ htj _ _ hp hbj
  have t3 := hlt _ _ (hit.trans htj) _ _ ha hbj
  have t4 := hb.span a (mem ha) b (mem hbj)
  have τ0 := hb.pos
  have R0 : 0 ≤ R := (abs_nonneg _).trans (hb.re a (mem ha))
  have nT : η * (b.2 - a.2) ≤ η * T := mul_le_mul_of_nonneg_left t4 n0
  have nT0 : 0 ≤ η * (b.2 - a.2) := mul_nonneg n0 (by linarith)
  have Ω0 : 0 ≤ Ω := by linarith
  have Ωτ := mul_le_mul_of_nonneg_left t3 Ω0
  obtain ⟨⟨r, er, hr⟩, h2⟩ := C88_score hA k0 k1 n0 n1 (a := a) (b := b) (p := p) (R := R) (by linarith) (by linarith) (by linarith)
    ⟨hb.re a (mem ha), hb.im a (mem ha)⟩ ⟨hb.re b (mem hbj), hb.im b (mem hbj)⟩ ⟨hb.re p (mem hp), hb.im p (mem hp)⟩ rfl (by linarith) (by linarith)
  have herr : sedError κ η R (b.2 - a.2) ≤ sedError κ η R T := by rw [sedError, sedError]; linarith
  have hs0 := Real.sqrt_nonneg η
  have hkε : 0 ≤ κ * ε := mul_nonneg k0 hε
  rw [roundedEps]
  cases square with
  | false =>
    simp only [Bool.false_eq_true, if_false] at h hthr
    rw [er] at h
    have := h (by simp)
    simp only [Fl.fin_le_fin, decide_eq_true_eq] at this
    linarith [(abs_le.1 hr).1]
  | true =>
    simp only [if_true] at h hthr
    obtain ⟨r', er', hr'⟩ := h2 (by
      have : (5 * R + 10 * (η * (1 + (b.2 - a.2)))) ^ 2 ≤ (5 * R + 10 * (η * (1 + T))) ^ 2 := pow_le_pow_left₀ (by linarith) (by linarith) 2
      linarith)
    rw [er'] at h
    have := h (by simp)
    simp only [Fl.fin_le_fin, decide_eq_true_eq] at this
    linarith [hr' ε hε (by linarith)]

theorem roundedEps_nonneg {R T τ ε : ℝ} (hlim : Limits κ η Ω R T τ) (hε : 0 ≤ ε) (hR : 0 ≤ R) (hT : 0 ≤ T) : 0 ≤ roundedEps κ η R T ε := by
  have := hlim.k0
  have := hlim.n0
  rw [roundedEps, sedError]
  positivity

section
variable {C B : Type}

/-- with exact arithmetic and the larger tolerance the pieces would be accepted too -/
theorem Cut.rounds {R T τ ε thr : ℝ} (hA : A.Rounds κ η Ω) (hlim : Limits κ η Ω R T τ) {ps : List (ℂ × ℝ)} (hb : Bounded R T τ ps) (hε : 0 ≤ ε) {square : Bool}
    (hthr : thr ≤ if square then (1 + κ) * (ε * ε) + η else ε) {out : List Int}
    (h : Cut ((ps.length : Int) - 1) (ps.map timed) out (if square then sedDist A (squareHypot A) else sedDist A (hypot A (.fin 1))) (.fin thr)) :
    Cut ((ps.length : Int) - 1) (ps.map timed) out (if false then sedDist realArith (squareHypot realArith) else sedDist realArith (hypot realArith (.fin 1)))
      (.fin (if false then roundedEps κ η R T ε * roundedEps κ η R T ε else roundedEps κ η R T ε)) := by
  obtain ⟨rs, hc, rfl, htol⟩ := h
  refine ⟨rs, hc, rfl, fun r hr t t1 t2 a b p ha hbj hp _ => ?_⟩
  have hm := hc.mem hr
  have hh := htol r hr t t1 t2 a b p ha hbj hp
  simp only [List.getElem?_map, Option.map_eq_some_iff] at ha hbj hp
  obtain ⟨a, ha, rfl⟩ := ha
  obtain ⟨b, hbj, rfl⟩ := hbj
  obtain ⟨p, hp, rfl⟩ := hp
  have hab : a.2 < b.2 := by
    obtain ⟨h1, rfl⟩ := List.getElem?_eq_some_iff.1 ha
    obtain ⟨h2, rfl⟩ := List.getElem?_eq_some_iff.1 hbj
    exact List.pairwise_iff_getElem.1 hb.timed _ _ h1 h2 (by omega)
  simp only [Bool.false_eq_true, if_false]
  rw [(sed_norm realArith_exact hab).1, Fl.fin_le_fin, decide_eq_true_eq]
  exact accepted_rounds hA hlim hb hε hthr (by omega) (by omega) ha hbj hp hh

theorem RootCut.rounds {R T τ ε thr : ℝ} (hA : A.Rounds κ η Ω) (hlim : Limits κ η Ω R T τ) {ps : List (ℂ × ℝ)} (hb : Bounded R T τ ps) (hε : 0 ≤ ε) {square : Bool}
    (hthr : thr ≤ if square then (1 + κ) * (ε * ε) + η else ε) {out : List Int}
    (h : RootCut ((ps.length : Int) - 1) (ps.map timed) out (if square then sedDist A (squareHypot A) else sedDist A (hypot A (.fin 1))) (.fin thr)) :
    RootCut ((ps.length : Int) - 1) (ps.map timed) out (if false then sedDist realArith (squareHypot realArith) else sedDist realArith (hypot realArith (.fin 1)))
      (.fin (if false then roundedEps κ η R T ε * roundedEps κ η R T ε else roundedEps κ η R T ε)) := by
  obtain ⟨rs, hc, rfl, htol⟩ := h
  refine ⟨rs, hc, rfl, fun r hr => ?_⟩
  obtain ⟨s, s0, s1, s2, s3, hs⟩ := htol r hr
  refine ⟨s, s0, s1, s2, s3, fun t t1 t2 a b p ha hbj hp _ => ?_⟩
  have hh := hs t t1 t2 a b p ha hbj hp
  simp only [List.getElem?_map, Option.map_eq_some_iff] at ha hbj hp
  obtain ⟨a, ha, rfl⟩ := ha
  obtain ⟨b, hbj, rfl⟩ := hbj
  obtain ⟨p, hp, rfl⟩ := hp
  have hab : a.2 < b.2 := by
    obtain ⟨h1, rfl⟩ := List.getElem?_eq_some_iff.1 ha
    obtain ⟨h2, rfl⟩ := List.getElem?_eq_some_iff.1 hbj
    exact List.pairwise_iff_getElem.1 hb.timed _ _ h1 h2 (by omega)
  simp only [Bool.false_eq_true, if_false]
  rw [(sed_norm realArith_exact hab).1, Fl.fin_le_fin, decide_eq_true_eq]
  exact accepted_rounds hA hlim hb hε hthr (by omega) (by omega) ha hbj hp hh

/-- the bounds of a line with a vertex -/
theorem Bounded.nonneg {R T τ : ℝ} {ps : List (ℂ × ℝ)} (h : Bounded R T τ ps) (h2 : 2 ≤ ps.length) : 0 ≤ R ∧ 0 ≤ T := by
  have hm : ps[0] ∈ ps := List.getElem_mem _
  exact ⟨(abs_nonneg _).trans (h.re _ hm), by simpa using h.span _ hm _ hm⟩

/-- **C88**: with rounding, `dp.Simplify` with the synchronised score (plain, or squared with the rounded square of the tolerance) returns a motion that is within
`roundedEps` of the input motion at every time; the Fréchet distance of the two lines is at most that. -/
theorem C88_simplify {R T τ : ℝ} (hA : A.Rounds κ η Ω) (hlim : Limits κ η Ω R T τ) (lib : Lib (Fl ℝ × Fl ℝ × Fl ℝ) C B ℝ) (ids : Nat → Int) (g : Nat)
    (ps : List (ℂ × ℝ)) (hb : Bounded R T τ ps) (square : Bool) (ε thr : ℝ) (hε : 0 ≤ ε) (ht0 : 0 ≤ thr) (ht1 : thr ≤ (1 + κ) * (ε * ε) + η) (inst : Int)
    (hlen : 2 ≤ ps.length) (hhull : HullOk lib (ps.map timed)) (fuel : Nat) (out : List Int)
    (hrun : dpSimplify lib ids g ⟨some (coordsOf (ps.map timed))⟩ (maxOffset (sedDist A (hypot A (.fin 1))))
      (if square then some (maxOffset (sedDist A (squareHypot A))) else none) (.fin ε) (.fin thr) inst fuel = .ok out) :
    Follows (roundedEps κ η R T ε) ps (verticesAt ps out) ∧ FrechetLe (roundedEps κ η R T ε) (ps.map Prod.fst) ((verticesAt ps out).map Prod.fst) := by
  have h := dpSimplify_cut lib ids g (ps.map timed) square _ _ _ _ inst (by simpa using hlen) hhull fuel out
    (by cases square <;> simp [Fl.fin_le_fin, hε, ht0]) hrun
  rw [← apply_ite Fl.fin, List.length_map] at h
  have := h.rounds hA hlim hb hε (by cases square <;> simp [ht1])
  have h0 := roundedEps_nonneg (ε := ε) hlim hε (hb.nonneg hlen).1 (hb.nonneg hlen).2
  exact ⟨Follows.of_cut realArith_exact h0 hb.timed this, Frechet.of_sync_cut realArith_exact h0 hb.timed this⟩

/-- **C88** with constraints: twice that -/
theorem C88_constrained {R T τ : ℝ} (hA : A.Rounds κ η Ω) (hlim : Limits κ η Ω R T τ) [LinearOrder B] [BoundedOrder B]
    {env : Env (Fl ℝ × Fl ℝ × Fl ℝ) C B ℝ} {ps : List (ℂ × ℝ)} {ids : Nat → Int} {h : Int}
    {cv : List Int} {dirty d : Int → Bool} {out : Out (Fl ℝ × Fl ℝ × Fl ℝ) C B} {fuel : Nat} {ε thr : ℝ} (hε : 0 ≤ ε) (square : Bool) (he : EnvOK env)
    (hl : LnrOK env.lnr) (hi : InstOK env h (ps.map timed)) (hb : Bounded R T τ ps)
    (hinj : Function.Injective ids) (hcv : ∀ i ∈ cv, 0 ≤ i ∧ i < ps.length)
    (hsc : (env.inst h).scoreFn = maxOffset (if square then sedDist A (squareHypot A) else sedDist A (hypot A (.fin 1))))
    (hrel : (env.inst h).rel = scoreRelation (.fin thr)) (hthr : thr ≤ if square then (1 + κ) * (ε * ε) + η else ε)
    (hr : simplify env ids h cv dirty fuel = .ok (out, d)) :
    Follows (2 * roundedEps κ η R T ε) ps (verticesAt ps out.simple) ∧
      FrechetLe (2 * roundedEps κ η R T ε) (ps.map Prod.fst) ((verticesAt ps out.simple).map Prod.fst) := by
  have hlen : 2 ≤ ps.length := by simpa using hi.two
  have h := simplify_rootCut (pts := fun _ => ps.map timed) he hl hi hinj (by simpa using hcv) hsc hrel hr
  rw [List.length_map] at h
  exact Follows.of_rootCut realArith_exact (roundedEps_nonneg hlim hε (hb.nonneg hlen).1 (hb.nonneg hlen).2) hb.timed (h.rounds hA hlim hb hε hthr)

/-- **C88** for a feature class -/
theorem C88_feature_class {R T τ : ℝ} (hA : A.Rounds κ η Ω) (hlim : Limits κ η Ω R T τ) [LinearOrder B] [BoundedOrder B]
    {env : Env (Fl ℝ × Fl ℝ × Fl ℝ) C B ℝ} {ps : Int → List (ℂ × ℝ)} {ids : Nat → Int}
    {idsOf : Int → Nat → Int} {handles : List Int} {o : Opts ℝ} {dirty : Int → Bool} {fuel : Nat} {res : List (Int × Out (Fl ℝ × Fl ℝ × Fl ℝ) C B)}
    (hc : ClassOK env (fun h => (ps h).map timed) ids idsOf handles) (hr : simplifyFeatureClass env ids idsOf handles o dirty fuel = .ok res) {h : Int}
    {out : Out (Fl ℝ × Fl ℝ × Fl ℝ) C B} (hm : (h, out) ∈ res) (hb : Bounded R T τ (ps h)) (hlen : 2 ≤ (ps h).length) {ε thr : ℝ} (hε : 0 ≤ ε) (square : Bool)
    (hsc : (env.inst h).scoreFn = maxOffset (if square then sedDist A (squareHypot A) else sedDist A (hypot A (.fin 1))))
    (hrel : (env.inst h).rel = scoreRelation (.fin thr)) (hthr : thr ≤ if square then (1 + κ) * (ε * ε) + η else ε) :
    Follows (2 * roundedEps κ η R T ε) (ps h) (verticesAt (ps h) out.simple) ∧
      FrechetLe (2 * roundedEps κ η R T ε) ((ps h).map Prod.fst) ((verticesAt (ps h) out.simple).map Prod.fst) := by
  have h := fc_rootCut hc hr hm hsc hrel
  rw [List.length_map] at h
  exact Follows.of_rootCut realArith_exact (roundedEps_nonneg hlim hε (hb.nonneg hlen).1 (hb.nonneg hlen).2) hb.timed (h.rounds hA hlim hb hε hthr)

end
end
/-! ### concrete cases -/

/-- double precision with coordinates up to ten million metres, a span of a billion seconds and a millisecond at least between two vertices: the limits are met
and the tolerance grows by two thousandths of a millimetre and `2⁻⁴⁹` of itself. (`2⁻⁵⁰` is some units in the last place and allows for the library functions; `2⁻²⁰⁰`
and `2²⁵⁰` leave room for underflow and overflow of squares.) -/
example : Limits (1 / 2 ^ 50) (1 / 2 ^ 200) (2 ^ 250) (10 ^ 7) (10 ^ 9) (1 / 10 ^ 3) := by constructor <;> norm_num

example (ε : ℝ) : roundedEps (1 / 2 ^ 50) (1 / 2 ^ 200) (10 ^ 7) (10 ^ 9) ε ≤ ε + 1 / 2 ^ 49 * ε + 2 / 10 ^ 6 := by
  have : √(1 / 2 ^ 200 : ℝ) = 1 / 2 ^ 100 := by
    rw [show (1 / 2 ^ 200 : ℝ) = (1 / 2 ^ 100) ^ 2 by rw [div_pow, one_pow, ← pow_mul], Real.sqrt_sq (by positivity)]
  rw [roundedEps, sedError, this]
  have : (2 * (1 / 2 ^ 100) + (115 * (1 / 2 ^ 50) * 10 ^ 7 + 14 * (1 / 2 ^ 200) * (1 + 10 ^ 7 + 10 ^ 9)) : ℝ) ≤ 2 / 10 ^ 6 := by norm_num
  have e : (2 * (1 / 2 ^ 50) * ε : ℝ) = 1 / 2 ^ 49 * ε := by ring
  linarith

/-- an arithmetic that rounds: every result is one percent too large, sine and cosine one percent too small -/
noncomputable def skewArith : Arith ℝ where
  add a b := match a, b with | .fin x, .fin y => .fin ((x + y) * 1.01) | _, _ => .nan
  sub a b := match a, b with | .fin x, .fin y => .fin ((x - y) * 1.01) | _, _ => .nan
  mul a b := match a, b with | .fin x, .fin y => .fin ((x * y) * 1.01) | _, _ => .nan
  div a b := match a, b with | .fin x, .fin y => if y = 0 then .nan else .fin ((x / y) * 1.01) | _, _ => .nan
  sqrt a := match a with | .fin x => if x < 0 then .nan else .fin (√x * 1.01) | _ => .nan
  magnitude a b := match a, b with | .fin x, .fin y => .fin (√(x ^ 2 + y ^ 2) * 1.01) | _, _ => .nan
  cosOf a b := match a, b with | .fin x, .fin y => .fin (cos (sedDirection x y) * 0.99) | _, _ => .nan
  sinOf a b := match a, b with | .fin x, .fin y => .fin (sin (sedDirection x y) * 0.99) | _, _ => .nan

theorem skewArith_rounds (Ω : ℝ) : skewArith.Rounds (1 / 100) 0 Ω := by
  have h : ∀ z : ℝ, |z * 1.01 - z| ≤ 1 / 100 * |z| := fun z => by
    rw [show z * 1.01 - z = 1 / 100 * z by ring, abs_mul, abs_of_pos (by norm_num : (0 : ℝ) < 1 / 100)]
  have h' : ∀ z : ℝ, |z * 1.01 - z| ≤ 1 / 100 * |z| + 0 := fun z => by rw [add_zero]; exact h z
  have hn : ∀ z : ℝ, 0 ≤ z → |z * 1.01 - z| ≤ 1 / 100 * z := fun z hz => by simpa [abs_of_nonneg hz] using h z
  have trig : ∀ c x N : ℝ, |c| ≤ 1 → 0 ≤ N → N * c = x → |c * 0.99| ≤ 1 ∧ |c * 0.99 * N - x| ≤ 1 / 100 * N := by
    rintro c x N hc hN rfl
    constructor
    · rw [abs_mul, abs_of_pos (by norm_num : (0 : ℝ) < 0.99)]; linarith
    · rw [show c * 0.99 * N - N * c = -(1 / 100) * (N * c) by ring, abs_mul, abs_neg, abs_of_pos (by norm_num : (0 : ℝ) < 1 / 100), abs_mul, abs_of_nonneg hN]
      have := mul_le_of_le_one_right hN hc
      linarith
  refine ⟨fun x y _ => ⟨_, rfl, h _⟩, fun x y _ => ⟨_, rfl, h _⟩, fun x y _ => ⟨_, rfl, h' _⟩, fun x y hy _ => ⟨_, if_neg hy, h' _⟩,
    fun x hx _ => ⟨_, if_neg (not_lt.2 hx), hn _ (Real.sqrt_nonneg _)⟩, fun x y _ => ⟨_, rfl, by rw [add_zero]; exact hn _ (Real.sqrt_nonneg _)⟩, fun x y => ⟨_, rfl, ?_⟩,
    fun x y => ⟨_, rfl, ?_⟩⟩
  · exact trig _ _ _ (abs_cos_le_one _) (Real.sqrt_nonneg _) (by rw [sq, sq]; exact magnitude_cos x y)
  · exact trig _ _ _ (abs_sin_le_one _) (Real.sqrt_nonneg _) (by rw [sq, sq]; exact magnitude_sin x y)

/-- limits that every motion of some size meets -/
theorem some_limits {κ R T τ : ℝ} (k0 : 0 ≤ κ) (k1 : κ ≤ 1 / 64) (hR : 0 ≤ R) (hT : 0 ≤ T) (hτ : 0 < τ) : ∃ Ω, Limits κ 0 Ω R T τ := by
  refine ⟨4 * R / τ + (10 * R + T + 4) + (2 * (5 * R) ^ 2 + 1), k0, k1, le_rfl, by norm_num, ?_, ?_, ?_⟩
  · have e : 4 * R / τ * τ = 4 * R := div_mul_cancel₀ _ hτ.ne'
    have : 0 ≤ (10 * R + T + 4 + (2 * (5 * R) ^ 2 + 1)) * τ := by positivity
    linarith
  · have : 0 ≤ 4 * R / τ := by positivity
    have : 0 ≤ 2 * (5 * R) ^ 2 + 1 := by positivity
    linarith
  · have : 0 ≤ 4 * R / τ := by positivity
    simp only [zero_mul, mul_zero, add_zero]
    linarith

/-- with this arithmetic `dp.Simplify` of any motion of some size returns, and what it returns is as near as the theorem says -/
example {R T τ : ℝ} (ps : List (ℂ × ℝ)) (h2 : 2 ≤ ps.length) (hb : Bounded R T τ ps) : ∃ out,
    dpSimplify motionLib (fun n => n) 0 ⟨some (coordsOf (ps.map timed))⟩ (maxOffset (sedDist skewArith (hypot skewArith (.fin 1))))
      (if true then some (maxOffset (sedDist skewArith (squareHypot skewArith))) else none) (.fin (1 / 2)) (.fin (1 / 2 * (1 / 2) * 1.01)) 9 (2 * ps.length) =
      .ok out ∧ Follows (roundedEps (1 / 100) 0 R T (1 / 2)) ps (verticesAt ps out) := by
  obtain ⟨out, h, -⟩ := C08_simple motionLib (fun n => (n : Int)) 0 (ps.map timed) (maxOffset (sedDist skewArith (hypot skewArith (.fin 1))))
    (some (maxOffset (sedDist skewArith (squareHypot skewArith)))) (.fin (1 / 2))
    (.fin (1 / 2 * (1 / 2) * 1.01)) 9 (by simpa using h2) (motionLib_hullOk _)
    (maxOffset_splitsInside _ _ (by simp only [relationOf, squareScoreRelation, Fl.fin_le_fin, decide_eq_true_eq]; norm_num) _) (2 * ps.length) (by simp)
  obtain ⟨Ω, hlim⟩ := some_limits (κ := 1 / 100) (by norm_num) (by norm_num) (hb.nonneg h2).1 (hb.nonneg h2).2 hb.pos
  exact ⟨out, h, (C88_simplify (skewArith_rounds Ω) hlim motionLib _ 0 ps hb true (1 / 2) _ (by norm_num) (by norm_num) (by norm_num) 9 h2 (motionLib_hullOk _) _ out h).1⟩

/-- with constraints and without rounding -/
example {R T τ : ℝ} (ps : List (ℂ × ℝ)) (h2 : 2 ≤ ps.length) (hb : Bounded R T τ ps) : ∃ fuel out d,
    simplify (constrainedMotion ps) (fun n => (n : Int)) 0 [0, 1] (fun _ => false) fuel = .ok (out, d) ∧
      Follows (2 * roundedEps 0 0 R T (1 / 2)) ps (verticesAt ps out.simple) := by
  have he : EnvOK (constrainedMotion ps) := Demo.env_ok (fun p g => ⟨by simp [motionLib], by simp [motionLib]⟩)
  have hl : LnrOK (constrainedMotion ps).lnr := ⟨fun l => List.Perm.refl l, fun _ _ _ ho => by cases ho⟩
  have hi : InstOK (constrainedMotion ps) 0 (ps.map timed) := by
    have h := motionEnv_instOk h2 hb.timed
    exact ⟨h.pln, h.two, h.hull, h.box, h.inside, h.score, h.ctx⟩
  have hinj : Function.Injective (fun n : Nat => (n : Int)) := fun a b h => by simpa using h
  have hcv : ∀ i ∈ [(0 : Int), 1], 0 ≤ i ∧ i < ps.length := by
    intro i hi
    simp only [List.mem_cons, List.not_mem_nil, or_false] at hi
    omega
  obtain ⟨⟨out, d⟩, N, hN⟩ := C10_terminates (pts := fun _ => ps.map timed) (cv := [0, 1]) he hl hi hinj (by simpa using hcv) (fun _ => false)
  obtain ⟨Ω, hlim⟩ := some_limits (κ := 0) le_rfl (by norm_num) (hb.nonneg h2).1 (hb.nonneg h2).2 hb.pos
  exact ⟨N, out, d, hN N le_rfl, (C88_constrained (thr := 1 / 2 * (1 / 2)) (realArith_exact.rounds Ω) hlim (by norm_num) true he hl hi hb hinj hcv rfl rfl
    (by norm_num) (hN N le_rfl)).1⟩

end Verif
