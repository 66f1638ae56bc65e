import Verif.Model.Window
import Verif.Lemmas.Select
import Mathlib.Analysis.SpecialFunctions.Exp
import Mathlib.Analysis.Complex.ExponentialBounds

/-! The sampling window of `selectBox` lies inside the range, contains `k` and is shorter. -/

namespace Verif
namespace Sel

theorem winS_facts {l r : Int} (h : 600 < r - l) :
    602 ≤ winN l r ∧ 6 ≤ winZ l r ∧ winZ l r ≤ winS l r ∧ 0 < winS l r ∧ winS l r ≤ winN l r / 2 := by
  have hn : (602 : ℝ) ≤ winN l r := by
    have : ((601 : Int) : ℝ) ≤ ((r - l : Int) : ℝ) := by exact_mod_cast h
    push_cast at this
    unfold winN; linarith
  have hpos : (0 : ℝ) < winN l r := by linarith
  have hz : 6 ≤ winZ l r := by
    unfold winZ
    rw [Real.le_log_iff_exp_le hpos]
    have h1 : Real.exp 6 = Real.exp 1 ^ 6 := by rw [← Real.exp_nat_mul]; norm_num
    have h2 := Real.exp_one_lt_d9
    have h3 : Real.exp 1 ^ 6 ≤ (2.7182818286 : ℝ) ^ 6 := pow_le_pow_left₀ (Real.exp_pos _).le h2.le 6
    have h4 : (2.7182818286 : ℝ) ^ 6 ≤ 602 := by norm_num
    linarith
  have hs : winZ l r ≤ winS l r := by
    unfold winS
    have := Real.quadratic_le_exp_of_nonneg (x := 2 * winZ l r / 3) (by linarith)
    nlinarith
  refine ⟨hn, hz, hs, by linarith, ?_⟩
  unfold winS
  have h1 : Real.exp (2 * winZ l r / 3) ≤ Real.exp (winZ l r) := Real.exp_le_exp.2 (by linarith)
  have h2 : Real.exp (winZ l r) = winN l r := Real.exp_log hpos
  linarith

theorem winSqrt_le {l r : Int} (h : 600 < r - l) :
    0 ≤ Real.sqrt (winZ l r * winS l r * (winN l r - winS l r) / winN l r) ∧
      Real.sqrt (winZ l r * winS l r * (winN l r - winS l r) / winN l r) ≤ winS l r := by
  obtain ⟨hn, hz, hzs, hs, hsn⟩ := winS_facts h
  refine ⟨Real.sqrt_nonneg _, ?_⟩
  rw [Real.sqrt_le_left hs.le, div_le_iff₀ (by linarith)]
  have h1 : winZ l r * winS l r ≤ winS l r ^ 2 := by nlinarith
  have h2 : 0 ≤ winN l r - winS l r := by linarith
  calc winZ l r * winS l r * (winN l r - winS l r) ≤ winS l r ^ 2 * (winN l r - winS l r) := mul_le_mul_of_nonneg_right h1 h2
    _ ≤ winS l r ^ 2 * winN l r := mul_le_mul_of_nonneg_left (by linarith) (by positivity)

theorem winReal_ok : WinOK 600 winReal := by
  intro k l r hlk hkr h
  obtain ⟨hn, hz, hzs, hs, hsn⟩ := winS_facts h
  obtain ⟨q0, q1⟩ := winSqrt_le h
  have hNpos : (0 : ℝ) < winN l r := by linarith
  have hNe : (winN l r : ℝ) = (r : ℝ) - l + 1 := rfl
  have hIe : (winI k l : ℝ) = (k : ℝ) - l + 1 := rfl
  have hi0 : (0 : ℝ) ≤ winI k l := by
    have : (l : ℝ) ≤ k := by exact_mod_cast hlk
    linarith
  have hi1 : winI k l ≤ winN l r := by
    have : (k : ℝ) ≤ r := by exact_mod_cast hkr
    linarith
  -- the parts of the window before and after `k`
  have hA : 0 ≤ winI k l * winS l r / winN l r := by positivity
  have hB : 0 ≤ (winN l r - winI k l) * winS l r / winN l r := div_nonneg (mul_nonneg (by linarith) hs.le) hNpos.le
  have hAB : winI k l * winS l r / winN l r + (winN l r - winI k l) * winS l r / winN l r = winS l r := by field_simp; ring
  have h1 : -(winI k l * winS l r / winN l r) + winD k l r < 1 := by
    unfold winD winSign
    split
    · nlinarith
    · rename_i hc
      have h2 : winS l r / 2 ≤ winI k l * winS l r / winN l r := by
        rw [le_div_iff₀ hNpos]; nlinarith
      nlinarith
  have h2 : 0 ≤ (winN l r - winI k l) * winS l r / winN l r + winD k l r := by
    unfold winD winSign
    split
    · rename_i hc
      have h2 : winS l r / 2 ≤ (winN l r - winI k l) * winS l r / winN l r := by
        rw [le_div_iff₀ hNpos]; nlinarith
      nlinarith
    · nlinarith
  have f1 : ⌊(k : ℝ) - winI k l * winS l r / winN l r + winD k l r⌋ ≤ k := by
    rw [← Int.lt_add_one_iff, Int.floor_lt]; push_cast; linarith
  have f2 : k ≤ ⌊(k : ℝ) + (winN l r - winI k l) * winS l r / winN l r + winD k l r⌋ := by
    rw [Int.le_floor]; linarith
  refine ⟨le_max_left _ _, max_le hlk f1, le_min hkr f2, min_le_left _ _, ?_⟩
  have g1 : ((winReal k l r).2 : ℝ) ≤ (k : ℝ) + (winN l r - winI k l) * winS l r / winN l r + winD k l r :=
    le_trans (Int.cast_le.2 (min_le_right _ _)) (Int.floor_le _)
  have g2 : (k : ℝ) - winI k l * winS l r / winN l r + winD k l r < ((winReal k l r).1 : ℝ) + 1 :=
    lt_of_lt_of_le (Int.lt_floor_add_one _) (by
      have : ((⌊(k : ℝ) - winI k l * winS l r / winN l r + winD k l r⌋ : Int) : ℝ) ≤ ((winReal k l r).1 : ℝ) := Int.cast_le.2 (le_max_right _ _)
      linarith)
  have : (((winReal k l r).2 - (winReal k l r).1 : Int) : ℝ) < ((r - l : Int) : ℝ) := by push_cast; linarith
  exact_mod_cast this

theorem winReal_sample : winReal 17 0 618 = (8, 44) := by
  have hN : winN 0 618 = 619 := by unfold winN; norm_num
  have hI : winI 17 0 = 18 := by unfold winI; norm_num
  have hZ1 : 63 / 10 < winZ 0 618 := by
    unfold winZ; rw [hN]
    rw [Real.lt_log_iff_exp_lt (by norm_num)]
    have h1 : Real.exp (63 / 10) ^ 10 = Real.exp 1 ^ 63 := by rw [← Real.exp_nat_mul, ← Real.exp_nat_mul]; norm_num
    have h3 : Real.exp 1 ^ 63 ≤ (2.7182818286 : ℝ) ^ 63 := pow_le_pow_left₀ (Real.exp_pos _).le Real.exp_one_lt_d9.le 63
    have h4 : (2.7182818286 : ℝ) ^ 63 < 619 ^ 10 := by norm_num
    exact lt_of_pow_lt_pow_left₀ 10 (by norm_num) (by linarith)
  have hZ2 : winZ 0 618 < 7 := by
    unfold winZ; rw [hN]
    rw [Real.log_lt_iff_lt_exp (by norm_num)]
    have h1 : Real.exp 7 = Real.exp 1 ^ 7 := by rw [← Real.exp_nat_mul]; norm_num
    have h3 : (2.7182818283 : ℝ) ^ 7 ≤ Real.exp 1 ^ 7 := pow_le_pow_left₀ (by norm_num) Real.exp_one_gt_d9.le 7
    have h4 : (619 : ℝ) < (2.7182818283 : ℝ) ^ 7 := by norm_num
    linarith
  have hcube : Real.exp (2 * winZ 0 618 / 3) ^ 3 = 619 ^ 2 := by
    rw [← Real.exp_nat_mul]
    have : ((3 : ℕ) : ℝ) * (2 * winZ 0 618 / 3) = ((2 : ℕ) : ℝ) * winZ 0 618 := by push_cast; ring
    rw [this, Real.exp_nat_mul, winZ, hN, Real.exp_log (by norm_num)]
  have hS1 : 36.3 < winS 0 618 := by
    have : (72.6 : ℝ) < Real.exp (2 * winZ 0 618 / 3) :=
      lt_of_pow_lt_pow_left₀ 3 (Real.exp_pos _).le (by rw [hcube]; norm_num)
    unfold winS; linarith
  have hS2 : winS 0 618 < 36.35 := by
    have : Real.exp (2 * winZ 0 618 / 3) < (72.7 : ℝ) :=
      lt_of_pow_lt_pow_left₀ 3 (by norm_num) (by rw [hcube]; norm_num)
    unfold winS; linarith
  have hsign : winSign 17 0 618 = -1 := by unfold winSign; rw [hN, hI, if_pos (by norm_num)]
  have hq1 : 14.66 < Real.sqrt (winZ 0 618 * winS 0 618 * (winN 0 618 - winS 0 618) / winN 0 618) := by
    apply Real.lt_sqrt_of_sq_lt
    rw [hN, lt_div_iff₀ (by norm_num)]
    have h1 : 63 / 10 * 36.3 < winZ 0 618 * winS 0 618 := by nlinarith
    have h2 : 582.65 < 619 - winS 0 618 := by linarith
    nlinarith
  have hq2 : Real.sqrt (winZ 0 618 * winS 0 618 * (winN 0 618 - winS 0 618) / winN 0 618) < 15.6 := by
    rw [Real.sqrt_lt' (by norm_num)]
    rw [hN, div_lt_iff₀ (by norm_num)]
    have h1 : winZ 0 618 * winS 0 618 < 7 * 36.35 := by nlinarith
    have h2 : 619 - winS 0 618 < 582.7 := by linarith
    have h3 : 0 < winZ 0 618 * winS 0 618 := by nlinarith
    nlinarith
  have hD1 : -7.8 < winD 17 0 618 := by unfold winD; rw [hsign]; linarith
  have hD2 : winD 17 0 618 < -7.32 := by unfold winD; rw [hsign]; linarith
  unfold winReal
  rw [hN, hI]
  have e1 : ⌊((17 : Int) : ℝ) - 18 * winS 0 618 / 619 + winD 17 0 618⌋ = 8 := by
    rw [Int.floor_eq_iff]; push_cast; constructor <;> linarith
  have e2 : ⌊((17 : Int) : ℝ) + (619 - 18) * winS 0 618 / 619 + winD 17 0 618⌋ = 44 := by
    rw [Int.floor_eq_iff]; push_cast; constructor <;> linarith
  rw [e1, e2]; rfl

end Sel
end Verif
