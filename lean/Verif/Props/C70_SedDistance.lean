import Verif.Props.C03_MaxOffset
import Mathlib.Analysis.SpecialFunctions.Complex.Arg
import Mathlib.Analysis.SpecialFunctions.Sqrt
import Mathlib.Tactic.FieldSimp
import Mathlib.Tactic.Ring

/-! C70: the synchronised score of `offset/sed.go`, computed exactly, is the distance to the position interpolated in time. -/

namespace Verif

open Real

/-- offset/sed.go:56-62 `direction` over the reals; `math.Atan2 y x` is the argument of `x + iy` -/
noncomputable def sedDirection (x y : ℝ) : ℝ :=
  let d := Complex.arg ⟨x, y⟩
  if d < 0 then d + 2 * π else d

/-- arithmetic without rounding: on finite values the operations are those of the real numbers (nothing is said about infinities and NaN) -/
structure Arith.Exact (A : Arith ℝ) : Prop where
  add : ∀ x y, A.add (.fin x) (.fin y) = .fin (x + y)
  sub : ∀ x y, A.sub (.fin x) (.fin y) = .fin (x - y)
  mul : ∀ x y, A.mul (.fin x) (.fin y) = .fin (x * y)
  div : ∀ x y, y ≠ 0 → A.div (.fin x) (.fin y) = .fin (x / y)
  sqrt : ∀ x, 0 ≤ x → A.sqrt (.fin x) = .fin (√x)
  magnitude : ∀ x y, A.magnitude (.fin x) (.fin y) = .fin (√(x * x + y * y))
  cosOf : ∀ x y, A.cosOf (.fin x) (.fin y) = .fin (cos (sedDirection x y))
  sinOf : ∀ x y, A.sinOf (.fin x) (.fin y) = .fin (sin (sedDirection x y))

theorem norm_mk (x y : ℝ) : ‖(⟨x, y⟩ : ℂ)‖ = √(x * x + y * y) := by
  rw [Complex.norm_def, Complex.normSq_mk]

/-- length times cosine is the first coordinate -/
theorem magnitude_cos (x y : ℝ) : √(x * x + y * y) * cos (sedDirection x y) = x := by
  have hc : cos (sedDirection x y) = cos (Complex.arg ⟨x, y⟩) := by
    unfold sedDirection; simp only []; split
    · rw [cos_add_two_pi]
    · rfl
  rw [hc]
  by_cases h : (⟨x, y⟩ : ℂ) = 0
  · have hx : x = 0 := by simpa using congrArg Complex.re h
    have hy : y = 0 := by simpa using congrArg Complex.im h
    subst hx; subst hy; simp
  · rw [Complex.cos_arg h, norm_mk]
    have : √(x * x + y * y) ≠ 0 := by rw [← norm_mk]; exact norm_ne_zero_iff.2 h
    exact mul_div_cancel₀ _ this

/-- length times sine is the second coordinate -/
theorem magnitude_sin (x y : ℝ) : √(x * x + y * y) * sin (sedDirection x y) = y := by
  have hc : sin (sedDirection x y) = sin (Complex.arg ⟨x, y⟩) := by
    unfold sedDirection; simp only []; split
    · rw [sin_add_two_pi]
    · rfl
  rw [hc, Complex.sin_arg, norm_mk]
  by_cases h : (⟨x, y⟩ : ℂ) = 0
  · have hx : x = 0 := by simpa using congrArg Complex.re h
    have hy : y = 0 := by simpa using congrArg Complex.im h
    subst hx; subst hy; simp
  · have : √(x * x + y * y) ≠ 0 := by rw [← norm_mk]; exact norm_ne_zero_iff.2 h
    exact mul_div_cancel₀ _ this

/-- a vertex with a time -/
def tpt (x y t : ℝ) : Fl ℝ × Fl ℝ × Fl ℝ := (.fin x, .fin y, .fin t)

/-- the coordinate at time `t` of something that moves uniformly from `u` at time `s` to `v` at time `r` -/
noncomputable def atTime (u v s r t : ℝ) : ℝ := u + (v - u) * ((t - s) / (r - s))

/-- offset/sed.go:70-86: the Euclidean norm -/
theorem hypot_exact {A : Arith ℝ} (hA : A.Exact) (p q : ℝ) : hypot A (.fin 1) (.fin p) (.fin q) = .fin (√(p ^ 2 + q ^ 2)) := by
  have habs : ∀ z : ℝ, (if (Fl.fin z).lt (.fin 0) then A.sub (.fin 0) (.fin z) else .fin z) = Fl.fin |z| := by
    intro z
    by_cases h : z < 0
    · rw [if_pos (by simpa using h), hA.sub, zero_sub, abs_of_neg h]
    · rw [if_neg (by simpa using h), abs_of_nonneg (not_lt.1 h)]
  unfold hypot
  simp only [habs]
  rw [← sq_abs p, ← sq_abs q]
  generalize hu : |p| = u
  generalize hw : |q| = w
  have u0 : 0 ≤ u := hu ▸ abs_nonneg p
  have w0 : 0 ≤ w := hw ▸ abs_nonneg q
  -- the larger one in front
  have key : ∀ m n : ℝ, 0 ≤ n → n ≤ m →
      (if (Fl.fin m).le (.fin 0) && (Fl.fin 0).le (.fin m) then Fl.fin 0
       else A.mul (.fin m) (A.sqrt (A.add (.fin 1) (A.mul (A.div (.fin n) (.fin m)) (A.div (.fin n) (.fin m)))))) = .fin (√(m ^ 2 + n ^ 2)) := by
    intro m n n0 nm
    by_cases hm : m = 0
    · subst hm
      have : n = 0 := le_antisymm nm n0
      subst this
      simp
    · have m0 : 0 < m := lt_of_le_of_ne (n0.trans nm) (Ne.symm hm)
      rw [if_neg (by simp only [Fl.fin_le_fin, Bool.and_eq_true, decide_eq_true_eq, not_and]; intro h; exact absurd h (not_le.2 m0)), hA.div _ _ hm, hA.mul, hA.add,
        hA.sqrt _ (by positivity), hA.mul]
      congr 1
      rw [show m ^ 2 + n ^ 2 = m ^ 2 * (1 + n / m * (n / m)) by field_simp, Real.sqrt_mul (by positivity), Real.sqrt_sq m0.le]
  by_cases h : u < w
  · simp only [Fl.fin_lt_fin, h, decide_true, if_true]
    rw [key w u u0 h.le, add_comm]
  · simp only [Fl.fin_lt_fin, h, decide_false, Bool.false_eq_true, if_false]
    exact key u w w0 (not_lt.1 h)

theorem sedDist_exact {A : Arith ℝ} (hA : A.Exact) (hyp : Fl ℝ → Fl ℝ → Fl ℝ) {ax ay s bx by' r px py t : ℝ} (hst : s ≠ r) :
    sedDist A hyp (tpt ax ay s) (tpt bx by' r) (tpt px py t) = hyp (.fin (px - atTime ax bx s r t)) (.fin (py - atTime ay by' s r t)) := by
  have hr : r - s ≠ 0 := sub_ne_zero.2 hst.symm
  have h1 := magnitude_cos (bx - ax) (by' - ay)
  have h2 := magnitude_sin (bx - ax) (by' - ay)
  simp only [sedDist, tpt, hA.sub, hA.magnitude, hA.div _ _ hr, hA.mul, hA.cosOf, hA.sinOf, hA.add]
  rw [show √((bx - ax) * (bx - ax) + (by' - ay) * (by' - ay)) / (r - s) * (t - s) * cos (sedDirection (bx - ax) (by' - ay)) =
      √((bx - ax) * (bx - ax) + (by' - ay) * (by' - ay)) * cos (sedDirection (bx - ax) (by' - ay)) * ((t - s) / (r - s)) by ring,
    show √((bx - ax) * (bx - ax) + (by' - ay) * (by' - ay)) / (r - s) * (t - s) * sin (sedDirection (bx - ax) (by' - ay)) =
      √((bx - ax) * (bx - ax) + (by' - ay) * (by' - ay)) * sin (sedDirection (bx - ax) (by' - ay)) * ((t - s) / (r - s)) by ring, h1, h2]
  rfl

/-- **C70**: with exact arithmetic and different times at both ends, the score of a vertex is its distance to the position, at the time of the vertex, of
something that moves uniformly from the first to the last vertex; the squared score is the square of it. -/
theorem C70_distance {A : Arith ℝ} (hA : A.Exact) {ax ay s bx by' r px py t : ℝ} (hst : s ≠ r) :
    sedDist A (hypot A (.fin 1)) (tpt ax ay s) (tpt bx by' r) (tpt px py t) =
      .fin (√((px - atTime ax bx s r t) ^ 2 + (py - atTime ay by' s r t) ^ 2)) ∧
    sedDist A (squareHypot A) (tpt ax ay s) (tpt bx by' r) (tpt px py t) =
      .fin ((px - atTime ax bx s r t) ^ 2 + (py - atTime ay by' s r t) ^ 2) := by
  refine ⟨by rw [sedDist_exact hA _ hst, hypot_exact hA], ?_⟩
  rw [sedDist_exact hA _ hst, squareHypot, hA.mul, hA.mul, hA.add, sq, sq]

/-- **C70**: a vertex that lies where the uniform motion is at its time scores zero, and only such a vertex does -/
theorem C70_zero_iff {A : Arith ℝ} (hA : A.Exact) {ax ay s bx by' r px py t : ℝ} (hst : s ≠ r) :
    sedDist A (hypot A (.fin 1)) (tpt ax ay s) (tpt bx by' r) (tpt px py t) = .fin 0 ↔ px = atTime ax bx s r t ∧ py = atTime ay by' s r t := by
  rw [(C70_distance hA hst).1, Fl.fin.injEq, Real.sqrt_eq_zero (by positivity)]
  constructor
  · intro h
    have h1 : (px - atTime ax bx s r t) ^ 2 = 0 := by nlinarith [sq_nonneg (px - atTime ax bx s r t), sq_nonneg (py - atTime ay by' s r t)]
    have h2 : (py - atTime ay by' s r t) ^ 2 = 0 := by nlinarith [sq_nonneg (px - atTime ax bx s r t), sq_nonneg (py - atTime ay by' s r t)]
    exact ⟨sub_eq_zero.1 (pow_eq_zero_iff (by decide) |>.1 h1), sub_eq_zero.1 (pow_eq_zero_iff (by decide) |>.1 h2)⟩
  · rintro ⟨rfl, rfl⟩; simp

/-- the operations of the real numbers; division by zero and operations on exceptional values give NaN -/
noncomputable def realArith : Arith ℝ where
  add a b := match a, b with | .fin x, .fin y => .fin (x + y) | _, _ => .nan
  sub a b := match a, b with | .fin x, .fin y => .fin (x - y) | _, _ => .nan
  mul a b := match a, b with | .fin x, .fin y => .fin (x * y) | _, _ => .nan
  div a b := match a, b with | .fin x, .fin y => if y = 0 then .nan else .fin (x / y) | _, _ => .nan
  sqrt a := match a with | .fin x => if x < 0 then .nan else .fin (√x) | _ => .nan
  magnitude a b := match a, b with | .fin x, .fin y => .fin (√(x * x + y * y)) | _, _ => .nan
  cosOf a b := match a, b with | .fin x, .fin y => .fin (cos (sedDirection x y)) | _, _ => .nan
  sinOf a b := match a, b with | .fin x, .fin y => .fin (sin (sedDirection x y)) | _, _ => .nan

/-- the hypothesis can be met -/
theorem realArith_exact : realArith.Exact where
  add _ _ := rfl
  sub _ _ := rfl
  mul _ _ := rfl
  div x y h := by simp only [realArith, if_neg h]
  sqrt x h := by simp only [realArith, if_neg (not_lt.2 h)]
  magnitude _ _ := rfl
  cosOf _ _ := rfl
  sinOf _ _ := rfl

/-- case: from (0, 0) at time 0 to (10, 0) at time 10; at time 2 the motion is at (2, 0), the vertex (5, 4) is 5 away (its distance to the segment is 4) -/
example : sedDist realArith (hypot realArith (.fin 1)) (tpt 0 0 0) (tpt 10 0 10) (tpt 5 4 2) = .fin 5 := by
  rw [(C70_distance realArith_exact (by norm_num)).1]
  congr 1
  unfold atTime
  rw [show ((5 : ℝ) - (0 + (10 - 0) * ((2 - 0) / (10 - 0)))) ^ 2 + (4 - (0 + (0 - 0) * ((2 - 0) / (10 - 0)))) ^ 2 = 5 ^ 2 by norm_num]
  exact Real.sqrt_sq (by norm_num)

end Verif
