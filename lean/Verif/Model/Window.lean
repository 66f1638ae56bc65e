import Verif.Model.Select
import Mathlib.Analysis.SpecialFunctions.Log.Basic
import Mathlib.Analysis.SpecialFunctions.Sqrt

/-!
hdb/select.go:39-48: the sampling window of `selectBox` for long ranges, over the real numbers (the code computes in float64).
-/

namespace Verif
namespace Sel

/-- hdb/select.go:39 `fn` -/
def winN (l r : Int) : ℝ := (r : ℝ) - l + 1

/-- hdb/select.go:40 `fi` -/
def winI (k l : Int) : ℝ := (k : ℝ) - l + 1

/-- hdb/select.go:41 `fz` -/
noncomputable def winZ (l r : Int) : ℝ := Real.log (winN l r)

/-- hdb/select.go:42-43 `fs` -/
noncomputable def winS (l r : Int) : ℝ := 0.5 * Real.exp (2 * winZ l r / 3)

open Classical in
/-- hdb/select.go:44-47 `fsn` -/
noncomputable def winSign (k l r : Int) : ℝ := if winI k l - winN l r / 2 < 0 then -1 else 1

/-- hdb/select.go:48 `fsd` -/
noncomputable def winD (k l r : Int) : ℝ := 0.5 * Real.sqrt (winZ l r * winS l r * (winN l r - winS l r) / winN l r) * winSign k l r

/-- hdb/select.go:49-50 `newLeft`, `newRight` -/
noncomputable def winReal (k l r : Int) : Int × Int :=
  (max l ⌊(k : ℝ) - winI k l * winS l r / winN l r + winD k l r⌋,
   min r ⌊(k : ℝ) + (winN l r - winI k l) * winS l r / winN l r + winD k l r⌋)

end Sel
end Verif
