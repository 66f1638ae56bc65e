import Verif.Spec.Trace
import Mathlib.Analysis.Complex.Basic

/-! Specification vocabulary: a line whose vertices have times is a motion, the line in the plane and time; `(z, t)` on it says that the motion is at `z` at time `t`. -/

namespace Verif

/-- times increase strictly along the vertices -/
def Timed (l : List (ℂ × ℝ)) : Prop := l.Pairwise (fun a b => a.2 < b.2)

/-- Every place of one motion has a place of the other at the same time within `ε`, in both directions. -/
def Sync (ε : ℝ) (s t : Set (ℂ × ℝ)) : Prop :=
  (∀ x ∈ s, ∃ y ∈ t, x.2 = y.2 ∧ dist x.1 y.1 ≤ ε) ∧ ∀ y ∈ t, ∃ x ∈ s, x.2 = y.2 ∧ dist x.1 y.1 ≤ ε

end Verif
