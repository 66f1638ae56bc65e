import Mathlib.Analysis.Convex.Segment
import Mathlib.Analysis.Normed.Module.Basic

/-! Specification vocabulary: the points of a line in a real normed space (plane, space, plane and time). -/

namespace Verif

variable {E : Type} [NormedAddCommGroup E] [NormedSpace ℝ E]

/-- the points of the line through a list of vertices -/
def trace : List E → Set E
  | [] => ∅
  | [a] => {a}
  | a :: b :: l => segment ℝ a b ∪ trace (b :: l)

/-- the vertices with the given indices -/
def verticesAt {P : Type} (ps : List P) (is : List Int) : List P := is.filterMap (fun i => ps[i.toNat]?)

/-- Every point of one set has a point of the other within `ε`, in both directions (Hausdorff distance at most `ε`). -/
def SetNear (ε : ℝ) (s t : Set E) : Prop := (∀ x ∈ s, ∃ y ∈ t, dist x y ≤ ε) ∧ ∀ y ∈ t, ∃ x ∈ s, dist x y ≤ ε

end Verif
