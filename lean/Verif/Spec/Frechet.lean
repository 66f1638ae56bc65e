import Mathlib.Analysis.Normed.Module.Basic
import Mathlib.LinearAlgebra.AffineSpace.AffineMap
import Mathlib.Topology.Algebra.Order.LiminfLimsup
import Mathlib.Topology.ContinuousOn

/-! Specification vocabulary: walking along a line, and the Fréchet distance (the shortest leash with which one can walk along each of two lines, neither turning
back). -/

namespace Verif

/-- `c` goes from `u` at time `s` to `v` at time `t`, continuously and never back -/
structure Clock (c : ℝ → ℝ) (s t u v : ℝ) : Prop where
  mono : MonotoneOn c (Set.Icc s t)
  cont : ContinuousOn c (Set.Icc s t)
  first : c s = u
  last : c t = v

variable {E : Type} [NormedAddCommGroup E] [NormedSpace ℝ E]

/-- `f` walks along the line through the vertices from time `s` to time `t`: along each segment in turn, at any speed, never back -/
def Walk (f : ℝ → E) : ℝ → ℝ → List E → Prop
  | _, _, [] => False
  | s, t, [a] => s ≤ t ∧ ∀ u ∈ Set.Icc s t, f u = a
  | s, t, a :: b :: l => ∃ m, s ≤ m ∧ m ≤ t ∧ (∃ c, Clock c s m 0 1 ∧ ∀ u ∈ Set.Icc s m, f u = AffineMap.lineMap a b (c u)) ∧ Walk f m t (b :: l)

/-- The Fréchet distance of two lines is at most `ε`: there are walks along both that are within `ε` of each other at every moment. -/
def FrechetLe (ε : ℝ) (ps qs : List E) : Prop :=
  ∃ (f g : ℝ → E) (s t : ℝ), Walk f s t ps ∧ Walk g s t qs ∧ ∀ u ∈ Set.Icc s t, dist (f u) (g u) ≤ ε

end Verif
