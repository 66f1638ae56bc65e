import Verif.Demo.BySize
import Verif.Props.C132_Unmerged

/-! A concrete case for C132. -/

namespace Verif
namespace Axis
open Demo

/-- as `fiveRun`, with vertices 1, 2 and 4 protected -/
def fiveRun3 (fuel : Nat) : Res (SizeSt Int Int Bx) :=
  contiguousFragmentsBySize (env (fun _ => line)) (fun n => n) 5 fivePieces fiveDb [1, 2, 4] [] 1 (fun v => v.le (.fin 16)) ((env (fun _ => line)).inst 0).scoreFn fuel

/-- the third fragment is recorded, then merged with the fourth and struck off; the other three stay recorded -/
theorem fiveRun3_eq : sizeOut (fiveRun3 20) = ([⟨0, 1⟩, ⟨1, 2⟩, ⟨2, 4⟩, ⟨4, 5⟩], [⟨3, 4⟩, ⟨2, 3⟩], [⟨0, 1⟩, ⟨1, 2⟩, ⟨4, 5⟩]) := by decide +kernel

/-- the run meets the hypotheses of C132 -/
theorem fiveRun3_case : ∃ out : SizeSt Int Int Bx, Yields fiveRun3 out ∧
    (∀ x ∈ out.unmerged, x ∈ fivePieces ∧ x ∉ out.rm ∧ x.range.size = 1 ∧ ∃ s, Near (env (fun _ => line)) fivePieces x s) ∧
    (∀ x ∈ fivePieces, x ∉ out.rm → x.range.size = 1 → (∃ s, s ∉ out.rm ∧ Near (env (fun _ => line)) fivePieces x s) → x ∈ out.unmerged) := by
  have hi : InstOK (env (fun _ => line)) 0 line.pts := inst_ok (lines := fun _ => line) (by decide) (by decide)
  have hinj : Function.Injective (fun n : Nat => (n : Int)) := fun a b h => by simpa using h
  exact C132_unmerged (pts := fun _ => line.pts) hi hinj fivePieces_ok fiveDb_ok.1 fiveDb_ok.2
    (fun i j h0 h1 h2 => (hi.inside i j h0 h1 h2).imp (fun k h => h.imp (fun v h => h.1))) (by decide +kernel)

end Axis
end Verif
