import Verif.Props.C26_Relate

/-! C29 for a piece of the run: the test that `validateContextRelation` calls takes all constraints it is given into account. -/

namespace Verif

variable {P C B K : Type} [LinearOrder B]

/-- C29 for a piece: the test finishes; if it accepts, every constraint is met by both chord and sub-line or by neither, and the sub-line can be reduced to its ends without sweeping
over any constraint disjoint from both; if it rejects, some constraint is met by only one of them, or removing vertices gets stuck with at least three left. -/
theorem C29_piece {lib : Lib P C B K} (hb : BoxSound lib) (hrefl : ∀ p, lib.equals2D p p = true) {hull : Node P C B} {ps : List P}
    (hlen : hull.coords.len = ps.length) (hne : 2 ≤ ps.length) (hpt : ∀ k (hk : k < ps.length), hull.coords.pt k = .ok ps[k]) (ctx : List (Geo P C)) :
    ∃ b, Yields (isDirRelateValid lib hull ctx) b ∧
      (b = true → (∀ g ∈ ctx, lib.intersects (.seg hull.coords) g = lib.intersects (.line hull.coords) g) ∧
        Collapse (SweepsNothing lib hull.coords ctx) ps [ps[0], ps[ps.length - 1]]) ∧
      (b = false → (∃ g ∈ ctx, lib.intersects (.seg hull.coords) g ≠ lib.intersects (.line hull.coords) g) ∨
        ∃ l, Collapse (SweepsNothing lib hull.coords ctx) ps l ∧ 2 < l.length ∧ ∀ u x y z w, l = u ++ x :: y :: z :: w → ¬ SweepsNothing lib hull.coords ctx x y z) := by
  obtain ⟨b, h⟩ := C29_terminates lib hlen hne hpt ctx
  exact ⟨b, h, fun e => C29_accept_sound hb hrefl hlen hne hpt ctx (e ▸ h), fun e => C29_reject_stuck hb hrefl hlen hne hpt ctx (e ▸ h)⟩

/-- every constraint counts, the first as well as the last -/
example : isDirRelateValid pointLib { axisPiece with coords := coordsOf [(0, 0), (3, 5), (7, 5), (10, 0)] } [.ctx (5, 1), .ctx (5, -3)] 20 = .ok false ∧
    isDirRelateValid pointLib { axisPiece with coords := coordsOf [(0, 0), (3, 5), (7, 5), (10, 0)] } [.ctx (5, -3), .ctx (5, 1)] 20 = .ok false ∧
    isDirRelateValid pointLib { axisPiece with coords := coordsOf [(0, 0), (3, 5), (7, 5), (10, 0)] } [.ctx (5, -3)] 20 = .ok true := by decide +kernel

end Verif
