import Verif.Spec.Piece

/-! Specification vocabulary: the recursive Douglas–Peucker procedure, as in the textbook. -/

namespace Verif

variable {P K : Type}

/-- `RecDP score rel pts i j rs`: the recursive procedure applied to the vertices `i .. j` of `pts` keeps the segments `rs`: one
segment when the score of the sub-line is accepted, otherwise the segments of the two halves at the vertex the score names. -/
inductive RecDP (score : ScoreFn P K) (rel : Fl K → Bool) (pts : List P) : Int → Int → List Rng → Prop
  | keep (i j k : Int) (v : Fl K) (h : score (Coords.sub pts i j) = .ok (k, v)) (hv : rel v = true) : RecDP score rel pts i j [⟨i, j⟩]
  | cut (i j k : Int) (v : Fl K) (xs ys : List Rng) (h : score (Coords.sub pts i j) = .ok (k, v)) (hv : rel v = false)
      (hx : RecDP score rel pts i (i + k) xs) (hy : RecDP score rel pts (i + k) j ys) : RecDP score rel pts i j (xs ++ ys)

/-- the procedure is a function: it cannot keep two different lists of segments -/
theorem RecDP.unique {score : ScoreFn P K} {rel : Fl K → Bool} {pts : List P} {i j : Int} {rs rs' : List Rng}
    (h : RecDP score rel pts i j rs) (h' : RecDP score rel pts i j rs') : rs = rs' := by
  induction h generalizing rs' with
  | keep i j k v hs hv =>
    cases h' with
    | keep _ _ k' v' hs' hv' => rfl
    | cut _ _ k' v' xs ys hs' hv' _ _ => rw [hs] at hs'; cases hs'; rw [hv] at hv'; cases hv'
  | cut i j k v xs ys hs hv hx hy ihx ihy =>
    cases h' with
    | keep _ _ k' v' hs' hv' => rw [hs] at hs'; cases hs'; rw [hv] at hv'; cases hv'
    | cut _ _ k' v' xs' ys' hs' hv' hx' hy' =>
      rw [hs] at hs'; cases hs'
      rw [ihx hx', ihy hy']

end Verif
