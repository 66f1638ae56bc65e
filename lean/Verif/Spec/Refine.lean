import Verif.Spec.Piece

/-! Specification vocabulary: cutting a sub-line in two as long as it is rejected. -/

namespace Verif

variable {P K : Type}

/-- `RecCut score bad pts i j rs`: the recursive procedure that replaces the vertices `i .. j` of `pts` by one segment unless that is `bad`, and otherwise treats
the two halves at the vertex the score names, ends with the segments `rs`. -/
inductive RecCut (score : ScoreFn P K) (bad : Int → Int → Prop) (pts : List P) : Int → Int → List Rng → Prop
  | keep (i j : Int) (h : ¬ bad i j) : RecCut score bad pts i j [⟨i, j⟩]
  | cut (i j k : Int) (v : Fl K) (xs ys : List Rng) (hb : bad i j) (h : score (Coords.sub pts i j) = .ok (k, v))
      (hx : RecCut score bad pts i (i + k) xs) (hy : RecCut score bad pts (i + k) j ys) : RecCut score bad pts i j (xs ++ ys)

/-- the procedure is a function -/
theorem RecCut.unique {score : ScoreFn P K} {bad : Int → Int → Prop} {pts : List P} {i j : Int} {rs rs' : List Rng} (h : RecCut score bad pts i j rs)
    (h' : RecCut score bad pts i j rs') : rs = rs' := by
  induction h generalizing rs' with
  | keep i j hb =>
    cases h' with
    | keep _ _ hb' => rfl
    | cut _ _ k' v' xs ys hb' _ _ _ => exact absurd hb' hb
  | cut i j k v xs ys hb hs hx hy ihx ihy =>
    cases h' with
    | keep _ _ hb' => exact absurd hb hb'
    | cut _ _ k' v' xs' ys' hb' hs' hx' hy' =>
      rw [hs] at hs'; cases hs'
      rw [ihx hx', ihy hy']

/-- the results of `R` on the members of a list, one after the other -/
inductive Each {α β : Type} (R : α → List β → Prop) : List α → List β → Prop
  | nil : Each R [] []
  | cons {a : α} {l : List α} {xs ys : List β} (h : R a xs) (t : Each R l ys) : Each R (a :: l) (xs ++ ys)

/-- the vertices at which the segments `rs` end -/
def EndOf (rs : List Rng) (v : Int) : Prop := ∃ r ∈ rs, v = r.I ∨ v = r.J

end Verif
