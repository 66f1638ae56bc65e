import Verif.Model.Node

/-! Packages `decompose` and `dp`. -/

namespace Verif

variable {P C B K : Type}

/-- decompose/decompose.go:34-49, the loop; the top of the Go stack (its last element) is the head of `stack` -/
def dpLoop (lib : Lib P C B K) (ids : Nat → Int) (pln : Polyline P) (score : ScoreFn P K) (rel : Fl K → Bool) (inst : Int) :
    (fuel : Nat) → (stack : List Rng) → (hque : List (Node P C B)) → (g : Nat) → Res (List (Node P C B) × Nat)
  | _, [], hque, g => .ok (hque, g)
  | 0, _ :: _, _, _ => .timeout
  | fuel + 1, r :: stack, hque, g => do
    let c ← pln.subCoordinates r
    let (k, val) ← score c
    let k := r.I + k
    if rel val then do
      let nd ← createNode lib (ids g) c r inst
      dpLoop lib ids pln score rel inst fuel stack (hque ++ [nd]) (g + 1)
    else
      dpLoop lib ids pln score rel inst fuel (⟨r.I, k⟩ :: ⟨k, r.J⟩ :: stack) hque g

/-- decompose/decompose.go:14-51 `DouglasPeucker` -/
def decompose (lib : Lib P C B K) (ids : Nat → Int) (g : Nat) (pln : Polyline P) (score : ScoreFn P K) (rel : Fl K → Bool)
    (inst : Int) (fuel : Nat) : Res (List (Node P C B) × Nat) :=
  match pln.ls with
  | none => .ok ([], g)
  | some _ => do
    let r ← pln.range
    dpLoop lib ids pln score rel inst fuel [r] [] g

/-- dp/dp.go:56-58 `ScoreRelation` -/
def scoreRelation [LinearOrder K] (threshold val : Fl K) : Bool := val.le threshold

/-- dp/dp.go:60-62 `SquareScoreRelation`: `sq` is `Threshold * Threshold` -/
def squareScoreRelation [LinearOrder K] (sq val : Fl K) : Bool := val.le sq

/-- dp/dp.go:64-75 `Decompose`: score and relation, depending on whether a squared score function was given -/
def scoreOf (score : ScoreFn P K) (square : Option (ScoreFn P K)) : ScoreFn P K := square.getD score

/-- dp/dp.go:64-75 and constdp/node_aggregates.go:25-31: the relation belonging to `scoreOf` -/
def relationOf [LinearOrder K] (threshold sq : Fl K) (square : Option (ScoreFn P K)) : Fl K → Bool :=
  match square with
  | none => scoreRelation threshold
  | some _ => squareScoreRelation sq

/-- dp/dp.go:77-94 `Simplify` then `Simple` -/
def dpSimplify [LinearOrder K] (lib : Lib P C B K) (ids : Nat → Int) (g : Nat) (pln : Polyline P) (score : ScoreFn P K)
    (square : Option (ScoreFn P K)) (threshold sq : Fl K) (inst : Int) (fuel : Nat) : Res (List Int) := do
  let (hulls, _) ← decompose lib ids g pln (scoreOf score square) (relationOf threshold sq square) inst fuel
  return simpleSet hulls

end Verif
