import Verif.Model.Base
import Mathlib.Data.Int.Order.Basic
import Mathlib.Order.Basic

/-!
hdb/select.go: in-place selection used by the bulk loader.

A slice of `n` items is a function `Int → T` of which only positions `0 ≤ i < n` may be read or written (anything else is a panic).
The key is `MBR.MinX` or `MBR.MinY`; `(a - b) > 0` on floats is modelled as `a > b`.
-/

namespace Verif
namespace Sel

variable {T B : Type} [LinearOrder B]

/-- a slice -/
structure Arr (T : Type) where
  n : Int
  at_ : Int → T

/-- `arr[i]` -/
def Arr.get (a : Arr T) (i : Int) : Res T := if 0 ≤ i ∧ i < a.n then .ok (a.at_ i) else .panic

/-- hdb/core.go:30-32 `swapItem` -/
def Arr.swap (a : Arr T) (i j : Int) : Res (Arr T) :=
  if (0 ≤ i ∧ i < a.n) ∧ (0 ≤ j ∧ j < a.n) then
    .ok { a with at_ := fun x => if x = i then a.at_ j else if x = j then a.at_ i else a.at_ x }
  else .panic

/-- hdb/select.go:67-70 -/
def scanUp (key : T → B) (t : B) : (fuel : Nat) → Arr T → Int → Res Int
  | 0, _, _ => .timeout
  | fuel + 1, a, i => do if key (← a.get i) < t then scanUp key t fuel a (i + 1) else return i

/-- hdb/select.go:72-75 -/
def scanDown (key : T → B) (t : B) : (fuel : Nat) → Arr T → Int → Res Int
  | 0, _, _ => .timeout
  | fuel + 1, a, j => do if key (← a.get j) > t then scanDown key t fuel a (j - 1) else return j

/-- hdb/select.go:62-76 the partition loop -/
def partLoop (key : T → B) (t : B) : (fuel : Nat) → Arr T → Int → Int → Res (Arr T × Int × Int)
  | 0, _, _, _ => .timeout
  | fuel + 1, a, i, j =>
    if i < j then do
      let a ← a.swap i j
      let i ← scanUp key t fuel a (i + 1)
      let j ← scanDown key t fuel a (j - 1)
      partLoop key t fuel a i j
    else .ok (a, i, j)

/-- hdb/select.go:57-60 -/
def condSwap (key : T → B) (t : B) (a : Arr T) (left right : Int) : Res (Arr T) := do
  if key (← a.get right) > t then a.swap left right else return a

/-- hdb/select.go:52-83 one round on `left..right` around the value at `k`: the new slice and the final `j` -/
def partRound (key : T → B) (fuel : Nat) (a : Arr T) (k left right : Int) : Res (Arr T × Int) := do
  let t := key (← a.get k)
  let a ← a.swap left k
  let a ← condSwap key t a left right
  let (a, _, j) ← partLoop key t fuel a left right
  if key (← a.get left) = t then
    return (← a.swap left j, j)
  else
    return (← a.swap (j + 1) right, j + 1)

/-- hdb/select.go:38-50 large ranges first run the selection on a window -/
def sample (big left right : Int) (a : Arr T) (rec : Res (Arr T)) : Res (Arr T) := if right - left > big then rec else .ok a

/-- hdb/select.go:37-91 the loop of `selectBox`.  `win k left right` is the sampling window of lines 39-48; as in the code its bounds are computed
from the `left` and `right` the call was entered with (`l0`, `r0`: the variables `fleft`, `fright` are never updated).  `big` is the constant 600. -/
def selLoop (big : Int) (win : Int → Int → Int → Int × Int) (key : T → B) (k : Int) :
    (fuel : Nat) → (l0 r0 : Int) → Arr T → (left right : Int) → Res (Arr T)
  | 0, _, _, _, _, _ => .timeout
  | fuel + 1, l0, r0, a, left, right =>
    if right > left then do
      let a ← sample big left right a (selLoop big win key k fuel (win k l0 r0).1 (win k l0 r0).2 a (win k l0 r0).1 (win k l0 r0).2)
      let (a, j) ← partRound key fuel a k left right
      selLoop big win key k fuel l0 r0 a (if j ≤ k then j + 1 else left) (if k ≤ j then j - 1 else right)
    else .ok a

/-- hdb/select.go:30-92 `selectBox` -/
def selectBox (big : Int) (win : Int → Int → Int → Int × Int) (key : T → B) (fuel : Nat) (a : Arr T) (k left right : Int) : Res (Arr T) :=
  selLoop big win key k fuel left right a left right

/-- hdb/select.go:38 -/
def bigRange : Int := 600

/-- hdb/select.go:15-26 the loop of `multiSelect`; the stack of pairs (left, right), top first.
`int(ceil(float(right-left)/float(n)/2))` is the exact rational `ceil((right-left)/(2n))`. -/
def multiLoop (big : Int) (win : Int → Int → Int → Int × Int) (key : T → B) (n : Int) : (fuel : Nat) → Arr T → List (Int × Int) → Res (Arr T)
  | 0, _, _ => .timeout
  | _ + 1, a, [] => .ok a
  | fuel + 1, a, (left, right) :: stack =>
    if right - left ≤ n then multiLoop big win key n fuel a stack
    else do
      let mid := left + ((right - left + 2 * n - 1) / (2 * n)) * n
      let a ← selectBox big win key fuel a mid left right
      multiLoop big win key n fuel a ((mid, right) :: (left, mid) :: stack)

/-- hdb/select.go:11-27 `multiSelect` -/
def multiSelect (big : Int) (win : Int → Int → Int → Int × Int) (key : T → B) (fuel : Nat) (a : Arr T) (left right n : Int) : Res (Arr T) :=
  multiLoop big win key n fuel a [(left, right)]

end Sel
end Verif
