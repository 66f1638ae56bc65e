import Verif.Model.Geom
import Mathlib.Algebra.Group.Defs
import Mathlib.Algebra.Notation.Defs

/-! Package `offset`: the score functions. -/

namespace Verif

/-- lnr/common.go:17 `type ScoreFn func(geom.Coords) (int, float64)` -/
abbrev ScoreFn (P K : Type) := Coords P → Res (Int × Fl K)

variable {P K : Type} [LinearOrder K] [Zero K]

/-- offset/dp.go:37-42 (and offset/sed.go:40-51): the loop over `k = 1 .. n-1`, with `dist k` the distance computed in iteration `k`.
The comparison is `dist >= offset`, so the last of several equal maxima is taken and NaN never is. -/
def maxLoop (dist : Int → Res (Fl K)) : (todo : Nat) → (k : Int) → (index : Int) → (offset : Fl K) → Res (Int × Fl K)
  | 0, _, index, offset => .ok (index, offset)
  | todo + 1, k, index, offset => do
    let d ← dist k
    if d.ge offset then maxLoop dist todo (k + 1) k d else maxLoop dist todo (k + 1) index offset

/-- offset/dp.go:27-45 `maxOffset`: `distFn a b p` is the distance of `p` to the segment `a b` -/
def maxOffset (distFn : P → P → P → Fl K) : ScoreFn P K := fun c => do
  let n := c.len - 1
  if n ≤ 1 then return (n, .fin 0)
  let a ← c.pt 0
  let b ← c.pt n
  maxLoop (fun k => do return distFn a b (← c.pt k)) (n - 1).toNat 1 n (.fin 0)

/-- offset/sed.go:20-53 `maxSEDOffset`: `sed a b p` is the synchronised distance of lines 44-46 (NaN when the time span of `a b` is 0
and so on; the trigonometry is left abstract) -/
def maxSEDOffset (sed : P → P → P → Fl K) : ScoreFn P K := fun c => do
  let n := c.len - 1
  if n ≤ 1 then return (n, .fin 0)
  let a ← c.pt 0
  let b ← c.pt n
  maxLoop (fun k => do return sed a b (← c.pt k)) (n - 1).toNat 1 n (.fin 0)

/-- the floating point operations used by offset/sed.go; nothing is said about rounding -/
structure Arith (K : Type) where
  add : Fl K → Fl K → Fl K
  sub : Fl K → Fl K → Fl K
  mul : Fl K → Fl K → Fl K
  div : Fl K → Fl K → Fl K
  sqrt : Fl K → Fl K
  /-- vect.NewVector and Magnitude, from the coordinate differences -/
  magnitude : Fl K → Fl K → Fl K
  /-- math.Cos and math.Sin of `direction` (sed.go:36-37, 56-62) -/
  cosOf : Fl K → Fl K → Fl K
  sinOf : Fl K → Fl K → Fl K

/-- the rules of IEEE 754 about exceptional values that matter here (there is one zero: its sign decides only the sign of an infinite quotient) -/
structure Arith.Ieee (A : Arith K) : Prop where
  sub_self : ∀ k, A.sub (.fin k) (.fin k) = .fin 0
  div_zero : ∀ a, A.div a (.fin 0) = .nan ∨ A.div a (.fin 0) = .pinf ∨ A.div a (.fin 0) = .ninf
  mul_zero : ∀ a : Fl K, a = .nan ∨ a = .pinf ∨ a = .ninf → A.mul a (.fin 0) = .nan
  nan_mul : ∀ a, A.mul .nan a = .nan
  add_nan : ∀ a, A.add a .nan = .nan
  nan_add : ∀ a, A.add .nan a = .nan
  sub_nan : ∀ a, A.sub a .nan = .nan

/-- offset/sed.go:65-67 `squareHypot` -/
def squareHypot (A : Arith K) (p q : Fl K) : Fl K := A.add (A.mul p p) (A.mul q q)

/-- offset/sed.go:70-86 `hypot` (`-p` is computed as `0 - p`) -/
def hypot (A : Arith K) (one p q : Fl K) : Fl K :=
  let p := if p.lt (.fin 0) then A.sub (.fin 0) p else p
  let q := if q.lt (.fin 0) then A.sub (.fin 0) q else q
  let (p, q) := if p.lt q then (q, p) else (p, q)
  if p.le (.fin 0) && (Fl.fin 0).le p then .fin 0
  else A.mul p (A.sqrt (A.add one (A.mul (A.div q p) (A.div q p))))

/-- offset/sed.go:30-46 the synchronised distance of `p` to the move from `a` to `b`; a point is (x, y, time) -/
def sedDist (A : Arith K) (hyp : Fl K → Fl K → Fl K) (a b p : Fl K × Fl K × Fl K) : Fl K :=
  let dx := A.sub b.1 a.1
  let dy := A.sub b.2.1 a.2.1
  let m := A.mul (A.div (A.magnitude dx dy) (A.sub b.2.2 a.2.2)) (A.sub p.2.2 a.2.2)
  hyp (A.sub p.1 (A.add a.1 (A.mul m (A.cosOf dx dy)))) (A.sub p.2.1 (A.add a.2.1 (A.mul m (A.sinOf dx dy))))

end Verif
