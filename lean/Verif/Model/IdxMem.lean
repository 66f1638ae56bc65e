import Verif.Model.Node

/-!
The index lists of the pieces as they are stored: Go slices over shared arrays.  Splitting a piece makes slices of its array, merging two pieces appends to a slice of
one of them.  What the library functions called with coordinates (`NewLineString`, `ConvexHull`) do is not modelled; they are taken not to write to `Idxs`.
-/

namespace Verif.Idx

/-- a Go `[]int`: an array, the position of the first element, length and capacity -/
structure Slice where
  arr : Nat
  off : Nat
  len : Nat
  cap : Nat
  deriving DecidableEq, Repr

/-- the arrays, by number; `next` is the number of the next one -/
structure Heap where
  arrays : Nat → List Int
  next : Nat

/-- the elements of a slice -/
def read (h : Heap) (s : Slice) : List Int := ((h.arrays s.arr).drop s.off).take s.len

/-- replace an array -/
def setArr (h : Heap) (a : Nat) (l : List Int) : Heap := { h with arrays := fun b => if b = a then l else h.arrays b }

/-- a new array -/
def alloc (h : Heap) (l : List Int) : Heap × Nat := ({ arrays := fun b => if b = h.next then l else h.arrays b, next := h.next + 1 }, h.next)

/-- `l[k:]` overwritten with `xs` from its beginning -/
def overwrite (l : List Int) (k : Nat) (xs : List Int) : List Int := l.take k ++ xs ++ l.drop (k + xs.length)

/-- Go `append(s, xs...)`: in place when the capacity suffices, else into a new array; `grow` is the capacity the run time chooses -/
def append (grow : Nat → Nat → Nat) (h : Heap) (s : Slice) (xs : List Int) : Heap × Slice :=
  if s.len + xs.length ≤ s.cap then
    (setArr h s.arr (overwrite (h.arrays s.arr) (s.off + s.len) xs), { s with len := s.len + xs.length })
  else
    let cap := max (s.len + xs.length) (grow s.cap (s.len + xs.length))
    let r := alloc h (read h s ++ xs ++ List.replicate (cap - (s.len + xs.length)) 0)
    (r.1, ⟨r.2, 0, s.len + xs.length, cap⟩)

/-- Go `s[i:j:k]`: panics unless `0 ≤ i ≤ j ≤ k ≤ cap(s)` -/
def cut3 (s : Slice) (i j k : Int) : Res Slice :=
  if 0 ≤ i ∧ i ≤ j ∧ j ≤ k ∧ k ≤ s.cap then .ok ⟨s.arr, s.off + i.toNat, (j - i).toNat, (k - i).toNat⟩ else .panic

/-- Go `s[i:j]`: the capacity reaches to the end of that of `s` -/
def cut (s : Slice) (i j : Int) : Res Slice := cut3 s i j s.cap

/-- a call that makes the index list of a piece, and how far it has come -/
inductive Job where
  /-- common/common.go:51-58, geometry/pln.go:59-66 `SubCoordinates`, before `make` -/
  | start (i j : Int)
  /-- common/common.go:54-56, geometry/pln.go:62-64 the loop, `s` the slice built so far -/
  | fill (s : Slice) (i j : Int)
  /-- external `Coords.Slice(i, j)`, called by split/split.go:22-23 and split/split.go:37 -/
  | slice (p : Slice) (i j : Int)
  /-- merge/merge.go:48-50, after the pieces were put in order -/
  | join (a b : Slice)
  deriving DecidableEq, Repr

/-- one step of a call: it goes on, or it ends with a slice -/
def Job.step (grow : Nat → Nat → Nat) (h : Heap) : Job → Res (Heap × (Job ⊕ Slice))
  | .start i j =>
    -- common/common.go:53, geometry/pln.go:61 `make([]int, 0, J-I+1)`
    if j - i + 1 < 0 then .panic else
    let r := alloc h (List.replicate (j - i + 1).toNat 0)
    .ok (r.1, .inl (.fill ⟨r.2, 0, 0, (j - i + 1).toNat⟩ i j))
  | .fill s i j =>
    if i ≤ j then
      let r := append grow h s [i]
      .ok (r.1, .inl (.fill r.2 (i + 1) j))
    else .ok (h, .inr s)
  | .slice p i j => do return (h, .inr (← cut p i j))
  | .join a b => do
    -- merge/merge.go:49-50 `n = Len() - 1`, `append(Idxs[:n:n], hb.Coordinates().Idxs...)`
    let n : Int := a.len - 1
    let s ← cut3 a 0 n n
    let r := append grow h s (read h b)
    return (r.1, .inr r.2)

end Verif.Idx
