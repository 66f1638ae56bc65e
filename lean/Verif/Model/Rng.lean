import Verif.Model.Base
import Mathlib.Data.List.Sort
import Mathlib.Data.List.Dedup

/-! Package `rng`, and `merge.Range`. -/

namespace Verif

/-- rng/rng.go:8-11 `type Rng struct { I, J int }` -/
structure Rng where
  I : Int
  J : Int
  deriving DecidableEq, Repr

namespace Rng

/-- rng/rng.go:24-26 `Equals` -/
def equals (o r : Rng) : Bool := o.I == r.I && o.J == r.J

/-- rng/rng.go:29-31 `Size` -/
def size (o : Rng) : Int := o.J - o.I

/-- rng/contig.go:4-6 `Contiguous` -/
def contiguous (o r : Rng) : Bool :=
  (decide (o.I < r.J) && decide (o.J = r.I)) || (decide (r.I < o.J) && decide (r.J = o.I))

/-- rng/array.go:9-12 `AsSlice` -/
def asSlice (o : Rng) : List Int := [o.I, o.J]

end Rng

/-- external `iter.SortedIntsSet` (github.com/intdxdt/iter): sorted copy without duplicates.  Assumption about code outside /repo. -/
def sortedIntsSet (l : List Int) : List Int := l.dedup.insertionSort (· ≤ ·)

namespace Rng

/-- rng/split.go:10-18, one iteration of the loop over the sorted indices; `sub` in append order -/
def splitStep (i j : Int) (sub : List Rng) (idx : Int) : List Rng :=
  if i < idx ∧ idx < j then
    let s := match sub.getLast? with
      | some r => r.J
      | none => i
    sub ++ [⟨s, idx⟩]
  else sub

/-- rng/split.go:19-25, close rest of split -/
def splitClose (j : Int) (sub : List Rng) : List Rng :=
  match sub.getLast? with
  | some r => if r.J < j then sub ++ [⟨r.J, j⟩] else sub
  | none => sub

/-- rng/split.go:6-27 `Split` -/
def split (o : Rng) (idxs : List Int) : List Rng :=
  splitClose o.J ((sortedIntsSet idxs).foldl (splitStep o.I o.J) [])

end Rng

/-- common/common.go:12-15 `SortInts` -/
def sortInts (l : List Int) : List Int := l.insertionSort (· ≤ ·)

/-- merge/merge.go:16-20 `Range`: first and last of the four sorted ends -/
def mergeRange (ra rb : Rng) : Rng :=
  let ranges := sortInts (ra.asSlice ++ rb.asSlice)
  ⟨ranges.head?.getD 0, ranges.getLast?.getD 0⟩

end Verif
