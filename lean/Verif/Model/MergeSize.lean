import Verif.Model.ConstDP

/-!
merge/merge.go:61-154 `ContiguousFragmentsBySize`.

The maps `hdict` and `unmerged` have the range of the stored piece as key: a map is the list of its values in order of first insertion.  Of `mrgdict` only the keys are
read.  The order of `keep` is the iteration order of `hdict`, which is arbitrary in Go; the theorems speak about `keep` up to order.
-/

namespace Verif

variable {P C B K : Type} [LinearOrder B] [BoundedOrder B] [LinearOrder K]

/-- `delete(dict, r.AsArray())` -/
def dictDel (d : List (Node P C B)) (r : Rng) : List (Node P C B) := d.filter (fun x => x.range ≠ r)

/-- the variables of merge/merge.go:72-81 and the parameter `unmerged`; `g`: identifiers handed out so far -/
structure SizeSt (P C B : Type) where
  hdict : List (Node P C B)
  mrg : List Rng
  unmerged : List (Node P C B)
  rm : List (Node P C B)
  g : Nat

/-- merge/merge.go:115-120 the pieces are contiguous at a vertex outside the vertex set and the score of their union is valid -/
def sizeMergeable (score : ScoreFn P K) (valid : Fl K → Bool) (vs : List Int) (h s : Node P C B) : Res Bool :=
  if (h.range.J = s.range.I ∧ s.range.I ∉ vs) ∨ (h.range.I = s.range.J ∧ s.range.J ∉ vs) then do
    let (_, val) ← score (← contiguousCoordinates s h)
    return valid val
  else .ok false

/-- merge/merge.go:127-144 the merge of `h` and `s` -/
def sizeMerge (lib : Lib P C B K) (ids : Nat → Int) (h s : Node P C B) (st : SizeSt P C B) : Res (SizeSt P C B) := do
  let c ← contiguousCoordinates h s
  let nd ← createNode lib (ids st.g) c (mergeRange s.range h.range) h.inst
  return { hdict := dictSet (dictDel (dictDel st.hdict s.range) h.range) nd, mrg := s.range :: h.range :: st.mrg,
           unmerged := dictDel st.unmerged h.range, rm := st.rm ++ [s, h], g := st.g + 1 }

/-- merge/merge.go:101-146 the loop over the neighbours -/
def sizeInner (lib : Lib P C B K) (ids : Nat → Int) (score : ScoreFn P K) (valid : Fl K → Bool) (vs : List Int) (h : Node P C B) :
    List (Node P C B) → SizeSt P C B → Res (SizeSt P C B)
  | [], st => .ok st
  | s :: hs, st =>
    if s.range ∈ st.mrg then sizeInner lib ids score valid vs h hs st
    else do
      let m ← sizeMergeable score valid vs h s
      if m then sizeMerge lib ids h s st
      else sizeInner lib ids score valid vs h hs { st with unmerged := dictSet st.unmerged h }

/-- merge/merge.go:87-147 one round of the outer loop -/
def sizeStep (env : Env P C B K) (ids : Nat → Int) (score : ScoreFn P K) (valid : Fl K → Bool) (vs : List Int) (size : Int) (db : Db P C B) (h : Node P C B)
    (st : SizeSt P C B) (fuel : Nat) : Res (SizeSt P C B) :=
  if h.range ∈ st.mrg then .ok st
  else if h.range.size ≠ size then .ok { st with hdict := dictSet st.hdict h }
  else do
    let ns ← neighboursOf env db h fuel
    sizeInner env.lib ids score valid vs h (sortNodes ns) { st with hdict := dictSet st.hdict h }

/-- merge/merge.go:87-147 the outer loop -/
def sizeLoop (env : Env P C B K) (ids : Nat → Int) (score : ScoreFn P K) (valid : Fl K → Bool) (vs : List Int) (size : Int) (db : Db P C B) :
    List (Node P C B) → SizeSt P C B → (fuel : Nat) → Res (SizeSt P C B)
  | [], st, _ => .ok st
  | h :: hs, st, fuel => do sizeLoop env ids score valid vs size db hs (← sizeStep env ids score valid vs size db h st fuel) fuel

/-- merge/merge.go:61-154 `ContiguousFragmentsBySize`: the results are `hdict` (`keep`) and `rm` -/
def contiguousFragmentsBySize (env : Env P C B K) (ids : Nat → Int) (g : Nat) (hulls : List (Node P C B)) (db : Db P C B) (vs : List Int)
    (unmerged : List (Node P C B)) (size : Int) (valid : Fl K → Bool) (score : ScoreFn P K) (fuel : Nat) : Res (SizeSt P C B) :=
  sizeLoop env ids score valid vs size db hulls { hdict := [], mrg := [], unmerged := unmerged, rm := [], g := g } fuel

end Verif
