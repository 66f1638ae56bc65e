import Verif.Model.Hdb
import Verif.Model.Select
import Verif.Model.Yields
import Mathlib.Data.Nat.Log

/-!
The numeric heuristics of the tree as the code computes them.

Areas and margins are exact functions of a box into an ordered set `K` (`none` plays `+Inf`); the tolerance test of `chooseSubtree` and the
library sort are parameters.
-/

namespace Verif
namespace Hdb

variable {T B K : Type} [LinearOrder B] [BoundedOrder B] [LinearOrder K]

/-- numeric primitives the heuristics are built from -/
structure Num (T B K : Type) where
  /-- (maxx - minx) * (maxy - miny) -/
  area : Box B → K
  /-- hdb/insert.go:132-134 `bboxMargin` -/
  margin : Box B → K
  add : K → K → K
  zero : K
  /-- `math.Abs(d) < math.EPSILON`, hdb/insert.go:113 -/
  close : K → K → Bool
  /-- sort.Sort with xNodePath / yNodePath (unstable: any permutation in order) -/
  sortX : List (DbNode T B) → List (DbNode T B)
  sortY : List (DbNode T B) → List (DbNode T B)
  /-- sampling window of `selectBox`, hdb/select.go:39-48 -/
  win : Int → Int → Int → Int × Int

/-- `a < b` with `none` = +Inf on the right -/
def ltInf (a : K) : Option K → Bool
  | none => true
  | some b => decide (a < b)

/-- hdb/insert.go:113 `d == 0 || math.Abs(d) < math.EPSILON` (`d = -Inf` when the minimum so far is `+Inf`) -/
def closeInf (N : Num T B K) (enl : K) : Option K → Bool
  | none => false
  | some e => decide (enl = e) || N.close enl e

/-- hdb/insert.go:80-122 the loop over the children boxes -/
def chooseLoop (N : Num T B K) (b : Box B) : List (Box B) → (i : Nat) → (minArea minEnl : Option K) → (target : Option Nat) → Option Nat
  | [], _, _, _, target => target
  | c :: cs, i, minArea, minEnl, target =>
    let area := N.area c
    let enl := N.area (b.expand c)
    if ltInf enl minEnl then
      chooseLoop N b cs (i + 1) (if ltInf area minArea then some area else minArea) (some enl) (some i)
    else if closeInf N enl minEnl then
      if ltInf area minArea then chooseLoop N b cs (i + 1) (some area) minEnl (some i)
      else chooseLoop N b cs (i + 1) minArea minEnl target
    else chooseLoop N b cs (i + 1) minArea minEnl target

/-- hdb/insert.go:137-161 `intersectionArea` -/
def intersectionArea (N : Num T B K) (a b : Box B) : K :=
  if !a.intersects b then N.zero
  else N.area ⟨max a.minX b.minX, max a.minY b.minY, min a.maxX b.maxX, min a.maxY b.maxY⟩

/-- hdb/split.go:44-66 the loop of `chooseSplitIndex` from `i` on, `left` more rounds -/
def splitLoop (N : Num T B K) (bs : List (Box B)) : (left : Nat) → (i : Nat) → (minOverlap minArea : Option K) → (index : Nat) → Nat
  | 0, _, _, _, index => index
  | left + 1, i, minOverlap, minArea, index =>
    let b1 := Box.unionAll (bs.take i)
    let b2 := Box.unionAll (bs.drop i)
    let overlap := intersectionArea N b1 b2
    let area := N.add (N.area b1) (N.area b2)
    if ltInf overlap minOverlap then
      splitLoop N bs left (i + 1) (some overlap) (if ltInf area minArea then some area else minArea) i
    else if minOverlap = some overlap then
      if ltInf area minArea then splitLoop N bs left (i + 1) minOverlap (some area) i
      else splitLoop N bs left (i + 1) minOverlap minArea index
    else splitLoop N bs left (i + 1) minOverlap minArea index

/-- hdb/split.go:38-69 `chooseSplitIndex`, `i = m .. M-m` -/
def chooseSplitIndex (N : Num T B K) (m : Nat) (bs : List (Box B)) : Nat :=
  splitLoop N bs (bs.length - m + 1 - m) m none none 0

/-- hdb/mbr.go:38-41, 43-46 one of the loops of `allDistMargin`: the box grows by the given boxes in turn, its margin is added to the sum -/
def marginLoop (N : Num T B K) : List (Box B) → (bbox : Box B) → (margin : K) → K
  | [], _, margin => margin
  | b :: bs, bbox, margin => marginLoop N bs (bbox.expand b) (N.add margin (N.margin (bbox.expand b)))

/-- hdb/mbr.go:24-48 `allDistMargin` of children already sorted along the axis -/
def allDistMargin (N : Num T B K) (m : Nat) (cs : List (DbNode T B)) : K :=
  let bs := cs.map DbNode.bbox
  let leftBBox := Box.unionAll (bs.take m)
  let rightBBox := Box.unionAll (bs.drop (bs.length - m))
  let mid := (bs.take (bs.length - m)).drop m
  marginLoop N mid.reverse rightBBox (marginLoop N mid leftBBox (N.add (N.margin leftBBox) (N.margin rightBBox)))

/-- hdb/split.go:73-82 `chooseSplitAxis` -/
def chooseSplitAxis (N : Num T B K) (m : Nat) (cs : List (DbNode T B)) : List (DbNode T B) :=
  let xs := N.sortX cs
  let ys := N.sortY xs
  if allDistMargin N m xs < allDistMargin N m ys then N.sortX ys else ys

/-- a Go slice from a list; positions outside hold the first item but may not be accessed -/
def toArr (t : T) (ts : List T) : Sel.Arr T := { n := ((t :: ts).length : Int), at_ := fun i => ((t :: ts)[i.toNat]?).getD t }

/-- the list of the items of a slice -/
def ofArr (a : Sel.Arr T) : List T := (List.range a.n.toNat).map (fun i : Nat => a.at_ (i : Int))

open Classical in
/-- the list `multiSelect` leaves behind (it terminates, see `C22_multiSelect`; the value is picked by choice because no fuel is computed) -/
noncomputable def selectCode (ops : ItemOps T B) (N : Num T B K) (byY : Bool) (n : Nat) : List T → List T
  | [] => []
  | t :: ts =>
    let key := fun x => if byY then (ops.mbr x).minY else (ops.mbr x).minX
    if h : ∃ a, Yields (fun fuel => Sel.multiSelect Sel.bigRange N.win key fuel (toArr t ts) 0 (ts.length : Int) (n : Int)) a then ofArr h.choose
    else []

/-- all heuristics of a tree with bucket size `maxE` -/
noncomputable def codeHeur (ops : ItemOps T B) (N : Num T B K) (maxE : Nat) : Heur T B where
  choose b bs := chooseLoop N b bs 0 none none none
  arrange cs := chooseSplitAxis N (minEntries maxE) cs
  splitIdx bs := chooseSplitIndex N (minEntries maxE) bs
  select byY n l := selectCode ops N byY n l
  height n := Nat.clog maxE n

end Hdb
end Verif
