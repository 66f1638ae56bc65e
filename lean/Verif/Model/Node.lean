import Verif.Model.Offset

/-! Package `node` (pieces), `split`, `merge` (fragment merging) and the sorted integer set. -/

namespace Verif

/-- node/node.go:12-19 `Node`.  `coords` is `Polyline.Coordinates`, `inst` is the handle (pointer identity) of `Instance`. -/
structure Node (P C B : Type) where
  id : Int
  coords : Coords P
  range : Rng
  mbr : Box B
  geom : Geo P C
  inst : Int
  deriving DecidableEq, Repr

variable {P C B K : Type}

/-- node/node.go:22-33 `CreateNode`; `id` is the value returned by `id.Next()`, the geometry function is always
`common.Geometry` in this code base -/
def createNode (lib : Lib P C B K) (id : Int) (c : Coords P) (r : Rng) (inst : Int) : Res (Node P C B) := do
  let g ← hullGeometry (lib.convexHull c)
  return { id := id, coords := c, range := r, mbr := lib.bounds g, geom := g, inst := inst }

namespace Node

/-- node/node.go:71-75 `Segment` -/
def segment (nd : Node P C B) : Geo P C := .seg nd.coords

/-- node/node.go `Polyline.Geometry()` -/
def polyline (nd : Node P C B) : Geo P C := .line nd.coords

/-- node/node.go:86-88 `SegmentPoints` -/
def segmentPoints (nd : Node P C B) : Res (P × P) := do
  let a ← nd.coords.first
  let b ← nd.coords.last
  return (a, b)

/-- node/collapse.go:9-40 `Collapsible` -/
def collapsible (lib : Lib P C B K) (nd other : Node P C B) : Res Bool := do
  if nd.range.size = 1 then return true
  if nd.geom.isLineString then return true
  let (ai, aj) ← nd.segmentPoints
  let (bi, bj) ← other.segmentPoints
  let go (c : P) : Res Bool := do
    let t := if lib.equals2D c bj then bi else bj
    match nd.geom with
    | .poly sh => return !lib.ptInRing sh t
    | _ => .panic
  if lib.equals2D ai bi || lib.equals2D aj bi then go bi
  else if lib.equals2D ai bj || lib.equals2D aj bj then go bj
  else return true

/-- node/contig.go:19-29, the loop over the intersection points with its `break` -/
def contigLoop (lib : Lib P C B K) (ai aj bi bj : P) : List P → Bool
  | [] => false
  | pt :: pts =>
    let blnAseg := lib.equals2D pt ai || lib.equals2D pt aj
    let blnBseg := lib.equals2D pt bi || lib.equals2D pt bj
    let contig := (blnAseg || blnBseg) &&
      (lib.equals2D aj bi || lib.equals2D aj bj || lib.equals2D ai bj || lib.equals2D ai bi)
    if contig then true else contigLoop lib ai aj bi bj pts

/-- node/contig.go:5-32 `IsContiguous`: (intersects, contiguous, number of intersection points) -/
def isContiguous (lib : Lib P C B K) (a b : Node P C B) : Res (Bool × Bool × Nat) := do
  if lib.intersects a.geom b.geom then
    let interpts := lib.intersection a.geom b.geom
    let (ai, aj) ← a.segmentPoints
    let (bi, bj) ← b.segmentPoints
    return (true, contigLoop lib ai aj bi bj interpts, interpts.length)
  else return (false, false, 0)

/-- node/contig.go:35-53 `Neighbours`, loop over `neighbs[k]`; pointer inequality `h != hull` is inequality of identifiers (`C69_simplify`) -/
def neighboursLoop (hull : Node P C B) : List (Node P C B) → Option (Node P C B) → Option (Node P C B) →
    Option (Node P C B) × Option (Node P C B)
  | [], prev, nxt => (prev, nxt)
  | h :: hs, prev, nxt =>
    let (prev, nxt) :=
      if h.id ≠ hull.id then
        if hull.range.I = h.range.J then (some h, nxt)
        else if hull.range.J = h.range.I then (prev, some h)
        else (prev, nxt)
      else (prev, nxt)
    if prev.isSome && nxt.isSome then (prev, nxt) else neighboursLoop hull hs prev nxt

/-- node/contig.go:35-53 `Neighbours` -/
def neighbours (hull : Node P C B) (neighbs : List (Node P C B)) : Option (Node P C B) × Option (Node P C B) :=
  neighboursLoop hull neighbs none none

end Node

/-- node/nodes.go:18-20, 32-34 `Less` by `Range.I`; `sort.Sort` modelled as insertion sort (order of equal keys is irrelevant where
it is used, because starts are distinct) -/
def sortNodes (l : List (Node P C B)) : List (Node P C B) := l.insertionSort (fun a b => a.range.I ≤ b.range.I)

/-- split/split.go:13-25 `AtScoreSelection`; `ids`, `g`: identifier source and number of identifiers handed out so far -/
def atScoreSelection (lib : Lib P C B K) (ids : Nat → Int) (g : Nat) (score : ScoreFn P K) (hull : Node P C B) :
    Res (Node P C B × Node P C B × Nat) := do
  let c := hull.coords
  let r := hull.range
  let (k, _) ← score c
  let idx := r.I + k
  let ca ← c.slice 0 (k + 1)
  let ha ← createNode lib (ids g) ca ⟨r.I, idx⟩ hull.inst
  let cb ← c.slice k c.len
  let hb ← createNode lib (ids (g + 1)) cb ⟨idx, r.J⟩ hull.inst
  return (ha, hb, g + 2)

/-- split/split.go:34-36, the loop over the sub-ranges -/
def atIndexLoop (lib : Lib P C B K) (ids : Nat → Int) (hull : Node P C B) : List Rng → Nat → Res (List (Node P C B) × Nat)
  | [], g => .ok ([], g)
  | r :: rs, g => do
    let c ← hull.coords.slice (r.I - hull.range.I) (r.J - hull.range.I + 1)
    let h ← createNode lib (ids g) c r hull.inst
    let (hs, g') ← atIndexLoop lib ids hull rs (g + 1)
    return (h :: hs, g')

/-- split/split.go:28-38 `AtIndex` -/
def atIndex (lib : Lib P C B K) (ids : Nat → Int) (g : Nat) (hull : Node P C B) (indices : List Int) :
    Res (List (Node P C B) × Nat) :=
  atIndexLoop lib ids hull (hull.range.split indices) g

/-- merge/merge.go:39-52 `ContiguousCoordinates` -/
def contiguousCoordinates (ha hb : Node P C B) : Res (Coords P) :=
  if !ha.range.contiguous hb.range then .panic else
  let (ha, hb) := if hb.range.I < ha.range.J ∧ hb.range.J = ha.range.I then (hb, ha) else (ha, hb)
  if ha.coords.idxs = [] then .panic
  else .ok ⟨ha.coords.pnts, ha.coords.idxs.dropLast ++ hb.coords.idxs⟩

/-- merge/merge.go:23-37 `ContiguousFragmentsAtThreshold` with merge/merge.go:55-59 `contiguousFragments`;
`none` stands for `(false, Node{})` -/
def contiguousFragmentsAtThreshold (lib : Lib P C B K) (ids : Nat → Int) (g : Nat) (score : ScoreFn P K) (rel : Fl K → Bool)
    (ha hb : Node P C B) : Res (Option (Node P C B) × Nat) := do
  if !ha.range.contiguous hb.range then .panic
  let c ← contiguousCoordinates ha hb
  let (_, val) ← score c
  if rel val then
    let nd ← createNode lib (ids g) c (mergeRange ha.range hb.range) ha.inst
    return (some nd, g + 1)
  else return (none, g)

/-- external `sset.SSet` over ints: sorted list without duplicates; `Extend` of one value -/
def ssetAdd (s : List Int) (x : Int) : List Int := if x ∈ s then s else s.orderedInsert (· ≤ ·) x

/-- `SimpleSet.Empty()` followed by `SimpleSet.Extend(h.Range.I, h.Range.J)` for each piece:
dp/dp.go:83-86, constdp/simplify.go:62-70, constdp/fc_group.go:37-41 -/
def simpleSet (hulls : List (Node P C B)) : List Int :=
  hulls.foldl (fun s h => ssetAdd (ssetAdd s h.range.I) h.range.J) []

end Verif
