import Verif.Model.Node
import Verif.Model.Box

/-! Packages `opts`, `relate` and `homotopy`: relation of a piece to its context geometries. -/

namespace Verif

/-- opts/opts.go:6-16 `Opts`; `sqThreshold` stands for `Threshold * Threshold` (dp/dp.go:61) -/
structure Opts (K : Type) where
  threshold : Fl K
  sqThreshold : Fl K
  minDist : Fl K
  nonPlanarDisplacement : Fl K
  planarSelf : Bool
  nonPlanarSelf : Bool
  avoidNewSelfIntersects : Bool
  geomRelation : Bool
  distRelation : Bool
  dirRelation : Bool

variable {P C B K : Type}

/-- relate/geom.go:19-25 the loop of `IsGeomRelateValid`: it stops at the first violation -/
def geomRelateLoop (lib : Lib P C B K) (seg ln : Geo P C) : List (Geo P C) → Bool
  | [] => true
  | g :: gs =>
    let lnGInter := lib.intersects ln g
    let segGInter := lib.intersects seg g
    let bln := !((segGInter && !lnGInter) || (!segGInter && lnGInter))
    if bln then geomRelateLoop lib seg ln gs else false

/-- relate/geom.go:9-28 `IsGeomRelateValid`; constrain/bygeom.go:9-11 `ByGeometricRelation` -/
def isGeomRelateValid (lib : Lib P C B K) (hull : Node P C B) (contexts : List (Geo P C)) : Bool :=
  geomRelateLoop lib hull.segment hull.polyline contexts

/-- relate/dist.go:21-31 the loop of `IsDistRelateValid` -/
def distRelateLoop [LinearOrder K] (lib : Lib P C B K) (minDistance : Fl K) (seg ln : Geo P C) : List (Geo P C) → Bool
  | [] => true
  | g :: gs =>
    let original := lib.distance ln g
    let simple := lib.distance seg g
    let bln := simple.ge minDistance || original.lt minDistance
    if bln then distRelateLoop lib minDistance seg ln gs else false

/-- relate/dist.go:10-33 `IsDistRelateValid`; constrain/bymindist.go:10-12 `ByMinDistRelation` -/
def isDistRelateValid [LinearOrder K] (lib : Lib P C B K) (minDistance : Fl K) (hull : Node P C B) (contexts : List (Geo P C)) : Bool :=
  distRelateLoop lib minDistance hull.segment hull.polyline contexts

namespace Homotopy

/-- homotopy/chain.go:7-18 `Vertex` and `Chain`: vertex `i` is named by its index, `prev` and `next` are the pointer fields of all vertices
(`none` = nil); the points are kept apart -/
structure Chain where
  prev : Nat → Option Nat
  next : Nat → Option Nat
  size : Nat

/-- homotopy/chain.go:20-36 `NewChain` of `n` vertices (`n ≥ 1`) -/
def newChain (n : Nat) : Chain where
  prev i := if i = 0 then none else some (i - 1)
  next i := if i + 1 < n then some (i + 1) else none
  size := n

/-- homotopy/chain.go:45-52 `ptrs` -/
def ptrs (ch : Chain) (prev next : Option Nat) : Chain :=
  let ch := match next with
    | none => ch
    | some x => { ch with prev := fun i => if i = x then prev else ch.prev i }
  match prev with
  | none => ch
  | some p => { ch with next := fun i => if i = p then next else ch.next i }

/-- homotopy/chain.go:38-42 `remove` (the vertex is never nil here) -/
def remove (ch : Chain) (link : Nat) : Chain := ptrs ch (ch.prev link) (ch.next link)

/-- the triangle of homotopy/deform.go:68 -/
def triangle (a b c : P) : Geo P C := .poly ⟨[a, b, c, a], [0, 1, 2, 3]⟩

/-- homotopy/deform.go:66-74 `isTriangleCollapsible` -/
def isTriangleCollapsible (lib : Lib P C B K) (a b c : P) : List (Geo P C) → Bool
  | [] => true
  | g :: gs =>
    let bln := !lib.intersects (triangle a b c) g
    if bln then isTriangleCollapsible lib a b c gs else false

/-- homotopy/deform.go:46-63 `collapseVertex`.  The external R-tree (`github.com/intdxdt/rtree`) is replaced by the list of geometries, its
`Search` by the filter on boxes; the box of the three points by the box of the triangle. -/
def collapseVertex [LinearOrder B] (lib : Lib P C B K) (pt : Nat → P) (db : List (Geo P C)) (ch : Chain) (v : Nat) : Bool :=
  match ch.prev v, ch.next v with
  | some va, some vc =>
    let a := pt va
    let b := pt v
    let c := pt vc
    let neighbours := db.filter (fun g => (lib.bounds (triangle a b c)).intersects (lib.bounds g))
    if neighbours.length > 0 then isTriangleCollapsible lib a b c neighbours else true
  | _, _ => false

/-- homotopy/deform.go:22-29 one pass over the chain; fuel bounds the number of links -/
def pass [LinearOrder B] (lib : Lib P C B K) (pt : Nat → P) (db : List (Geo P C)) : (fuel : Nat) → Option Nat → Chain → Bool → Res (Chain × Bool)
  | _, none, ch, deformable => .ok (ch, deformable)
  | 0, some _, _, _ => .timeout
  | fuel + 1, some link, ch, deformable =>
    if collapseVertex lib pt db ch link then
      let ch := remove ch link
      pass lib pt db fuel (ch.next link) { ch with size := ch.size - 1 } true
    else pass lib pt db fuel (ch.next link) ch deformable

/-- homotopy/deform.go:19-31 the loop over passes -/
def deformLoop [LinearOrder B] (lib : Lib P C B K) (pt : Nat → P) (db : List (Geo P C)) : (fuel : Nat) → Chain → Res Chain
  | 0, _ => .timeout
  | fuel + 1, ch =>
    if ch.size > 2 then do
      let (ch, deformable) ← pass lib pt db fuel (some 0) ch false
      if deformable then deformLoop lib pt db fuel ch else .ok ch
    else .ok ch

/-- homotopy/deform.go:11-33 `chainDeformation` -/
def chainDeformation [LinearOrder B] (lib : Lib P C B K) (pt : Nat → P) (n : Nat) (contexts : List (Geo P C)) (fuel : Nat) : Res Chain :=
  deformLoop lib pt contexts fuel (newChain n)

/-- homotopy/homotopy.go:39-49 the loop of `filterContext`: (disjoint, exclude, xor) -/
def filterLoop (lib : Lib P C B K) (simple ln : Geo P C) : List (Geo P C) → List (Geo P C) × List (Geo P C) × List (Geo P C)
  | [] => ([], [], [])
  | c :: cs =>
    let (disjoint, exclude, xor) := filterLoop lib simple ln cs
    let lnBln := lib.intersects ln c
    let simpleBln := lib.intersects simple c
    if lnBln && simpleBln then (disjoint, c :: exclude, xor)
    else if !lnBln && !simpleBln then (c :: disjoint, exclude, xor)
    else (disjoint, exclude, c :: xor)

/-- all points of a coordinate list (panics if an index is out of range) -/
def allPts (c : Coords P) : (n : Nat) → Res (List P)
  | 0 => .ok []
  | n + 1 => do
    let ps ← allPts c n
    let p ← c.pt n
    return ps ++ [p]

/-- homotopy/homotopy.go:9-27 `Homotopy`; relate/dir.go:9-11, relate/sidedness.go:10-12, constrain/byside.go:9-11.
`ch.link` is always vertex 0.  An empty coordinate list is a panic (`coordinates.Pt(0)`), here the panic of the empty list. -/
def homotopy [LinearOrder B] (lib : Lib P C B K) (c : Coords P) (contexts : List (Geo P C)) (fuel : Nat) : Res Bool :=
  let (disjoint, _, xor) := filterLoop lib (.seg c) (.line c) contexts
  if xor.length > 0 then .ok false
  else if disjoint.length = 0 then .ok true
  else do
    let pts ← allPts c c.len.toNat
    match pts with
    | [] => .panic
    | p0 :: _ =>
      let pt : Nat → P := fun i => pts.getD i p0
      let ch ← chainDeformation lib pt pts.length disjoint fuel
      if ch.size = 2 then
        match ch.next 0 with
        | none => .panic
        | some b => .ok (lib.equals2D (pt 0) (pt 0) && lib.equals2D (pt (pts.length - 1)) (pt b))
      else .ok false

end Homotopy

/-- relate/dir.go:9-11 `IsDirRelateValid` -/
def isDirRelateValid [LinearOrder B] (lib : Lib P C B K) (hull : Node P C B) (contexts : List (Geo P C)) (fuel : Nat) : Res Bool :=
  Homotopy.homotopy lib hull.coords contexts fuel

end Verif
