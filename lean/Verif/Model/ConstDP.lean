import Verif.Model.SelfInter
import Verif.Model.Decompose
import Verif.Model.Knn

/-!
Packages `deform`, `constrain` and `constdp`: constrained simplification of one polyline.

Pointers: a piece is named by its identifier (`Node.id`).  Pieces in one index always have distinct identifiers, and the copies of a piece that the code
makes (Go slices of values) keep the identifier, so pointer comparison is comparison of identifiers.  `Verif/Model/Pointers.lean` is the same code with
addresses, and `C69_simplify`, `C69_featureClass` prove that both give the same result.
Instances (`*ConstDP`) are named by handles (`Node.inst`); `Inst.id` is the number returned by `Id()`, which need not be unique.
-/

namespace Verif

variable {P C B K : Type}

/-- what the index needs of a piece -/
def nodeOps : ItemOps (Node P C B) B := ⟨Node.mbr, Node.id⟩

/-- constdp/constructor.go:14-17 `ConstDP` with dp/dp.go:19-29 `DouglasPeucker`: the parts that do not change -/
structure Inst (P C B K : Type) where
  id : Int
  pln : Polyline P
  opts : Opts K
  score : ScoreFn P K
  square : Option (ScoreFn P K)
  ctxdb : Hdb.Tree (Node P C B) B

/-- dp/dp.go:19-29 the mutable results `Hulls` and `SimpleSet` -/
structure Out (P C B : Type) where
  hulls : List (Node P C B)
  simple : List Int

/-- everything outside the modelled code: libraries, index heuristics, map iteration orders, the constant `1.0e-5`, the instances -/
structure Env (P C B K : Type) where
  lib : Lib P C B K
  lnr : LnrLib P B
  heur : Heur (Node P C B) B
  heap : Hdb.Heap (Hdb.KObj (Node P C B) B K)
  /-- iteration order of the selection map in `deformNodes` (may differ from call to call: argument = identifiers used so far) -/
  ord : Nat → List (Node P C B) → List (Node P C B)
  /-- iteration order of the selection map in `cleanUpDB` -/
  ordRm : Nat → List (Node P C B) → List (Node P C B)
  /-- knn/knn.go:11 and constrain/split.go:13 `EpsilonDist` -/
  eps : Fl K
  inst : Int → Inst P C B K

/-- hdb tree of pieces -/
abbrev Db (P C B : Type) := Hdb.Tree (Node P C B) B

/-- constdp/constructor.go:40-47 one node of the constraint index (identifier, polyline and range are zero values) -/
def ctxNode (lib : Lib P C B K) (inst : Int) (g : C) : Node P C B :=
  { id := 0, coords := ⟨[], []⟩, range := ⟨0, 0⟩, mbr := lib.bounds (.ctx g), geom := .ctx g, inst := inst }

section
variable [LinearOrder B] [BoundedOrder B] [LinearOrder K]

/-- constdp/constructor.go:37-50 `BuildContextDB` -/
def buildContextDB (lib : Lib P C B K) (H : Heur (Node P C B) B) (inst : Int) (geoms : List C) (fuel : Nat) : Res (Db P C B) :=
  Hdb.load nodeOps H (Hdb.newHdb Hdb.defaultCap) (geoms.map (ctxNode lib inst)) fuel

/-- score function in use: dp/dp.go:65-70, constdp/decompose.go:12-18, node_aggregates.go:25-31, simple_1.go:18-21 -/
def Inst.scoreFn (i : Inst P C B K) : ScoreFn P K := scoreOf i.score i.square
/-- acceptance relation in use -/
def Inst.rel (i : Inst P C B K) : Fl K → Bool := relationOf i.opts.threshold i.opts.sqThreshold i.square

/-- knn/neighbours.go:15-24 `NodeNeighbours` on pieces (`hull.BBox()` is the stored box) -/
def neighboursOf (env : Env P C B K) (db : Db P C B) (hull : Node P C B) (fuel : Nat) : Res (List (Node P C B)) :=
  Hdb.nodeNeighbours nodeOps (fun a b => env.lib.distance a.geom b.geom) db hull env.eps fuel

/-! ### package `deform` -/

/-- deform/contig.go:8-26 `contiguousCandidates` -/
def contiguousCandidates (lib : Lib P C B K) (a b : Node P C B) : Res (Option (Node P C B) × Option (Node P C B)) := do
  let ca ← a.collapsible lib b
  let cb ← b.collapsible lib a
  return (if ca then none else some a, if cb then none else some b)

/-- deform/noncontig.go:9-50 `nonContiguousCandidates` -/
def nonContiguousCandidates (lib : Lib P C B K) (displacement : Fl K) (a b : Node P C B) : Option (Node P C B) × Option (Node P C B) :=
  let aseg := a.segment
  let bseg := b.segment
  let aln := a.polyline
  let bln := b.polyline
  let asegIntersBseg := lib.intersects aseg bseg
  let asegIntersBln := lib.intersects aseg bln
  let bsegIntersAln := lib.intersects bseg aln
  let alnIntersBln := lib.intersects aln bln
  if asegIntersBseg && asegIntersBln && !alnIntersBln then (some a, none)
  else if asegIntersBseg && bsegIntersAln && !alnIntersBln then (none, some b)
  else if alnIntersBln then
    let ptLns := lib.intersection aln bln
    let atSeg := lib.intersection aseg bseg
    if atSeg.length = 0 ∧ ptLns.length > 0 then (some a, some b)
    else if ptLns.any (fun p => atSeg.any (fun q => (lib.ptDistance p q).gt displacement)) then (some a, some b)
    else (none, none)
  else (none, none)

/-- assignment into the map `dict` of deform/ln.go:15 (key: the range); keys in order of first insertion -/
def dictSet (d : List (Node P C B)) (nd : Node P C B) : List (Node P C B) :=
  if d.any (fun x => x.range = nd.range) then d.map (fun x => if x.range = nd.range then nd else x) else d ++ [nd]

/-- deform/ln.go:36-42 -/
def dictAdd (d : List (Node P C B)) (s : Option (Node P C B) × Option (Node P C B)) : List (Node P C B) :=
  let d := match s.1 with | some sa => dictSet d sa | none => d
  match s.2 with | some sb => dictSet d sb | none => d

/-- deform/ln.go:23-34 and deform/cls.go:41-63 the candidates of one neighbour: `inters`, `contig`, `n` are given -/
def candidates (lib : Lib P C B K) (displacement : Fl K) (hull h : Node P C B) (r : Bool × Bool × Nat) :
    Res (Option (Node P C B) × Option (Node P C B)) :=
  if !r.1 then .ok (none, none)
  else if r.2.1 && decide (r.2.2 > 1) then contiguousCandidates lib hull h
  else if !r.2.1 then .ok (nonContiguousCandidates lib displacement hull h)
  else .ok (none, none)

/-- deform/ln.go:19-43 the loop of `Select` -/
def selectLoop (lib : Lib P C B K) (displacement : Fl K) (hull : Node P C B) : List (Node P C B) → List (Node P C B) → Res (List (Node P C B))
  | [], dict => .ok dict
  | h :: hs, dict => do
    let r ← Node.isContiguous lib hull h
    let s ← candidates lib displacement hull h r
    selectLoop lib displacement hull hs (dictAdd dict s)

/-- deform/ln.go:11-50 `Select`; the values of the map come back in an arbitrary order that no caller depends on (they go into a set, or only their number
matters), here in order of first insertion -/
def select (env : Env P C B K) (displacement : Fl K) (db : Db P C B) (hull : Node P C B) (fuel : Nat) : Res (List (Node P C B)) := do
  let ctxHulls ← neighboursOf env db hull fuel
  selectLoop env.lib displacement hull ctxHulls []

/-- deform/cls.go:39-52 intersection and contiguity of one neighbour -/
def fcContiguous (env : Env P C B K) (hull h : Node P C B) : Res (Bool × Bool × Nat) :=
  if (env.inst hull.inst).id = (env.inst h.inst).id then Node.isContiguous env.lib hull h
  else if env.lib.intersects hull.geom h.geom then
    let pts := env.lib.intersection hull.geom h.geom
    .ok (decide (pts.length > 0), false, pts.length)
  else .ok (false, false, 0)

/-- deform/cls.go:35-72 the loop of `SelectFeatureClass` -/
def selectFCLoop (env : Env P C B K) (displacement : Fl K) (hull : Node P C B) : List (Node P C B) → List (Node P C B) → Res (List (Node P C B))
  | [], dict => .ok dict
  | h :: hs, dict => do
    let r ← fcContiguous env hull h
    let s ← candidates env.lib displacement hull h r
    selectFCLoop env displacement hull hs (dictAdd dict s)

/-- deform/cls.go:10-22 `optimizeNeighbours`; `dirty`: state/state.go of the instances -/
def optimizeNeighbours (env : Env P C B K) (dirty : Int → Bool) (hull : Node P C B) (ns : List (Node P C B)) : List (Node P C B) :=
  if dirty hull.inst then ns else ns.filter (fun o => (env.inst hull.inst).id ≠ (env.inst o.inst).id)

/-- deform/cls.go:25-79 `SelectFeatureClass` -/
def selectFeatureClass (env : Env P C B K) (dirty : Int → Bool) (displacement : Fl K) (db : Db P C B) (hull : Node P C B) (fuel : Nat) :
    Res (List (Node P C B)) := do
  let ctxHulls ← neighboursOf env db hull fuel
  selectFCLoop env displacement hull (optimizeNeighbours env dirty hull ctxHulls) []

/-! ### validation -/

/-- second and later checks of constdp/validate.go:50-60 -/
def andThen (bln : Bool) (flag : Bool) (f : Res Bool) : Res Bool := if bln && flag then f else .ok bln

/-- constdp/validate.go:33-67 `ValidateContextRelation`: the verdict (when it is false the piece is appended to the selections) -/
def validateContextRelation (env : Env P C B K) (hull : Node P C B) (self : Inst P C B K) (fuel : Nat) : Res Bool :=
  let o := self.opts
  if !(o.geomRelation || o.distRelation || o.dirRelation) then .ok true
  else do
    let boxObjs ← Hdb.contextNeighbours env.heap self.ctxdb (env.lib.boxDistance hull.geom) (fun nd => env.lib.distance hull.geom nd.geom)
      o.minDist fuel
    let ctxtgeoms := boxObjs.map Node.geom
    let bln ← andThen true o.geomRelation (.ok (isGeomRelateValid env.lib hull ctxtgeoms))
    let bln ← andThen bln o.distRelation (.ok (isDistRelateValid env.lib o.minDist hull ctxtgeoms))
    andThen bln o.dirRelation (isDirRelateValid env.lib hull ctxtgeoms fuel)

/-- constrain/byself.go:12-28 `BySelfIntersection` and constrain/bycls.go:12-27 `ByFeatureClassIntersection`: the verdict from the selected pieces -/
def notSelected (hull : Node P C B) (hulls : List (Node P C B)) : Bool := !hulls.any (fun h => h.id = hull.id)

/-- constdp/validate.go:11-28 `ValidateMerge` -/
def validateMerge (env : Env P C B K) (self : Inst P C B K) (hull : Node P C B) (db : Db P C B) (fuel : Nat) : Res Bool := do
  let sideEffects ← if self.opts.avoidNewSelfIntersects then select env self.opts.nonPlanarDisplacement db hull fuel else .ok []
  if sideEffects.length ≠ 0 || !notSelected hull sideEffects then .ok false
  else validateContextRelation env hull self fuel

/-! ### deformation loop -/

/-- constdp/simple_0.go:47-50 -/
def fcSelections (env : Env P C B K) (dirty : Int → Bool) (db : Db P C B) (hull : Node P C B) (fuel : Nat) : Res (List (Node P C B)) :=
  let self := env.inst hull.inst
  if self.opts.avoidNewSelfIntersects then selectFeatureClass env dirty self.opts.nonPlanarDisplacement db hull fuel else .ok []

/-- constdp/simple_0.go:53-55 -/
def ctxSelections (env : Env P C B K) (hull : Node P C B) (selections : List (Node P C B)) (fuel : Nat) : Res (List (Node P C B)) :=
  if notSelected hull selections then do
    let ok ← validateContextRelation env hull (env.inst hull.inst) fuel
    return if ok then selections else selections ++ [hull]
  else .ok selections

/-- constdp/simple_0.go:33-61 the body of the worker for one piece: what it sends to the output channel -/
def hullSelections (env : Env P C B K) (dirty : Int → Bool) (db : Db P C B) (hull : Node P C B) (fuel : Nat) : Res (List (Node P C B)) :=
  if hull.range.size = 1 then .ok []
  else if hull.geom.isLineString then .ok []
  else do
    let selections ← fcSelections env dirty db hull fuel
    ctxSelections env hull selections fuel

/-- all pieces in sequence -/
def selectionsOf (env : Env P C B K) (dirty : Int → Bool) (db : Db P C B) (fuel : Nat) : List (Node P C B) → Res (List (Node P C B))
  | [] => .ok []
  | h :: hs => do
    let s ← hullSelections env dirty db h fuel
    let rest ← selectionsOf env dirty db fuel hs
    return s ++ rest

/-- the map `results` of constdp/simple_0.go:75-78: every selected piece once -/
def dedupId : List (Node P C B) → List (Node P C B)
  | [] => []
  | h :: hs => h :: (dedupId hs).filter (fun x => x.id ≠ h.id)

/-- constdp/simple_0.go:11-80 `findDeformableNodes`.  The goroutines only read; that their interleaving is irrelevant is proved separately (C37), here the
pieces are taken in sequence. -/
def findDeformable (env : Env P C B K) (dirty : Int → Bool) (hulls : List (Node P C B)) (db : Db P C B) (fuel : Nat) : Res (List (Node P C B)) := do
  return dedupId (← selectionsOf env dirty db fuel hulls)

/-- state/state.go:9-11 `MarkDirty` -/
def markDirty (dirty : Int → Bool) (h : Int) : Int → Bool := fun i => if i = h then true else dirty i
/-- state/state.go:5-7 `MarkClean` -/
def markClean (dirty : Int → Bool) (h : Int) : Int → Bool := fun i => if i = h then false else dirty i

/-- constdp/simple_1.go:16-30 the loop of `deformNodes` over the map in some order -/
def deformNodesLoop (env : Env P C B K) (ids : Nat → Int) : List (Node P C B) → (g : Nat) → (dirty : Int → Bool) →
    Res (List (Node P C B) × Nat × (Int → Bool))
  | [], g, dirty => .ok ([], g, dirty)
  | hull :: hs, g, dirty =>
    if hull.range.size > 1 then do
      let (ha, hb, g) ← atScoreSelection env.lib ids g (env.inst hull.inst).scoreFn hull
      let (rest, g, dirty) ← deformNodesLoop env ids hs g (markDirty dirty hull.inst)
      return (ha :: hb :: rest, g, dirty)
    else do
      let (rest, g, dirty) ← deformNodesLoop env ids hs g dirty
      return (hull :: rest, g, dirty)

/-- constdp/simple_2.go:8-12 `cleanUpDB` -/
def cleanUpLoop (fuel : Nat) : List (Node P C B) → Db P C B → Res (Db P C B)
  | [], db => .ok db
  | o :: os, db => do cleanUpLoop fuel os (← Hdb.remove nodeOps db o fuel)

/-- the mutable state of the deformation loop -/
structure LoopSt (P C B : Type) where
  db : Db P C B
  g : Nat
  dirty : Int → Bool

/-- constdp/simplify.go:45-50 and constdp/fc_simplify.go:56-61, when something was selected -/
def deformRound (env : Env P C B K) (ids : Nat → Int) (st : LoopSt P C B) (selections : List (Node P C B)) (fuel : Nat) :
    Res (List (Node P C B) × LoopSt P C B) := do
  let (deformables, g, dirty) ← deformNodesLoop env ids (env.ord st.g selections) st.g st.dirty
  let db ← cleanUpLoop fuel (env.ordRm st.g selections) st.db
  let db ← Hdb.load nodeOps env.heur db deformables fuel
  return (deformables, ⟨db, g, dirty⟩)

/-- constdp/simplify.go:41-55 and constdp/fc_simplify.go:51-66 the loop -/
def deformLoop (env : Env P C B K) (ids : Nat → Int) : (fuel : Nat) → (deformables : List (Node P C B)) → LoopSt P C B → Res (LoopSt P C B)
  | 0, _, _ => .timeout
  | fuel + 1, deformables, st =>
    if deformables = [] then .ok st
    else do
      let selections ← findDeformable env st.dirty deformables st.db fuel
      if selections = [] then .ok st
      else do
        let (deformables, st) ← deformRound env ids st selections fuel
        deformLoop env ids fuel deformables st

/-! ### self-intersections -/

/-- constrain/toself.go:28-36: the vertex set of the self-intersections -/
def Inter.vertexSet (inter : Inter P) : List Int := if inter.kind = .nonPlanarVertex then inter.nonPlanar else inter.planar

/-- constrain/split.go:22-27: the indices at which pieces are split -/
def Inter.splitIdxs (inter : Inter P) : List Int :=
  if inter.kind = .planarVertex then inter.planar else if inter.kind = .nonPlanarVertex then inter.nonPlanar else []

/-- constrain/toself.go:40-50 fixed vertices become self-intersections: (set of indices, added intersections) -/
def addConstVerts (pln : Polyline P) : List Int → (atVertexSet : List Int) → Res (List Int × List (Inter P))
  | [], s => .ok (s, [])
  | i :: is, s =>
    if i ∈ s then addConstVerts pln is s
    else do
      let c ← pln.coordinates
      let p ← c.pt i
      let (s', rest) ← addConstVerts pln is (s ++ [i])
      return (s', ⟨p, .planarVertex, [i], []⟩ :: rest)

/-- constrain/split.go:33-40 the loop over the pieces near one self-intersection -/
def splitNodes (env : Env P C B K) (ids : Nat → Int) (idxs : List Int) (fuel : Nat) : List (Node P C B) → Db P C B → (g : Nat) → Res (Db P C B × Nat)
  | [], db, g => .ok (db, g)
  | hull :: hs, db, g => do
    let (tokens, g) ← atIndex env.lib ids g hull idxs
    if tokens.length = 0 then splitNodes env ids idxs fuel hs db g
    else do
      let db ← Hdb.remove nodeOps db hull fuel
      let db ← Hdb.load nodeOps env.heur db tokens fuel
      splitNodes env ids idxs fuel hs db g

/-- constrain/split.go:21-41 the loop of `splitAtSelfIntersects` -/
def splitAtInters (env : Env P C B K) (ids : Nat → Int) (fuel : Nat) : List (Inter P) → Db P C B → (g : Nat) → Res (Db P C B × Nat)
  | [], db, g => .ok (db, g)
  | inter :: is, db, g =>
    if inter.splitIdxs.length = 0 then splitAtInters env ids fuel is db g
    else do
      let nodes ← Hdb.contextNeighbours env.heap db (env.lib.boxDistance (.point inter.pt)) (fun nd => env.lib.distance (.point inter.pt) nd.geom)
        env.eps fuel
      let (db, g) ← splitNodes env ids inter.splitIdxs fuel nodes db g
      splitAtInters env ids fuel is db g

/-- constrain/toself.go:15-67 `ToSelfIntersects`: pieces (sorted) and the sorted list of fixed indices -/
def toSelfIntersects (env : Env P C B K) (ids : Nat → Int) (g : Nat) (nodes : List (Node P C B)) (self : Inst P C B K) (constVerts : List Int)
    (fuel : Nat) : Res (List (Node P C B) × List Int × Nat) :=
  if !self.opts.planarSelf then .ok (nodes, [], g)
  else do
    let db ← Hdb.load nodeOps env.heur (Hdb.newHdb Hdb.defaultCap) nodes fuel
    let inters ← selfIntersection env.lib env.lnr self.pln self.opts.planarSelf self.opts.nonPlanarSelf
    let (vs, added) ← addConstVerts self.pln constVerts (inters.flatMap Inter.vertexSet)
    let (db, g) ← splitAtInters env ids fuel (inters ++ added) db g
    let nodes ← Hdb.all db fuel
    return (sortNodes nodes, sortedIntsSet vs, g)

/-! ### merge pass -/

/-- constdp/common.go:25-33 `CacheKey` -/
def cacheKey (env : Env P C B K) (a b : Node P C B) : List Int :=
  sortInts [a.range.I, a.range.J, b.range.I, b.range.J, (env.inst a.inst).id, (env.inst b.inst).id]

/-- constdp/node_aggregates.go:62-70 and 72-80: try to merge two neighbours once.
Result: the merged piece, the updated cache, the identifiers used -/
def tryMerge (env : Env P C B K) (ids : Nat → Int) (self : Inst P C B K) (enabled : Bool) (a b : Option (Node P C B)) (cache : List (List Int))
    (g : Nat) : Res (Option (Node P C B) × List (List Int) × Nat) :=
  match enabled, a, b with
  | true, some a, some b =>
    let key := cacheKey env a b
    if key ∈ cache then .ok (none, cache, g)
    else do
      let (m, g) ← contiguousFragmentsAtThreshold env.lib ids g self.scoreFn self.rel a b
      return (m, key :: cache, g)
  | _, _, _ => .ok (none, cache, g)

/-- result of one merge attempt: constdp/node_aggregates.go:85-97 and 99-109 -/
structure MergeSt (P C B : Type) where
  db : Db P C B
  objects : List (Node P C B)
  insertList : List (Node P C B)
  merged : Bool

/-- constdp/node_aggregates.go:85-97 -/
def mergeNext (env : Env P C B K) (self : Inst P C B K) (mergeNxt nxt : Option (Node P C B)) (fuel : Nat) (s : MergeSt P C B) :
    Res (MergeSt P C B) :=
  match s.merged, mergeNxt, nxt with
  | false, some m, some nxt => do
    let db ← Hdb.remove nodeOps s.db nxt fuel
    let ok ← validateMerge env self m db fuel
    if ok then
      match s.objects with
      | [] => .panic
      | o :: os => .ok { db := db, objects := if o.id = nxt.id then os else o :: os, insertList := s.insertList ++ [m], merged := true }
    else .ok { s with db := db, insertList := s.insertList ++ [nxt] }
  | _, _, _ => .ok s

/-- constdp/node_aggregates.go:99-109 -/
def mergePrev (env : Env P C B K) (self : Inst P C B K) (mergePrv prev : Option (Node P C B)) (fuel : Nat) (s : MergeSt P C B) :
    Res (MergeSt P C B) :=
  match s.merged, mergePrv, prev with
  | false, some m, some prev => do
    let db ← Hdb.remove nodeOps s.db prev fuel
    let ok ← validateMerge env self m db fuel
    if ok then .ok { s with db := db, insertList := s.insertList ++ [m], merged := true }
    else .ok { s with db := db, insertList := s.insertList ++ [prev] }
  | _, _, _ => .ok s

/-- constdp/node_aggregates.go:48-115 the treatment of one fragment; `cvs`: the fixed indices.  Result: index, rest of the work list, cache, identifiers -/
def aggStep (env : Env P C B K) (ids : Nat → Int) (self : Inst P C B K) (cvs : List Int) (hull : Node P C B) (objects : List (Node P C B))
    (db : Db P C B) (cache : List (List Int)) (g : Nat) (fuel : Nat) : Res (Db P C B × List (Node P C B) × List (List Int) × Nat) := do
  let db ← Hdb.remove nodeOps db hull fuel
  let neighbours ← neighboursOf env db hull fuel
  let pn := Node.neighbours hull neighbours
  let (mPrev, cache, g) ← tryMerge env ids self (!decide (hull.range.I ∈ cvs)) pn.1 (some hull) cache g
  let (mNxt, cache, g) ← tryMerge env ids self (!decide (hull.range.J ∈ cvs)) (some hull) pn.2 cache g
  let s ← mergeNext env self mNxt pn.2 fuel { db := db, objects := objects, insertList := [], merged := false }
  let s ← mergePrev env self mPrev pn.1 fuel s
  let insertList := if s.merged then s.insertList else s.insertList ++ [hull]
  let db ← Hdb.load nodeOps env.heur s.db insertList fuel
  return (db, s.objects, cache, g)

/-- constdp/node_aggregates.go:33-116 the loop of `AggregateSimpleSegments`.
External `iter.SortedSearchInts` is membership in the sorted list. -/
def aggLoop (env : Env P C B K) (ids : Nat → Int) (self : Inst P C B K) (cvs : List Int) : (fuel : Nat) → (objects : List (Node P C B)) → Db P C B →
    (cache : List (List Int)) → (g : Nat) → Res (Db P C B × Nat)
  | 0, _, _, _, _ => .timeout
  | _ + 1, [], db, _, g => .ok (db, g)
  | fuel + 1, hull :: objects, db, cache, g =>
    if hull.range.size ≠ 1 then aggLoop env ids self cvs fuel objects db cache g
    else if hull.range.I ∈ cvs ∧ hull.range.J ∈ cvs then aggLoop env ids self cvs fuel objects db cache g
    else do
      let (db, objects, cache, g) ← aggStep env ids self cvs hull objects db cache g fuel
      aggLoop env ids self cvs fuel objects db cache g

/-- constdp/node_aggregates.go:14-117 `AggregateSimpleSegments` -/
def aggregate (env : Env P C B K) (ids : Nat → Int) (self : Inst P C B K) (cvs : List Int) (db : Db P C B) (g : Nat) (fuel : Nat) :
    Res (Db P C B × Nat) := do
  let objects ← Hdb.all db fuel
  aggLoop env ids self cvs fuel (sortNodes objects) db [] g

/-- constdp/simplify.go:11-76 `Simplify` of the instance with handle `h`; `dirty` is the state of all instances -/
def simplify (env : Env P C B K) (ids : Nat → Int) (h : Int) (constVerts : List Int) (dirty : Int → Bool) (fuel : Nat) :
    Res (Out P C B × (Int → Bool)) := do
  let self := env.inst h
  let dirty := markDirty dirty h
  let (hulls, g) ← decompose env.lib ids 0 self.pln self.scoreFn self.rel h fuel
  let (hulls, cvs, g) ← toSelfIntersects env ids g hulls self constVerts fuel
  let db ← Hdb.load nodeOps env.heur (Hdb.newHdb Hdb.defaultCap) hulls fuel
  let st ← deformLoop env ids fuel hulls ⟨db, g, dirty⟩
  let (db, _) ← aggregate env ids self cvs st.db st.g fuel
  let nodes ← Hdb.all db fuel
  return (⟨nodes, simpleSet nodes⟩, markClean st.dirty h)

/-! ### feature classes -/

/-- constdp/fc_simplify.go:71-106 `SimplifyInstances`.  Taken in sequence (interleavings: C36); the identifiers an instance obtains from the shared source are
its own stream `idsOf h`, which covers every interleaving of the identifier source. -/
def simplifyInstances (env : Env P C B K) (idsOf : Int → Nat → Int) (junctions : List (Int × Int)) (fuel : Nat) : List Int → (dirty : Int → Bool) →
    Res (List (Int × Out P C B) × (Int → Bool))
  | [], dirty => .ok ([], dirty)
  | h :: hs, dirty => do
    let (o, dirty) ← simplify env (idsOf h) h (junctionsOf junctions (env.inst h).id) dirty fuel
    let (rest, dirty) ← simplifyInstances env idsOf junctions fuel hs dirty
    return ((h, o) :: rest, dirty)

/-- constdp/fc_group.go:15-33 the pieces whose instance carries the identifier `i` -/
def groupOf (env : Env P C B K) (nodes : List (Node P C B)) (i : Int) : List (Node P C B) := nodes.filter (fun nd => (env.inst nd.inst).id = i)

/-- constdp/fc_group.go:9-43 `groupHullsByFC`: the result of one instance.  A group (pieces with one instance identifier) is stored in the instance of its first
piece; an instance that is nobody's first keeps no pieces (they were cleared) and its old simple set. -/
def groupResult (env : Env P C B K) (nodes : List (Node P C B)) (h : Int) (old : Out P C B) : Out P C B :=
  let grp := groupOf env nodes (env.inst h).id
  match grp with
  | [] => ⟨[], old.simple⟩
  | nd :: _ => if nd.inst = h then ⟨grp, simpleSet grp⟩ else ⟨[], old.simple⟩

/-- constdp/fc_simplify.go:22-28 -/
def fcJunctions (env : Env P C B K) (handles : List Int) (planarSelf : Bool) : Res (List (Int × Int)) :=
  if planarSelf then do
    let fs ← Hdb.mapRes (fun h => do return (← (env.inst h).pln.coordinates, (env.inst h).id)) handles
    fcPlanarSelfIntersection env.lib env.lnr fs
  else .ok []

/-- constdp/fc_simplify.go:14-69 `SimplifyFeatureClass` (without the callback); `ids` is the identifier stream of the joint stage -/
def simplifyFeatureClass (env : Env P C B K) (ids : Nat → Int) (idsOf : Int → Nat → Int) (handles : List Int) (o : Opts K) (dirty : Int → Bool)
    (fuel : Nat) : Res (List (Int × Out P C B)) := do
  let junctions ← fcJunctions env handles o.planarSelf
  let (outs, dirty) ← simplifyInstances env idsOf junctions fuel handles dirty
  if o.avoidNewSelfIntersects || o.planarSelf || o.geomRelation || o.dirRelation || o.distRelation then do
    let deformables := outs.flatMap (fun x => x.2.hulls)
    let db ← Hdb.load nodeOps env.heur (Hdb.newHdb Hdb.defaultCap) deformables fuel
    let st ← deformLoop env ids fuel deformables ⟨db, 0, dirty⟩
    let nodes ← Hdb.all st.db fuel
    return outs.map (fun x => (x.1, groupResult env nodes x.1 x.2))
  else return outs

end

end Verif
