import Verif.Model.ConstDP

/-!
The run of `constdp` with pointers.

`Model/ConstDP.lean` compares pieces by identifier wherever the code compares pointers (`h == hull`, the map keyed by `*node.Node`, `h != hull`, `objects[0] == nxt`).
Here the same functions are written with addresses.  A `Ref` is a pointer together with the value it points to (pieces are not assigned to after they were made).
The index stores pointers; as it never holds two pieces with one identifier (part of the invariants in Lemmas/Deform.lean), the pointer stored for an identifier is a function `Mem.cur` of the
identifier.  Every `Load(slice)` stores the addresses of the elements of the slice, which was made just before and is not used for anything else, so these
addresses are new.  Copies (`append(insertList, *nxt)`) are made of values and get new addresses.
Functions that do not compare pointers are those of `Model/ConstDP.lean`.
-/

namespace Verif.Ptr

variable {P C B K : Type}

/-- `*node.Node`: the address and the value stored there -/
structure Ref (P C B : Type) where
  node : Node P C B
  addr : Nat

/-- addresses: `cur i` is the address the index stores for the piece with identifier `i` (0 = nil: never stored), `next` the first address never used -/
structure Mem where
  cur : Int → Nat
  next : Nat

/-- before anything was stored -/
def Mem.empty : Mem := ⟨fun _ => 0, 1⟩

/-- the pointer the index stores for a piece -/
def Mem.at (m : Mem) (nd : Node P C B) : Ref P C B := ⟨nd, m.cur nd.id⟩

/-- hdb/load.go:19-31 `&items[i]`: the elements of a new slice, and what the index stores afterwards -/
def Mem.load : Mem → List (Node P C B) → List (Ref P C B) × Mem
  | m, [] => ([], m)
  | m, nd :: nds =>
    let r := Mem.load ⟨fun i => if i = nd.id then m.next else m.cur i, m.next + 1⟩ nds
    (⟨nd, m.next⟩ :: r.1, r.2)

/-- assignment into the map `dict` of deform/ln.go:15 (key: the range) -/
def dictSet (d : List (Ref P C B)) (r : Ref P C B) : List (Ref P C B) :=
  if d.any (fun x => x.node.range = r.node.range) then d.map (fun x => if x.node.range = r.node.range then r else x) else d ++ [r]

/-- deform/ln.go:36-42 -/
def dictAdd (d : List (Ref P C B)) (s : Option (Ref P C B) × Option (Ref P C B)) : List (Ref P C B) :=
  let d := match s.1 with | some sa => dictSet d sa | none => d
  match s.2 with | some sb => dictSet d sb | none => d

section
variable [LinearOrder B] [BoundedOrder B] [LinearOrder K]

/-- deform/contig.go:8-26, deform/noncontig.go:9-50: `sa` is the pointer `hull` or nil, `sb` the pointer `h` or nil -/
def candidates (lib : Lib P C B K) (displacement : Fl K) (hull h : Ref P C B) (r : Bool × Bool × Nat) :
    Res (Option (Ref P C B) × Option (Ref P C B)) := do
  let s ← Verif.candidates lib displacement hull.node h.node r
  return (if s.1.isSome then some hull else none, if s.2.isSome then some h else none)

/-- deform/ln.go:19-43 -/
def selectLoop (lib : Lib P C B K) (displacement : Fl K) (hull : Ref P C B) : List (Ref P C B) → List (Ref P C B) → Res (List (Ref P C B))
  | [], dict => .ok dict
  | h :: hs, dict => do
    let r ← Node.isContiguous lib hull.node h.node
    let s ← candidates lib displacement hull h r
    selectLoop lib displacement hull hs (dictAdd dict s)

/-- knn/neighbours.go:15-24 `NodeNeighbours` (compares `Id`): pointers stored in the index -/
def neighboursOf (env : Env P C B K) (m : Mem) (db : Db P C B) (hull : Ref P C B) (fuel : Nat) : Res (List (Ref P C B)) := do
  let ns ← Verif.neighboursOf env db hull.node fuel
  return ns.map m.at

/-- deform/ln.go:11-50 `Select` -/
def select (env : Env P C B K) (displacement : Fl K) (m : Mem) (db : Db P C B) (hull : Ref P C B) (fuel : Nat) : Res (List (Ref P C B)) := do
  let ctxHulls ← neighboursOf env m db hull fuel
  selectLoop env.lib displacement hull ctxHulls []

/-- deform/cls.go:35-72 -/
def selectFCLoop (env : Env P C B K) (displacement : Fl K) (hull : Ref P C B) : List (Ref P C B) → List (Ref P C B) → Res (List (Ref P C B))
  | [], dict => .ok dict
  | h :: hs, dict => do
    let r ← fcContiguous env hull.node h.node
    let s ← candidates env.lib displacement hull h r
    selectFCLoop env displacement hull hs (dictAdd dict s)

/-- deform/cls.go:10-22 `optimizeNeighbours` (compares instance identifiers) -/
def optimizeNeighbours (env : Env P C B K) (dirty : Int → Bool) (hull : Ref P C B) (ns : List (Ref P C B)) : List (Ref P C B) :=
  if dirty hull.node.inst then ns else ns.filter (fun o => (env.inst hull.node.inst).id ≠ (env.inst o.node.inst).id)

/-- deform/cls.go:25-79 `SelectFeatureClass` -/
def selectFeatureClass (env : Env P C B K) (dirty : Int → Bool) (displacement : Fl K) (m : Mem) (db : Db P C B) (hull : Ref P C B) (fuel : Nat) :
    Res (List (Ref P C B)) := do
  let ctxHulls ← neighboursOf env m db hull fuel
  selectFCLoop env displacement hull (optimizeNeighbours env dirty hull ctxHulls) []

/-- constrain/byself.go:19-26 and constrain/bycls.go:19-25: `h == hull` compares pointers -/
def notSelected (hull : Ref P C B) (hulls : List (Ref P C B)) : Bool := !hulls.any (fun h => h.addr = hull.addr)

/-- constdp/validate.go:11-28 `ValidateMerge(hull, hulldb)` -/
def validateMerge (env : Env P C B K) (self : Inst P C B K) (m : Mem) (hull : Ref P C B) (db : Db P C B) (fuel : Nat) : Res Bool := do
  let sideEffects ← if self.opts.avoidNewSelfIntersects then select env self.opts.nonPlanarDisplacement m db hull fuel else .ok []
  if sideEffects.length ≠ 0 || !notSelected hull sideEffects then .ok false
  else validateContextRelation env hull.node self fuel

/-- constdp/simple_0.go:47-50 -/
def fcSelections (env : Env P C B K) (dirty : Int → Bool) (m : Mem) (db : Db P C B) (hull : Ref P C B) (fuel : Nat) : Res (List (Ref P C B)) :=
  let self := env.inst hull.node.inst
  if self.opts.avoidNewSelfIntersects then selectFeatureClass env dirty self.opts.nonPlanarDisplacement m db hull fuel else .ok []

/-- constdp/simple_0.go:53-55 -/
def ctxSelections (env : Env P C B K) (hull : Ref P C B) (selections : List (Ref P C B)) (fuel : Nat) : Res (List (Ref P C B)) :=
  if notSelected hull selections then do
    let ok ← validateContextRelation env hull.node (env.inst hull.node.inst) fuel
    return if ok then selections else selections ++ [hull]
  else .ok selections

/-- constdp/simple_0.go:33-61 -/
def hullSelections (env : Env P C B K) (dirty : Int → Bool) (m : Mem) (db : Db P C B) (hull : Ref P C B) (fuel : Nat) : Res (List (Ref P C B)) :=
  if hull.node.range.size = 1 then .ok []
  else if hull.node.geom.isLineString then .ok []
  else do
    let selections ← fcSelections env dirty m db hull fuel
    ctxSelections env hull selections fuel

/-- all pieces in sequence -/
def selectionsOf (env : Env P C B K) (dirty : Int → Bool) (m : Mem) (db : Db P C B) (fuel : Nat) : List (Ref P C B) → Res (List (Ref P C B))
  | [] => .ok []
  | h :: hs => do
    let s ← hullSelections env dirty m db h fuel
    let rest ← selectionsOf env dirty m db fuel hs
    return s ++ rest

/-- constdp/simple_0.go:75-78 the map `results map[*node.Node]struct{}`: every selected pointer once -/
def dedup : List (Ref P C B) → List (Ref P C B)
  | [] => []
  | h :: hs => h :: (dedup hs).filter (fun x => x.addr ≠ h.addr)

/-- constdp/simple_0.go:11-80 `findDeformableNodes`: `hulls` are the addresses of the elements of the slice that was loaded -/
def findDeformable (env : Env P C B K) (dirty : Int → Bool) (m : Mem) (hulls : List (Ref P C B)) (db : Db P C B) (fuel : Nat) : Res (List (Ref P C B)) := do
  return dedup (← selectionsOf env dirty m db fuel hulls)

/-- constdp/simplify.go:45-50: the selected pieces are read through their pointers, removed by identifier, and their parts stored as a new slice -/
def deformRound (env : Env P C B K) (ids : Nat → Int) (m : Mem) (st : LoopSt P C B) (selections : List (Ref P C B)) (fuel : Nat) :
    Res (List (Ref P C B) × Mem × LoopSt P C B) := do
  let r ← Verif.deformRound env ids st (selections.map Ref.node) fuel
  let l := m.load r.1
  return (l.1, l.2, r.2)

/-- constdp/simplify.go:41-55 and constdp/fc_simplify.go:51-66 -/
def deformLoop (env : Env P C B K) (ids : Nat → Int) : (fuel : Nat) → (deformables : List (Ref P C B)) → Mem → LoopSt P C B → Res (LoopSt P C B × Mem)
  | 0, _, _, _ => .timeout
  | fuel + 1, deformables, m, st =>
    if deformables.length = 0 then .ok (st, m)
    else do
      let selections ← findDeformable env st.dirty m deformables st.db fuel
      if selections.length = 0 then .ok (st, m)
      else do
        let (deformables, m, st) ← deformRound env ids m st selections fuel
        deformLoop env ids fuel deformables m st

/-- node/contig.go:35-53 `Neighbours`: `h != hull` compares pointers -/
def neighboursLoop (hull : Ref P C B) : List (Ref P C B) → Option (Ref P C B) → Option (Ref P C B) → Option (Ref P C B) × Option (Ref P C B)
  | [], prev, nxt => (prev, nxt)
  | h :: hs, prev, nxt =>
    let (prev, nxt) :=
      if h.addr ≠ hull.addr then
        if hull.node.range.I = h.node.range.J then (some h, nxt)
        else if hull.node.range.J = h.node.range.I then (prev, some h)
        else (prev, nxt)
      else (prev, nxt)
    if prev.isSome && nxt.isSome then (prev, nxt) else neighboursLoop hull hs prev nxt

/-- constdp/node_aggregates.go:85-109: index, work list (pointers), the values to insert -/
structure MergeSt (P C B : Type) where
  db : Db P C B
  objects : List (Ref P C B)
  insertList : List (Node P C B)
  merged : Bool

/-- constdp/node_aggregates.go:85-97: `objects[0] == nxt` compares pointers, `*nxt` is a copy; `a` is the address of the local variable `mergeNxt` -/
def mergeNext (env : Env P C B K) (self : Inst P C B K) (m : Mem) (a : Nat) (mergeNxt : Option (Node P C B)) (nxt : Option (Ref P C B)) (fuel : Nat)
    (s : MergeSt P C B) : Res (MergeSt P C B) :=
  match s.merged, mergeNxt, nxt with
  | false, some mg, some nxt => do
    let db ← Hdb.remove nodeOps s.db nxt.node fuel
    let ok ← validateMerge env self m ⟨mg, a⟩ db fuel
    if ok then
      match s.objects with
      | [] => .panic
      | o :: os => .ok { db := db, objects := if o.addr = nxt.addr then os else o :: os, insertList := s.insertList ++ [mg], merged := true }
    else .ok { s with db := db, insertList := s.insertList ++ [nxt.node] }
  | _, _, _ => .ok s

/-- constdp/node_aggregates.go:99-109; `a` is the address of the local variable `mergePrev` -/
def mergePrev (env : Env P C B K) (self : Inst P C B K) (m : Mem) (a : Nat) (mergePrv : Option (Node P C B)) (prev : Option (Ref P C B)) (fuel : Nat)
    (s : MergeSt P C B) : Res (MergeSt P C B) :=
  match s.merged, mergePrv, prev with
  | false, some mg, some prev => do
    let db ← Hdb.remove nodeOps s.db prev.node fuel
    let ok ← validateMerge env self m ⟨mg, a⟩ db fuel
    if ok then .ok { s with db := db, insertList := s.insertList ++ [mg], merged := true }
    else .ok { s with db := db, insertList := s.insertList ++ [prev.node] }
  | _, _, _ => .ok s

/-- constdp/node_aggregates.go:48-115 the treatment of one fragment (`tryMerge` reads the values) -/
def aggStep (env : Env P C B K) (ids : Nat → Int) (self : Inst P C B K) (cvs : List Int) (hull : Ref P C B) (objects : List (Ref P C B)) (m : Mem)
    (db : Db P C B) (cache : List (List Int)) (g : Nat) (fuel : Nat) : Res (Db P C B × List (Ref P C B) × Mem × List (List Int) × Nat) := do
  let db ← Hdb.remove nodeOps db hull.node fuel
  let neighbours ← neighboursOf env m db hull fuel
  let pn := neighboursLoop hull neighbours none none
  let (mPrev, cache, g) ← tryMerge env ids self (!decide (hull.node.range.I ∈ cvs)) (pn.1.map Ref.node) (some hull.node) cache g
  let (mNxt, cache, g) ← tryMerge env ids self (!decide (hull.node.range.J ∈ cvs)) (some hull.node) (pn.2.map Ref.node) cache g
  let m1 : Mem := ⟨m.cur, m.next + 2⟩
  let s ← mergeNext env self m1 (m.next + 1) mNxt pn.2 fuel { db := db, objects := objects, insertList := [], merged := false }
  let s ← mergePrev env self m1 m.next mPrev pn.1 fuel s
  let insertList := if s.merged then s.insertList else s.insertList ++ [hull.node]
  let db ← Hdb.load nodeOps env.heur s.db insertList fuel
  return (db, s.objects, (m1.load insertList).2, cache, g)

/-- constdp/node_aggregates.go:33-116 -/
def aggLoop (env : Env P C B K) (ids : Nat → Int) (self : Inst P C B K) (cvs : List Int) : (fuel : Nat) → (objects : List (Ref P C B)) → Mem → Db P C B →
    (cache : List (List Int)) → (g : Nat) → Res (Db P C B × Nat)
  | 0, _, _, _, _, _ => .timeout
  | _ + 1, [], _, db, _, g => .ok (db, g)
  | fuel + 1, hull :: objects, m, db, cache, g =>
    if hull.node.range.size ≠ 1 then aggLoop env ids self cvs fuel objects m db cache g
    else if hull.node.range.I ∈ cvs ∧ hull.node.range.J ∈ cvs then aggLoop env ids self cvs fuel objects m db cache g
    else do
      let (db, objects, m, cache, g) ← aggStep env ids self cvs hull objects m db cache g fuel
      aggLoop env ids self cvs fuel objects m db cache g

/-- constdp/node_aggregates.go:14-117 `AggregateSimpleSegments`: `db.All()` returns the stored pointers -/
def aggregate (env : Env P C B K) (ids : Nat → Int) (self : Inst P C B K) (cvs : List Int) (m : Mem) (db : Db P C B) (g : Nat) (fuel : Nat) :
    Res (Db P C B × Nat) := do
  let objects ← Hdb.all db fuel
  aggLoop env ids self cvs fuel ((sortNodes objects).map m.at) m db [] g

/-- constdp/simplify.go:11-76 `Simplify` -/
def simplify (env : Env P C B K) (ids : Nat → Int) (h : Int) (constVerts : List Int) (dirty : Int → Bool) (fuel : Nat) :
    Res (Out P C B × (Int → Bool)) := do
  let self := env.inst h
  let dirty := markDirty dirty h
  let (hulls, g) ← decompose env.lib ids 0 self.pln self.scoreFn self.rel h fuel
  let (hulls, cvs, g) ← toSelfIntersects env ids g hulls self constVerts fuel
  let db ← Hdb.load nodeOps env.heur (Hdb.newHdb Hdb.defaultCap) hulls fuel
  let l := Mem.empty.load hulls
  let (st, m) ← deformLoop env ids fuel l.1 l.2 ⟨db, g, dirty⟩
  let (db, _) ← aggregate env ids self cvs m st.db st.g fuel
  let nodes ← Hdb.all db fuel
  return (⟨nodes, simpleSet nodes⟩, markClean st.dirty h)

/-- constdp/fc_simplify.go:71-106 `SimplifyInstances` -/
def simplifyInstances (env : Env P C B K) (idsOf : Int → Nat → Int) (junctions : List (Int × Int)) (fuel : Nat) : List Int → (dirty : Int → Bool) →
    Res (List (Int × Out P C B) × (Int → Bool))
  | [], dirty => .ok ([], dirty)
  | h :: hs, dirty => do
    let (o, dirty) ← simplify env (idsOf h) h (junctionsOf junctions (env.inst h).id) dirty fuel
    let (rest, dirty) ← simplifyInstances env idsOf junctions fuel hs dirty
    return ((h, o) :: rest, dirty)

/-- constdp/fc_simplify.go:14-69 `SimplifyFeatureClass` -/
def simplifyFeatureClass (env : Env P C B K) (ids : Nat → Int) (idsOf : Int → Nat → Int) (handles : List Int) (o : Opts K) (dirty : Int → Bool)
    (fuel : Nat) : Res (List (Int × Out P C B)) := do
  let junctions ← fcJunctions env handles o.planarSelf
  let (outs, dirty) ← simplifyInstances env idsOf junctions fuel handles dirty
  if o.avoidNewSelfIntersects || o.planarSelf || o.geomRelation || o.dirRelation || o.distRelation then do
    let deformables := outs.flatMap (fun x => x.2.hulls)
    let db ← Hdb.load nodeOps env.heur (Hdb.newHdb Hdb.defaultCap) deformables fuel
    let l := Mem.empty.load deformables
    let (st, _) ← deformLoop env ids fuel l.1 l.2 ⟨db, 0, dirty⟩
    let nodes ← Hdb.all st.db fuel
    return outs.map (fun x => (x.1, groupResult env nodes x.1 x.2))
  else return outs

end

end Verif.Ptr
