import Verif.Model.Relate

/-! Package `lnr`: planar and non-planar self-intersections of a polyline, junctions of a feature class. -/

namespace Verif

/-- lnr/vertices.go:8-12 `vertex` -/
structure Vtx (P : Type) where
  pt : P
  index : Int
  fid : Int
  deriving DecidableEq, Repr

/-- ctx/ctx.go:101-119 the two context types that occur as self-intersections -/
inductive InterKind where
  | planarVertex
  | nonPlanarVertex
  deriving DecidableEq, Repr

/-- ctx/ctx.go:18-29 `ContextGeometry` as produced by lnr (`Geom` is a point, `Meta` the index lists) -/
structure Inter (P : Type) where
  pt : P
  kind : InterKind
  planar : List Int
  nonPlanar : List Int
  deriving DecidableEq, Repr

/-- external `mono.MBR`: box and indices of one segment -/
structure SegBox (B : Type) where
  box : Box B
  I : Int
  J : Int
  deriving DecidableEq, Repr

/-- external code used by package `lnr` -/
structure LnrLib (P B : Type) where
  /-- `sort.Sort` with lnr/vertices.go:17-21 `Less` -/
  sortV : List (Vtx P) → List (Vtx P)
  /-- `mbr.CreateMBR` of two points -/
  segBox : P → P → Box B
  /-- `geom.SegSegIntersection`: points with `IsVertex`, `IsVerteXOR` -/
  segSeg : P → P → P → P → List (P × Bool × Bool)
  /-- `index.Index.Search`: positions of the segments whose box meets the box (given the position searched for, in some order) -/
  segSearch : List (SegBox B) → Nat → List Nat

variable {P C B K : Type}

/-- lnr/common.go:10 `NullFId` -/
def nullFId : Int := -9

/-- lnr/vertices.go:38-43 `appendVertices` (and lnr/self.go:26-29): the vertices of one coordinate list -/
def verticesOf (c : Coords P) (fid : Int) : (todo : Nat) → (i : Nat) → Res (List (Vtx P))
  | 0, _ => .ok []
  | todo + 1, i => do
    let p ← c.pt i
    let vs ← verticesOf c fid todo (i + 1)
    return ⟨p, i, fid⟩ :: vs

/-- lnr/self.go:38-59 the loop of `planarIntersects`: `d`, `indices`.  Nothing is reported after the last comparison. -/
def planarLoop (eq : P → P → Bool) : List (Vtx P) → (d : Nat) → (indices : List Int) → List (Inter P)
  | a :: b :: rest, d, indices =>
    if eq a.pt b.pt then
      if d = 0 then planarLoop eq (b :: rest) (d + 2) (indices ++ [a.index, b.index])
      else planarLoop eq (b :: rest) (d + 1) (indices ++ [b.index])
    else if d > 1 then ⟨a.pt, .planarVertex, sortedIntsSet indices, []⟩ :: planarLoop eq (b :: rest) 0 []
    else planarLoop eq (b :: rest) 0 []
  | _, _, _ => []

/-- lnr/self.go:25-61 `planarIntersects` -/
def planarIntersects (lib : Lib P C B K) (lnr : LnrLib P B) (pln : Polyline P) : Res (List (Inter P)) := do
  let c ← pln.coordinates
  let vs ← verticesOf c nullFId c.len.toNat 0
  return planarLoop lib.equals2D (lnr.sortV vs) 0 []

/-- lnr/fc.go:37-58 the loop of `FCPlanarSelfIntersection`; the map is the list of its (feature, index) entries in order of insertion -/
def fcLoop (eq : P → P → Bool) : List (Vtx P) → (d : Nat) → (indexes : List (Vtx P)) → List (Int × Int)
  | a :: b :: rest, d, indexes =>
    if eq a.pt b.pt then
      if d = 0 then fcLoop eq (b :: rest) (d + 2) (indexes ++ [a, b])
      else fcLoop eq (b :: rest) (d + 1) (indexes ++ [b])
    else if d > 1 then indexes.map (fun v => (v.fid, v.index)) ++ fcLoop eq (b :: rest) 0 []
    else fcLoop eq (b :: rest) 0 []
  | _, _, _ => []

/-- lnr/fc.go:23-27 the vertices of all features -/
def fcVertices : List (Coords P × Int) → Res (List (Vtx P))
  | [] => .ok []
  | (c, fid) :: fs => do
    let vs ← verticesOf c fid c.len.toNat 0
    let rest ← fcVertices fs
    return vs ++ rest

/-- lnr/fc.go:17-60 `FCPlanarSelfIntersection` -/
def fcPlanarSelfIntersection (lib : Lib P C B K) (lnr : LnrLib P B) (fs : List (Coords P × Int)) : Res (List (Int × Int)) := do
  let vs ← fcVertices fs
  return fcLoop lib.equals2D (lnr.sortV vs) 0 []

/-- map lookup `junctions[id]` -/
def junctionsOf (entries : List (Int × Int)) (fid : Int) : List Int := (entries.filter (fun e => e.1 = fid)).map Prod.snd

/-- geometry/pln.go:27-41 `SegmentBounds` -/
def segmentBounds (lnr : LnrLib P B) (c : Coords P) : (todo : Nat) → (i : Nat) → Res (List (SegBox B))
  | 0, _ => .ok []
  | todo + 1, i => do
    let a ← c.pt i
    let b ← c.pt ((i : Int) + 1)
    let I ← c.idxAt i
    let J ← c.idxAt ((i : Int) + 1)
    let rest ← segmentBounds lnr c todo (i + 1)
    return ⟨lnr.segBox a b, I, J⟩ :: rest

/-- lnr/self.go:106-111 `cacheKey` -/
def segCacheKey (a b : SegBox B) : List Int := if b.I < a.I then [b.I, b.J, a.I, a.J] else [a.I, a.J, b.I, b.J]

/-- lnr/self.go:91-99 the intersections of one pair that are reported -/
def pairInters (pts : List (P × Bool × Bool)) (k : List Int) : List (Inter P) :=
  (pts.filter (fun p => !(p.2.1 && !p.2.2))).map (fun p => ⟨p.1, .nonPlanarVertex, [], sortedIntsSet k⟩)

/-- lnr/self.go:75-100 the loop over the neighbours of one segment; the cache is a list of keys; also returns the pairs examined -/
def nonPlanarInner (lnr : LnrLib P B) (c : Coords P) (data : List (SegBox B)) (d : Nat) : List Nat → (cache : List (List Int)) →
    Res (List (Inter P) × List (List Int))
  | [], cache => .ok ([], cache)
  | o :: os, cache =>
    if d = o then nonPlanarInner lnr c data d os cache
    else match data[d]?, data[o]? with
      | some s, some t =>
        let k := segCacheKey s t
        if k ∈ cache then nonPlanarInner lnr c data d os cache
        else do
          let sa ← c.pt s.I
          let sb ← c.pt s.J
          let oa ← c.pt t.I
          let ob ← c.pt t.J
          let (r, cache) ← nonPlanarInner lnr c data d os (cache ++ [k])
          return (pairInters (lnr.segSeg sa sb oa ob) k ++ r, cache)
      | _, _ => .panic

/-- lnr/self.go:71-101 the loop over the segments -/
def nonPlanarOuter (lnr : LnrLib P B) (c : Coords P) (data : List (SegBox B)) : List Nat → (cache : List (List Int)) →
    Res (List (Inter P) × List (List Int))
  | [], cache => .ok ([], cache)
  | d :: ds, cache => do
    let (r, cache) ← nonPlanarInner lnr c data d (lnr.segSearch data d) cache
    let (rs, cache) ← nonPlanarOuter lnr c data ds cache
    return (r ++ rs, cache)

/-- lnr/self.go:63-103 `nonPlanarIntersection` -/
def nonPlanarIntersection (lnr : LnrLib P B) (pln : Polyline P) : Res (List (Inter P)) := do
  let c ← pln.coordinates
  let data ← segmentBounds lnr c (c.len - 1).toNat 0
  let (r, _) ← nonPlanarOuter lnr c data (List.range data.length) []
  return r

/-- lnr/self.go:13-22 `SelfIntersection` -/
def selfIntersection (lib : Lib P C B K) (lnr : LnrLib P B) (pln : Polyline P) (planar nonPlanar : Bool) : Res (List (Inter P)) := do
  let a ← if planar then planarIntersects lib lnr pln else .ok []
  let b ← if nonPlanar then nonPlanarIntersection lnr pln else .ok []
  return a ++ b

end Verif
