import Verif.Model.ConstDP
import Verif.Model.Io

/-!
simplify.go (package main): from polylines and constraints to simplified polylines, and the whole program.
-/

namespace Verif

variable {P C B K : Type} [LinearOrder B] [BoundedOrder B] [LinearOrder K]

/-- simplify.go:43-49 one round of `setSimpleCoords`: the clone of the coordinates (dp/dp.go:106-108, nil line string: panic) with the kept indices -/
def simpleCoords (pln : Polyline P) (simple : List Int) : Res (Coords P) := do
  let c ← pln.coordinates
  return { c with idxs := simple }

/-- simplify.go:42-51 `setSimpleCoords` -/
def setSimpleCoords (env : Env P C B K) (outs : List (Int × Out P C B)) : Res (List (Coords P)) :=
  Hdb.mapRes (fun x => simpleCoords (env.inst x.1).pln x.2.simple) outs

/-- simplify.go:11-25 `simplifyInstances`, after the instances were made: no junctions -/
def runInstances (env : Env P C B K) (idsOf : Int → Nat → Int) (handles : List Int) (dirty : Int → Bool) (fuel : Nat) : Res (List (Coords P)) := do
  let (outs, _) ← simplifyInstances env idsOf [] fuel handles dirty
  setSimpleCoords env outs

/-- simplify.go:27-40 `simplifyFeatureClass`, after the instances were made -/
def runFeatureClass (env : Env P C B K) (ids : Nat → Int) (idsOf : Int → Nat → Int) (handles : List Int) (o : Opts K) (dirty : Int → Bool) (fuel : Nat) :
    Res (List (Coords P)) := do
  let outs ← simplifyFeatureClass env ids idsOf handles o dirty fuel
  setSimpleCoords env outs

/-- external `Coords.Points()` (encode.go:95, 109): the selected points (panics out of range) -/
def coordsPoints (c : Coords P) : Res (List P) := Hdb.mapRes (fun k => if k < 0 then .panic else .ofOption c.pnts[k.toNat]?) c.idxs

/-- what the program takes from libraries, the run time and hashing -/
structure Engine (P C B K : Type) where
  lib : Lib P C B K
  lnr : LnrLib P B
  heur : Heur (Node P C B) B
  heap : Hdb.Heap (Hdb.KObj (Node P C B) B K)
  ord : Nat → List (Node P C B) → List (Node P C B)
  ordRm : Nat → List (Node P C B) → List (Node P C B)
  eps : Fl K
  /-- offset.go:8-11 the score functions -/
  score : Io.OffsetKind → ScoreFn P K
  mul : Fl K → Fl K → Fl K
  /-- external `geom.AsCoordinates`: one point -/
  toPoint : List (Fl K) → P
  /-- simplify.go:19, 34: the identifier of the n-th instance -/
  instId : Nat → Int
  /-- the identifiers the simplification of each instance, and the joint stage, obtain from the source -/
  idsOf : Int → Nat → Int
  ids : Nat → Int

namespace Engine

/-- opts/opts.go:6-16 and dp/dp.go:61 -/
def opts (E : Engine P C B K) (o : Io.Options (Fl K)) : Opts K where
  threshold := o.threshold
  sqThreshold := E.mul o.threshold o.threshold
  minDist := o.minDist
  nonPlanarDisplacement := o.nonPlanarDisplacement
  planarSelf := o.planarSelf
  nonPlanarSelf := o.nonPlanarSelf
  avoidNewSelfIntersects := o.avoidNewSelfIntersects
  geomRelation := o.geomRelation
  distRelation := o.distRelation
  dirRelation := o.dirRelation

/-- constdp/constructor.go:21-35 `NewConstDP` (main passes no square score; the n-th instance has the handle n) -/
def newInst (E : Engine P C B K) (o : Opts K) (kind : Io.OffsetKind) (ctx : List C) (fuel : Nat) (x : List P × Nat) : Res (Inst P C B K) := do
  let db ← buildContextDB E.lib E.heur x.2 ctx fuel
  return { id := E.instId x.2, pln := createPolyline (coordsOf x.1), opts := o, score := E.score kind, square := none, ctxdb := db }

/-- simplify.go:17-21, 32-36: the forest -/
def forest (E : Engine P C B K) (o : Opts K) (kind : Io.OffsetKind) (ctx : List C) (lines : List (List P)) (fuel : Nat) : Res (List (Inst P C B K)) :=
  Hdb.mapRes (E.newInst o kind ctx fuel) lines.zipIdx

/-- the environment of a run: the handle of an instance is its position; other handles are never used -/
def env (E : Engine P C B K) (o : Opts K) (kind : Io.OffsetKind) (forest : List (Inst P C B K)) : Env P C B K where
  lib := E.lib
  lnr := E.lnr
  heur := E.heur
  heap := E.heap
  ord := E.ord
  ordRm := E.ordRm
  eps := E.eps
  inst h := forest[h.toNat]?.getD { id := -1, pln := ⟨none⟩, opts := o, score := E.score kind, square := none, ctxdb := Hdb.newHdb Hdb.defaultCap }

/-- the handles of the forest -/
def handles (n : Nat) : List Int := (List.range n).map (fun (k : Nat) => (k : Int))

/-- main.go:90-94 and simplify.go:11-40: the simplified points of every line -/
def run (E : Engine P C B K) (isFeatureClass : Bool) (lines : List (List P)) (o : Opts K) (ctx : List C) (kind : Io.OffsetKind) (fuel : Nat) :
    Res (List (List P)) := do
  let forest ← E.forest o kind ctx lines fuel
  let env := E.env o kind forest
  let cs ← if isFeatureClass then runFeatureClass env E.ids E.idsOf (handles lines.length) o (fun _ => false) fuel
    else runInstances env E.idsOf (handles lines.length) (fun _ => false) fuel
  Hdb.mapRes coordsPoints cs

/-- main.go:90-94 as a step of the program: polylines keep identifier and properties (geometry/pln.go:11-16) -/
def simplify (E : Engine P C B K) (fuel : Nat) (isFeatureClass : Bool) (lines : List (Io.JsonLine (Fl K))) (o : Io.Options (Fl K)) (ctx : List C)
    (kind : Io.OffsetKind) : Res (List (Io.OutLine P)) := do
  let pts ← E.run isFeatureClass (lines.map (fun l => l.coords.map E.toPoint)) (E.opts o) ctx kind fuel
  return List.zipWith (fun l ps => ⟨l.id, l.props, ps⟩) lines pts

end Engine

end Verif
