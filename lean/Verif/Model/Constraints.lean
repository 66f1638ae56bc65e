import Verif.Model.Pipeline

/-!
Package `geometry`: from parsed GeoJSON to constraint geometries.
`F` is `float64`.  The conversions to geometry values (`geom.CreatePoint`, `geom.AsCoordinates`, `geom.NewPolygon`) are outside /repo; the model keeps the arrays
handed to them, one for each constraint.
-/

namespace Verif.Io

open Verif.Text

/-- a parsed GeoJSON geometry (`*geojson.Geometry`); `other` is a geometry collection -/
inductive CGeom (F : Type) where
  | point (c : List F)
  | multiPoint (cs : List (List F))
  | line (c : List (List F))
  | multiLine (cs : List (List (List F)))
  | polygon (c : List (List (List F)))
  | multiPolygon (cs : List (List (List (List F))))
  | other
  deriving DecidableEq

/-- a parsed GeoJSON feature: the geometry pointer may be nil; `props` is the text `json.Marshal(feat.Properties)` -/
structure CFeature (F : Type) where
  geometry : Option (CGeom F)
  props : Str
  deriving DecidableEq

/-- one line of the constraint file after `json.Unmarshal`: geometry/geojson.go:85-100 (`unknown`: any other `type`, also a bare geometry collection,
geometry/jsontype.go:8-11) -/
inductive CDoc (F : Type) where
  | geometry (g : CGeom F)
  | feature (f : CFeature F)
  | collection (fs : List (CFeature F))
  | unknown
  deriving DecidableEq

/-- the values of type `IGeometry`: geometry/pt.go:5-9, geometry/pln.go:11-16, geometry/polygon.go:5-9 (`id`, coordinate array, `props` is the field `Meta`) -/
inductive IGeom (F : Type) where
  | point (id : Str) (c : List F) (props : Str)
  | line (id : Str) (c : List (List F)) (props : Str)
  | polygon (id : Str) (c : List (List (List F))) (props : Str)
  deriving DecidableEq

variable {F : Type}

/-- the loops `for pos, coords := range` of geometry/geojson_geom.go:21-24, 41-43, 60-62, with the constructor applied to each part -/
def partLoop {A : Type} (mk : Str → A → Str → IGeom F) (index : Nat) (props : Str) : (pos : Nat) → List A → List (IGeom F)
  | _, [] => []
  | pos, c :: cs => mk (composeId index pos) c props :: partLoop mk index props (pos + 1) cs

/-- geometry/geojson_geom.go:14-27 `geoJsonPoints` (8-12 `pointsFromFeature`) with geometry/geojson.go:120-123, 138-140 `createPoint`, geometry/pt.go:17-19 -/
def pointsOf (index : Nat) (props : Str) : CGeom F → List (IGeom F)
  | .point c => [.point (composeId index 0) c props]
  | .multiPoint cs => partLoop .point index props 0 cs
  | _ => []

/-- geometry/geojson_geom.go:35-46 `geoJsonLineString` (29-33) with geometry/geojson.go:125-128, 142-145 `createPolyline` -/
def linesOf (index : Nat) (props : Str) : CGeom F → List (IGeom F)
  | .line c => [.line (composeId index 0) c props]
  | .multiLine cs => partLoop .line index props 0 cs
  | _ => []

/-- geometry/geojson_geom.go:55-66 `geoJsonPolygons` (48-53 `polygonFromFeature`) with geometry/geojson.go:130-133, 147-153 `createPolygon`, geometry/polygon.go:17-19 -/
def polygonsOf (index : Nat) (props : Str) : CGeom F → List (IGeom F)
  | .polygon c => [.polygon (composeId index 0) c props]
  | .multiPolygon cs => partLoop .polygon index props 0 cs
  | _ => []

def CGeom.isPoint : CGeom F → Bool
  | .point _ | .multiPoint _ => true
  | _ => false
def CGeom.isLine : CGeom F → Bool
  | .line _ | .multiLine _ => true
  | _ => false
def CGeom.isPolygon : CGeom F → Bool
  | .polygon _ | .multiPolygon _ => true
  | _ => false

/-- geometry/geojson.go:117-136 `createIGeom`: `feat.Geometry.IsPoint()` dereferences the geometry pointer -/
def createIGeom (index : Nat) (f : CFeature F) : Res (List (IGeom F)) :=
  match f.geometry with
  | none => .panic
  | some g =>
    if g.isPoint then .ok (pointsOf index f.props g)
    else if g.isLine then .ok (linesOf index f.props g)
    else if g.isPolygon then .ok (polygonsOf index f.props g)
    else .ok []

/-- geometry/geojson.go:97-99 the loop over the features of a collection -/
def createIGeoms (index : Nat) : List (CFeature F) → Res (List (IGeom F))
  | [] => .ok []
  | f :: fs => do
    let a ← createIGeom index f
    let b ← createIGeoms index fs
    return a ++ b

/-- geometry/geojson.go:85-100 one line of the file; a bare geometry becomes a feature without properties, whose `json.Marshal` is `null` -/
def docConstraints (index : Nat) : CDoc F → Res (List (IGeom F))
  | .geometry g => createIGeom index ⟨some g, ['n', 'u', 'l', 'l']⟩
  | .feature f => createIGeom index f
  | .collection fs => createIGeoms index fs
  | .unknown => .ok []

/-- geometry/geojson.go:77-104 `parseConstraintFeatures`, from line `index` on -/
def parseConstraintsFrom : (index : Nat) → List (CDoc F) → Res (List (IGeom F))
  | _, [] => .ok []
  | index, d :: ds => do
    let a ← docConstraints index d
    let b ← parseConstraintsFrom (index + 1) ds
    return a ++ b

/-- geometry/geojson.go:77-104 `parseConstraintFeatures` -/
def parseConstraintFeatures (ds : List (CDoc F)) : Res (List (IGeom F)) := parseConstraintsFrom 0 ds

/-- geometry/geojson.go:81-83 `json.Unmarshal` of every line, `parse`; an error panics -/
def unmarshalDocs (parse : Str → Option (CDoc F)) : List Str → Res (List (CDoc F))
  | [] => .ok []
  | l :: ls => do
    let d ← Res.ofOption (parse l)
    let ds ← unmarshalDocs parse ls
    return d :: ds

/-- geometry/geojson.go:44-47 `ReadInputConstraints` on the lines of the file, as the reader of `World`; `toC` makes the geometry value.
Simplified: all lines are parsed before the first is converted (both only panic or go on). -/
def readInputConstraints {G : Type} (parse : Str → Option (CDoc F)) (toC : IGeom F → G) (lines : List Str) : Res (List G) := do
  let ds ← unmarshalDocs parse lines
  let gs ← parseConstraintFeatures ds
  return gs.map toC

end Verif.Io
