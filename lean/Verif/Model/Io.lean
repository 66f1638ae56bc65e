import Verif.Model.Text

/-!
Reading features, writing features, configuration and the command line.
`F` is `float64`, `P` a point of the geometry library.
The JSON reader and writer are outside /repo: the model starts from parsed JSON values and ends with the feature values handed to the writer.
-/

namespace Verif.Io

open Verif.Text

/-! ### package `geometry`: from parsed GeoJSON to polylines -/

/-- a parsed GeoJSON geometry (`*geojson.Geometry`); only line geometry is told apart here -/
inductive GGeom (F : Type) where
  | line (c : List (List F))
  | multiLine (cs : List (List (List F)))
  | other

/-- a parsed GeoJSON feature: the geometry pointer may be nil, `props` (Go field `Meta`) is the text `json.Marshal(feat.Properties)` -/
structure GFeature (F : Type) where
  geometry : Option (GGeom F)
  props : Str

/-- one line of the input file after `json.Unmarshal`: geometry/geojson.go:57-72 (`unknown`: any other `type`) -/
inductive Doc (F : Type) where
  | geometry (g : GGeom F)
  | feature (f : GFeature F)
  | collection (fs : List (GFeature F))
  | unknown

/-- geometry/geojson.go:27-31 `JSONLineString` -/
structure JsonLine (F : Type) where
  id : Str
  coords : List (List F)
  props : Str

/-- geometry/geojson_geom.go:41-43 the loop over the parts of a multi line string, from position `pos` on -/
def partsFrom {F : Type} (index : Nat) (props : Str) : (pos : Nat) → List (List (List F)) → List (JsonLine F)
  | _, [] => []
  | pos, c :: cs => ⟨composeId index pos, c, props⟩ :: partsFrom index props (pos + 1) cs

/-- geometry/geojson_geom.go:35-46 `geoJsonLineString` (with 29-33 `lineStringFromFeature`) -/
def geoJsonLineString {F : Type} (index : Nat) (g : GGeom F) (props : Str) : List (JsonLine F) :=
  match g with
  | .line c => [⟨composeId index 0, c, props⟩]
  | .multiLine cs => partsFrom index props 0 cs
  | .other => []

/-- geometry/geojson.go:106-115 `createPolylineGeoms` without the conversion of coordinates: `feat.Geometry.IsLineString()` dereferences the geometry pointer -/
def createPolylineGeoms {F : Type} (index : Nat) (f : GFeature F) : Res (List (JsonLine F)) :=
  match f.geometry with
  | none => .panic
  | some g => .ok (geoJsonLineString index g f.props)

/-- geometry/geojson.go:69-71 the loop over the features of a collection: all of them get the index of the input line -/
def collectionLines {F : Type} (index : Nat) : List (GFeature F) → Res (List (JsonLine F))
  | [] => .ok []
  | f :: fs => do
    let a ← createPolylineGeoms index f
    let b ← collectionLines index fs
    return a ++ b

/-- geometry/geojson.go:57-72 one input line; a bare geometry becomes a feature without properties, whose `json.Marshal` is `null` -/
def docLines {F : Type} (index : Nat) : Doc F → Res (List (JsonLine F))
  | .geometry g => .ok (geoJsonLineString index g ['n', 'u', 'l', 'l'])
  | .feature f => createPolylineGeoms index f
  | .collection fs => collectionLines index fs
  | .unknown => .ok []

/-- geometry/geojson.go:49-75 `parseInputLinearFeatures`, from input line `index` on -/
def parseInputFrom {F : Type} : (index : Nat) → List (Doc F) → Res (List (JsonLine F))
  | _, [] => .ok []
  | index, d :: ds => do
    let a ← docLines index d
    let b ← parseInputFrom (index + 1) ds
    return a ++ b

/-- geometry/geojson.go:49-75 `parseInputLinearFeatures` -/
def parseInputLinearFeatures {F : Type} (ds : List (Doc F)) : Res (List (JsonLine F)) := parseInputFrom 0 ds

/-! ### encode.go -/

/-- the part of geometry/pln.go:11-16 `Polyline` that the encoder reads: `simple` are the points of `Simple` -/
structure OutLine (P : Type) where
  id : Str
  props : Str
  simple : List P
  deriving DecidableEq

/-- encode.go:15-19 `PolyGeom` -/
structure PolyGeom (P : Type) where
  index : Nat
  pos : Nat
  geom : OutLine P

/-- a Go `map[int][]PolyGeom`: association list, keys in order of first insertion -/
abbrev Dict (P : Type) := List (Nat × List (PolyGeom P))

/-- `dictionary[k]`: the zero value nil when the key is absent -/
def Dict.get {P : Type} (d : Dict P) (k : Nat) : List (PolyGeom P) :=
  match d with
  | [] => []
  | (k', v) :: d => if k' = k then v else Dict.get d k

/-- encode.go:32 `dictionary[indx] = append(dictionary[indx], g)` -/
def Dict.push {P : Type} (d : Dict P) (k : Nat) (g : PolyGeom P) : Dict P :=
  match d with
  | [] => [(k, [g])]
  | (k', v) :: d => if k' = k then (k', v ++ [g]) :: d else (k', v) :: Dict.push d k g

/-- encode.go:28-35 `groupById`; the loop starts with dictionary `d` -/
def groupById {P : Type} : List (OutLine P) → Dict P → Res (Dict P)
  | [], d => .ok d
  | pln :: plns, d => do
    let (indx, pos) ← indexPos pln.id
    groupById plns (d.push indx ⟨indx, pos, pln⟩)

/-- encode.go:129-136 `indices`: the keys in map iteration order `ord`, sorted -/
def indices {P : Type} (ord : List Nat → List Nat) (d : Dict P) : List Nat := (ord (d.map Prod.fst)).mergeSort (· ≤ ·)

/-- encode.go:52-61 `isCoords3D`; `isZero v` is `math.FloatEqual(v, 0)` -/
def isCoords3D {F : Type} (isZero : F → Bool) : List (F × F × F) → Bool
  | [] => false
  | pt :: pts => if !isZero pt.2.2 then true else isCoords3D isZero pts

/-- encode.go:66-72 the loop of `extractCoords` -/
def extractLoop {F : Type} (is3D : Bool) : List (F × F × F) → List (List F)
  | [] => []
  | pt :: pts => (if !is3D then [pt.1, pt.2.1, pt.2.2].take 2 else [pt.1, pt.2.1, pt.2.2]) :: extractLoop is3D pts

/-- encode.go:63-74 `extractCoords` -/
def extractCoords {F : Type} (isZero : F → Bool) (coords : List (F × F × F)) : List (List F) := extractLoop (isCoords3D isZero coords) coords

/-- geometry/types.go:7-29 the feature handed to `json.Marshal` -/
inductive LineFeature (F Props : Type) where
  | lineString (props : Props) (coords : List (List F))
  | multiLineString (props : Props) (coords : List (List (List F)))
  deriving DecidableEq

/-- encode.go:76-88 `getMeta`; `unmarshal` is `json.Unmarshal` into a map, `empty` the empty map; an error panics -/
def getMeta {Props : Type} (unmarshal : Str → Option Props) (empty : Props) (props : Str) : Res Props :=
  if props = ['n', 'u', 'l', 'l'] then .ok empty else Res.ofOption (unmarshal props)

/-- the library calls of encode.go -/
structure EncLib (F P Props : Type) where
  /-- the three ordinates of a point -/
  ords : P → F × F × F
  /-- `math.FloatEqual(v, 0)` -/
  isZero : F → Bool
  unmarshal : Str → Option Props
  empty : Props
  /-- map iteration order -/
  ord : List Nat → List Nat

variable {F P Props : Type}

/-- encode.go:90-127 `createGeoJSONString` before `json.Marshal` -/
def createGeoJSON (lib : EncLib F P Props) (featLns : List (PolyGeom P)) : Res (LineFeature F Props) :=
  match featLns with
  | [g] => do
    let m ← getMeta lib.unmarshal lib.empty g.geom.props
    return .lineString m (extractCoords lib.isZero (g.geom.simple.map lib.ords))
  | [] => .panic
  | g :: gs => do
    let m ← getMeta lib.unmarshal lib.empty g.geom.props
    return .multiLineString m ((g :: gs).map (fun g => extractCoords lib.isZero (g.geom.simple.map lib.ords)))

/-- encode.go:43-45 `sort.SliceStable` by position -/
def sortByPos (gs : List (PolyGeom P)) : List (PolyGeom P) := gs.mergeSort (fun a b => a.pos ≤ b.pos)

/-- encode.go:41-48 the loop of `groupPlnsAsGeoJSONS`: `for idx := range indxs` runs over the positions of `indxs`, not over its values -/
def groupLoop (lib : EncLib F P Props) (d : Dict P) : (idx : Nat) → List Nat → Res (List (LineFeature F Props))
  | _, [] => .ok []
  | idx, _ :: ks => do
    let s ← createGeoJSON lib (sortByPos (d.get idx))
    let rest ← groupLoop lib d (idx + 1) ks
    return s :: rest

/-- encode.go:37-50 `groupPlnsAsGeoJSONS` -/
def groupPlnsAsGeoJSONS (lib : EncLib F P Props) (plns : List (OutLine P)) : Res (List (LineFeature F Props)) := do
  let d ← groupById plns []
  groupLoop lib d 0 (indices lib.ord d)

/-! ### parser.go -/

/-- a value of type `interface{}` produced by the TOML reader -/
inductive Val (F F32 : Type) where
  | f64 (v : F)
  | f32 (v : F32)
  | i64 (v : Int)
  | i32 (v : Int)
  | arr (vs : List (Val F F32))
  | other

/-- parser.go:24-39 `parseFloat`; `up`, `ofInt` are the conversions to `float64` -/
def parseFloat {F F32 : Type} (up : F32 → F) (ofInt : Int → F) : Val F F32 → Res F
  | .f64 v => .ok v
  | .f32 v => .ok (up v)
  | .i64 v => .ok (ofInt v)
  | .i32 v => .ok (ofInt v)
  | .arr _ => .panic
  | .other => .panic

/-- parser.go:18-20 the loop of `parsePointArray` -/
def parsePointLoop {F F32 : Type} (up : F32 → F) (ofInt : Int → F) : List (Val F F32) → Res (List F)
  | [] => .ok []
  | o :: os => do
    let v ← parseFloat up ofInt o
    let vs ← parsePointLoop up ofInt os
    return v :: vs

/-- parser.go:16-22 `parsePointArray`: the type assertion `pt.([]interface{})` panics on anything but an array -/
def parsePointArray {F F32 : Type} (up : F32 → F) (ofInt : Int → F) : Val F F32 → Res (List F)
  | .arr vs => parsePointLoop up ofInt vs
  | _ => .panic

/-- parser.go:10-12 the loop of `parseLinearArray` -/
def parseLinearLoop {F F32 : Type} (up : F32 → F) (ofInt : Int → F) : List (Val F F32) → Res (List (List F))
  | [] => .ok []
  | o :: os => do
    let v ← parsePointArray up ofInt o
    let vs ← parseLinearLoop up ofInt os
    return v :: vs

/-- parser.go:7-14 `parseLinearArray` -/
def parseLinearArray {F F32 : Type} (up : F32 → F) (ofInt : Int → F) : Val F F32 → Res (List (List F))
  | .arr vs => parseLinearLoop up ofInt vs
  | _ => .panic

/-! ### cfg.go, main.go -/

/-- cfg.go:10-25 `ArgObj` -/
structure ArgObj (F : Type) where
  input : Str
  output : Str
  constraints : Str
  simplificationType : Str
  threshold : F
  minDist : F
  nonPlanarDisplacement : F
  isFeatureClass : Bool
  planarSelf : Bool
  nonPlanarSelf : Bool
  avoidNewSelfIntersects : Bool
  geomRelation : Bool
  distRelation : Bool
  sideRelation : Bool
  deriving DecidableEq

/-- opts/opts.go:6-16 `Opts` -/
structure Options (F : Type) where
  threshold : F
  minDist : F
  nonPlanarDisplacement : F
  planarSelf : Bool
  nonPlanarSelf : Bool
  avoidNewSelfIntersects : Bool
  geomRelation : Bool
  distRelation : Bool
  dirRelation : Bool

/-- cfg.go:35-47 `optsFromCfg` -/
def optsFromCfg (obj : ArgObj F) : Options F :=
  { threshold := obj.threshold
    minDist := obj.minDist
    nonPlanarDisplacement := obj.nonPlanarDisplacement
    planarSelf := obj.planarSelf
    nonPlanarSelf := obj.nonPlanarSelf
    avoidNewSelfIntersects := obj.avoidNewSelfIntersects
    geomRelation := obj.geomRelation
    distRelation := obj.distRelation
    dirRelation := obj.sideRelation }

/-- how the process ends: `os.Exit(n)`, a panic, never, or with text saved to a path (exit code 0) -/
inductive Outcome where
  | exit (n : Nat)
  | panic
  | hang
  | saved (path : Str) (lines : List Str)
  deriving DecidableEq

/-- offset.go:8-11 the two score functions of `offsetDictionary` -/
inductive OffsetKind where
  | maxOffset
  | maxSEDOffset
  deriving DecidableEq

/-- offset.go:8-11 `offsetDictionary`: nil for any other key -/
def offsetDictionary (key : Str) : Option OffsetKind :=
  if key = ['d', 'p'] then some .maxOffset else if key = ['s', 'e', 'd'] then some .maxSEDOffset else none

/-- `unicode.ToLower`: `uni` outside ASCII -/
def lowerChar (uni : Char → Char) (c : Char) : Char :=
  if 65 ≤ c.toNat ∧ c.toNat ≤ 90 then Char.ofNat (c.toNat + 32) else if c.toNat < 128 then c else uni c

/-- everything the program takes from outside: files, JSON, UTF-8, letter case, reading and simplifying -/
structure World (F P Props G : Type) where
  /-- contents of a regular file; none: `fileutil.IsFile` is false and reading fails -/
  file : Str → Option Str
  /-- saving succeeds -/
  canSave : Str → Bool
  utf8 : Str → List UInt8
  fromUtf8 : List UInt8 → Str
  uni : Char → Char
  /-- `json.Unmarshal` of the configuration -/
  config : Str → Option (ArgObj F)
  /-- `json.Unmarshal` of one line of the input; none: error -/
  doc : Str → Option (Doc F)
  /-- geometry/geojson.go:77-104 `parseConstraintFeatures` -/
  constraints : List Str → Res (List G)
  enc : EncLib F P Props
  /-- `json.Marshal` of a feature -/
  marshal : LineFeature F Props → Str
  /-- main.go:90-94: the simplification (simplify.go:11-51) -/
  simplify : (isFeatureClass : Bool) → List (JsonLine F) → Options F → List G → OffsetKind → Res (List (OutLine P))

variable {G : Type}

/-- stop with a result, or carry on -/
abbrev Proc := Except Outcome

/-- a panic or a loop without end in a step ends the process -/
def ofRes {A : Type} : Res A → Proc A
  | .ok a => .ok a
  | .panic => .error .panic
  | .timeout => .error .hang

def ofOpt {A : Type} (o : Outcome) : Option A → Proc A
  | some a => .ok a
  | none => .error o

/-- main.go:24-50 the flags: `-` is the default value of both -/
def argText (w : World F P Props G) (b f : Str) : Proc Str :=
  if b = ['-'] ∧ f = ['-'] then .error (.exit 13)
  else if b ≠ ['-'] ∧ f ≠ ['-'] then .error (.exit 13)
  else if f ≠ ['-'] then do
    let jsonConfig ← ofOpt .panic (w.file f)
    return encode64 (w.utf8 (trim jsonConfig))
  else .ok b

/-- cfg.go:49-57 `parseInput`: `log.Fatalln` exits with code 1 -/
def parseInput (w : World F P Props G) (arg : Str) : Proc (ArgObj F) := do
  let jsonInput ← ofRes (decode64 arg)
  ofOpt (.exit 1) (w.config (w.fromUtf8 jsonInput))

/-- main.go:55-61 -/
def offsetFn (w : World F P Props G) (arg : ArgObj F) : Proc OffsetKind :=
  ofOpt (.exit 13) (offsetDictionary ((trim arg.simplificationType).map (lowerChar w.uni)))

/-- geometry/geojson.go:53-55 `json.Unmarshal` of every line; an error panics -/
def parseDocs (w : World F P Props G) : List Str → Proc (List (Doc F))
  | [] => .ok []
  | l :: ls => do
    let d ← ofOpt .panic (w.doc l)
    let ds ← parseDocs w ls
    return d :: ds

/-- main.go:63-70: the input lines -/
def readPolylines (w : World F P Props G) (path : Str) : Proc (List (JsonLine F)) := do
  let data ← ofOpt .panic (w.file path)
  let docs ← parseDocs w (readJsonFile data)
  ofRes (parseInputLinearFeatures docs)

/-- main.go:79-87: the constraints -/
def readConstraints (w : World F P Props G) (path : Str) : Proc (List G) :=
  match w.file path with
  | some data => ofRes (w.constraints (readJsonFile data))
  | none => if path ≠ [] then .error .panic else .ok []

/-- main.go:52-101 after the configuration text is known -/
def mainFrom (w : World F P Props G) (arg : Str) : Proc Outcome := do
  let argObj ← parseInput w (trim arg)
  let fn ← offsetFn w argObj
  let polylines ← readPolylines w (trim argObj.input)
  if trim argObj.output = [] then .error .panic
  else do
    let constraints ← readConstraints w (trim argObj.constraints)
    let plns ← ofRes (w.simplify argObj.isFeatureClass polylines (optsFromCfg argObj) constraints fn)
    let out ← ofRes (groupPlnsAsGeoJSONS w.enc plns)
    if w.canSave (trim argObj.output) then .ok (.saved (trim argObj.output) (out.map w.marshal)) else .error .panic

/-- the end of the process -/
def outcome : Proc Outcome → Outcome
  | .ok o => o
  | .error o => o

/-- main.go:22-103 `main`; `b`, `f` are the values of the two flags -/
def main (w : World F P Props G) (b f : Str) : Outcome := outcome (do mainFrom w (← argText w b f))

end Verif.Io
