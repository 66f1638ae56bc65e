import Verif.Model.Io

/-!
The writer of geometry files and the TOML readers of io.go (none of them is called by main.go).  Opening, creating and closing files, making directories and decoding TOML are
not modelled: the model begins with the decoded document, and with a created file.  A Go map is the list of its entries in the order of one iteration.
-/

namespace Verif.Io

open Verif.Text

/-- io.go:127-135 the loop of `writeCoords`: `writer` makes the text of a line, `fail k` says whether write number `k` fails and how many characters were written
before it failed.  Result: the contents of the file and the error. -/
def writeLoop {L Err : Type} (writer : L → Str) (fail : Nat → Option (Nat × Err)) : Nat → List L → Str × Option Err
  | _, [] => ([], none)
  | k, o :: os =>
    match fail k with
    | some (n, e) => ((writer o ++ ['\n']).take n, some e)
    | none => let r := writeLoop writer fail (k + 1) os; (writer o ++ ['\n'] ++ r.1, r.2)

/-- io.go:115-136 `writeCoords`, after the file was created -/
def writeCoords {L Err : Type} (writer : L → Str) (fail : Nat → Option (Nat × Err)) (coords : List L) : Str × Option Err := writeLoop writer fail 0 coords

/-- io.go:157-161 `ConstToml`: the values of the three maps, each in the order of one iteration -/
structure ConstToml (F F32 : Type) where
  polylines : List (Val F F32)
  polygons : List (Val F F32)
  points : List (Val F F32)

/-- `geom.CreatePoint`, `geom.NewLineStringFromArray`, `geom.CoordinatesFromArray`, `geom.NewPolygon`; they may panic -/
structure Make (F Crd G : Type) where
  point : List F → Res G
  line : List (List F) → Res G
  coords : List (List F) → Res Crd
  polygon : List Crd → Res G

variable {F F32 Crd G : Type} (up : F32 → F) (ofInt : Int → F) (mk : Make F Crd G)

/-- io.go:177-183 `parsePoints` -/
def parsePoints : List (Val F F32) → Res (List G)
  | [] => .ok []
  | pt :: pts => do
    let o ← (do let p ← parsePointArray up ofInt pt; mk.point p)
    let os ← parsePoints pts
    return o :: os

/-- io.go:185-192 `parsePolylines` -/
def parsePolylines : List (Val F F32) → Res (List G)
  | [] => .ok []
  | ln :: lns => do
    let o ← (do let p ← parseLinearArray up ofInt ln; mk.line p)
    let os ← parsePolylines lns
    return o :: os

/-- io.go:198-200 the loop over the rings of a polygon -/
def parseRings : List (Val F F32) → Res (List Crd)
  | [] => .ok []
  | sh :: shs => do
    let o ← (do let p ← parseLinearArray up ofInt sh; mk.coords p)
    let os ← parseRings shs
    return o :: os

/-- io.go:196-202 one polygon: the type assertion `lnarray.([]interface{})` panics on anything but an array -/
def parsePolygon : Val F F32 → Res G
  | .arr shells => do
    let coords ← parseRings up ofInt mk shells
    mk.polygon coords
  | _ => .panic

/-- io.go:194-204 `parsePolygons` -/
def parsePolygons : List (Val F F32) → Res (List G)
  | [] => .ok []
  | g :: gs => do
    let o ← parsePolygon up ofInt mk g
    let os ← parsePolygons gs
    return o :: os

/-- io.go:163-175 `ConstToml.Geometries` -/
def ConstToml.geometries (c : ConstToml F F32) : Res (List G) := do
  let pts ← parsePoints up ofInt mk c.points
  let lns ← parsePolylines up ofInt mk c.polylines
  let pgs ← parsePolygons up ofInt mk c.polygons
  return pts ++ lns ++ pgs

/-- io.go:52-57 the loop of `readTomlInput`: the entries given to the callback, as key and coordinates -/
def readTomlInput {Key : Type} : List (Key × Val F F32) → Res (List (Key × Crd))
  | [] => .ok []
  | e :: es => do
    let o ← (do let p ← parseLinearArray up ofInt e.2; let c ← mk.coords p; return (e.1, c))
    let os ← readTomlInput es
    return o :: os

end Verif.Io
