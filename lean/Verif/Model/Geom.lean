import Verif.Model.Rng

/-!
Coordinates, bounding boxes and the geometry library.

The library `github.com/intdxdt/geom`, `.../mbr` is not part of /repo.  What the code needs from it is collected in `Lib`, an
arbitrary record of functions: theorems quantify over all of them and state the facts they need as hypotheses.
-/

namespace Verif

/-- the integers `i, i+1, ..., j` (empty when `j < i`), as built by geometry/pln.go:61-64 and common/common.go:53-56 -/
def rangeInts (i j : Int) : List Int := (List.range (j + 1 - i).toNat).map (fun (t : Nat) => i + (t : Int))

/-- external `geom.Coords`: a shared point array `Pnts` and the list of selected indices `Idxs` -/
structure Coords (P : Type) where
  pnts : List P
  idxs : List Int
  deriving DecidableEq, Repr

namespace Coords
variable {P : Type}

/-- external `Coords.Len` -/
def len (c : Coords P) : Int := c.idxs.length

/-- `Idxs[i]` (panics out of range) -/
def idxAt (c : Coords P) (i : Int) : Res Int :=
  if i < 0 then .panic else .ofOption c.idxs[i.toNat]?

/-- external `Coords.Pt(i)`: the point `Pnts[Idxs[i]]` (panics out of range) -/
def pt (c : Coords P) (i : Int) : Res P :=
  if i < 0 then .panic else
  match c.idxs[i.toNat]? with
  | none => .panic
  | some k => if k < 0 then .panic else .ofOption c.pnts[k.toNat]?

/-- external `Coords.First` -/
def first (c : Coords P) : Res P := c.pt 0
/-- external `Coords.Last` -/
def last (c : Coords P) : Res P := c.pt (c.len - 1)

/-- external `Coords.Slice(i, j)`: the same points with `Idxs[i:j]` (a bound outside the length is a panic) -/
def slice (c : Coords P) (i j : Int) : Res (Coords P) :=
  if 0 ≤ i ∧ i ≤ j ∧ j ≤ c.len then .ok ⟨c.pnts, (c.idxs.drop i.toNat).take (j - i).toNat⟩ else .panic

/-- geometry/pln.go:59-66 and common/common.go:51-58 `SubCoordinates`: same points, indices `I..J` -/
def sub (pnts : List P) (i j : Int) : Coords P := ⟨pnts, rangeInts i j⟩

/-- the points themselves (used by specifications and by concrete library instances) -/
def points (c : Coords P) : List P := c.idxs.filterMap (fun k => if k < 0 then none else c.pnts[k.toNat]?)

end Coords

/-- external `mbr.MBR`; box coordinates are floats without NaN, i.e. any linear order with a least and a greatest element (the infinities) -/
structure Box (B : Type) where
  minX : B
  minY : B
  maxX : B
  maxY : B
  deriving DecidableEq, Repr

/-- Geometry values the code builds or receives: a point, a line string, a polygon (hull), the segment between the first and last
point of a coordinate list, or a constraint geometry `C` (point, line or polygon with holes: opaque). -/
inductive Geo (P C : Type) where
  | point (p : P)
  | line (c : Coords P)
  | poly (c : Coords P)
  | seg (c : Coords P)
  | ctx (g : C)
  deriving DecidableEq, Repr

/-- The external geometry library, as a parameter. -/
structure Lib (P C B K : Type) where
  /-- `geom.ConvexHull` -/
  convexHull : Coords P → Coords P
  /-- `Geometry.Bounds` / `BBox` -/
  bounds : Geo P C → Box B
  /-- `a.Intersects(b)` -/
  intersects : Geo P C → Geo P C → Bool
  /-- `a.Intersection(b)` -/
  intersection : Geo P C → Geo P C → List P
  /-- `a.Distance(b)` -/
  distance : Geo P C → Geo P C → Fl K
  /-- `query.Distance(box.MBRToPolygon(b))` (knn/knn.go:36) -/
  boxDistance : Geo P C → Box B → Fl K
  /-- `Polygon.Shell.PointCompletelyInRing` -/
  ptInRing : Coords P → P → Bool
  /-- `Point.Equals2D` -/
  equals2D : P → P → Bool
  /-- `Point.Distance` -/
  ptDistance : P → P → Fl K

/-- `geom.Geometry.Type().IsLineString()`, also the type test `.(*geom.LineString)` -/
def Geo.isLineString {P C : Type} : Geo P C → Bool
  | .line _ => true
  | _ => false

/-- common/common.go:18-28 `Geometry`: polygon, line string or point depending on the number of hull vertices -/
def hullGeometry {P C : Type} (c : Coords P) : Res (Geo P C) :=
  if c.len > 2 then .ok (.poly c)
  else if c.len = 2 then .ok (.line c)
  else do return .point (← c.pt 0)

/-- geometry/pln.go:11-16 `Polyline`: `ls = none` is the nil `*geom.LineString` (only the coordinates matter here) -/
structure Polyline (P : Type) where
  ls : Option (Coords P)
  deriving DecidableEq, Repr

/-- geometry/pln.go:19-24 `CreatePolyline`: no line string for fewer than two coordinates -/
def createPolyline {P : Type} (c : Coords P) : Polyline P :=
  if c.len < 2 then ⟨none⟩ else ⟨some c⟩

/-- `AsCoordinates` of an input array: all points with indices `0..n-1` -/
def coordsOf {P : Type} (pts : List P) : Coords P := Coords.sub pts 0 (pts.length - 1)

namespace Polyline
variable {P : Type}

/-- `pln.Coordinates` through the embedded pointer: nil is a panic -/
def coordinates (p : Polyline P) : Res (Coords P) := .ofOption p.ls

/-- geometry/pln.go:44-46 `Range` (external `FirstIndex`/`LastIndex`: first and last entry of `Idxs`) -/
def range (p : Polyline P) : Res Rng := do
  let c ← p.coordinates
  let i ← c.idxAt 0
  let j ← c.idxAt (c.len - 1)
  return ⟨i, j⟩

/-- geometry/pln.go:59-66 `SubCoordinates` -/
def subCoordinates (p : Polyline P) (r : Rng) : Res (Coords P) := do
  let c ← p.coordinates
  return Coords.sub c.pnts r.I r.J

end Polyline

end Verif
