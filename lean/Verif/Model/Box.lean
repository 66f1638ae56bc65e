import Verif.Model.Geom
import Mathlib.Order.BoundedOrder.Basic
import Mathlib.Order.Lattice

/-! Bounding boxes: the operations of `mbr.MBR` (external) that `hdb` uses and hdb's own box predicates. -/

namespace Verif

namespace Box

variable {B : Type} [LinearOrder B]

/-- hdb/clear.go:8-13 `emptyMBR`: minima `+Inf`, maxima `-Inf` -/
def empty [BoundedOrder B] : Box B := ⟨⊤, ⊤, ⊥, ⊥⟩

/-- external `MBR.ExpandIncludeMBR`: least box containing both -/
def expand (a b : Box B) : Box B := ⟨min a.minX b.minX, min a.minY b.minY, max a.maxX b.maxX, max a.maxY b.maxY⟩

/-- hdb/insert.go:164-166 `contains` -/
def contains (a b : Box B) : Bool :=
  decide (b.minX ≥ a.minX) && decide (b.maxX ≤ a.maxX) && decide (b.minY ≥ a.minY) && decide (b.maxY ≤ a.maxY)

/-- hdb/insert.go:169-171 `intersects` -/
def intersects (a b : Box B) : Bool :=
  !(decide (b.minX > a.maxX) || decide (b.maxX < a.minX) || decide (b.minY > a.maxY) || decide (b.maxY < a.minY))

/-- hdb/mbr.go:14-20 `distBBox` over all given boxes (the caller passes the sub-list `k..p-1`) -/
def unionAll [BoundedOrder B] (bs : List (Box B)) : Box B := bs.foldl expand empty

/-- box/box.go:8-18 `MBRToPolygon`: the polygon through the four corners; `mk x y` is the point literal `{x, y}` -/
def toPolygon {B P C : Type} (mk : B → B → P) (o : Box B) : Geo P C :=
  .poly ⟨[mk o.minX o.minY, mk o.minX o.maxY, mk o.maxX o.maxY, mk o.maxX o.minY, mk o.minX o.minY], [0, 1, 2, 3, 4]⟩

end Box

end Verif
