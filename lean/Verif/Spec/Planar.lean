import Verif.Spec.Cover
import Verif.Lemmas.Box
import Mathlib.Analysis.Complex.Basic
import Mathlib.Analysis.Convex.KreinMilman
import Mathlib.Data.EReal.Basic
import Mathlib.Topology.Homotopy.Path

/-! Specification vocabulary: exact geometry of the plane.  The plane is `ℂ` (real part = first, imaginary part = second ordinate).  A geometry is a set of
points; a library is exact when its answers are those of the sets. -/

namespace Verif
namespace Planar

/-- the points of the line through a list of vertices -/
def lineSet : List ℂ → Set ℂ
  | [] => ∅
  | [a] => {a}
  | a :: b :: l => segment ℝ a b ∪ lineSet (b :: l)

/-- the points of the segment from the first to the last vertex -/
def chordSet (l : List ℂ) : Set ℂ := {z | ∃ a b, l.head? = some a ∧ l.getLast? = some b ∧ z ∈ segment ℝ a b}

/-- the points in the convex hull of the vertices -/
def hullSet (l : List ℂ) : Set ℂ := convexHull ℝ {z | z ∈ l}

/-- the points of a box -/
def boxSet (b : Box EReal) : Set ℂ := {z | b.minX ≤ (z.re : EReal) ∧ (z.re : EReal) ≤ b.maxX ∧ b.minY ≤ (z.im : EReal) ∧ (z.im : EReal) ≤ b.maxY}

/-- the distance of two sets of points -/
noncomputable def gap (s t : Set ℂ) : ℝ := sInf {r | ∃ x ∈ s, ∃ y ∈ t, r = dist x y}

section
variable {P C : Type}

/-- The set of points of a geometry: `pos p` is the place of the point `p` in the plane, `region g` the set of points of the constraint `g`.  Polygons are
built by the code only as convex hulls, triangles and boxes. -/
def shape (pos : P → ℂ) (region : C → Set ℂ) : Geo P C → Set ℂ
  | .point p => {pos p}
  | .line c => lineSet (c.points.map pos)
  | .poly c => hullSet (c.points.map pos)
  | .seg c => chordSet (c.points.map pos)
  | .ctx g => region g

/-- all indices of a coordinate list are indices of its points -/
def WellIndexed (c : Coords P) : Prop := ∀ k ∈ c.idxs, 0 ≤ k ∧ k < c.pnts.length

/-- The geometry library answers as the sets do: no constraint is empty, `Intersects` says whether there is a common point, `Distance` and `Bounds` are distance and
least box, `ConvexHull` gives the corners of the convex hull, each once, `Equals2D` compares places.  Arithmetic is exact. -/
structure Exact (pos : P → ℂ) (region : C → Set ℂ) (lib : Lib P C EReal ℝ) : Prop where
  nonempty : ∀ g, (region g).Nonempty
  intersects : ∀ a b, lib.intersects a b = true ↔ (shape pos region a ∩ shape pos region b).Nonempty
  distance : ∀ a b, (shape pos region a).Nonempty → (shape pos region b).Nonempty → lib.distance a b = .fin (gap (shape pos region a) (shape pos region b))
  boxDistance : ∀ a b, (shape pos region a).Nonempty → (boxSet b).Nonempty → lib.boxDistance a b = .fin (gap (shape pos region a) (boxSet b))
  bounds : ∀ a, (shape pos region a).Nonempty → ∀ b, lib.bounds a ≤ b ↔ shape pos region a ⊆ boxSet b
  hullIndexed : ∀ c, WellIndexed c → WellIndexed (lib.convexHull c)
  hullCorners : ∀ c, WellIndexed c → {z | z ∈ (lib.convexHull c).points.map pos} = (hullSet (c.points.map pos)).extremePoints ℝ
  hullOnce : ∀ c, WellIndexed c → ((lib.convexHull c).points.map pos).Nodup
  equals2D : ∀ p q, lib.equals2D p q = true ↔ pos p = pos q

end

/-- the order in which vertices are sorted: first ordinate, then second -/
def LexLe (z w : ℂ) : Prop := z.re < w.re ∨ (z.re = w.re ∧ z.im ≤ w.im)

section
variable {P : Type}

/-- Linear referencing answers as the sets do: vertices are sorted by their places, boxes of segments are least boxes, the intersection points of two
segments are the corners of their common part (the one common point, or the ends of a common stretch); a point counts as a vertex of one of the segments
only, or of none, unless it is an end of both. -/
structure ExactLnr (pos : P → ℂ) (lnr : LnrLib P EReal) : Prop where
  perm : ∀ l, (lnr.sortV l).Perm l
  sorted : ∀ l, (lnr.sortV l).Pairwise (fun a b => LexLe (pos a.pt) (pos b.pt))
  segBox : ∀ a b x, lnr.segBox a b ≤ x ↔ segment ℝ (pos a) (pos b) ⊆ boxSet x
  segSeg : ∀ a b c d, {z | ∃ x ∈ lnr.segSeg a b c d, pos x.1 = z} = (segment ℝ (pos a) (pos b) ∩ segment ℝ (pos c) (pos d)).extremePoints ℝ
  flag : ∀ a b c d, ∀ x ∈ lnr.segSeg a b c d, (!x.2.1 || x.2.2) = true ↔ ¬ ((pos x.1 = pos a ∨ pos x.1 = pos b) ∧ (pos x.1 = pos c ∨ pos x.1 = pos d))
  search : ∀ (data : List (SegBox EReal)) (d o : Nat) (s : SegBox EReal), data[d]? = some s →
    (o ∈ lnr.segSearch data d ↔ ∃ t, data[o]? = some t ∧ s.box.intersects t.box = true)

end

/-- A queue with tolerance `τ` may hand out an entry at distance `d` before one at distance `x` when `d ≤ x + τ` (`τ = 0`: only a nearest one). -/
def within (τ : ℝ) : Fl ℝ → Fl ℝ → Prop
  | .fin d, .fin x => d ≤ x + τ
  | d, x => d.le x = true

/-- the places of the vertices of `ps` with the indices `is` -/
def placesAt {P : Type} (pos : P → ℂ) (ps : List P) (is : List Int) : List ℂ := is.filterMap (fun i => (ps[i.toNat]?).map pos)

/-- the points outside all regions that the line `l` does not meet -/
def clear {C : Type} (region : C → Set ℂ) (cs : List C) (l : List ℂ) : Set ℂ := {z | ∀ g ∈ cs, Disjoint (lineSet l) (region g) → z ∉ region g}

/-- the points outside the inner part of every constraint whose outer part the line `l` does not meet -/
def clearUp {C : Type} (inner outer : C → Set ℂ) (cs : List C) (l : List ℂ) : Set ℂ := {z | ∀ g ∈ cs, Disjoint (lineSet l) (outer g) → z ∉ inner g}

/-- the places of the vertices `i` to `j` of a line -/
def places {P : Type} (pos : P → ℂ) (ps : List P) (i j : Int) : List ℂ := (between ps i j).map pos

/-- `i` and `j` follow each other in `l` -/
def Consecutive (l : List Int) (i j : Int) : Prop := ∃ u w, l = u ++ i :: j :: w

open unitInterval

/-- the straight path from `a` to `b` -/
noncomputable def segPath (a b : ℂ) : Path a b where
  toFun t := a + (t : ℝ) • (b - a)
  continuous_toFun := by fun_prop
  source' := by simp
  target' := by simp

/-- the last vertex of `a :: l` -/
def lastOf : ℂ → List ℂ → ℂ
  | a, [] => a
  | _, b :: l => lastOf b l

/-- the path along the vertices `a :: l` -/
noncomputable def polyPath : (a : ℂ) → (l : List ℂ) → Path a (lastOf a l)
  | a, [] => Path.refl a
  | a, b :: l => (segPath a b).trans (polyPath b l)

/-- the curve along a list of vertices (the constant 0 for the empty list) -/
noncomputable def curve : List ℂ → I → ℂ
  | [], _ => 0
  | a :: l, t => polyPath a l t

/-- The curve `f` can be deformed into `g` inside `U`: there is a continuous family of curves from `f` to `g`, all with the same ends, that never leaves `U`. -/
def Deforms (U : Set ℂ) (f g : I → ℂ) : Prop :=
  ∃ F : I → I → ℂ, Continuous (fun x : I × I => F x.1 x.2) ∧ (∀ t, F 0 t = f t) ∧ (∀ t, F 1 t = g t) ∧ (∀ s, F s 0 = f 0 ∧ F s 1 = f 1) ∧ ∀ s t, F s t ∈ U

end Planar
end Verif
