import Mathlib.Algebra.Order.Ring.Unbundled.Rat
import Mathlib.Order.WithBot
import Mathlib.Tactic.Linarith
import Verif.Demo.Env

/-!
Exact plane geometry over the rationals, used by the concrete cases and by the refutations: the library record is filled with the real geometric
functions (convex hull, intersection, squared distances), so a refutation is about the modelled code and not about an odd library.
Distances are squared distances (comparisons of non-negative numbers and of their squares agree; thresholds are squared accordingly).
Constraint geometries are polylines (a single point is a polyline with one vertex).
-/

namespace Verif
namespace Plane

abbrev Pt := ℚ × ℚ
/-- box coordinates: rationals and the two infinities -/
abbrev Bx := WithBot (WithTop ℚ)

/-- cross product of `a - o` and `b - o` -/
def cross (o a b : Pt) : ℚ := (a.1 - o.1) * (b.2 - o.2) - (a.2 - o.2) * (b.1 - o.1)
/-- squared distance of two points -/
def sq (a b : Pt) : ℚ := (a.1 - b.1) * (a.1 - b.1) + (a.2 - b.2) * (a.2 - b.2)
/-- scalar product of `a - o` and `b - o` -/
def dot (o a b : Pt) : ℚ := (a.1 - o.1) * (b.1 - o.1) + (a.2 - o.2) * (b.2 - o.2)

/-- squared distance of `p` to the segment `a b` -/
def ptSeg (a b p : Pt) : ℚ :=
  let l := sq a b
  if l ≤ 0 then sq a p else
  let t := max 0 (min 1 (dot a b p / l))
  sq (a.1 + t * (b.1 - a.1), a.2 + t * (b.2 - a.2)) p

/-- `p` lies on the segment `a b` -/
def onSeg (a b p : Pt) : Bool := decide (cross a b p = 0) && decide (dot p a b ≤ 0)

/-- intersection points of two segments (for overlapping segments: the end points that lie on the other segment) -/
def segSeg (a b c d : Pt) : List Pt :=
  let r := (b.1 - a.1) * (d.2 - c.2) - (b.2 - a.2) * (d.1 - c.1)
  if r = 0 then ([a, b].filter (onSeg c d) ++ [c, d].filter (onSeg a b)).dedup
  else
    let t := ((c.1 - a.1) * (d.2 - c.2) - (c.2 - a.2) * (d.1 - c.1)) / r
    let u := ((c.1 - a.1) * (b.2 - a.2) - (c.2 - a.2) * (b.1 - a.1)) / r
    if 0 ≤ t ∧ t ≤ 1 ∧ 0 ≤ u ∧ u ≤ 1 then [(a.1 + t * (b.1 - a.1), a.2 + t * (b.2 - a.2))] else []

/-- squared distance of two segments -/
def segDist (s t : Pt × Pt) : ℚ :=
  if segSeg s.1 s.2 t.1 t.2 ≠ [] then 0
  else min (min (ptSeg s.1 s.2 t.1) (ptSeg s.1 s.2 t.2)) (min (ptSeg t.1 t.2 s.1) (ptSeg t.1 t.2 s.2))

/-- consecutive pairs; a single point gives a degenerate segment -/
def segsOf : List Pt → List (Pt × Pt)
  | [] => []
  | [a] => [(a, a)]
  | a :: b :: rest => match rest with
    | [] => [(a, b)]
    | _ => (a, b) :: segsOf (b :: rest)

/-- the boundary segments of a geometry -/
def boundary : Geo Pt (List Pt) → List (Pt × Pt)
  | .point p => [(p, p)]
  | .line c => segsOf c.points
  | .poly c => segsOf (c.points ++ c.points.take 1)
  | .seg c => segsOf ([c.points.head?, c.points.getLast?].filterMap id)
  | .ctx l => segsOf l

/-- the vertices of a geometry -/
def vertices : Geo Pt (List Pt) → List Pt
  | .point p => [p]
  | .line c => c.points
  | .poly c => c.points
  | .seg c => [c.points.head?, c.points.getLast?].filterMap id
  | .ctx l => l

/-- `p` inside a convex ring (`strict`: not on its boundary) -/
def inRing (strict : Bool) (l : List Pt) (p : Pt) : Bool :=
  let s := (segsOf (l ++ l.take 1)).map (fun e => cross e.1 e.2 p)
  if strict then s.all (fun x => decide (0 < x)) || s.all (fun x => decide (x < 0))
  else s.all (fun x => decide (0 ≤ x)) || s.all (fun x => decide (x ≤ 0))

/-- `p` in the interior or on the boundary of a hull polygon -/
def filled : Geo Pt (List Pt) → Pt → Bool
  | .poly c, p => inRing false c.points p
  | _, _ => false

def minList : List ℚ → Option ℚ
  | [] => none
  | a :: l => match minList l with
    | none => some a
    | some b => some (min a b)

/-- squared distance of two geometries -/
def dist (a b : Geo Pt (List Pt)) : ℚ :=
  if (vertices a).any (filled b) || (vertices b).any (filled a) then 0
  else (minList ((boundary a).flatMap (fun s => (boundary b).map (segDist s)))).getD 0

/-- intersection points: of the boundaries, and vertices of one in the interior of the other -/
def inters (a b : Geo Pt (List Pt)) : List Pt :=
  match a, b with
  | .point p, g => if dist (.point p) g = 0 then [p] else []
  | g, .point p => if dist g (.point p) = 0 then [p] else []
  | a, b => ((boundary a).flatMap (fun s => (boundary b).flatMap (fun t => segSeg s.1 s.2 t.1 t.2)) ++
      (vertices a).filter (filled b) ++ (vertices b).filter (filled a)).dedup

/-- lexicographic order, lnr/vertices.go:16-21 -/
def lexLe (a b : Pt) : Bool := decide (a.1 < b.1) || (decide (a.1 = b.1) && decide (a.2 ≤ b.2))

/-- monotone chain: push a point, popping while there is no left turn -/
def push : List Pt → Pt → List Pt
  | b :: a :: st, p => if cross a b p ≤ 0 then push (a :: st) p else p :: b :: a :: st
  | st, p => p :: st

def hullPts (l : List Pt) : List Pt :=
  let s := (l.dedup).insertionSort (fun a b => lexLe a b = true)
  if s.length ≤ 1 then s
  else ((s.foldl push []).tail.reverse) ++ ((s.reverse.foldl push []).tail.reverse)

def listCoords (l : List Pt) : Coords Pt := coordsOf l

def boxPt (x : ℚ) : Bx := ((x : WithTop ℚ) : WithBot (WithTop ℚ))

def boundsPts : List Pt → Box Bx
  | [] => ⟨⊥, ⊥, ⊤, ⊤⟩
  | p :: l => l.foldl (fun b q => ⟨min b.minX (boxPt q.1), min b.minY (boxPt q.2), max b.maxX (boxPt q.1), max b.maxY (boxPt q.2)⟩)
      ⟨boxPt p.1, boxPt p.2, boxPt p.1, boxPt p.2⟩

/-- the convex hull; never empty for a non-empty list -/
def hullOf (c : Coords Pt) : Coords Pt :=
  match hullPts c.points with
  | [] => c
  | l => listCoords l

/-- squared distance to a box (as a filled polygon); 0 when a side is infinite -/
def boxDist (g : Geo Pt (List Pt)) (b : Box Bx) : ℚ :=
  match b.minX, b.minY, b.maxX, b.maxY with
  | some (some x0), some (some y0), some (some x1), some (some y1) => dist g (.poly (listCoords [(x0, y0), (x1, y0), (x1, y1), (x0, y1)]))
  | _, _, _, _ => 0

/-- exact plane geometry as a library -/
def lib : Lib Pt (List Pt) Bx ℚ where
  convexHull := hullOf
  bounds g := boundsPts (vertices g)
  intersects a b := decide (dist a b = 0)
  intersection := inters
  distance a b := .fin (dist a b)
  boxDistance g b := .fin (boxDist g b)
  ptInRing c p := inRing true c.points p
  equals2D a b := decide (a = b)
  ptDistance a b := .fin (sq a b)

example : (hullPts [(0,0),(2,0),(1,1),(2,2),(0,2),(1,3)]) = [(0,0),(2,0),(2,2),(1,3),(0,2)] := by decide +kernel
example : dist (.line (listCoords [(0,0),(4,0)])) (.ctx [(2,3)]) = 9 := by decide +kernel

/-- intersection points of two segments with the flags of the library: some end point; the end point of exactly one segment -/
def segInter (a b c d : Pt) : List (Pt × Bool × Bool) :=
  (segSeg a b c d).map (fun x => (x, decide (x ∈ [a, b, c, d]), decide ([a, b, c, d].count x = 1)))

def lnr : LnrLib Pt Bx where
  sortV l := l.insertionSort (fun a b => lexLe a.pt b.pt = true)
  segBox a b := boundsPts [a, b]
  segSeg := segInter
  segSearch data d := (List.range data.length).filter (fun o => match data[d]?, data[o]? with
    | some s, some t => s.box.intersects t.box
    | _, _ => false)

/-- polylines in the plane, scored by the squared distance to the chord; `EpsilonDist` is `1.0e-5`, squared -/
def env (lines : Int → Demo.Line Pt (List Pt) ℚ) : Env Pt (List Pt) Bx ℚ :=
  Demo.env lib lnr (fun a b p => .fin (ptSeg a b p)) (.fin (1 / 10 ^ 10)) lines

/-- threshold `t`, minimum distance `m`, all switches off -/
def opts (t m : ℚ) : Opts ℚ :=
  { threshold := .fin t, sqThreshold := .fin (t * t), minDist := .fin (m * m), nonPlanarDisplacement := .fin 1, planarSelf := false,
    nonPlanarSelf := false, avoidNewSelfIntersects := false, geomRelation := false, distRelation := false, dirRelation := false }

/-! ### the assumptions hold for all lines -/

theorem sq_nonneg' (a b : Pt) : 0 ≤ sq a b := add_nonneg (mul_self_nonneg _) (mul_self_nonneg _)

theorem ptSeg_nonneg (a b p : Pt) : 0 ≤ ptSeg a b p := by
  unfold ptSeg
  simp only
  split_ifs <;> exact sq_nonneg' _ _

theorem boundsPts_valid (l : List Pt) : (boundsPts l).Valid := by
  cases l with
  | nil => exact ⟨bot_le, bot_le⟩
  | cons p l =>
    have key : ∀ (l : List Pt) (b : Box Bx), b.Valid → (l.foldl (fun b q => (⟨min b.minX (boxPt q.1), min b.minY (boxPt q.2), max b.maxX (boxPt q.1),
        max b.maxY (boxPt q.2)⟩ : Box Bx)) b).Valid := by
      intro l
      induction l with
      | nil => exact fun b h => h
      | cons q l ih =>
        intro b h
        exact ih _ ⟨le_trans (min_le_left _ _) (le_trans h.1 (le_max_left _ _)), le_trans (min_le_left _ _) (le_trans h.2 (le_max_left _ _))⟩
    exact key l _ ⟨le_refl _, le_refl _⟩

theorem inters_point (p : Pt) (g : Geo Pt (List Pt)) : (inters (.point p) g).length ≤ 1 ∧ (inters g (.point p)).length ≤ 1 := by
  constructor
  · simp only [inters]; split_ifs <;> simp
  · cases g <;> simp only [inters] <;> split_ifs <;> simp

section
variable {lines : Int → Demo.Line Pt (List Pt) ℚ} {h : Int}

theorem env_ok : EnvOK (env lines) := Demo.env_ok inters_point

theorem lnr_ok : LnrOK (env lines).lnr :=
  ⟨fun l => List.perm_insertionSort _ l, fun data d o ho => by
    simp only [env, Demo.env, lnr, List.mem_filter, List.mem_range] at ho; exact ho.1⟩

theorem hull_ok {c : Coords Pt} (h : 2 ≤ c.len) : ∃ g : Geo Pt (List Pt), hullGeometry (hullOf c) = .ok g := by
  have key : 1 ≤ (hullOf c).len ∧ ((hullOf c).len = 1 → ∃ p, (hullOf c).pt 0 = .ok p) := by
    unfold hullOf
    split
    · exact ⟨by omega, fun h => by omega⟩
    · rename_i l hl
      cases hq : hullPts c.points with
      | nil => exact absurd hq hl
      | cons a l' =>
        refine ⟨?_, fun _ => ?_⟩
        · rw [listCoords, coordsOf_len]; simp
        · obtain ⟨p, hp, -⟩ := Coords.pt_sub_ok (pts := a :: l') (i := 0) (j := (a :: l').length - 1) (k := 0) (by omega) (by simp) (by omega) (by omega)
          exact ⟨p, hp⟩
  unfold hullGeometry
  split_ifs with h1 h2
  · exact ⟨_, rfl⟩
  · exact ⟨_, rfl⟩
  · obtain ⟨p, hp⟩ := key.2 (by omega)
    exact ⟨.point p, by rw [hp]; rfl⟩

theorem inst_ok (h2 : 2 ≤ (lines h).pts.length) (ht : (Fl.fin 0).le (lines h).opts.sqThreshold = true) : InstOK (env lines) h (lines h).pts := by
  refine Demo.inst_ok h2 (fun a b p => ?_) ht (fun i j h0 h1 h2 => ?_)
  · simp only [Fl.fin_le_fin, decide_eq_true_eq]; exact ptSeg_nonneg a b p
  · obtain ⟨g, e⟩ := hull_ok (c := Coords.sub (lines h).pts i j) (by rw [Coords.len_sub _ _ _ (by omega)]; omega)
    exact ⟨g, e, boundsPts_valid _⟩

end

/-- ranges of the pieces and kept indices -/
def result (r : Res (Out Pt (List Pt) Bx × (Int → Bool))) : List (Int × Int) × List Int := match r with
  | .ok (o, _) => (o.hulls.map (fun n => (n.range.I, n.range.J)), o.simple)
  | _ => ([], [])

/-- one polyline, simplified -/
def run (l : Demo.Line Pt (List Pt) ℚ) (cv : List Int) : Res (Out Pt (List Pt) Bx × (Int → Bool)) :=
  simplify (env (fun _ => l)) (fun n => n) 0 cv (fun _ => false) 60

end Plane
end Verif
