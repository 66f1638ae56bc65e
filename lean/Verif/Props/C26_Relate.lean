import Verif.Lemmas.Homotopy
import Verif.Model.Yields

/-! C26, C27, C28, C29: the three context relations. -/

set_option linter.unusedSectionVars false

namespace Verif

variable {P C B K : Type}

/-! ### C26 -/

/-- C26: the geometric relation holds exactly when chord and sub-line meet the same context geometries. -/
theorem C26_geom_iff (lib : Lib P C B K) (hull : Node P C B) (ctx : List (Geo P C)) :
    isGeomRelateValid lib hull ctx = true ↔ ∀ g ∈ ctx, lib.intersects (.seg hull.coords) g = lib.intersects (.line hull.coords) g := by
  unfold isGeomRelateValid Node.segment Node.polyline
  induction ctx with
  | nil => simp [geomRelateLoop]
  | cons g gs ih =>
    simp only [geomRelateLoop, List.mem_cons, forall_eq_or_imp, ← ih]
    cases lib.intersects (.seg hull.coords) g <;> cases lib.intersects (.line hull.coords) g <;> simp

/-! ### C27 -/

/-- C27: the distance relation holds exactly when, for every context geometry, the chord keeps the minimum distance or the sub-line
already violated it (comparisons with NaN are false). -/
theorem C27_dist_iff [LinearOrder K] (lib : Lib P C B K) (m : Fl K) (hull : Node P C B) (ctx : List (Geo P C)) :
    isDistRelateValid lib m hull ctx = true ↔
      ∀ g ∈ ctx, m.le (lib.distance (.seg hull.coords) g) = true ∨ (lib.distance (.line hull.coords) g).lt m = true := by
  unfold isDistRelateValid Node.segment Node.polyline
  induction ctx with
  | nil => simp [distRelateLoop]
  | cons g gs ih =>
    simp only [distRelateLoop, List.mem_cons, forall_eq_or_imp, ← ih, Fl.ge]
    by_cases h1 : m.le (lib.distance (.seg hull.coords) g) = true <;> by_cases h2 : (lib.distance (.line hull.coords) g).lt m = true <;> simp [h1, h2]

/-! ### C28 -/

/-- distance of a point to an axis-parallel segment (at least one of the two parts is zero in the example below, so all usual distances agree) -/
def axisDist (p a b : Int × Int) : Int :=
  max 0 (max (min a.1 b.1 - p.1) (p.1 - max a.1 b.1)) + max 0 (max (min a.2 b.2 - p.2) (p.2 - max a.2 b.2))

/-- distance of a point to an axis-parallel polyline -/
def axisLineDist (p : Int × Int) : List (Int × Int) → Int
  | a :: b :: rest => match rest with
    | [] => axisDist p a b
    | _ => min (axisDist p a b) (axisLineDist p (b :: rest))
  | _ => 0

/-- distances of axis-parallel lines to a point -/
def axisLib : Lib (Int × Int) (Int × Int) Int Int where
  convexHull c := c
  bounds _ := ⟨0, 0, 0, 0⟩
  intersects _ _ := false
  intersection _ _ := []
  distance
    | .line c, .ctx p => .fin (axisLineDist p c.points)
    | .seg c, .ctx p => .fin (axisLineDist p ([c.points.head?, c.points.getLast?].filterMap id))
    | _, _ => .fin 0
  boxDistance _ _ := .fin 0
  ptInRing _ _ := false
  equals2D a b := a = b
  ptDistance _ _ := .fin 0

/-- the piece (0,0) (0,4) (10,4) (10,0) -/
def axisPiece : Node (Int × Int) (Int × Int) Int :=
  { id := 0, coords := ⟨[(0, 0), (0, 4), (10, 4), (10, 0)], [0, 1, 2, 3]⟩, range := ⟨0, 3⟩, mbr := ⟨0, 0, 10, 4⟩, geom := .line ⟨[], []⟩, inst := 0 }

/-- C28 fails: with minimum distance 4, the piece is at distance 3 from the constraint (5,1), its chord at distance 1, and the piece is accepted. -/
theorem C28_refuted : ∃ (hull : Node (Int × Int) (Int × Int) Int) (g : Geo (Int × Int) (Int × Int)) (m : Fl Int),
    (axisLib.distance (.line hull.coords) g).lt m = true ∧
    (axisLib.distance (.seg hull.coords) g).lt (axisLib.distance (.line hull.coords) g) = true ∧
    isDistRelateValid axisLib m hull [g] = true :=
  ⟨axisPiece, .ctx (5, 1), .fin 4, by decide +kernel, by decide +kernel, by decide +kernel⟩

/-- What remains of C28: as long as the sub-line keeps the minimum distance to a context geometry, an accepted chord keeps it as well. -/
theorem C28_keeps_distance_partial [LinearOrder K] (lib : Lib P C B K) (m : Fl K) (hull : Node P C B) (ctx : List (Geo P C))
    (h : isDistRelateValid lib m hull ctx = true) (g : Geo P C) (hg : g ∈ ctx) (ho : m.le (lib.distance (.line hull.coords) g) = true) :
    m.le (lib.distance (.seg hull.coords) g) = true := by
  rcases (C27_dist_iff lib m hull ctx).1 h g hg with h1 | h1
  · exact h1
  · rw [Fl.lt_iff_not_le (Fl.ne_nan_of_le_right ho) (Fl.ne_nan_of_le_left ho), ho] at h1
    simp at h1

/-- example: a sub-line at distance 3, minimum distance 2, chord at distance 1: rejected -/
example : isDistRelateValid axisLib (.fin 2) axisPiece [.ctx (5, 1)] = false := by decide +kernel
/-- example: constraint (5,-6), minimum distance 5: accepted, and the hypothesis of `C28_keeps_distance_partial` holds -/
example : isDistRelateValid axisLib (.fin 5) axisPiece [.ctx (5, -6)] = true ∧
    (Fl.fin 5).le (axisLib.distance (.line axisPiece.coords) (.ctx (5, -6))) = true := by decide +kernel

/-! ### C29 -/

/-- Specification: from the vertices `l`, remove interior vertices one at a time, each with a triangle that `free` allows. -/
inductive Collapse (free : P → P → P → Prop) : List P → List P → Prop
  | refl (l) : Collapse free l l
  | tail {l u a b c w} (h : Collapse free l (u ++ a :: b :: c :: w)) (hf : free a b c) : Collapse free l (u ++ a :: c :: w)

/-- The triangle `a b c` meets none of the context geometries that are disjoint from both chord and sub-line. -/
def SweepsNothing (lib : Lib P C B K) (c : Coords P) (ctx : List (Geo P C)) (x y z : P) : Prop :=
  ∀ g ∈ ctx, lib.intersects (.seg c) g = false → lib.intersects (.line c) g = false →
    lib.intersects (Homotopy.triangle (C := C) x y z) g = false

/-- Library assumption: geometries that meet have boxes that meet. -/
def BoxSound [LinearOrder B] (lib : Lib P C B K) : Prop :=
  ∀ a b : Geo P C, lib.intersects a b = true → (lib.bounds a).intersects (lib.bounds b) = true

namespace Homotopy

theorem filterLoop_spec (lib : Lib P C B K) (s l : Geo P C) : ∀ ctx : List (Geo P C),
    ((filterLoop lib s l ctx).2.2 = [] ↔ ∀ g ∈ ctx, lib.intersects s g = lib.intersects l g) ∧
    (∀ g, g ∈ (filterLoop lib s l ctx).1 ↔ g ∈ ctx ∧ lib.intersects s g = false ∧ lib.intersects l g = false) := by
  intro ctx
  induction ctx with
  | nil => simp [filterLoop]
  | cons g gs ih =>
    obtain ⟨ih1, ih2⟩ := ih
    simp only [filterLoop, List.mem_cons, forall_eq_or_imp]
    cases h1 : lib.intersects l g <;> cases h2 : lib.intersects s g <;> simp [ih1, ih2] <;> grind

theorem allPts_spec {c : Coords P} {ps : List P} (h : ∀ k (hk : k < ps.length), c.pt k = .ok ps[k]) : ∀ n, n ≤ ps.length →
    allPts c n = .ok (ps.take n) := by
  intro n
  induction n with
  | zero => intro _; simp [allPts]
  | succ n ih =>
    intro hn
    simp only [allPts, ih (by omega), Res.ok_bind, h n (by omega), Res.pure_eq]
    rw [List.take_succ_eq_append_getElem (by omega)]

variable [LinearOrder B]

theorem Steps.collapse {lib : Lib P C B K} {c : Coords P} {ctx db : List (Geo P C)} {pt : Nat → P} (hb : BoxSound lib)
    (hdb : ∀ g, g ∈ db ↔ g ∈ ctx ∧ lib.intersects (.seg c) g = false ∧ lib.intersects (.line c) g = false) {l m : List Nat} (h : Steps lib pt db l m) :
    Collapse (SweepsNothing lib c ctx) (l.map pt) (m.map pt) := by
  induction h with
  | refl => exact Collapse.refl _
  | tail _ h' ih =>
    cases h' with
    | mk u a b c' w hf =>
      simp only [List.map_append, List.map_cons] at ih ⊢
      refine ih.tail ?_
      intro g hg h1 h2
      cases hi : lib.intersects (triangle (pt a) (pt b) (pt c')) g with
      | false => rfl
      | true =>
        have := hf g ((hdb g).2 ⟨hg, h1, h2⟩) (hb _ _ hi)
        rw [hi] at this; cases this

theorem homotopy_cases {lib : Lib P C B K} {c : Coords P} {ps : List P} (hlen : c.len = ps.length) (hne : 2 ≤ ps.length)
    (hpt : ∀ k (hk : k < ps.length), c.pt k = .ok ps[k]) (ctx : List (Geo P C)) :
    ∃ b, (∀ fuel, 2 * ps.length + 1 ≤ fuel → homotopy lib c ctx fuel = .ok b) ∧
      (b = true → (∀ g ∈ ctx, lib.intersects (.seg c) g = lib.intersects (.line c) g) ∧
        ((∀ g ∈ ctx, ¬ (lib.intersects (.seg c) g = false ∧ lib.intersects (.line c) g = false)) ∨
          Steps lib (fun i => ps.getD i ps[0]) (filterLoop lib (.seg c) (.line c) ctx).1 (List.range ps.length) [0, ps.length - 1])) ∧
      (b = false → (∀ p, lib.equals2D p p = true) → (∃ g ∈ ctx, lib.intersects (.seg c) g ≠ lib.intersects (.line c) g) ∨
        ∃ l, Steps lib (fun i => ps.getD i ps[0]) (filterLoop lib (.seg c) (.line c) ctx).1 (List.range ps.length) l ∧ 2 < l.length ∧
          ∀ x i j k y, l = x ++ i :: j :: k :: y →
            ¬ Free lib (fun i => ps.getD i ps[0]) (filterLoop lib (.seg c) (.line c) ctx).1 i j k) := by
  obtain ⟨f1, f2⟩ := filterLoop_spec lib (.seg c) (.line c) ctx
  simp only [homotopy]
  by_cases hx : (filterLoop lib (.seg c) (.line c) ctx).2.2.length > 0
  · refine ⟨false, ?_, by simp, fun _ _ => .inl ?_⟩
    · intro fuel _; rw [if_pos hx]
    · have : ¬ (filterLoop lib (.seg c) (.line c) ctx).2.2 = [] := by intro h; rw [h] at hx; simp at hx
      rw [f1] at this
      push Not at this
      exact this
  · have hx0 : (filterLoop lib (.seg c) (.line c) ctx).2.2 = [] := List.eq_nil_of_length_eq_zero (by omega)
    simp only [if_neg hx]
    have hsame := f1.1 hx0
    by_cases hd : (filterLoop lib (.seg c) (.line c) ctx).1.length = 0
    · refine ⟨true, by intro fuel _; rw [if_pos hd], ?_, by simp⟩
      intro _
      refine ⟨hsame, .inl ?_⟩
      intro g hg h
      have := (f2 g).2 ⟨hg, h⟩
      rw [List.eq_nil_of_length_eq_zero hd] at this
      cases this
    · simp only [if_neg hd]
      obtain ⟨p0, ps', rfl⟩ : ∃ p0 ps', ps = p0 :: ps' := by
        cases ps with
        | nil => simp at hne
        | cons a l => exact ⟨a, l, rfl⟩
      have ha : allPts c c.len.toNat = .ok (p0 :: ps') := by
        rw [hlen, Int.toNat_natCast, allPts_spec hpt _ (Nat.le_refl _), List.take_length]
      simp only [ha, Res.ok_bind, List.getElem_cons_zero]
      have hh : ∀ x, (List.range (p0 :: ps').length).head? = some x → x = 0 := by
        intro x hx
        simp [List.range_succ_eq_map] at hx
        exact hx.symm
      obtain ⟨ch0, l0, e0, i1, i2, i3, i4⟩ := deformLoop_spec lib (fun i => (p0 :: ps').getD i p0) (filterLoop lib (.seg c) (.line c) ctx).1
        (p0 :: ps').length (List.range (p0 :: ps').length) (newChain (p0 :: ps').length) (by simp) (newChain_linked _) List.nodup_range (by simp [newChain]) hh
        (by simp)
      simp only [chainDeformation]
      obtain ⟨en1, en2, en3, en4⟩ := i3.ends
      have hnd : l0.Nodup := List.nodup_range.sublist en4
      have hfirst : l0.head? = some 0 := by rw [en1]; simp [List.range_succ_eq_map]
      have hlast : l0.getLast? = some ps'.length := by rw [en2]; simp [List.range_succ]
      have hge : 2 ≤ l0.length := by
        match l0, hfirst, hlast with
        | [x], h1, h2 => simp at h1 h2; simp at hne; omega
        | x :: y :: t, _, _ => simp
      by_cases h2 : l0.length = 2
      · have hl0 : l0 = [0, ps'.length] := by
          match l0, h2, hfirst, hlast with
          | [x, y], _, h1, h2 => simp at h1 h2; rw [h1, h2]
        refine ⟨lib.equals2D p0 p0 && lib.equals2D ((p0 :: ps').getD ps'.length p0) ((p0 :: ps').getD ps'.length p0), ?_, ?_, ?_⟩
        · intro fuel hf
          have hn0 : ch0.next 0 = some ps'.length := by
            have := (i1 [] 0 [ps'.length] (by rw [hl0]; rfl)).2
            simpa using this
          rw [e0 fuel hf]
          simp only [Res.ok_bind, i2, h2, if_true, hn0, List.length_cons, Nat.add_sub_cancel, List.getD_cons_zero]
        · intro _
          refine ⟨hsame, .inr ?_⟩
          rw [hl0] at i3
          simpa using i3
        · intro hfalse hrefl
          simp [hrefl] at hfalse
      · refine ⟨false, ?_, by simp, fun _ _ => .inr ⟨l0, i3, by omega, i4 (by omega)⟩⟩
        intro fuel hf
        simp only [e0 fuel hf, Res.ok_bind, i2, h2, if_false]

end Homotopy

theorem Collapse.all {free : P → P → P → Prop} (h : ∀ a b c, free a b c) : ∀ (l : List P) (a z : P), Collapse free (a :: (l ++ [z])) [a, z] := by
  suffices hs : ∀ (n : Nat) (l : List P) (a z : P) (r : List P), l.length = n → Collapse free r (a :: (l ++ [z])) → Collapse free r [a, z] from
    fun l a z => hs _ l a z _ rfl (Collapse.refl _)
  intro n
  induction n with
  | zero => intro l a z r hl hc; rw [List.eq_nil_of_length_eq_zero hl] at hc; exact hc
  | succ n ih =>
    intro l a z r hl hc
    match l, hl with
    | b :: l, hl =>
      refine ih l a z r (by simpa using hl) ?_
      cases l with
      | nil => exact Collapse.tail (u := []) (w := []) hc (h _ _ _)
      | cons c l => exact Collapse.tail (u := []) (w := l ++ [z]) hc (h _ _ _)

theorem range_map_getD (ps : List P) (p : P) : (List.range ps.length).map (fun i => ps.getD i p) = ps := by
  apply List.ext_getElem
  · simp
  · intro i h1 h2
    simp [List.getD_eq_getElem?_getD, List.getElem?_eq_getElem h2]

variable [LinearOrder B]

/-- C29: the sidedness test of a piece with at least two vertices `ps` always finishes with a verdict. -/
theorem C29_terminates (lib : Lib P C B K) {c : Coords P} {ps : List P}
    (hlen : c.len = ps.length) (hne : 2 ≤ ps.length) (hpt : ∀ k (hk : k < ps.length), c.pt k = .ok ps[k]) (ctx : List (Geo P C)) :
    ∃ b, Yields (Homotopy.homotopy lib c ctx) b := by
  obtain ⟨b, h, _⟩ := Homotopy.homotopy_cases (lib := lib) hlen hne hpt ctx
  exact ⟨b, _, h⟩

/-- C29: when the sidedness test accepts a piece with vertices `ps`, every context geometry is met by both chord and sub-line or by neither, and the
sub-line can be reduced to its two ends by removing one vertex at a time such that no removed triangle meets a geometry disjoint from both. -/
theorem C29_accept_sound {lib : Lib P C B K} (hb : BoxSound lib) (hrefl : ∀ p, lib.equals2D p p = true) {c : Coords P} {ps : List P}
    (hlen : c.len = ps.length) (hne : 2 ≤ ps.length) (hpt : ∀ k (hk : k < ps.length), c.pt k = .ok ps[k]) (ctx : List (Geo P C))
    (h : Yields (Homotopy.homotopy lib c ctx) true) :
    (∀ g ∈ ctx, lib.intersects (.seg c) g = lib.intersects (.line c) g) ∧
    Collapse (SweepsNothing lib c ctx) ps [ps[0], ps[ps.length - 1]] := by
  obtain ⟨b, hy, ht, _⟩ := Homotopy.homotopy_cases (lib := lib) hlen hne hpt ctx
  obtain rfl : b = true := Yields.unique ⟨_, hy⟩ h
  obtain ⟨h1, h2⟩ := ht rfl
  refine ⟨h1, ?_⟩
  rcases h2 with h2 | h2
  · have hfree : ∀ x y z, SweepsNothing lib c ctx x y z := fun x y z g hg a b => absurd ⟨a, b⟩ (h2 g hg)
    have := Collapse.all hfree (ps.tail.dropLast) ps[0] ps[ps.length - 1]
    have hps : ps[0] :: (ps.tail.dropLast ++ [ps[ps.length - 1]]) = ps := by
      match ps, hne with
      | a :: b :: l, _ =>
        have : (a :: b :: l)[(a :: b :: l).length - 1] = (b :: l).getLast (by simp) := by
          simp [List.getLast_eq_getElem]
        simp only [this, List.tail_cons, List.dropLast_append_getLast, List.getElem_cons_zero]
    rw [hps] at this
    exact this
  · have := Homotopy.Steps.collapse hb (Homotopy.filterLoop_spec lib (.seg c) (.line c) ctx).2 h2
    rw [range_map_getD] at this
    simpa [List.getD_eq_getElem?_getD, List.getElem?_eq_getElem (show ps.length - 1 < ps.length by omega),
      List.getElem?_eq_getElem (show 0 < ps.length by omega)] using this

/-- C29, converse: when the test rejects, some context geometry is met by only one of chord and sub-line, or removing vertices with free triangles
leads to at least three vertices none of which can be removed: every triangle of neighbours meets a geometry disjoint from chord and sub-line. -/
theorem C29_reject_stuck {lib : Lib P C B K} (hb : BoxSound lib) (hrefl : ∀ p, lib.equals2D p p = true) {c : Coords P} {ps : List P}
    (hlen : c.len = ps.length) (hne : 2 ≤ ps.length) (hpt : ∀ k (hk : k < ps.length), c.pt k = .ok ps[k]) (ctx : List (Geo P C))
    (h : Yields (Homotopy.homotopy lib c ctx) false) :
    (∃ g ∈ ctx, lib.intersects (.seg c) g ≠ lib.intersects (.line c) g) ∨
    ∃ l, Collapse (SweepsNothing lib c ctx) ps l ∧ 2 < l.length ∧
      ∀ u x y z w, l = u ++ x :: y :: z :: w → ¬ SweepsNothing lib c ctx x y z := by
  obtain ⟨b, hy, _, hf⟩ := Homotopy.homotopy_cases (lib := lib) hlen hne hpt ctx
  obtain rfl : b = false := Yields.unique ⟨_, hy⟩ h
  rcases hf rfl hrefl with h1 | ⟨l, h1, h2, h3⟩
  · exact .inl h1
  · right
    have := Homotopy.Steps.collapse hb (Homotopy.filterLoop_spec lib (.seg c) (.line c) ctx).2 h1
    rw [range_map_getD] at this
    refine ⟨_, this, by simpa using h2, ?_⟩
    intro u x y z w he hs
    obtain ⟨u', r1, rfl, rfl, e1⟩ := List.map_eq_append_iff.1 he
    obtain ⟨i, r2, rfl, rfl, e2⟩ := List.map_eq_cons_iff.1 e1
    obtain ⟨j, r3, rfl, rfl, e3⟩ := List.map_eq_cons_iff.1 e2
    obtain ⟨k, r4, rfl, rfl, e4⟩ := List.map_eq_cons_iff.1 e3
    refine h3 u' i j k r4 rfl ?_
    intro g hg _
    obtain ⟨g1, g2, g3⟩ := ((Homotopy.filterLoop_spec lib (.seg c) (.line c) ctx).2 g).1 hg
    exact hs g g1 g2 g3

/-- cross product of `b - a` and `p - a` -/
def cross (a b p : Int × Int) : Int := (b.1 - a.1) * (p.2 - a.2) - (b.2 - a.2) * (p.1 - a.1)

/-- the point lies on the closed segment -/
def onSeg (p a b : Int × Int) : Bool :=
  decide (cross a b p = 0) && decide (min a.1 b.1 ≤ p.1 ∧ p.1 ≤ max a.1 b.1 ∧ min a.2 b.2 ≤ p.2 ∧ p.2 ≤ max a.2 b.2)

/-- the point lies on the polyline -/
def onLine (p : Int × Int) : List (Int × Int) → Bool
  | a :: b :: rest => onSeg p a b || onLine p (b :: rest)
  | _ => false

/-- the point lies in the closed triangle -/
def inTriangle (p a b c : Int × Int) : Bool :=
  decide ((0 ≤ cross a b p ∧ 0 ≤ cross b c p ∧ 0 ≤ cross c a p) ∨ (cross a b p ≤ 0 ∧ cross b c p ≤ 0 ∧ cross c a p ≤ 0))

/-- exact predicates for integer points as constraints -/
def pointLib : Lib (Int × Int) (Int × Int) Int Int where
  convexHull c := c
  bounds _ := ⟨0, 0, 0, 0⟩
  intersects
    | .line c, .ctx p => onLine p c.points
    | .seg c, .ctx p => onLine p ([c.points.head?, c.points.getLast?].filterMap id)
    | .poly c, .ctx p => match c.points with
      | [a, b, c, _] => inTriangle p a b c
      | _ => false
    | _, _ => false
  intersection _ _ := []
  distance _ _ := .fin 0
  boxDistance _ _ := .fin 0
  ptInRing _ _ := false
  equals2D a b := a = b
  ptDistance _ _ := .fin 0

/-- the hypotheses of the C29 theorems hold for a sub-line of four vertices -/
example : BoxSound pointLib ∧ (∀ p, pointLib.equals2D p p = true) ∧
    (∀ k (hk : k < ([(0, 0), (3, 5), (7, 5), (10, 0)] : List (Int × Int)).length),
      (coordsOf ([(0, 0), (3, 5), (7, 5), (10, 0)] : List (Int × Int))).pt k = .ok ([(0, 0), (3, 5), (7, 5), (10, 0)] : List (Int × Int))[k]) := by
  refine ⟨fun a b _ => by simp [pointLib, Box.intersects], fun p => by simp [pointLib], ?_⟩
  decide +kernel

/-- accepted: the constraint (5,-3) lies on the other side of the chord -/
example : Homotopy.homotopy pointLib (coordsOf [(0, 0), (3, 5), (7, 5), (10, 0)]) [.ctx (5, -3)] 20 = .ok true := by decide +kernel
/-- rejected: the constraint (5,1) lies between chord and sub-line -/
example : Homotopy.homotopy pointLib (coordsOf [(0, 0), (3, 5), (7, 5), (10, 0)]) [.ctx (5, 1)] 20 = .ok false := by decide +kernel
/-- the constraint (3,4) meets neither chord nor sub-line; vertex 1 cannot go first, vertex 2 can: still rejected in the end -/
example : Homotopy.homotopy pointLib (coordsOf [(0, 0), (3, 5), (7, 5), (10, 0)]) [.ctx (3, 4)] 20 = .ok false := by decide +kernel
/-- geometric relation: a constraint on the sub-line but not on the chord is a violation -/
example : isGeomRelateValid pointLib { axisPiece with coords := coordsOf [(0, 0), (3, 5), (7, 5), (10, 0)] } [.ctx (5, 5)] = false ∧
    isGeomRelateValid pointLib { axisPiece with coords := coordsOf [(0, 0), (3, 5), (7, 5), (10, 0)] } [.ctx (5, -3), .ctx (0, 0)] = true := by
  decide +kernel

end Verif
