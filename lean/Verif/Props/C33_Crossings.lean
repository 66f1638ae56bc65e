import Verif.Props.C09_Simplify
import Verif.Props.C56_Conflicts

/-! C33: the part that holds: no new crossing of two output segments whose pieces are both examined. -/

set_option linter.unusedSectionVars false

namespace Verif

section
variable {P C B K : Type} [LinearOrder B] [BoundedOrder B] [LinearOrder K]
variable {env : Env P C B K} {pts : Int → List P} {ids : Nat → Int} {h : Int} {cv : List Int} {dirty d : Int → Bool} {out : Out P C B} {fuel : Nat}

/-- What plane geometry says of two parts `a`, `b` of a polyline and the segments between their ends.  `hulls`: segments that meet lie in convex hulls that meet,
in bounding boxes that meet, at distance zero.  `parity`: the closed curves made of a part and its segment cross an even number of times, so if the segments
meet, a segment meets the other part or the parts meet.  `ends`: parts with a common end meet. -/
structure CrossLaws (lib : Lib P C B K) (eps : Fl K) (a b : Coords P) : Prop where
  hulls : lib.intersects (.seg a) (.seg b) = true → ∀ g g', hullGeometry (lib.convexHull a) = .ok g → hullGeometry (lib.convexHull b) = .ok g' →
    lib.intersects g g' = true ∧ (lib.bounds g).intersects (lib.bounds g') = true ∧ (lib.distance g' g).le eps = true
  parity : lib.intersects (.seg a) (.seg b) = true →
    lib.intersects (.seg a) (.line b) = true ∨ lib.intersects (.seg b) (.line a) = true ∨ lib.intersects (.line a) (.line b) = true
  ends : ∀ p ∈ [a.first, a.last], ∀ q ∈ [b.first, b.last], ∀ x y, p = .ok x → q = .ok y → lib.equals2D x y = true → lib.intersects (.line a) (.line b) = true
  segSymm : lib.intersects (.seg a) (.seg b) = lib.intersects (.seg b) (.seg a)
  lineSymm : lib.intersects (.line a) (.line b) = lib.intersects (.line b) (.line a)

/-- Specification: the piece replaces more than one segment, and the convex hull of its vertices has more than two corners. -/
def Proper (lib : Lib P C B K) (x : Node P C B) : Prop :=
  x.range.J - x.range.I ≠ 1 ∧ 2 < (lib.convexHull x.coords).len

theorem Clear.meet (hlaws : ∀ i j k l : Int, 0 ≤ i → i < j → j < (pts h).length → 0 ≤ k → k < l → l < (pts h).length →
      CrossLaws env.lib env.eps (Coords.sub (pts h) i j) (Coords.sub (pts h) k l)) {dsp : Fl K} {a b : Node P C B} (ka : Known env pts [h] a)
    (kb : Known env pts [h] b) (hc : Clear env dsp a b) (hm : env.lib.intersects a.segment b.segment = true) :
    env.lib.intersects a.polyline b.polyline = true := by
  have ia := List.mem_singleton.1 ka.inst
  have ib := List.mem_singleton.1 kb.inst
  obtain ⟨a1, a2, a3, a4, a5⟩ := ka
  obtain ⟨b1, b2, b3, b4, b5⟩ := kb
  rw [ia] at a2 a5
  rw [ib] at b2 b5
  have hl := hlaws _ _ _ _ a3 a4 a5 b3 b4 b5
  rw [← a2.coords, ← b2.coords] at hl
  have hga := a2.geom
  have hgb := b2.geom
  rw [← a2.coords] at hga
  rw [← b2.coords] at hgb
  obtain ⟨m1, m2, m3⟩ := hl.hulls hm _ _ hga hgb
  have hn : Nbr env a b := ⟨by rw [a2.mbr, b2.mbr]; exact m2, m3⟩
  obtain ⟨r, e1, e2⟩ := hc hn
  obtain ⟨⟨ai, aj⟩, sa⟩ := a2.segmentPoints_ok a3 a4 a5
  obtain ⟨⟨bi, bj⟩, sb⟩ := b2.segmentPoints_ok b3 b4 b5
  obtain ⟨inters, contig, n, f1, f2, f3, f4⟩ := C56_contiguous (lib := env.lib) sa sb
  rw [f1] at e1
  cases e1
  rw [m1] at f2
  subst f2
  by_contra hno
  have hno : env.lib.intersects a.polyline b.polyline = false := by simpa using hno
  have hends : ¬ ShareEnd env.lib.equals2D ai aj bi bj := by
    intro hs
    simp only [Node.segmentPoints, Res.bind_eq_ok] at sa sb
    obtain ⟨x1, p1, x2, p2, p3⟩ := sa
    obtain ⟨y1, q1, y2, q2, q3⟩ := sb
    cases p3; cases q3
    have key : ∀ p ∈ [a.coords.first, a.coords.last], ∀ q ∈ [b.coords.first, b.coords.last], ∀ x y, p = .ok x → q = .ok y → env.lib.equals2D x y ≠ true := by
      intro p hp q hq x y hx hy he
      have := hl.ends p hp q hq x y hx hy he
      rw [show env.lib.intersects (.line a.coords) (.line b.coords) = env.lib.intersects a.polyline b.polyline from rfl, hno] at this
      cases this
    rcases hs with hs | hs | hs | hs
    · exact key _ (by simp) _ (by simp) _ _ p2 q1 hs
    · exact key _ (by simp) _ (by simp) _ _ p2 q2 hs
    · exact key _ (by simp) _ (by simp) _ _ p1 q2 hs
    · exact key _ (by simp) _ (by simp) _ _ p1 q1 hs
  have hcon : contig = false := by
    cases contig with
    | false => rfl
    | true => exact absurd ((f4.1 rfl).2.1) hends
  subst hcon
  simp only [candidates, Bool.not_true, Bool.false_eq_true, if_false, Bool.false_and, Bool.not_false, if_true, Res.ok.injEq] at e2
  obtain ⟨-, n2, n3, -⟩ := C57_noncontiguous (lib := env.lib) (a := a) (b := b) hl.segSymm.symm hl.lineSymm.symm dsp
  have nab : ¬ NewCrossing env.lib a b := by
    intro hx; rw [n2 hx] at e2; cases e2
  have nba : ¬ NewCrossing env.lib b a := by
    intro hx; rw [n3 nab hx] at e2; cases e2
  rcases hl.parity hm with hx | hx | hx
  · exact nab ⟨hm, hx, hno⟩
  · exact nba ⟨hl.segSymm.symm.trans hm, hx, hl.lineSymm.symm.trans hno⟩
  · rw [show env.lib.intersects (.line a.coords) (.line b.coords) = env.lib.intersects a.polyline b.polyline from rfl, hno] at hx
    cases hx

theorem IsPiece.big {x : Node P C B} (hx : IsPiece env.lib (pts h) h x) (hp : Proper env.lib x) : Big x := by
  obtain ⟨h1, h2⟩ := hp
  refine ⟨h1, ?_⟩
  have := hx.geom
  rw [← hx.coords] at this
  unfold hullGeometry at this
  rw [if_pos (by omega)] at this
  rw [← Res.ok.inj this]
  rfl

/-- parts next to each other meet -/
theorem adj_meet {a b : Node P C B} (hlab : CrossLaws env.lib env.eps a.coords b.coords) (hrefl : ∀ p : P, env.lib.equals2D p p = true)
    (ga : IsPiece env.lib (pts h) h a) (gb : IsPiece env.lib (pts h) h b) (ka0 : 0 ≤ a.range.I) (ka1 : a.range.I < a.range.J)
    (ab : a.range.J < (pts h).length) (kb0 : 0 ≤ b.range.I) (kb1 : b.range.I < b.range.J) (bb : b.range.J < (pts h).length) (hadj : Adj a b) :
    env.lib.intersects (.line a.coords) (.line b.coords) = true := by
  obtain ⟨⟨ai, aj⟩, sa⟩ := ga.segmentPoints_ok ka0 ka1 ab
  obtain ⟨⟨bi, bj⟩, sb⟩ := gb.segmentPoints_ok kb0 kb1 bb
  simp only [Node.segmentPoints, Res.bind_eq_ok] at sa sb
  obtain ⟨x1, p1, x2, p2, p3⟩ := sa
  obtain ⟨y1, q1, y2, q2, q3⟩ := sb
  have hf : ∀ (x : Node P C B), IsPiece env.lib (pts h) h x → 0 ≤ x.range.I → x.range.I < x.range.J → ∀ p, x.coords.first = .ok p →
      (pts h)[x.range.I.toNat]? = some p := by
    intro x hx h0 h1 p hp
    rw [hx.coords, Coords.first, Coords.pt_sub (by omega) (by omega) h0] at hp
    cases hq : (pts h)[(x.range.I + 0).toNat]? with
    | none => rw [hq] at hp; cases hp
    | some z => rw [hq] at hp; cases hp; simpa using hq
  have hla : ∀ (x : Node P C B), IsPiece env.lib (pts h) h x → 0 ≤ x.range.I → x.range.I < x.range.J → ∀ p, x.coords.last = .ok p →
      (pts h)[x.range.J.toNat]? = some p := by
    intro x hx h0 h1 p hp
    have hlen : x.coords.len = x.range.J + 1 - x.range.I := by rw [hx.coords]; exact Coords.len_sub _ _ _ (by omega)
    rw [Coords.last, hlen, hx.coords, Coords.pt_sub (by omega) (by omega) h0] at hp
    rw [show x.range.I + (x.range.J + 1 - x.range.I - 1) = x.range.J by omega] at hp
    cases hq : (pts h)[x.range.J.toNat]? with
    | none => rw [hq] at hp; cases hp
    | some z => rw [hq] at hp; cases hp; rfl
  rcases hadj with hadj | hadj
  · have e1 := hla a ga ka0 ka1 _ p2
    have e2 := hf b gb kb0 kb1 _ q1
    rw [hadj, e2] at e1
    cases e1
    exact hlab.ends _ (by simp) _ (by simp) _ _ p2 q1 (hrefl _)
  · have e1 := hla b gb kb0 kb1 _ q2
    have e2 := hf a ga ka0 ka1 _ p1
    rw [hadj, e2] at e1
    cases e1
    exact hlab.ends _ (by simp) _ (by simp) _ _ p1 q2 (hrefl _)

/-- C33, the part that holds.  With `avoid_new_self_intersects` on, for all polylines, constraints, index heuristics, map orders and previous states: if two
output segments meet, and each of them replaces more than one segment and has a convex hull with more than two corners, then the parts of the input line
that they replace meet.  Missing for the full statement: output segments that are single segments of the input, and parts with a hull of two corners; they are
not examined, and for them the statement is false, `C33_refuted`. -/
theorem C33_crossing_partial (he : EnvOK env) (hl : LnrOK env.lnr) (hi : InstOK env h (pts h)) (hinj : Function.Injective ids)
    (hcv : ∀ i ∈ cv, 0 ≤ i ∧ i < (pts h).length) (hav : (env.inst h).opts.avoidNewSelfIntersects = true)
    (hrefl : ∀ p : P, env.lib.equals2D p p = true)
    (hlaws : ∀ i j k l : Int, 0 ≤ i → i < j → j < (pts h).length → 0 ≤ k → k < l → l < (pts h).length →
      CrossLaws env.lib env.eps (Coords.sub (pts h) i j) (Coords.sub (pts h) k l))
    (hr : simplify env ids h cv dirty fuel = .ok (out, d)) {a b : Node P C B} (ha : a ∈ out.hulls) (hb : b ∈ out.hulls) (hab : a ≠ b)
    (pa : Proper env.lib a) (pb : Proper env.lib b) (hm : env.lib.intersects (.seg a.coords) (.seg b.coords) = true) :
    env.lib.intersects (.line a.coords) (.line b.coords) = true := by
  obtain ⟨out', d', g', hy, -, hp, -, -, hs, -⟩ := simplify_yields he hl hi hinj hcv dirty
  have := ((simplify_le env ids h cv dirty).yields hr).unique hy
  cases this
  have ka := hp.known ha
  have kb := hp.known hb
  have ia := List.mem_singleton.1 ka.inst
  have ib := List.mem_singleton.1 kb.inst
  have ga := ka.piece
  have gb := kb.piece
  rw [ia] at ga
  rw [ib] at gb
  have ab : a.range.J < (pts h).length := ia ▸ ka.hi
  have bb : b.range.J < (pts h).length := ib ▸ kb.hi
  have hlab := hlaws _ _ _ _ ka.lo ka.lt ab kb.lo kb.lt bb
  rw [← ga.coords, ← gb.coords] at hlab
  rcases hs hav a ha b hb (fun hid => hab (hp.eq_of_id ha hb hid)) (ga.big pa) (gb.big pb) with hadj | hc | hc
  · exact adj_meet hlab hrefl ga gb ka.lo ka.lt ab kb.lo kb.lt bb hadj
  · exact hc.meet hlaws ka kb hm
  · rw [hlab.lineSymm]
    exact hc.meet hlaws kb ka (hlab.segSymm.symm.trans hm)

end

/-! ### the concrete case -/

namespace Plane

/-- a bump (vertices 0 to 2) and a part (vertices 3 to 6) that goes round its end; the segment replacing that part would cross the one replacing the bump -/
def bumpLine : Demo.Line Pt (List Pt) ℚ :=
  ⟨[(0, 0), (5, 2), (10, 0), (9, -20), (11, 0), (21/2, 10), (9, 20)], [], { opts 3 0 with avoidNewSelfIntersects := true }⟩

/-- the part is split at vertex 4, otherwise it would be replaced by one segment -/
example : result (run bumpLine []) = ([(0, 2), (2, 3), (4, 6), (3, 4)], [0, 2, 3, 4, 6]) ∧
    result (run { bumpLine with opts := opts 3 0 } []) = ([(0, 2), (3, 6), (2, 3)], [0, 2, 3, 6]) := by decide +kernel

/-- the laws of `CrossLaws` as a test -/
def lawsTest (a b : Coords Pt) : Bool :=
  (!lib.intersects (.seg a) (.seg b) ||
     ((match hullGeometry (hullOf a), hullGeometry (hullOf b) with
      | .ok g, .ok g' => lib.intersects g g' && (lib.bounds g).intersects (lib.bounds g') && (lib.distance g' g).le (.fin (1 / 10 ^ 10))
      | _, _ => true) && (lib.intersects (.seg a) (.line b) || lib.intersects (.seg b) (.line a) || lib.intersects (.line a) (.line b)))) &&
  ([a.first, a.last].all fun p => [b.first, b.last].all fun q => match p, q with
    | .ok x, .ok y => !lib.equals2D x y || lib.intersects (.line a) (.line b)
    | _, _ => true) &&
  (lib.intersects (.seg a) (.seg b) == lib.intersects (.seg b) (.seg a)) && (lib.intersects (.line a) (.line b) == lib.intersects (.line b) (.line a))

theorem lawsTest_spec {a b : Coords Pt} (h : lawsTest a b = true) : CrossLaws lib (.fin (1 / 10 ^ 10)) a b := by
  simp only [lawsTest, Bool.and_eq_true, Bool.or_eq_true, Bool.not_eq_true', beq_iff_eq, List.all_eq_true] at h
  obtain ⟨⟨⟨h1, h2⟩, h3⟩, h4⟩ := h
  refine ⟨?_, ?_, ?_, h3, h4⟩
  · intro hs g g' e1 e2
    rcases h1 with h1 | ⟨h1, -⟩
    · rw [hs] at h1; cases h1
    · change hullGeometry (hullOf a) = _ at e1
      change hullGeometry (hullOf b) = _ at e2
      rw [e1, e2] at h1
      simp only [Bool.and_eq_true] at h1
      exact ⟨h1.1.1, h1.1.2, h1.2⟩
  · intro hs
    rcases h1 with h1 | ⟨-, h1⟩
    · rw [hs] at h1; cases h1
    · rw [or_assoc] at h1; exact h1
  · intro p hp q hq x y ex ey hxy
    have := h2 p hp q hq
    rw [ex, ey] at this
    simp only [Bool.or_eq_true, Bool.not_eq_true', hxy, Bool.true_eq_false, false_or] at this
    exact this

def lawsAll (l : List Pt) : Bool :=
  (List.range l.length).all fun j => (List.range j).all fun i => (List.range l.length).all fun n => (List.range n).all fun k =>
    lawsTest (Coords.sub l i j) (Coords.sub l k n)

theorem lawsAll_spec {l : List Pt} (h : lawsAll l = true) (i j k n : Int) (h0 : 0 ≤ i) (h1 : i < j) (h2 : j < l.length) (h3 : 0 ≤ k) (h4 : k < n)
    (h5 : n < l.length) : CrossLaws lib (.fin (1 / 10 ^ 10)) (Coords.sub l i j) (Coords.sub l k n) := by
  simp only [lawsAll, List.all_eq_true, List.mem_range] at h
  have := h j.toNat (by omega) i.toNat (by omega) n.toNat (by omega) k.toNat (by omega)
  rw [Int.toNat_of_nonneg (by omega), Int.toNat_of_nonneg (by omega), Int.toNat_of_nonneg (by omega), Int.toNat_of_nonneg (by omega)] at this
  exact lawsTest_spec this

theorem bump_laws : lawsAll bumpLine.pts = true := by decide +kernel

/-- the hypotheses of C33 hold for this line -/
example (out : Out Pt (List Pt) Bx) (d : Int → Bool) (hr : run bumpLine [] = .ok (out, d)) : ∀ a ∈ out.hulls, ∀ b ∈ out.hulls, a ≠ b → Proper lib a →
    Proper lib b → dist (.seg a.coords) (.seg b.coords) = 0 → dist (.line a.coords) (.line b.coords) = 0 := by
  intro a ha b hb hab pa pb hm
  have := C33_crossing_partial (pts := fun _ => bumpLine.pts) (env_ok (lines := fun _ => bumpLine)) lnr_ok (inst_ok (by decide) (by decide +kernel))
    (fun a b h => by simpa using h) (by simp) rfl (fun p => decide_eq_true rfl) (lawsAll_spec bump_laws) hr ha hb hab pa pb (decide_eq_true hm)
  exact of_decide_eq_true this

end Plane

end Verif
