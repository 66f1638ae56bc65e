import Verif.Lemmas.SepFC
import Verif.Props.C33_Crossings
import Verif.Props.C13_FeatureClass

/-! C78: new crossings between the features of a class. -/

set_option linter.unusedSectionVars false

namespace Verif

section
variable {P C B K : Type} [LinearOrder B] [BoundedOrder B] [LinearOrder K]
variable {env : Env P C B K} {pts : Int → List P} {ids : Nat → Int} {idsOf : Int → Nat → Int} {handles : List Int} {o : Opts K} {dirty d : Int → Bool}
  {fuel : Nat} {js : List (Int × Int)} {outs res : List (Int × Out P C B)}

/-- Two pieces of different features whose comparison asked for no deformation. -/
theorem ClearFC.meet {a b : Node P C B} (hl : CrossLaws env.lib env.eps a.coords b.coords) (ka : Known env pts handles a) (kb : Known env pts handles b)
    (hid : (env.inst a.inst).id ≠ (env.inst b.inst).id) (hcut : env.lib.intersects a.geom b.geom = true → env.lib.intersection a.geom b.geom ≠ [])
    (hc : ClearFC env a b) (hm : env.lib.intersects a.segment b.segment = true) : env.lib.intersects a.polyline b.polyline = true := by
  have hga := ka.piece.geom
  have hgb := kb.piece.geom
  rw [← ka.piece.coords] at hga
  rw [← kb.piece.coords] at hgb
  obtain ⟨m1, m2, m3⟩ := hl.hulls hm _ _ hga hgb
  have hn : Nbr env a b := ⟨by rw [ka.piece.mbr, kb.piece.mbr]; exact m2, m3⟩
  obtain ⟨r, e1, e2⟩ := hc hn
  rw [fcContiguous, if_neg hid, if_pos m1] at e1
  cases e1
  have hpos : 0 < (env.lib.intersection a.geom b.geom).length := List.length_pos_iff.2 (hcut m1)
  by_contra hno
  have hno : env.lib.intersects a.polyline b.polyline = false := by simpa using hno
  simp only [candidates, gt_iff_lt, hpos, decide_true, Bool.not_true, Bool.false_eq_true, if_false, Bool.false_and, Bool.not_false, if_true,
    Res.ok.injEq] at e2
  obtain ⟨-, n2, n3, -⟩ := C57_noncontiguous (lib := env.lib) (a := a) (b := b) hl.segSymm.symm hl.lineSymm.symm
    (env.inst a.inst).opts.nonPlanarDisplacement
  have nab : ¬ NewCrossing env.lib a b := by
    intro hx; rw [n2 hx] at e2; cases e2
  have nba : ¬ NewCrossing env.lib b a := by
    intro hx; rw [n3 nab hx] at e2; cases e2
  rcases hl.parity hm with hx | hx | hx
  · exact nab ⟨hm, hx, hno⟩
  · exact nba ⟨hl.segSymm.symm.trans hm, hx, hl.lineSymm.symm.trans hno⟩
  · rw [show env.lib.intersects (.line a.coords) (.line b.coords) = env.lib.intersects a.polyline b.polyline from rfl, hno] at hx
    cases hx

/-- C78, the part that holds. With `avoid_new_self_intersects` on, for all feature classes, options, constraints, index heuristics, map orders and previous
states: if two segments of the simplified features meet, of one feature or of two, and each of them replaces more than one segment and has a convex hull with
more than two corners, then the parts of the input lines that they replace meet, provided that no piece has, among its neighbours and itself, pieces of
different features with the same index range. `outs`: what the simplification of the single features gives. `hcut`: hulls that intersect have an intersection
point. Missing for the full statement: such pieces, for them the statement is false, `C78_refuted`; and the segments that are missing in C33. -/
theorem C78_crossing_partial (hc : ClassOK env pts ids idsOf handles) (ho : o.avoidNewSelfIntersects = true)
    (hav : ∀ h ∈ handles, (env.inst h).opts.avoidNewSelfIntersects = true) (hrefl : ∀ p : P, env.lib.equals2D p p = true)
    (hlaws : ∀ h ∈ handles, ∀ h' ∈ handles, ∀ i j k l : Int, 0 ≤ i → i < j → j < (pts h).length → 0 ≤ k → k < l → l < (pts h').length →
      CrossLaws env.lib env.eps (Coords.sub (pts h) i j) (Coords.sub (pts h') k l))
    (hcut : ∀ h ∈ handles, ∀ h' ∈ handles, ∀ i j k l : Int, 0 ≤ i → i < j → j < (pts h).length → 0 ≤ k → k < l → l < (pts h').length → ∀ g g',
      hullGeometry (env.lib.convexHull (Coords.sub (pts h) i j)) = .ok g →
      hullGeometry (env.lib.convexHull (Coords.sub (pts h') k l)) = .ok g' → env.lib.intersects g g' = true → env.lib.intersection g g' ≠ [])
    (hj : fcJunctions env handles o.planarSelf = .ok js) (hs : simplifyInstances env idsOf js fuel handles dirty = .ok (outs, d))
    (hap : RangesApart env pts outs handles) (hr : simplifyFeatureClass env ids idsOf handles o dirty fuel = .ok res)
    {x y : Int × Out P C B} (hx : x ∈ res) (hy : y ∈ res) {a b : Node P C B} (ha : a ∈ x.2.hulls) (hb : b ∈ y.2.hulls) (hab : a ≠ b)
    (pa : Proper env.lib a) (pb : Proper env.lib b) (hm : env.lib.intersects (.seg a.coords) (.seg b.coords) = true) :
    env.lib.intersects (.line a.coords) (.line b.coords) = true := by
  obtain ⟨s1, s2, s3⟩ := simplifyFeatureClass_sep hc.envOK hc.lnrOK hc.inst hc.nodup hc.distinct hc.streams ho hav hj hs hap hr
  have ka := (s1 x hx a ha).2
  have kb := (s1 y hy b hb).2
  have hlab := hlaws _ ka.inst _ kb.inst _ _ _ _ ka.lo ka.lt ka.hi kb.lo kb.lt kb.hi
  rw [← ka.piece.coords, ← kb.piece.coords] at hlab
  have hgood := s3 x hx y hy a ha b hb (fun h => hab (s2 x hx y hy a ha b hb h)) (ka.piece.big pa) (kb.piece.big pb)
  have hm' : env.lib.intersects b.segment a.segment = true := hlab.segSymm.symm.trans hm
  have k1 : ∀ {z : Node P C B}, Known env pts handles z → Known env pts [z.inst] z := fun h => ⟨by simp, h.2, h.3, h.4, h.5⟩
  by_cases hin : a.inst = b.inst
  · have ka' := k1 ka
    have kb' := k1 kb
    rw [← hin] at kb'
    have toClear : ∀ {u v : Node P C B}, u.inst = v.inst → ClearFC env u v → Clear env (env.inst u.inst).opts.nonPlanarDisplacement u v := by
      intro u v h hcl hn
      obtain ⟨r, e1, e2⟩ := hcl hn
      rw [fcContiguous, h, if_pos rfl] at e1
      exact ⟨r, e1, e2⟩
    have hl' := fun i j k l => hlaws a.inst ka.inst a.inst ka.inst i j k l
    rcases hgood with ⟨-, h⟩ | h | h
    · have gb := kb.piece
      have bb := kb.hi
      rw [← hin] at gb bb
      exact adj_meet hlab hrefl ka.piece gb ka.lo ka.lt ka.hi kb.lo kb.lt bb h
    · exact (toClear hin h).meet hl' ka' kb' hm
    · rw [hlab.lineSymm]
      exact (toClear hin.symm h).meet hl' kb' ka' hm'
  · have hid : (env.inst a.inst).id ≠ (env.inst b.inst).id := fun h => hin (hc.distinct _ ka.inst _ kb.inst h)
    rcases hgood with ⟨h, -⟩ | h | h
    · exact absurd h hin
    · exact h.meet hlab ka kb hid (hcut _ ka.inst _ kb.inst _ _ _ _ ka.lo ka.lt ka.hi kb.lo kb.lt kb.hi _ _ ka.piece.geom kb.piece.geom) hm
    · have hlba := hlaws _ kb.inst _ ka.inst _ _ _ _ kb.lo kb.lt kb.hi ka.lo ka.lt ka.hi
      rw [← ka.piece.coords, ← kb.piece.coords] at hlba
      rw [hlab.lineSymm]
      exact h.meet hlba kb ka (Ne.symm hid) (hcut _ kb.inst _ ka.inst _ _ _ _ kb.lo kb.lt kb.hi ka.lo ka.lt ka.hi _ _ kb.piece.geom ka.piece.geom) hm'

end

/-! ### concrete cases and the refutation -/

namespace Plane

def classOpts : Opts ℚ := { opts 100 0 with avoidNewSelfIntersects := true }

/-- an arch, two wedges over its left half, and a bent line that passes under its middle -/
def vaultLines : Int → Demo.Line Pt (List Pt) ℚ := fun h =>
  if h = 1 then ⟨[(0, 0), (4, 10), (10, 12), (16, 10), (20, 0)], [], classOpts⟩
  else if h = 2 then ⟨[(1, 1/2), (-5, -10), (1, 5)], [], classOpts⟩
  else if h = 3 then ⟨[(2, 1), (-10, -30), (2, 20)], [], classOpts⟩
  else ⟨[(10, -5), (21/2, 0), (10, 5)], [], classOpts⟩

def vaultRun (handles : List Int) : Res (List (Int × Out Pt (List Pt) Bx)) :=
  simplifyFeatureClass (env vaultLines) (fun n => 5 * n) (fun h n => 5 * n + h) handles classOpts (fun _ => false) 60

theorem vaultLines_opts (h : Int) : (vaultLines h).opts = classOpts := by
  unfold vaultLines; split_ifs <;> rfl

theorem vault_class {handles : List Int} (hn : handles.Nodup) (hm : ∀ h ∈ handles, 0 < h ∧ h < 5) :
    ClassOK (env vaultLines) (fun h => (vaultLines h).pts) (fun n => 5 * n) (fun h n => 5 * n + h) handles where
  envOK := env_ok
  lnrOK := lnr_ok
  inst h _ := inst_ok (by unfold vaultLines; split_ifs <;> decide) (by rw [vaultLines_opts]; decide +kernel)
  nodup := hn
  distinct _ _ _ _ h := h
  streams := ⟨fun a b h => by simpa using h, fun h _ a b e => by simpa using e,
    fun a ha b hb hab k l e => by have := hm a ha; have := hm b hb; omega, fun a ha k l e => by have := hm a ha; omega⟩

/-- the laws of `CrossLaws` for two lines as a test -/
def lawsPair (l l' : List Pt) : Bool :=
  (List.range l.length).all fun j => (List.range j).all fun i => (List.range l'.length).all fun n => (List.range n).all fun k =>
    lawsTest (Coords.sub l i j) (Coords.sub l' k n)

theorem lawsPair_spec {l l' : List Pt} (h : lawsPair l l' = true) (i j k n : Int) (h0 : 0 ≤ i) (h1 : i < j) (h2 : j < l.length) (h3 : 0 ≤ k) (h4 : k < n)
    (h5 : n < l'.length) : CrossLaws lib (.fin (1 / 10 ^ 10)) (Coords.sub l i j) (Coords.sub l' k n) := by
  simp only [lawsPair, List.all_eq_true, List.mem_range] at h
  have := h j.toNat (by omega) i.toNat (by omega) n.toNat (by omega) k.toNat (by omega)
  rw [Int.toNat_of_nonneg (by omega), Int.toNat_of_nonneg (by omega), Int.toNat_of_nonneg (by omega), Int.toNat_of_nonneg (by omega)] at this
  exact lawsTest_spec this

theorem vault_laws : ([1, 2, 3, 4].all fun h => [1, 2, 3, 4].all fun h' => lawsPair (vaultLines h).pts (vaultLines h').pts) = true := by decide +kernel

def cutTest (a b : Coords Pt) : Bool :=
  match hullGeometry (C := List Pt) (lib.convexHull a), hullGeometry (C := List Pt) (lib.convexHull b) with
  | .ok g, .ok g' => !lib.intersects g g' || !(lib.intersection g g').isEmpty
  | _, _ => true

def cutPair (l l' : List Pt) : Bool :=
  (List.range l.length).all fun j => (List.range j).all fun i => (List.range l'.length).all fun n => (List.range n).all fun k =>
    cutTest (Coords.sub l i j) (Coords.sub l' k n)

/-- hulls of the features that intersect have an intersection point -/
theorem cutPair_spec {l l' : List Pt} (h : cutPair l l' = true) (i j k n : Int) (h0 : 0 ≤ i) (h1 : i < j) (h2 : j < l.length) (h3 : 0 ≤ k) (h4 : k < n)
    (h5 : n < l'.length) (g g' : Geo Pt (List Pt)) (e1 : hullGeometry (lib.convexHull (Coords.sub l i j)) = .ok g)
    (e2 : hullGeometry (lib.convexHull (Coords.sub l' k n)) = .ok g') (hm : lib.intersects g g' = true) : lib.intersection g g' ≠ [] := by
  simp only [cutPair, List.all_eq_true, List.mem_range] at h
  have := h j.toNat (by omega) i.toNat (by omega) n.toNat (by omega) k.toNat (by omega)
  rw [Int.toNat_of_nonneg (by omega), Int.toNat_of_nonneg (by omega), Int.toNat_of_nonneg (by omega), Int.toNat_of_nonneg (by omega), cutTest, e1, e2] at this
  simp only [hm, Bool.not_true, Bool.false_or, Bool.not_eq_true'] at this
  intro hn
  rw [hn] at this
  cases this

theorem vault_cut : ([(1 : Int), 2, 3, 4].all fun h => [(1 : Int), 2, 3, 4].all fun h' => cutPair (vaultLines h).pts (vaultLines h').pts) = true := by decide +kernel

theorem pair_all {t : Int → Int → Bool} (ht : ([(1 : Int), 2, 3, 4].all fun h => [(1 : Int), 2, 3, 4].all fun h' => t h h') = true) {h h' : Int}
    (hh : h ∈ [(1 : Int), 2, 3, 4]) (hh' : h' ∈ [(1 : Int), 2, 3, 4]) : t h h' = true := by
  rw [List.all_eq_true] at ht
  have := ht h hh
  rw [List.all_eq_true] at this
  exact this h' hh'

/-- C78 refuted.  Four features that do not meet: with `avoid_new_self_intersects` on, a segment of the simplified arch crosses the segment that replaces
the first wedge, although the laws of plane geometry hold, both segments replace two segments of the input with a proper hull, and all pieces were examined.
The line under the arch makes the arch split at its middle; the piece [0, 2] of the arch then conflicts with the pieces [0, 2] of both wedges, and as the selections
are kept in a map with the index range as key, only one of the wedges is split. -/
theorem C78_refuted : ∃ (lines : Int → Demo.Line Pt (List Pt) ℚ) (ids : Nat → Int) (idsOf : Int → Nat → Int) (handles : List Int) (o : Opts ℚ) (fuel : Nat)
    (res : List (Int × Out Pt (List Pt) Bx)), ClassOK (env lines) (fun h => (lines h).pts) ids idsOf handles ∧ o.avoidNewSelfIntersects = true ∧
    (∀ h ∈ handles, (lines h).opts.avoidNewSelfIntersects = true) ∧
    (∀ h ∈ handles, ∀ h' ∈ handles, ∀ i j k l : Int, 0 ≤ i → i < j → j < (lines h).pts.length → 0 ≤ k → k < l → l < (lines h').pts.length →
      CrossLaws lib (.fin (1 / 10 ^ 10)) (Coords.sub (lines h).pts i j) (Coords.sub (lines h').pts k l)) ∧
    (∀ h ∈ handles, ∀ h' ∈ handles, ∀ i j k l : Int, 0 ≤ i → i < j → j < (lines h).pts.length → 0 ≤ k → k < l → l < (lines h').pts.length → ∀ g g',
      hullGeometry (lib.convexHull (Coords.sub (lines h).pts i j)) = .ok g → hullGeometry (lib.convexHull (Coords.sub (lines h').pts k l)) = .ok g' →
      lib.intersects g g' = true → lib.intersection g g' ≠ []) ∧
    simplifyFeatureClass (env lines) ids idsOf handles o (fun _ => false) fuel = .ok res ∧
    ∃ x ∈ res, ∃ y ∈ res, x.1 ≠ y.1 ∧ ∃ a ∈ x.2.hulls, ∃ b ∈ y.2.hulls, Proper lib a ∧ Proper lib b ∧
      lib.intersects (.seg a.coords) (.seg b.coords) = true ∧ lib.intersects (.line a.coords) (.line b.coords) = false := by
  refine ⟨vaultLines, fun n => 5 * n, fun h n => 5 * n + h, [1, 2, 3, 4], classOpts, 60, ?_⟩
  have h : (match vaultRun [1, 2, 3, 4] with
      | .ok res => decide (∃ x ∈ res, ∃ y ∈ res, x.1 ≠ y.1 ∧ ∃ a ∈ x.2.hulls, ∃ b ∈ y.2.hulls, (a.range.J - a.range.I ≠ 1 ∧ 2 < (lib.convexHull a.coords).len) ∧
          (b.range.J - b.range.I ≠ 1 ∧ 2 < (lib.convexHull b.coords).len) ∧ lib.intersects (.seg a.coords) (.seg b.coords) = true ∧
          lib.intersects (.line a.coords) (.line b.coords) = false)
      | _ => false) = true := by decide +kernel
  split at h
  · rename_i res e
    have h := of_decide_eq_true h
    refine ⟨res, vault_class (by decide) (by decide), rfl, fun h _ => by rw [vaultLines_opts]; rfl, fun h hh h' hh' => lawsPair_spec (pair_all vault_laws hh hh'),
      fun h hh h' hh' => cutPair_spec (pair_all vault_cut hh hh'), e, h⟩
  · cases h

/-- the vertices kept -/
def kept (r : Res (List (Int × Out Pt (List Pt) Bx))) : List (Int × List Int) :=
  match r with
  | .ok l => l.map (fun (x : Int × Out Pt (List Pt) Bx) => (x.1, x.2.simple))
  | _ => []

example : kept (vaultRun [1, 2, 3, 4]) = [(1, [0, 2, 4]), (2, [0, 2]), (3, [0, 1, 2]), (4, [0, 2])] := by decide +kernel

/-- the arch and the line under it only: the arch is split, otherwise its segment would cross the segment of the line -/
example : kept (vaultRun [1, 4]) = [(1, [0, 2, 4]), (4, [0, 2])] ∧
    lib.intersects (.seg (Coords.sub (vaultLines 1).pts 0 4)) (.seg (Coords.sub (vaultLines 4).pts 0 2)) = true ∧
    lib.intersects (.line (Coords.sub (vaultLines 1).pts 0 4)) (.line (Coords.sub (vaultLines 4).pts 0 2)) = false := by decide +kernel

/-- the index ranges that can occur in that class -/
def vaultOcc (h : Int) : List (Int × Int) :=
  if h = 1 then [(0, 4), (0, 2), (2, 4), (0, 1), (1, 2), (2, 3), (3, 4)] else [(0, 2), (0, 1), (1, 2)]

def vaultFirst : Res (List (Int × Out Pt (List Pt) Bx) × (Int → Bool)) := simplifyInstances (env vaultLines) (fun h n => 5 * n + h) [] 60 [1, 4] (fun _ => false)

theorem vaultOcc_spec {outs : List (Int × Out Pt (List Pt) Bx)} {d : Int → Bool} (hs : vaultFirst = .ok (outs, d)) {h i j : Int} (hh : h ∈ [(1 : Int), 4])
    (ho : Occurs (env vaultLines) (fun h => (vaultLines h).pts) outs h i j) : (i, j) ∈ vaultOcc h := by
  have h1 : (match vaultFirst with
      | .ok r => decide (∀ x ∈ r.1, ∀ nd ∈ x.2.hulls, (nd.range.I, nd.range.J) ∈ vaultOcc x.1)
      | _ => false) = true := by decide +kernel
  have h2 : ([(1 : Int), 4].all fun h => (vaultOcc h).all fun r => decide (¬ r.1 + 1 < r.2) ||
      (match ((env vaultLines).inst h).scoreFn (Coords.sub (vaultLines h).pts r.1 r.2) with
      | .ok (k, _) => decide ((r.1, r.1 + k) ∈ vaultOcc h ∧ (r.1 + k, r.2) ∈ vaultOcc h)
      | _ => true)) = true := by decide +kernel
  rw [hs] at h1
  have h1 := of_decide_eq_true h1
  rw [List.all_eq_true] at h2
  have h2 := h2 h hh
  rw [List.all_eq_true] at h2
  induction ho with
  | first hx hn => exact h1 _ hx _ hn
  | left _ hlt hsc ih =>
    have := h2 _ ih
    simp only [hlt, hsc, not_true, decide_false, Bool.false_or, decide_eq_true_eq] at this
    exact this.1
  | right _ hlt hsc ih =>
    have := h2 _ ih
    simp only [hlt, hsc, not_true, decide_false, Bool.false_or, decide_eq_true_eq] at this
    exact this.2

/-- `Touches` as a test -/
def touchTest (h : Int) (r : Int × Int) (h' : Int) (r' : Int × Int) : Bool :=
  decide (h = h' ∧ r = r') || (decide (h = h' → r.2 ≤ r'.1 ∨ r'.2 ≤ r.1) &&
    match hullGeometry (C := List Pt) (lib.convexHull (Coords.sub (vaultLines h).pts r.1 r.2)),
      hullGeometry (C := List Pt) (lib.convexHull (Coords.sub (vaultLines h').pts r'.1 r'.2)) with
    | .ok g, .ok g' => (lib.bounds g).intersects (lib.bounds g') && (lib.distance g' g).le (.fin (1 / 10 ^ 10))
    | _, _ => false)

theorem touchTest_spec {h i j h' k l : Int} (ht : Touches (env vaultLines) (fun h => (vaultLines h).pts) h i j h' k l) : touchTest h (i, j) h' (k, l) = true := by
  unfold touchTest
  rcases ht with ⟨rfl, rfl, rfl⟩ | ⟨h1, g, g', e1, e2, e3, e4⟩
  · simp
  · have e1 : hullGeometry (C := List Pt) (lib.convexHull (Coords.sub (vaultLines h).pts i j)) = .ok g := e1
    have e2 : hullGeometry (C := List Pt) (lib.convexHull (Coords.sub (vaultLines h').pts k l)) = .ok g' := e2
    simp only [e1, e2]
    rw [Bool.or_eq_true, Bool.and_eq_true, Bool.and_eq_true]
    exact .inr ⟨decide_eq_true h1, e3, e4⟩

theorem vault_apart {outs : List (Int × Out Pt (List Pt) Bx)} {d : Int → Bool} (hs : vaultFirst = .ok (outs, d)) :
    RangesApart (env vaultLines) (fun h => (vaultLines h).pts) outs [1, 4] := by
  have key : ([(1 : Int), 4].all fun a => [(1 : Int), 4].all fun b => [(1 : Int), 4].all fun c => (vaultOcc a).all fun r => (vaultOcc b).all fun r' =>
      decide (r' ∉ vaultOcc c) || decide (¬ r.1 + 1 < r.2) || decide (¬ r'.1 + 1 < r'.2) || !touchTest a r b r' || !touchTest a r c r' || decide (b = c)) = true := by
    decide +kernel
  intro a ha b hb c hc i j k l oa ob oc h1 h2 t1 t2
  have ma := vaultOcc_spec hs ha oa
  have mb := vaultOcc_spec hs hb ob
  have mc := vaultOcc_spec hs hc oc
  simp only [List.all_eq_true] at key
  have := key a ha b hb c hc _ ma _ mb
  simpa [mc, h1, h2, touchTest_spec t1, touchTest_spec t2] using this

/-- the hypotheses of C78 hold for the arch and the line under it -/
example (res : List (Int × Out Pt (List Pt) Bx)) (hr : vaultRun [1, 4] = .ok res) : ∀ x ∈ res, ∀ y ∈ res, ∀ a ∈ x.2.hulls, ∀ b ∈ y.2.hulls, a ≠ b → Proper lib a →
    Proper lib b → dist (.seg a.coords) (.seg b.coords) = 0 → dist (.line a.coords) (.line b.coords) = 0 := by
  intro x hx y hy a ha b hb hab pa pb hm
  have hc := vault_class (handles := [1, 4]) (by decide) (by decide)
  have hsub : ∀ h ∈ [(1 : Int), 4], h ∈ [(1 : Int), 2, 3, 4] := by decide
  have h1 : (match vaultFirst with | .ok _ => true | _ => false) = true := by decide +kernel
  cases e : vaultFirst with
  | ok r =>
    obtain ⟨outs, d⟩ := r
    have := C78_crossing_partial hc (o := classOpts) rfl (fun h _ => by show (vaultLines h).opts.avoidNewSelfIntersects = true; rw [vaultLines_opts]; rfl)
      (fun p => decide_eq_true rfl) (fun h hh h' hh' => lawsPair_spec (pair_all vault_laws (hsub h hh) (hsub h' hh')))
      (fun h hh h' hh' => cutPair_spec (pair_all vault_cut (hsub h hh) (hsub h' hh'))) rfl e (vault_apart e) hr hx hy ha hb hab pa pb (decide_eq_true hm)
    exact of_decide_eq_true this
  | panic => rw [e] at h1; cases h1
  | timeout => rw [e] at h1; cases h1

end Plane

end Verif
