import Verif.Props.C104_MoreConstraints

/-! C106: whether a larger threshold keeps a subset of the vertices when there are constraints. -/

set_option linter.unusedSectionVars false

namespace Verif

section
variable {P C B K : Type} [LinearOrder B] [BoundedOrder B] [LinearOrder K]
variable {env : Env P C B K} {pts : Int → List P} {ids : Nat → Int} {h : Int}

/-! ### the recursive procedure -/

theorem EndOf.append {xs ys : List Rng} {v : Int} : EndOf (xs ++ ys) v ↔ EndOf xs v ∨ EndOf ys v := by
  simp only [EndOf, List.mem_append, or_and_right, exists_or]

theorem Each.single {α β : Type} {R : α → List β → Prop} {a : α} {xs : List β} (h : Each R [a] xs) : R a xs := by
  cases h with
  | cons h t => cases t; rwa [List.append_nil]

/-- the segments of Douglas–Peucker lead from one end of the sub-line to the other -/
theorem RecDP.chain_inside {score : ScoreFn P K} {rel : Fl K → Bool} {ps : List P} (hin : SplitsInside score rel ps) {i j : Int} {rs : List Rng}
    (h : RecDP score rel ps i j rs) (h0 : 0 ≤ i) (h1 : i < j) (h2 : j < ps.length) : Chain i j rs := by
  induction h with
  | keep i j k v hs hv => exact Chain.singleton h1
  | cut i j k v xs ys hs hv hx hy ihx ihy =>
    obtain ⟨k', v', hs', hk⟩ := hin i j h0 h1 h2
    rw [hs] at hs'
    cases hs'
    have := hk hv
    exact (ihx h0 (by omega) (by omega)).append (ihy (by omega) (by omega) h2)

/-- cutting the segments of Douglas–Peucker further keeps the ends of the sub-line -/
theorem RecDP.each_ends {score : ScoreFn P K} {rel : Fl K → Bool} {bad : Int → Int → Prop} {ps : List P} {i j : Int} {rs : List Rng} (h : RecDP score rel ps i j rs) :
    ∀ {ls : List Rng}, Each (fun r l => RecCut score bad ps r.I r.J l) rs ls → EndOf ls i ∧ EndOf ls j := by
  induction h with
  | keep i j k v hs hv => intro ls h; exact RecCut.ends h.single
  | cut i j k v xs ys hs hv hx hy ihx ihy =>
    intro ls h
    obtain ⟨as, bs, rfl, k1, k2⟩ := h.of_append
    exact ⟨EndOf.append.2 (.inl (ihx k1).1), EndOf.append.2 (.inr (ihy k2).2)⟩

/-- cutting a sub-line as long as it is rejected keeps no more than Douglas–Peucker on the sub-line first -/
theorem RecCut.within {score : ScoreFn P K} {rel : Fl K → Bool} {bad : Int → Int → Prop} {ps : List P} {i j : Int} {xs : List Rng} (h : RecCut score bad ps i j xs) :
    ∀ {rs ls : List Rng}, RecDP score rel ps i j rs → Each (fun r l => RecCut score bad ps r.I r.J l) rs ls → ∀ v, EndOf xs v → EndOf ls v := by
  induction h with
  | keep i j hb =>
    rintro rs ls h1 h2 v ⟨r, hr, hv⟩
    rw [List.mem_singleton] at hr
    subst hr
    rcases hv with rfl | rfl
    · exact (h1.each_ends h2).1
    · exact (h1.each_ends h2).2
  | cut i j k v xs ys hb hs hx hy ihx ihy =>
    intro rs ls h1 h2 w hw
    cases h1 with
    | keep _ _ k' v' hs' hv' => rwa [← RecCut.unique (.cut i j k v xs ys hb hs hx hy) h2.single]
    | cut _ _ k' v' xs' ys' hs' hv' hx' hy' =>
      rw [hs] at hs'
      cases hs'
      obtain ⟨as, bs, rfl, k1, k2⟩ := h2.of_append
      rcases EndOf.append.1 hw with hw | hw
      · exact EndOf.append.2 (.inl (ihx hx' k1 w hw))
      · exact EndOf.append.2 (.inr (ihy hy' k2 w hw))

/-- both phases: what a larger threshold keeps a smaller one keeps -/
theorem RecDP.each_nested {score : ScoreFn P K} {rel rel' : Fl K → Bool} {bad : Int → Int → Prop} {ps : List P} (hrel : ∀ v, rel v = true → rel' v = true) {i j : Int}
    {rs' : List Rng} (h' : RecDP score rel' ps i j rs') : ∀ {rs ls ls' : List Rng}, RecDP score rel ps i j rs → Each (fun r l => RecCut score bad ps r.I r.J l) rs ls →
      Each (fun r l => RecCut score bad ps r.I r.J l) rs' ls' → ∀ v, EndOf ls' v → EndOf ls v := by
  induction h' with
  | keep i j k v hs hv => intro rs ls ls' h1 h2 h3; exact RecCut.within h3.single h1 h2
  | cut i j k v xs ys hs hv hx hy ihx ihy =>
    intro rs ls ls' h1 h2 h3 w hw
    cases h1 with
    | keep _ _ k' v' hs' hv' =>
      rw [hs] at hs'
      cases hs'
      rw [hrel _ hv'] at hv
      cases hv
    | cut _ _ k' v' xs' ys' hs' hv' hx' hy' =>
      rw [hs] at hs'
      cases hs'
      obtain ⟨as, bs, rfl, k1, k2⟩ := h2.of_append
      obtain ⟨as', bs', rfl, k1', k2'⟩ := h3.of_append
      rcases EndOf.append.1 hw with hw | hw
      · exact EndOf.append.2 (.inl (ihx hx' k1 k1' w hw))
      · exact EndOf.append.2 (.inr (ihy hy' k2 k2' w hw))

/-- A relation that accepts more keeps a subset, if Douglas–Peucker keeps all fixed vertices anyway. -/
theorem ConstrainedDP.nested {score : ScoreFn P K} {rel rel' : Fl K → Bool} {fixed : Int → Prop} {bad : Int → Int → Prop} {ps : List P} (two : 2 ≤ ps.length)
    (hrel : ∀ v, rel v = true → rel' v = true) (hin : SplitsInside score rel ps) (hin' : SplitsInside score rel' ps)
    (hfix : ∀ rs v, RecDP score rel' ps 0 (ps.length - 1) rs → fixed v → EndOf rs v) {ls ls' : List Rng} (h : ConstrainedDP score rel fixed bad ps ls)
    (h' : ConstrainedDP score rel' fixed bad ps ls') : ∀ v, EndOf ls' v → EndOf ls v := by
  obtain ⟨rs, ms, a1, b1, c1, d1⟩ := h
  obtain ⟨rs', ms', a2, b2, c2, d2⟩ := h'
  have e1 : ms = rs := b1.eq_of_ends (a1.chain_inside hin (Int.le_refl _) (by omega) (by omega)) (fun v => (c1 v).trans ⟨fun k => k.elim id (fun k => a1.nested hrel a2 v (hfix _ v a2 k)), .inl⟩)
  have e2 : ms' = rs' := b2.eq_of_ends (a2.chain_inside hin' (Int.le_refl _) (by omega) (by omega)) (fun v => (c2 v).trans ⟨fun k => k.elim id (hfix _ v a2), .inl⟩)
  subst e1 e2
  exact RecDP.each_nested hrel a2 a1 d1 d2

/-- A relation that accepts more keeps a subset, if nothing is rejected. -/
theorem ConstrainedDP.nested_free {score : ScoreFn P K} {rel rel' : Fl K → Bool} {fixed : Int → Prop} {bad : Int → Int → Prop} {ps : List P}
    (hrel : ∀ v, rel v = true → rel' v = true) (hbad : ∀ i j, ¬ bad i j) {ls ls' : List Rng} (h : ConstrainedDP score rel fixed bad ps ls)
    (h' : ConstrainedDP score rel' fixed bad ps ls') : ∀ v, EndOf ls' v → EndOf ls v := by
  have key : ∀ {ms ls : List Rng}, Each (fun r l => RecCut score bad ps r.I r.J l) ms ls → ls = ms := by
    intro ms ls k
    induction k with
    | nil => rfl
    | cons h t ih =>
      rw [ih]
      cases h with
      | keep => rfl
      | cut _ _ _ _ _ _ hb => exact absurd hb (hbad _ _)
  obtain ⟨rs, ms, a1, -, c1, d1⟩ := h
  obtain ⟨rs', ms', a2, -, c2, d2⟩ := h'
  intro v hv
  rw [key d2] at hv
  rw [key d1]
  rcases (c2 v).1 hv with k | k
  · exact (c1 v).2 (.inl (a1.nested hrel a2 v k))
  · exact (c1 v).2 (.inr k)

/-! ### the run -/

/-- the same environment with another threshold and its square -/
def Env.threshold (env : Env P C B K) (t tsq : Fl K) : Env P C B K :=
  { env with inst := fun k => { env.inst k with opts := { (env.inst k).opts with threshold := t, sqThreshold := tsq } } }

theorem EnvOK.threshold (he : EnvOK env) (t tsq : Fl K) : EnvOK (env.threshold t tsq) := ⟨he.heur, he.heap, he.ord, he.ordRm, he.point⟩

/-- the validation does not ask for the threshold -/
theorem rejected_threshold (t tsq : Fl K) : Rejected (env.threshold t tsq) pts h = Rejected env pts h := rfl

theorem Splittable.threshold {cv : List Int} (hs : Splittable env pts h cv) (t tsq : Fl K) : Splittable (env.threshold t tsq) pts h cv := by
  obtain ⟨near, r1, r2, r3, r4⟩ := hs.reach
  have hk : ∀ nd, Known (env.threshold t tsq) pts [h] nd → Known env pts [h] nd := fun nd k => ⟨k.inst, k.piece, k.lo, k.lt, k.hi⟩
  exact ⟨near, r1, r2, fun is hi i hii => ⟨(r3 is hi i hii).found.imp (fun far h => ⟨fun items k => h.1 items (fun x hx => hk x (k x hx)), fun nd k => h.2 nd (hk nd k)⟩)⟩,
    fun v hv p hp => ⟨(r4 v hv p hp).found.imp (fun far h => ⟨fun items k => h.1 items (fun x hx => hk x (k x hx)), fun nd k => h.2 nd (hk nd k)⟩)⟩⟩

/-- C106, the part that holds.  Without the option to avoid new self-intersections, take a run and one with a larger threshold, on the same line with the same
constraints.  Assume that nothing is rejected by the context validation, or that Douglas–Peucker with the larger threshold keeps all fixed vertices (there may be
none).  All vertices the second run keeps are kept by the first one when its merge pass starts; if that pass finds no single segments, all of them are kept in its
result.  Missing for the full statement: single segments that the merge pass removes (`C66_refuted_threshold`), fixed vertices together with rejected pieces
(`C106_refuted_fixed`). -/
theorem C106_thresholds_partial (he : EnvOK env) (hl : LnrOK env.lnr) {t tsq t' tsq' : Fl K} (ht : t.le t' = true) (htsq : tsq.le tsq' = true)
    (hi : InstOK (env.threshold t tsq) h (pts h)) (hi' : InstOK (env.threshold t' tsq') h (pts h)) (hav : (env.inst h).opts.avoidNewSelfIntersects = false) {cv : List Int}
    (hcv : ∀ i ∈ cv, 0 ≤ i ∧ i < (pts h).length) (hs : (env.inst h).opts.planarSelf = true → Splittable env pts h cv)
    (hfix : (∀ i j, ¬ Rejected env pts h i j) ∨
      ∀ rs v, RecDP (env.inst h).scoreFn ((env.threshold t' tsq').inst h).rel (pts h) 0 ((pts h).length - 1) rs → FixedVertex env h cv v → EndOf rs v)
    {ids1 ids2 : Nat → Int} (j1 : Function.Injective ids1) (j2 : Function.Injective ids2) {d1 d1' d2 d2' : Int → Bool} {n1 n2 : Nat} {o1 o2 : Out P C B}
    (e1 : simplify (env.threshold t tsq) ids1 h cv d1 n1 = .ok (o1, d1')) (e2 : simplify (env.threshold t' tsq') ids2 h cv d2 n2 = .ok (o2, d2')) :
    ∃ ls, ConstrainedDP (env.inst h).scoreFn ((env.threshold t tsq).inst h).rel (FixedVertex env h cv) (Rejected env pts h) (pts h) ls ∧
      (∀ v ∈ o2.simple, EndOf ls v) ∧ ((∀ r ∈ ls, r.J ≠ r.I + 1) → ∀ v ∈ o2.simple, v ∈ o1.simple) := by
  have hrel : ∀ v, ((env.threshold t tsq).inst h).rel v = true → ((env.threshold t' tsq').inst h).rel v = true := by
    intro v hv
    change relationOf t tsq (env.inst h).square v = true at hv
    change relationOf t' tsq' (env.inst h).square v = true
    cases hq : (env.inst h).square with
    | none => rw [hq] at hv; exact Fl.le_trans hv ht
    | some q => rw [hq] at hv; exact Fl.le_trans hv htsq
  obtain ⟨xs, a1, -, c1⟩ := C103_run (he.threshold t tsq) hl hi j1 hav hcv (fun hp => (hs hp).threshold t tsq) e1
  obtain ⟨ys, a2, b2, -⟩ := C103_run (he.threshold t' tsq') hl hi' j2 hav hcv (fun hp => (hs hp).threshold t' tsq') e2
  have hm : ∀ v, EndOf ys v → EndOf xs v := by
    rcases hfix with hb | hfix
    · exact ConstrainedDP.nested_free hrel hb a1 a2
    · exact ConstrainedDP.nested hi.two hrel hi.inside hi'.inside hfix a1 a2
  exact ⟨xs, a1, fun v hv => hm v (b2 v hv), fun hns v hv => ((c1 hns).2 v).2 (hm v (b2 v hv))⟩

end

/-! ### the witness, exact plane geometry -/

/-- a line of nine vertices that keeps its self-intersections, with a constraint point below its first half, the geometric relation switched on -/
def bentLine (t : ℚ) : Demo.Line Plane.Pt (List Plane.Pt) ℚ :=
  ⟨[(0, 0), (2, 5), (4, 9), (6, 8), (8, 7), (10, 0), (12, -8), (16, -4), (20, 0)], [[(6, -4)]], { Plane.opts t 10 with geomRelation := true, planarSelf := true }⟩

/-- C106 refuted by fixed vertices.  The vertex 6 is fixed.  With threshold 17/2 the pieces are 0-2, 2-6 and 6-8.  With threshold 19/2 the piece 0-6 is not cut at
the vertex 2, which is farthest from the chord of the whole line; it is then rejected because of the constraint point and cut at the vertex 4, which is farthest from
its own chord.  So the larger threshold keeps the vertex 4, the smaller one does not; no piece is a single segment. -/
theorem C106_refuted_fixed : ∃ (o o' : Out Plane.Pt (List Plane.Pt) Plane.Bx) (d d' : Int → Bool), Plane.run (bentLine (17 / 2)) [6] = .ok (o, d) ∧
    Plane.run (bentLine (19 / 2)) [6] = .ok (o', d') ∧ o.simple = [0, 2, 6, 8] ∧ o'.simple = [0, 4, 6, 8] := by
  have key : ∀ {r : Res (Out Plane.Pt (List Plane.Pt) Plane.Bx × (Int → Bool))} {l : List Int}, (match r with | .ok (o, _) => o.simple | _ => []) = l → l ≠ [] →
      ∃ o d, r = .ok (o, d) ∧ o.simple = l := by
    intro r l h1 h2
    cases r with
    | ok r => exact ⟨r.1, r.2, rfl, h1⟩
    | panic => exact absurd h1.symm h2
    | timeout => exact absurd h1.symm h2
  obtain ⟨o, d, e, h⟩ := key (r := Plane.run (bentLine (17 / 2)) [6]) (l := [0, 2, 6, 8]) (by decide +kernel) (by simp)
  obtain ⟨o', d', e', h'⟩ := key (r := Plane.run (bentLine (19 / 2)) [6]) (l := [0, 4, 6, 8]) (by decide +kernel) (by simp)
  exact ⟨o, o', d, d', e, e', h, h'⟩

/-! ### concrete cases -/

/-- the line of C103 with two thresholds, no fixed vertices; with both a vertex is kept because of the constraint point -/
example : ∃ o1 d1 o2 d2, simplify ((Plane.env (fun _ => archLine)).threshold (.fin 3) (.fin 9)) (fun n => n) 0 [] (fun _ => false) 60 = .ok (o1, d1) ∧
    simplify ((Plane.env (fun _ => archLine)).threshold (.fin 20) (.fin 400)) (fun n => n) 0 [] (fun _ => false) 60 = .ok (o2, d2) ∧ o1.simple = [0, 2, 5, 6] ∧
    o2.simple = [0, 2, 6] ∧ ∃ ls, ConstrainedDP ((Plane.env (fun _ => archLine)).inst 0).scoreFn (((Plane.env (fun _ => archLine)).threshold (.fin 3) (.fin 9)).inst 0).rel
      (FixedVertex (Plane.env (fun _ => archLine)) 0 []) (Rejected (Plane.env (fun _ => archLine)) (fun _ => archLine.pts) 0) archLine.pts ls ∧ ∀ v ∈ o2.simple, EndOf ls v := by
  have key : ∀ {r : Res (Out Plane.Pt (List Plane.Pt) Plane.Bx × (Int → Bool))} {l : List Int}, (match r with | .ok (o, _) => o.simple | _ => []) = l → l ≠ [] →
      ∃ o d, r = .ok (o, d) ∧ o.simple = l := by
    intro r l h1 h2
    cases r with
    | ok r => exact ⟨r.1, r.2, rfl, h1⟩
    | panic => exact absurd h1.symm h2
    | timeout => exact absurd h1.symm h2
  obtain ⟨o1, d1, e1, h1⟩ := key (r := simplify ((Plane.env (fun _ => archLine)).threshold (.fin 3) (.fin 9)) (fun n => n) 0 [] (fun _ => false) 60) (l := [0, 2, 5, 6])
    (by decide +kernel) (by simp)
  obtain ⟨o2, d2, e2, h2⟩ := key (r := simplify ((Plane.env (fun _ => archLine)).threshold (.fin 20) (.fin 400)) (fun n => n) 0 [] (fun _ => false) 60) (l := [0, 2, 6])
    (by decide +kernel) (by simp)
  have hi1 : InstOK ((Plane.env (fun _ => archLine)).threshold (.fin 3) (.fin 9)) 0 archLine.pts :=
    Plane.inst_ok (lines := fun _ => { archLine with opts := { archLine.opts with threshold := .fin 3, sqThreshold := .fin 9 } }) (by decide) (by decide +kernel)
  have hi2 : InstOK ((Plane.env (fun _ => archLine)).threshold (.fin 20) (.fin 400)) 0 archLine.pts :=
    Plane.inst_ok (lines := fun _ => { archLine with opts := { archLine.opts with threshold := .fin 20, sqThreshold := .fin 400 } }) (by decide) (by decide +kernel)
  obtain ⟨ls, a, b, -⟩ := C106_thresholds_partial (env := Plane.env (fun _ => archLine)) (pts := fun _ => archLine.pts) (h := 0) Plane.env_ok Plane.lnr_ok (by decide +kernel)
    (by decide +kernel) hi1 hi2 rfl (by simp) (fun h => by cases h) (.inr (fun rs v _ hv => by cases hv.1)) (fun a b h => by simpa using h) (fun a b h => by simpa using h) e1 e2
  exact ⟨o1, d1, o2, d2, e1, e2, h1, h2, ls, a, b⟩

namespace Axis

/-- a line running to and fro that keeps its self-intersections, no relation switched on -/
def sway (t : Int) : Demo.Line Int Int Int :=
  ⟨[0, 5, 9, 2, 7, 6, 1, 8, 4], [8], { opts t 2 with nonPlanarSelf := false, geomRelation := false, distRelation := false, dirRelation := false, avoidNewSelfIntersects := false }⟩

/-- nothing can be rejected; the fixed vertex 6 is kept with both thresholds -/
example : ∃ o1 d1 o2 d2, run (sway 3) [6] = .ok (o1, d1) ∧ run (sway 5) [6] = .ok (o2, d2) ∧ o1.simple = [0, 2, 6, 8] ∧ o2.simple = [0, 6, 8] ∧
    ∃ ls, ConstrainedDP ((env (fun _ => sway 3)).inst 0).scoreFn ((env (fun _ => sway 3)).inst 0).rel (FixedVertex (env (fun _ => sway 3)) 0 [6])
      (Rejected (env (fun _ => sway 3)) (fun _ => (sway 3).pts) 0) (sway 3).pts ls ∧ ∀ v ∈ o2.simple, EndOf ls v := by
  have key : ∀ {r : Res (Out Int Int Bx × (Int → Bool))} {l : List Int}, (match r with | .ok (o, _) => o.simple | _ => []) = l → l ≠ [] →
      ∃ o d, r = .ok (o, d) ∧ o.simple = l := by
    intro r l h1 h2
    cases r with
    | ok r => exact ⟨r.1, r.2, rfl, h1⟩
    | panic => exact absurd h1.symm h2
    | timeout => exact absurd h1.symm h2
  obtain ⟨o1, d1, e1, h1⟩ := key (r := run (sway 3) [6]) (l := [0, 2, 6, 8]) (by decide +kernel) (by simp)
  obtain ⟨o2, d2, e2, h2⟩ := key (r := run (sway 5) [6]) (l := [0, 6, 8]) (by decide +kernel) (by simp)
  refine ⟨o1, d1, o2, d2, e1, e2, h1, h2, ?_⟩
  have hi1 : InstOK (env (fun _ => sway 3)) 0 (sway 3).pts := inst_ok (lines := fun _ => sway 3) (by decide) (by decide)
  have hi2 : InstOK (env (fun _ => sway 5)) 0 (sway 3).pts := inst_ok (lines := fun _ => sway 5) (by decide) (by decide)
  have hcv : ∀ i ∈ [(6 : Int)], 0 ≤ i ∧ i < ((sway 3).pts.length : Int) := by decide
  obtain ⟨ls, a, b, -⟩ := C106_thresholds_partial (env := env (fun _ => sway 3)) (pts := fun _ => (sway 3).pts) (h := 0) (t := .fin 3) (tsq := .fin 3) (t' := .fin 5)
    (tsq' := .fin 5) env_ok lnr_ok (by decide) (by decide) hi1 hi2 rfl hcv (fun _ => (hull_near (lines := fun _ => sway 3) (h := 0)).splittable hi1 hcv)
    (.inl (fun i j hr => by
      obtain ⟨-, nd, -, -, -, N, hv⟩ := hr
      cases hv N (Nat.le_refl _)))
    (ids1 := fun n => n) (ids2 := fun n => n) (fun a b h => by simpa using h) (fun a b h => by simpa using h) e1 e2
  exact ⟨ls, a, b⟩

end Axis

end Verif
