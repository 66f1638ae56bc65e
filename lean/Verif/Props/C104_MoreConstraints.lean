import Verif.Props.C103_Refine
import Verif.Props.C55_Determinism

/-! C104: whether more constraints keep more vertices. -/

set_option linter.unusedSectionVars false

namespace Verif

section
variable {P C B K : Type} [LinearOrder B] [BoundedOrder B] [LinearOrder K]
variable {env : Env P C B K} {pts : Int → List P} {ids : Nat → Int} {h : Int}

/-! ### the recursive procedure -/

/-- the procedure keeps the ends of the sub-line -/
theorem RecCut.ends {score : ScoreFn P K} {bad : Int → Int → Prop} {ps : List P} {i j : Int} {rs : List Rng} (h : RecCut score bad ps i j rs) : EndOf rs i ∧ EndOf rs j := by
  induction h with
  | keep i j h => exact ⟨⟨_, List.mem_singleton.2 rfl, .inl rfl⟩, _, List.mem_singleton.2 rfl, .inr rfl⟩
  | cut i j k v xs ys hb hs hx hy ihx ihy =>
    obtain ⟨⟨r, hr, h1⟩, -⟩ := ihx
    obtain ⟨-, r', hr', h2⟩ := ihy
    exact ⟨⟨r, List.mem_append_left _ hr, h1⟩, r', List.mem_append_right _ hr', h2⟩

/-- the more is rejected, the more vertices the procedure keeps -/
theorem RecCut.mono {score : ScoreFn P K} {bad bad' : Int → Int → Prop} {ps : List P}
    (hb : ∀ i j : Int, 0 ≤ i → i < j → j < ps.length → bad i j → bad' i j ∧ ∃ k v, score (Coords.sub ps i j) = .ok (k, v) ∧ 0 < k ∧ k < j - i)
    {i j : Int} {xs : List Rng} (h : RecCut score bad ps i j xs) : ∀ {ys : List Rng}, 0 ≤ i → i < j → j < ps.length → RecCut score bad' ps i j ys → ∀ v, EndOf xs v → EndOf ys v := by
  induction h with
  | keep i j h =>
    rintro ys - - - h' v ⟨r, hr, hv⟩
    rw [List.mem_singleton] at hr
    subst hr
    rcases hv with rfl | rfl
    · exact h'.ends.1
    · exact h'.ends.2
  | cut i j k v xs1 xs2 hbad hs hx hy ihx ihy =>
    rintro ys h0 h1 h2 h' w ⟨r, hr, hw⟩
    obtain ⟨hb1, k', v', hs', k0, k1⟩ := hb i j h0 h1 h2 hbad
    rw [hs] at hs'
    cases hs'
    cases h' with
    | keep _ _ hn => exact absurd hb1 hn
    | cut _ _ k' v' ys1 ys2 hbad' hs' hx' hy' =>
      rw [hs] at hs'
      cases hs'
      rcases List.mem_append.1 hr with hr | hr
      · obtain ⟨r', hr', hw'⟩ := ihx h0 (by omega) (by omega) hx' w ⟨r, hr, hw⟩
        exact ⟨r', List.mem_append_left _ hr', hw'⟩
      · obtain ⟨r', hr', hw'⟩ := ihy (by omega) (by omega) h2 hy' w ⟨r, hr, hw⟩
        exact ⟨r', List.mem_append_right _ hr', hw'⟩

theorem Each.ends_mono {R R' : Rng → List Rng → Prop} {l : List Rng} {xs : List Rng} (h : Each R l xs) :
    (∀ r ∈ l, ∀ a b, R r a → R' r b → ∀ v, EndOf a v → EndOf b v) → ∀ {ys : List Rng}, Each R' l ys → ∀ v, EndOf xs v → EndOf ys v := by
  induction h with
  | nil => intro _ ys h' v hv; obtain ⟨r, hr, -⟩ := hv; cases hr
  | @cons a l xs1 xs2 h t ih =>
    intro hR ys h' v hv
    cases h' with
    | @cons _ _ ys1 ys2 h1 t1 =>
      obtain ⟨r, hr, hv⟩ := hv
      rcases List.mem_append.1 hr with hr | hr
      · obtain ⟨r', hr', hv'⟩ := hR a (by simp) _ _ h h1 v ⟨r, hr, hv⟩
        exact ⟨r', List.mem_append_left _ hr', hv'⟩
      · obtain ⟨r', hr', hv'⟩ := ih (fun r hr => hR r (List.mem_cons_of_mem _ hr)) t1 v ⟨r, hr, hv⟩
        exact ⟨r', List.mem_append_right _ hr', hv'⟩

/-- The procedure of C103 keeps the more vertices the more it rejects. -/
theorem ConstrainedDP.mono {score : ScoreFn P K} {rel : Fl K → Bool} {fixed : Int → Prop} {bad bad' : Int → Int → Prop} {ps : List P} {xs ys : List Rng}
    (hb : ∀ i j : Int, 0 ≤ i → i < j → j < ps.length → bad i j → bad' i j ∧ ∃ k v, score (Coords.sub ps i j) = .ok (k, v) ∧ 0 < k ∧ k < j - i)
    (h : ConstrainedDP score rel fixed bad ps xs) (h' : ConstrainedDP score rel fixed bad' ps ys) : ∀ v, EndOf xs v → EndOf ys v := by
  obtain ⟨rs, ms, a1, b1, c1, d1⟩ := h
  obtain ⟨rs', ms', a2, b2, c2, d2⟩ := h'
  cases a1.unique a2
  cases b1.eq_of_ends b2 (fun v => (c1 v).trans (c2 v).symm)
  exact d1.ends_mono (fun r hr a b ha hb' => by
    have := b1.mem hr
    exact ha.mono hb (by omega) (by omega) (by omega) hb') d2

/-! ### more constraint geometries -/

/-- constdp/validate.go:45-66: all relations that are switched on hold -/
theorem relations_true {a b c G D : Bool} {H : Res Bool} :
    (do let bln ← andThen true a (.ok G)
        let bln ← andThen bln b (.ok D)
        andThen bln c H) = .ok true ↔ (a = true → G = true) ∧ (b = true → D = true) ∧ (c = true → H = .ok true) := by
  cases a <;> cases b <;> cases c <;> cases G <;> cases D <;> simp [andThen]

/-- Without the sidedness relation, what is rejected with some constraints is rejected with more. -/
theorem rejected_more {s1 s2 : Sched P C B K} (x1 : Exact env s1) (x2 : Exact env s2) (he : EnvOK (env.run s2)) (hi : InstOK (env.run s2) h (pts h))
    {cs1 cs2 : List (Geo P C)} (c1 : CtxOK env s1 h cs1) (c2 : CtxOK env s2 h cs2) (hsub : ∀ g ∈ cs1, g ∈ cs2) (hdir : (env.inst h).opts.dirRelation = false)
    {i j : Int} (h0 : 0 ≤ i) (h2 : j < (pts h).length) (hr : Rejected (env.run s1) pts h i j) : Rejected (env.run s2) pts h i j := by
  obtain ⟨h1, nd, hp, hnr, hg, N, hv⟩ := hr
  have hin := hp.inst
  have hk : Known (env.run s2) pts [h] nd := by
    refine ⟨by rw [hin]; simp, by rw [hin]; exact hp, ?_, ?_, ?_⟩ <;> rw [hnr] <;> first | exact h0 | (dsimp only; omega) | (rw [hin]; exact h2)
  obtain ⟨b, M, hb⟩ := validate_yields he hi hk
  cases b with
  | false => exact ⟨h1, nd, hp, hnr, hg, M, hb⟩
  | true =>
    exfalso
    have k1 := validate_verdict x1 c1 nd (hv N (Nat.le_refl _))
    have k2 := validate_verdict x2 c2 nd (hb M (Nat.le_refl _))
    unfold verdict at k1 k2
    have hf : ∀ g ∈ cs1.filter (fun g => (env.lib.distance nd.geom g).le (env.inst h).opts.minDist),
        g ∈ cs2.filter (fun g => (env.lib.distance nd.geom g).le (env.inst h).opts.minDist) := by
      intro g hg
      rw [List.mem_filter] at hg ⊢
      exact ⟨hsub g hg.1, hg.2⟩
    have m1 : isGeomRelateValid env.lib nd (cs2.filter (fun g => (env.lib.distance nd.geom g).le (env.inst h).opts.minDist)) = true →
        isGeomRelateValid env.lib nd (cs1.filter (fun g => (env.lib.distance nd.geom g).le (env.inst h).opts.minDist)) = true := by
      rw [C26_geom_iff, C26_geom_iff]; exact fun hh g hg => hh g (hf g hg)
    have m2 : isDistRelateValid env.lib (env.inst h).opts.minDist nd (cs2.filter (fun g => (env.lib.distance nd.geom g).le (env.inst h).opts.minDist)) = true →
        isDistRelateValid env.lib (env.inst h).opts.minDist nd (cs1.filter (fun g => (env.lib.distance nd.geom g).le (env.inst h).opts.minDist)) = true := by
      rw [C27_dist_iff, C27_dist_iff]; exact fun hh g hg => hh g (hf g hg)
    dsimp only at k1 k2
    by_cases hc : (!((env.inst h).opts.geomRelation || (env.inst h).opts.distRelation || (env.inst h).opts.dirRelation)) = true
    · rw [if_pos hc] at k1; cases k1
    · rw [if_neg hc] at k1 k2
      obtain ⟨r1, r2, -⟩ := relations_true.1 k2
      rw [relations_true.2 ⟨fun hh => m1 (r1 hh), fun hh => m2 (r2 hh), fun hh => by rw [hdir] at hh; cases hh⟩] at k1
      cases k1

/-- C104, the part that holds, constraints.  Without the sidedness relation and without the option to avoid new self-intersections, with a queue that pops in order:
take a run with some constraint geometries and one with further ones.  All vertices the first one keeps are kept by the second one when its merge pass starts; if
that pass finds no single segments, all of them are kept in its result.  Missing for the full statement: single segments that the merge pass removes
(`C104_refuted_merge`), the sidedness relation (`C104_refuted_side`). -/
theorem C104_constraints_partial (he : EnvOK env) (hl : LnrOK env.lnr) (hi : InstOK env h (pts h))
    (hbox : ∀ (q g : Geo P C) (b : Box B), env.lib.bounds g ≤ b → (env.lib.boxDistance q b).le (env.lib.distance q g) = true)
    (hav : (env.inst h).opts.avoidNewSelfIntersects = false) (hdir : (env.inst h).opts.dirRelation = false) {cv : List Int}
    (hcv : ∀ i ∈ cv, 0 ≤ i ∧ i < (pts h).length) {geoms1 geoms2 : List C} (hsub : ∀ g ∈ geoms1, g ∈ geoms2) {s1 s2 : Sched P C B K}
    (l1 : LegalRun env h geoms1 s1) (l2 : LegalRun env h geoms2 s2) (q1 : s1.heap.Legal Hdb.nearLe) (q2 : s2.heap.Legal Hdb.nearLe)
    (hs1 : (env.inst h).opts.planarSelf = true → Splittable (env.run s1) pts h cv) (hs2 : (env.inst h).opts.planarSelf = true → Splittable (env.run s2) pts h cv)
    {ids1 ids2 : Nat → Int} (j1 : Function.Injective ids1) (j2 : Function.Injective ids2) {d1 d1' d2 d2' : Int → Bool} {n1 n2 : Nat} {o1 o2 : Out P C B}
    (e1 : simplify (env.run s1) ids1 h cv d1 n1 = .ok (o1, d1')) (e2 : simplify (env.run s2) ids2 h cv d2 n2 = .ok (o2, d2')) :
    ∃ ls, ConstrainedDP (env.inst h).scoreFn (env.inst h).rel (FixedVertex env h cv) (Rejected (env.run s2) pts h) (pts h) ls ∧ (∀ v ∈ o1.simple, EndOf ls v) ∧
      ((∀ r ∈ ls, r.J ≠ r.I + 1) → ∀ v ∈ o1.simple, v ∈ o2.simple) := by
  obtain ⟨xs, a1, b1, -⟩ := C103_run (env := env.run s1) (l1.envOK he) hl (l1.inst hi) j1 hav hcv hs1 e1
  obtain ⟨ys, a2, b2, c2⟩ := C103_run (env := env.run s2) (l2.envOK he) hl (l2.inst hi) j2 hav hcv hs2 e2
  have hm := ConstrainedDP.mono (fun i j h0 h1 h2 hr => ⟨rejected_more ⟨q1, hbox⟩ ⟨q2, hbox⟩ (l2.envOK he) (l2.inst hi) l1.ctxOK l2.ctxOK (fun g hg => by
    obtain ⟨c, hc, rfl⟩ := List.mem_map.1 hg
    exact List.mem_map_of_mem (hsub c hc)) hdir h0 h2 hr, hi.score i j h0 hr.1 h2⟩) a1 a2
  exact ⟨ys, a2, fun v hv => hm v (b1 v hv), fun hns v hv => ((c2 hns).2 v).2 (hm v (b1 v hv))⟩

/-! ### more relations -/

/-- the same environment with other context relations switched on -/
def Env.relations (env : Env P C B K) (a b c : Bool) : Env P C B K :=
  { env with inst := fun k => { env.inst k with opts := { (env.inst k).opts with geomRelation := a, distRelation := b, dirRelation := c } } }

theorem EnvOK.relations (he : EnvOK env) (a b c : Bool) : EnvOK (env.relations a b c) := ⟨he.heur, he.heap, he.ord, he.ordRm, he.point⟩

theorem InstOK.relations (hi : InstOK env h (pts h)) (a b c : Bool) : InstOK (env.relations a b c) h (pts h) where
  pln := hi.pln
  two := hi.two
  hull := hi.hull
  box := hi.box
  inside := hi.inside
  score := hi.score
  ctx := hi.ctx

/-- What is rejected with some relations is rejected with more. -/
theorem rejected_relations (he : EnvOK env) (hi : InstOK env h (pts h)) {a b c a' b' c' : Bool} (ha : a = true → a' = true) (hb : b = true → b' = true)
    (hc : c = true → c' = true) {i j : Int} (h0 : 0 ≤ i) (h2 : j < (pts h).length) (hr : Rejected (env.relations a b c) pts h i j) :
    Rejected (env.relations a' b' c') pts h i j := by
  obtain ⟨h1, nd, hp, hnr, hg, N, hv⟩ := hr
  have hin := hp.inst
  have hk : Known (env.relations a' b' c') pts [h] nd := by
    refine ⟨by rw [hin]; simp, by rw [hin]; exact hp, ?_, ?_, ?_⟩ <;> rw [hnr] <;> first | exact h0 | (dsimp only; omega) | (rw [hin]; exact h2)
  obtain ⟨v, M, hM⟩ := validate_yields (he.relations a' b' c') (hi.relations a' b' c') hk
  cases v with
  | false => exact ⟨h1, nd, hp, hnr, hg, M, hM⟩
  | true =>
    exfalso
    have k1 := hv (max N M) (by omega)
    have k2 := hM (max N M) (by omega)
    have unf : ∀ a b c : Bool, validateContextRelation (env.relations a b c) nd ((env.relations a b c).inst h) (max N M) =
        if (!(a || b || c)) = true then .ok true else (do
          let R ← Hdb.contextNeighbours env.heap (env.inst h).ctxdb (env.lib.boxDistance nd.geom) (fun nd' => env.lib.distance nd.geom nd'.geom)
            (env.inst h).opts.minDist (max N M)
          let bln ← andThen true a (.ok (isGeomRelateValid env.lib nd (R.map Node.geom)))
          let bln ← andThen bln b (.ok (isDistRelateValid env.lib (env.inst h).opts.minDist nd (R.map Node.geom)))
          andThen bln c (isDirRelateValid env.lib nd (R.map Node.geom) (max N M))) := fun _ _ _ => rfl
    rw [unf] at k1 k2
    by_cases hc1 : (!(a || b || c)) = true
    · rw [if_pos hc1] at k1; cases k1
    · rw [if_neg hc1] at k1
      have hc2 : ¬ (!(a' || b' || c')) = true := by
        cases a <;> cases b <;> cases c <;> simp_all
      rw [if_neg hc2] at k2
      obtain ⟨R, e1, k1⟩ := Res.bind_eq_ok.1 k1
      rw [e1, Res.ok_bind] at k2
      obtain ⟨r1, r2, r3⟩ := relations_true.1 k2
      rw [relations_true.2 ⟨fun hh => r1 (ha hh), fun hh => r2 (hb hh), fun hh => r3 (hc hh)⟩] at k1
      cases k1

/-- C104, the part that holds, relations.  Without the option to avoid new self-intersections, take a run and one with further context relations switched on.  All
vertices the first one keeps are kept by the second one when its merge pass starts; if that pass finds no single segments, all of them are kept in its result. -/
theorem C104_relations_partial (he : EnvOK env) (hl : LnrOK env.lnr) (hi : InstOK env h (pts h)) (hav : (env.inst h).opts.avoidNewSelfIntersects = false) {cv : List Int}
    (hcv : ∀ i ∈ cv, 0 ≤ i ∧ i < (pts h).length) {a b c a' b' c' : Bool} (ha : a = true → a' = true) (hb : b = true → b' = true) (hc : c = true → c' = true)
    (hs : (env.inst h).opts.planarSelf = true → Splittable env pts h cv) {ids1 ids2 : Nat → Int} (j1 : Function.Injective ids1) (j2 : Function.Injective ids2)
    {d1 d1' d2 d2' : Int → Bool} {n1 n2 : Nat} {o1 o2 : Out P C B}
    (e1 : simplify (env.relations a b c) ids1 h cv d1 n1 = .ok (o1, d1')) (e2 : simplify (env.relations a' b' c') ids2 h cv d2 n2 = .ok (o2, d2')) :
    ∃ ls, ConstrainedDP (env.inst h).scoreFn (env.inst h).rel (FixedVertex env h cv) (Rejected (env.relations a' b' c') pts h) (pts h) ls ∧
      (∀ v ∈ o1.simple, EndOf ls v) ∧ ((∀ r ∈ ls, r.J ≠ r.I + 1) → ∀ v ∈ o1.simple, v ∈ o2.simple) := by
  have hs' : ∀ a b c, (env.inst h).opts.planarSelf = true → Splittable (env.relations a b c) pts h cv := by
    intro a b c hp
    obtain ⟨near, r1, r2, r3, r4⟩ := (hs hp).reach
    have hk : ∀ nd, Known (env.relations a b c) pts [h] nd → Known env pts [h] nd := fun nd k => ⟨k.inst, k.piece, k.lo, k.lt, k.hi⟩
    exact ⟨near, r1, r2, fun is hi i hii => ⟨(r3 is hi i hii).found.imp (fun far h => ⟨fun items k => h.1 items (fun x hx => hk x (k x hx)), fun nd k => h.2 nd (hk nd k)⟩)⟩,
      fun v hv p hp => ⟨(r4 v hv p hp).found.imp (fun far h => ⟨fun items k => h.1 items (fun x hx => hk x (k x hx)), fun nd k => h.2 nd (hk nd k)⟩)⟩⟩
  obtain ⟨xs, a1, b1, -⟩ := C103_run (he.relations a b c) hl (hi.relations a b c) j1 hav hcv (hs' a b c) e1
  obtain ⟨ys, a2, b2, c2⟩ := C103_run (he.relations a' b' c') hl (hi.relations a' b' c') j2 hav hcv (hs' a' b' c') e2
  have hm := ConstrainedDP.mono (fun i j h0 h1 h2 hr => ⟨rejected_relations he hi ha hb hc h0 h2 hr, hi.score i j h0 hr.1 h2⟩) a1 a2
  exact ⟨ys, a2, fun v hv => hm v (b1 v hv), fun hns v hv => ((c2 hns).2 v).2 (hm v (b1 v hv))⟩

end

/-! ### the witnesses, exact plane geometry -/

/-- a line of five vertices with point constraints, the geometric relation switched on or off -/
def barbLine (ctx : List (List Plane.Pt)) (geom : Bool) : Demo.Line Plane.Pt (List Plane.Pt) ℚ :=
  ⟨[(2, 6), (0, 7), (2, 1), (0, 2), (8, 7)], ctx, { Plane.opts 4 4 with geomRelation := geom }⟩

/-- C104 refuted by the merge pass.  Without the constraint point, or without the geometric relation, the vertices 0, 2 and 4 are kept.  With both, the
pieces are cut further, and the merge pass puts them together differently: 0, 3 and 4 are kept, the vertex 2 is dropped. -/
theorem C104_refuted_merge : ∃ (o o' o'' : Out Plane.Pt (List Plane.Pt) Plane.Bx) (d d' d'' : Int → Bool), Plane.run (barbLine [] true) [] = .ok (o, d) ∧
    Plane.run (barbLine [[(3, 2)]] false) [] = .ok (o', d') ∧ Plane.run (barbLine [[(3, 2)]] true) [] = .ok (o'', d'') ∧
    2 ∈ o.simple ∧ 2 ∈ o'.simple ∧ 2 ∉ o''.simple := by
  have key : ∀ {r : Res (Out Plane.Pt (List Plane.Pt) Plane.Bx × (Int → Bool))} {l : List Int}, (match r with | .ok (o, _) => o.simple | _ => []) = l → l ≠ [] →
      ∃ o d, r = .ok (o, d) ∧ o.simple = l := by
    intro r l h1 h2
    cases r with
    | ok r => exact ⟨r.1, r.2, rfl, h1⟩
    | panic => exact absurd h1.symm h2
    | timeout => exact absurd h1.symm h2
  obtain ⟨o, d, e, h⟩ := key (r := Plane.run (barbLine [] true) []) (l := [0, 2, 4]) (by decide +kernel) (by simp)
  obtain ⟨o', d', e', h'⟩ := key (r := Plane.run (barbLine [[(3, 2)]] false) []) (l := [0, 2, 4]) (by decide +kernel) (by simp)
  obtain ⟨o'', d'', e'', h''⟩ := key (r := Plane.run (barbLine [[(3, 2)]] true) []) (l := [0, 3, 4]) (by decide +kernel) (by simp)
  refine ⟨o, o', o'', d, d', d'', e, e', e'', ?_, ?_, ?_⟩
  · rw [h]; decide
  · rw [h']; decide
  · rw [h'']; decide

/-- a line that crosses itself, with point constraints beside it, only the sidedness relation switched on -/
def sidedLine (ctx : List (List Plane.Pt)) : Demo.Line Plane.Pt (List Plane.Pt) ℚ :=
  ⟨[(4, 6), (1, 1), (0, 5), (5, 2), (0, 0)], ctx, { Plane.opts 100 100 with dirRelation := true }⟩

/-- C104 refuted by the sidedness relation.  With two constraint points the vertices 0, 2, 3 and 4 are kept; with a third one only the ends of the line.  The third
point is disjoint from line and chord; it stops a vertex from being collapsed early, and the collapse then takes another way that gets through. -/
theorem C104_refuted_side : ∃ (o o' : Out Plane.Pt (List Plane.Pt) Plane.Bx) (d d' : Int → Bool), Plane.run (sidedLine [[(4, 4)], [(0, 2)]]) [] = .ok (o, d) ∧
    Plane.run (sidedLine [[(4, 4)], [(0, 2)], [(1, 5)]]) [] = .ok (o', d') ∧ o.simple = [0, 2, 3, 4] ∧ o'.simple = [0, 4] := by
  have key : ∀ {r : Res (Out Plane.Pt (List Plane.Pt) Plane.Bx × (Int → Bool))} {l : List Int}, (match r with | .ok (o, _) => o.simple | _ => []) = l → l ≠ [] →
      ∃ o d, r = .ok (o, d) ∧ o.simple = l := by
    intro r l h1 h2
    cases r with
    | ok r => exact ⟨r.1, r.2, rfl, h1⟩
    | panic => exact absurd h1.symm h2
    | timeout => exact absurd h1.symm h2
  obtain ⟨o, d, e, h⟩ := key (r := Plane.run (sidedLine [[(4, 4)], [(0, 2)]]) []) (l := [0, 2, 3, 4]) (by decide +kernel) (by simp)
  obtain ⟨o', d', e', h'⟩ := key (r := Plane.run (sidedLine [[(4, 4)], [(0, 2)], [(1, 5)]]) []) (l := [0, 4]) (by decide +kernel) (by simp)
  exact ⟨o, o', d, d', e, e', h, h'⟩

/-! ### concrete cases -/

/-- switching on the geometric relation for the line of C103 keeps the two ends and adds a vertex -/
example : ∃ o1 d1 o2 d2, simplify ((Plane.env (fun _ => archLine)).relations false false false) (fun n => n) 0 [] (fun _ => false) 60 = .ok (o1, d1) ∧
    simplify ((Plane.env (fun _ => archLine)).relations true false false) (fun n => n) 0 [] (fun _ => false) 60 = .ok (o2, d2) ∧ o1.simple = [0, 6] ∧ o2.simple = [0, 2, 6] ∧
    ∃ ls, ConstrainedDP ((Plane.env (fun _ => archLine)).inst 0).scoreFn ((Plane.env (fun _ => archLine)).inst 0).rel (FixedVertex (Plane.env (fun _ => archLine)) 0 [])
      (Rejected ((Plane.env (fun _ => archLine)).relations true false false) (fun _ => archLine.pts) 0) archLine.pts ls ∧ ∀ v ∈ o1.simple, EndOf ls v := by
  have key : ∀ {r : Res (Out Plane.Pt (List Plane.Pt) Plane.Bx × (Int → Bool))} {l : List Int}, (match r with | .ok (o, _) => o.simple | _ => []) = l → l ≠ [] →
      ∃ o d, r = .ok (o, d) ∧ o.simple = l := by
    intro r l h1 h2
    cases r with
    | ok r => exact ⟨r.1, r.2, rfl, h1⟩
    | panic => exact absurd h1.symm h2
    | timeout => exact absurd h1.symm h2
  obtain ⟨o1, d1, e1, h1⟩ := key (r := simplify ((Plane.env (fun _ => archLine)).relations false false false) (fun n => n) 0 [] (fun _ => false) 60) (l := [0, 6])
    (by decide +kernel) (by simp)
  obtain ⟨o2, d2, e2, h2⟩ := key (r := simplify ((Plane.env (fun _ => archLine)).relations true false false) (fun n => n) 0 [] (fun _ => false) 60) (l := [0, 2, 6])
    (by decide +kernel) (by simp)
  have hi : InstOK (Plane.env (fun _ => archLine)) 0 archLine.pts := Plane.inst_ok (lines := fun _ => archLine) (by decide) (by decide +kernel)
  obtain ⟨ls, a, b, -⟩ := C104_relations_partial (pts := fun _ => archLine.pts) Plane.env_ok Plane.lnr_ok hi rfl (by simp) (by simp) (by simp) (by simp) (fun h => by cases h)
    (fun a b h => by simpa using h) (fun a b h => by simpa using h) e1 e2
  exact ⟨o1, d1, o2, d2, e1, e2, h1, h2, ls, a, b⟩

namespace Axis

/-- a line running to and fro that keeps its self-intersections, with constraint points -/
def swing (ctx : List Int) : Demo.Line Int Int Int :=
  ⟨[0, 5, 9, 2, 7, 6, 1, 8, 4], ctx, { opts 30 2 with nonPlanarSelf := false, dirRelation := false, avoidNewSelfIntersects := false }⟩

/-- the run with the constraints `ctx` -/
def swingRun (ctx : List Int) : Sched Int Int Bx Int := ⟨Demo.heur, Hdb.listHeap, fun _ l => l, fun _ l => l, fun h => Demo.ctxdb lib h ctx⟩

theorem swingRun_legal (ctx : List Int) : LegalRun (env (fun _ => swing [])) 0 ctx (swingRun ctx) :=
  ⟨Demo.heur_legal, ⟨Hdb.nearLe, Hdb.listHeap_legal, fun _ _ _ h1 h2 => Fl.le_trans h1 h2⟩, fun _ l => List.Perm.refl l, fun _ l => List.Perm.refl l,
    Demo.heur, Demo.heur_legal, ctx, List.Perm.refl _, ctxdb_yields 0 _⟩

/-- the fixed vertex 6 and the ends are kept without constraints; with the constraint point 8 they are still kept, with two more -/
example : ∃ o1 d1 o2 d2, run (swing []) [6] = .ok (o1, d1) ∧ run (swing [8]) [6] = .ok (o2, d2) ∧ o1.simple = [0, 6, 8] ∧ o2.simple = [0, 2, 6, 7, 8] ∧
    ∃ ls, ConstrainedDP ((env (fun _ => swing [])).inst 0).scoreFn ((env (fun _ => swing [])).inst 0).rel (FixedVertex (env (fun _ => swing [])) 0 [6])
      (Rejected ((env (fun _ => swing [])).run (swingRun [8])) (fun _ => (swing []).pts) 0) (swing []).pts ls ∧ ∀ v ∈ o1.simple, EndOf ls v := by
  have key : ∀ {r : Res (Out Int Int Bx × (Int → Bool))} {l : List Int}, (match r with | .ok (o, _) => o.simple | _ => []) = l → l ≠ [] →
      ∃ o d, r = .ok (o, d) ∧ o.simple = l := by
    intro r l h1 h2
    cases r with
    | ok r => exact ⟨r.1, r.2, rfl, h1⟩
    | panic => exact absurd h1.symm h2
    | timeout => exact absurd h1.symm h2
  obtain ⟨o1, d1, e1, h1⟩ := key (r := run (swing []) [6]) (l := [0, 6, 8]) (by decide +kernel) (by simp)
  obtain ⟨o2, d2, e2, h2⟩ := key (r := run (swing [8]) [6]) (l := [0, 2, 6, 7, 8]) (by decide +kernel) (by simp)
  refine ⟨o1, d1, o2, d2, e1, e2, h1, h2, ?_⟩
  have hi : ∀ ctx, InstOK (env (fun _ => swing ctx)) 0 (swing ctx).pts := fun ctx =>
    inst_ok (lines := fun _ => swing ctx) (by show 2 ≤ (swing []).pts.length; decide) (by show (Fl.fin 0).le (swing []).opts.sqThreshold = true; decide)
  have hcv : ∀ i ∈ [(6 : Int)], 0 ≤ i ∧ i < ((swing []).pts.length : Int) := by decide
  obtain ⟨ls, a, b, -⟩ := C104_constraints_partial (env := env (fun _ => swing [])) (pts := fun _ => (swing []).pts) (h := 0) env_ok lnr_ok (hi []) (fun q g b hb => by
      show (Fl.fin (boxGap (span q) b)).le (.fin (gap (span q) (span g))) = true
      rw [Fl.fin_le_fin, decide_eq_true_eq]
      exact boxGap_le hb) rfl rfl hcv (geoms1 := []) (geoms2 := [8]) (by simp) (swingRun_legal []) (swingRun_legal [8]) Hdb.listHeap_legal Hdb.listHeap_legal
    (fun _ => (hull_near (lines := fun _ => swing []) (h := 0)).splittable (hi []) hcv) (fun _ => (hull_near (lines := fun _ => swing [8]) (h := 0)).splittable (hi [8]) hcv)
    (ids1 := fun n => n) (ids2 := fun n => n) (fun a b h => by simpa using h) (fun a b h => by simpa using h) e1 e2
  exact ⟨ls, a, b⟩

end Axis

end Verif
