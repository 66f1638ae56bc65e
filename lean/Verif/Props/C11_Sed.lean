import Verif.Lemmas.DeformLoop
import Verif.Lemmas.Mono
import Verif.Demo.Axis

/-! C11: simplification by synchronised distance of lines whose synchronised distances are not numbers. -/

set_option linter.unusedSectionVars false

namespace Verif

section

variable {P C B K : Type} [LinearOrder B] [BoundedOrder B] [LinearOrder K] [Zero K]

/-- if no distance is a number the score is 0, at the last vertex -/
theorem maxLoop_nan {dist : Int → Res (Fl K)} (todo : Nat) : ∀ (k index : Int) (off : Fl K), (∀ t : Nat, t < todo → dist (k + t) = .ok .nan) →
    maxLoop dist todo k index off = .ok (index, off) := by
  induction todo with
  | zero => intro k index off _; rfl
  | succ todo ih =>
    intro k index off h
    have h0 : dist k = .ok .nan := by have := h 0 (by omega); simpa using this
    have hn : ((.nan : Fl K)).ge off = false := by cases off <;> rfl
    simp only [maxLoop, h0, Res.ok_bind, hn, Bool.false_eq_true, if_false]
    refine ih _ _ _ (fun t ht => ?_)
    have := h (t + 1) (by omega)
    rw [← this]; congr 1; push_cast; omega

/-- the synchronised distances of the line `ps` are not numbers -/
def NoTime (sed : P → P → P → Fl K) (ps : List P) : Prop := ∀ a ∈ ps, ∀ b ∈ ps, ∀ p ∈ ps, sed a b p = .nan

/-- a line whose vertices all have the same time (all zero if the input has no third coordinate) has no usable times, for both distance functions of
offset/sed.go -/
theorem noTime_of_constant {A : Arith K} (hA : A.Ieee) (one : Fl K) {qs : List (Fl K × Fl K × Fl K)} {t : K} (ht : ∀ q ∈ qs, q.2.2 = .fin t) :
    NoTime (sedDist A (hypot A one)) qs ∧ NoTime (sedDist A (squareHypot A)) qs := by
  have hm : ∀ a ∈ qs, ∀ b ∈ qs, ∀ p ∈ qs, ∀ w, A.mul (A.div w (A.sub b.2.2 a.2.2)) (A.sub p.2.2 a.2.2) = .nan := by
    intro a ha b hb p hp w
    rw [ht a ha, ht b hb, ht p hp, hA.sub_self]
    exact hA.mul_zero _ (hA.div_zero _)
  constructor
  · intro a ha b hb p hp
    simp only [sedDist, hm a ha b hb p hp, hA.nan_mul, hA.add_nan, hA.sub_nan, hypot, Fl.nan_lt, Bool.false_eq_true, if_false, Fl.nan_le, Bool.false_and]
  · intro a ha b hb p hp
    simp only [sedDist, hm a ha b hb p hp, hA.nan_mul, hA.add_nan, hA.sub_nan, squareHypot]

theorem sed_nan {sed : P → P → P → Fl K} {ps : List P} (hn : NoTime sed ps) (h3 : 3 ≤ ps.length) :
    maxSEDOffset sed (Coords.sub ps 0 ((ps.length : Int) - 1)) = .ok ((ps.length : Int) - 1, .fin 0) := by
  have hlen : (Coords.sub ps 0 ((ps.length : Int) - 1)).len = ps.length := by rw [Coords.len_sub _ _ _ (by omega)]; omega
  have hp : ∀ k : Int, 0 ≤ k → k < ps.length → ∃ p ∈ ps, (Coords.sub ps 0 ((ps.length : Int) - 1)).pt k = .ok p := by
    intro k h0 h1
    obtain ⟨p, hp, hp'⟩ := Coords.pt_sub_ok (pts := ps) (i := 0) (j := (ps.length : Int) - 1) (k := k) h0 (by omega) (by omega) (by omega)
    exact ⟨p, List.mem_of_getElem? hp', hp⟩
  obtain ⟨a, ha, ea⟩ := hp 0 (by omega) (by omega)
  obtain ⟨b, hb, eb⟩ := hp ((ps.length : Int) - 1) (by omega) (by omega)
  unfold maxSEDOffset
  simp only [hlen]
  rw [if_neg (by omega)]
  simp only [ea, eb, Res.ok_bind]
  refine maxLoop_nan _ _ _ _ (fun t ht => ?_)
  obtain ⟨p, hp, ep⟩ := hp (1 + t) (by omega) (by omega)
  simp only [ep, Res.ok_bind, Res.pure_eq, hn a ha b hb p hp]

variable {env : Env P C B K} {ids : Nat → Int} {h : Int} {ps : List P}

/-- the whole line as one piece -/
structure Whole (env : Env P C B K) (ps : List P) (h : Int) (G : Geo P C) (x : Node P C B) : Prop where
  inst : x.inst = h
  coords : x.coords = Coords.sub ps 0 ((ps.length : Int) - 1)
  range : x.range = ⟨0, (ps.length : Int) - 1⟩
  geom : x.geom = G
  mbr : x.mbr = env.lib.bounds G

/-- The situation: the line has at least three vertices, its hull and the hull of its last vertex can be built, the instance uses the synchronised distance
and has no usable times, only the geometric relation is on, and the line as a whole does not respect the constraints. -/
structure Stuck (env : Env P C B K) (sed : P → P → P → Fl K) (ps : List P) (h : Int) (G : Geo P C) : Prop where
  three : 3 ≤ ps.length
  score : (env.inst h).scoreFn = maxSEDOffset sed
  noTime : NoTime sed ps
  accept : (env.inst h).rel (.fin 0) = true
  pln : (env.inst h).pln = createPolyline (coordsOf ps)
  hull : hullGeometry (env.lib.convexHull (Coords.sub ps 0 ((ps.length : Int) - 1))) = .ok G
  proper : G.isLineString = false
  last : ∃ g : Geo P C, hullGeometry (env.lib.convexHull (Coords.sub ps ((ps.length : Int) - 1) ((ps.length : Int) - 1))) = .ok g
  planar : (env.inst h).opts.planarSelf = false
  avoid : (env.inst h).opts.avoidNewSelfIntersects = false
  geomOn : (env.inst h).opts.geomRelation = true
  distOff : (env.inst h).opts.distRelation = false
  dirOff : (env.inst h).opts.dirRelation = false
  ctx : Hdb.TreeWF nodeOps (env.inst h).ctxdb
  bad : ∀ x : Node P C B, Whole env ps h G x → ¬ Yields (validateContextRelation env x (env.inst h)) true

variable {sed : P → P → P → Fl K} {G : Geo P C}

/-- identifiers are distinct and will not be used again, every piece with more than two vertices is the whole line -/
structure StuckList (env : Env P C B K) (ps : List P) (h : Int) (G : Geo P C) (ids : Nat → Int) (g : Nat) (l : List (Node P C B)) : Prop where
  nodup : (l.map Node.id).Nodup
  fresh : ∀ nd ∈ l, ∀ k, g ≤ k → nd.id ≠ ids k
  piece : ∀ nd ∈ l, nd.inst = h ∧ (nd.range.size > 1 → Whole env ps h G nd)

theorem StuckList.perm {g : Nat} {l l' : List (Node P C B)} (h1 : StuckList env ps h G ids g l) (hp : l.Perm l') : StuckList env ps h G ids g l' :=
  ⟨(hp.map _).nodup_iff.1 h1.nodup, fun nd hnd => h1.fresh nd (hp.mem_iff.2 hnd), fun nd hnd => h1.piece nd (hp.mem_iff.2 hnd)⟩

/-- splitting the whole line gives the whole line and its last vertex -/
theorem split_whole (hs : Stuck env sed ps h G) {x : Node P C B} (hx : Whole env ps h G x) (g : Nat) :
    ∃ ha hb, atScoreSelection env.lib ids g (env.inst h).scoreFn x = .ok (ha, hb, g + 2) ∧ Whole env ps h G ha ∧ ha.id = ids g ∧ hb.inst = h ∧
      hb.range.size = 0 ∧ hb.id = ids (g + 1) := by
  obtain ⟨gl, hgl⟩ := hs.last
  have h3 := hs.three
  have hlen : (Coords.sub ps 0 ((ps.length : Int) - 1)).len = ps.length := by rw [Coords.len_sub _ _ _ (by omega)]; omega
  have s1 := Coords.slice_sub (pts := ps) (i := 0) (j := (ps.length : Int) - 1) (a := 0) (b := (ps.length : Int) - 1 + 1) (by omega) (by omega) (by omega)
  have s2 := Coords.slice_sub (pts := ps) (i := 0) (j := (ps.length : Int) - 1) (a := (ps.length : Int) - 1) (b := (ps.length : Int)) (by omega) (by omega)
    (by omega)
  rw [show (0 : Int) + 0 = 0 by omega, show (0 : Int) + ((ps.length : Int) - 1 + 1) - 1 = (ps.length : Int) - 1 by omega] at s1
  rw [show (0 : Int) + ((ps.length : Int) - 1) = (ps.length : Int) - 1 by omega, show (0 : Int) + (ps.length : Int) - 1 = (ps.length : Int) - 1 by omega] at s2
  refine ⟨⟨ids g, Coords.sub ps 0 ((ps.length : Int) - 1), ⟨0, (ps.length : Int) - 1⟩, env.lib.bounds G, G, h⟩,
    ⟨ids (g + 1), Coords.sub ps ((ps.length : Int) - 1) ((ps.length : Int) - 1), ⟨(ps.length : Int) - 1, (ps.length : Int) - 1⟩, env.lib.bounds gl, gl, h⟩,
    ?_, ⟨rfl, rfl, rfl, rfl, rfl⟩, rfl, rfl, by simp [Rng.size], rfl⟩
  simp only [atScoreSelection, hx.coords, hx.range, hx.inst, hs.score, sed_nan hs.noTime h3, Res.ok_bind, s1, hlen, s2, createNode, hs.hull, hgl, Res.pure_eq,
    Int.zero_add]

theorem stuck_deform (hs : Stuck env sed ps h G) (hinj : Function.Injective ids) : ∀ (sel rest : List (Node P C B)) (g : Nat) (dirty : Int → Bool),
    StuckList env ps h G ids g (sel ++ rest) → ∃ out g' dirty', deformNodesLoop env ids sel g dirty = .ok (out, g', dirty') ∧
      StuckList env ps h G ids g' (out ++ rest) ∧ ((∃ x ∈ sel, Whole env ps h G x) → ∃ x ∈ out, Whole env ps h G x) := by
  intro sel
  induction sel with
  | nil => intro rest g dirty hl; exact ⟨[], g, dirty, rfl, hl, by simp⟩
  | cons x sel ih =>
    intro rest g dirty hl
    by_cases hsz : x.range.size > 1
    · obtain ⟨hxi, hw⟩ := hl.piece x (by simp)
      obtain ⟨ha, hb, e1, w1, i1, i2, r2, i3⟩ := split_whole (ids := ids) hs (hw hsz) g
      have hl1 : StuckList env ps h G ids (g + 2) (sel ++ (ha :: hb :: rest)) := by
        have hp : (ha :: hb :: (sel ++ rest)).Perm (sel ++ (ha :: hb :: rest)) := by
          have : (sel ++ ([ha, hb] ++ rest)).Perm ([ha, hb] ++ (sel ++ rest)) := List.perm_append_comm_assoc _ _ _
          exact this.symm
        refine StuckList.perm ⟨?_, ?_, ?_⟩ hp
        · have hn := hl.nodup
          rw [List.cons_append, List.map_cons, List.nodup_cons] at hn
          rw [List.map_cons, List.map_cons, List.nodup_cons, List.nodup_cons]
          have hfr : ∀ k, g ≤ k → ids k ∉ (sel ++ rest).map Node.id := by
            intro k hk hm
            obtain ⟨y, hy, hyk⟩ := List.mem_map.1 hm
            exact hl.fresh y (List.mem_cons_of_mem _ hy) k hk hyk
          refine ⟨?_, by rw [i3]; exact hfr _ (by omega), hn.2⟩
          rw [List.mem_cons, not_or, i1, i3]
          exact ⟨fun hc => by have := hinj hc; omega, hfr _ (by omega)⟩
        · intro nd hnd k hk
          rcases List.mem_cons.1 hnd with rfl | hnd
          · rw [i1]; exact fun hc => by have := hinj hc; omega
          · rcases List.mem_cons.1 hnd with rfl | hnd
            · rw [i3]; exact fun hc => by have := hinj hc; omega
            · exact hl.fresh nd (List.mem_cons_of_mem _ hnd) k (by omega)
        · intro nd hnd
          rcases List.mem_cons.1 hnd with rfl | hnd
          · exact ⟨w1.inst, fun _ => w1⟩
          · rcases List.mem_cons.1 hnd with rfl | hnd
            · exact ⟨i2, fun hc => by omega⟩
            · exact hl.piece nd (List.mem_cons_of_mem _ hnd)
      obtain ⟨out, g', d', e2, hl2, -⟩ := ih (ha :: hb :: rest) (g + 2) (markDirty dirty x.inst) hl1
      refine ⟨ha :: hb :: out, g', d', ?_, ?_, fun _ => ⟨ha, by simp, w1⟩⟩
      · simp only [deformNodesLoop, hsz, if_true, hxi] at e2 ⊢
        simp only [e1, e2, Res.ok_bind, Res.pure_eq]
      · refine hl2.perm ?_
        have : (out ++ ([ha, hb] ++ rest)).Perm ([ha, hb] ++ (out ++ rest)) := List.perm_append_comm_assoc _ _ _
        exact this
    · obtain ⟨out, g', d', e2, hl2, w2⟩ := ih (x :: rest) g dirty (hl.perm (by rw [List.cons_append]; exact List.perm_middle.symm))
      refine ⟨x :: out, g', d', ?_, hl2.perm (by rw [List.cons_append]; exact List.perm_middle), ?_⟩
      · simp only [deformNodesLoop, hsz, if_false, e2, Res.ok_bind, Res.pure_eq]
      · rintro ⟨y, hy, hw⟩
        rcases List.mem_cons.1 hy with rfl | hy
        · exact absurd (by rw [hw.range]; simp only [Rng.size]; have := hs.three; omega) hsz
        · obtain ⟨z, hz, hwz⟩ := w2 ⟨y, hy, hw⟩
          exact ⟨z, List.mem_cons_of_mem _ hz, hwz⟩

theorem stuck_validate (he : EnvOK env) (hs : Stuck env sed ps h G) (x : Node P C B) : ∃ b, Yields (validateContextRelation env x (env.inst h)) b := by
  obtain ⟨near, hlg, hmono⟩ := he.heap
  obtain ⟨l, ⟨N, hN⟩, -⟩ := Hdb.contextNeighbours_yields (strong := False) hs.ctx hlg hmono (boxDist := env.lib.boxDistance x.geom)
    (itemDist := fun nd => env.lib.distance x.geom nd.geom) (by simp) (env.inst h).opts.minDist
  refine ⟨isGeomRelateValid env.lib x (l.map Node.geom), ⟨N, fun fuel hf => ?_⟩⟩
  simp only [validateContextRelation, hs.geomOn, hs.distOff, hs.dirOff, hN fuel hf, Bool.or_false, Bool.not_true, Bool.false_eq_true, if_false, Res.ok_bind,
      andThen, Bool.and_true, if_true, Bool.and_false]

theorem stuck_select (he : EnvOK env) (hs : Stuck env sed ps h G) (dirty : Int → Bool) (db : Db P C B) : ∀ (defs : List (Node P C B)),
    (∀ x ∈ defs, x.inst = h) → ∃ s, Yields (fun fuel => selectionsOf env dirty db fuel defs) s ∧ (∀ x ∈ s, x ∈ defs) ∧
      ∀ x ∈ defs, Whole env ps h G x → x ∈ s := by
  intro defs
  induction defs with
  | nil => intro _; exact ⟨[], ⟨0, fun _ _ => rfl⟩, by simp, by simp⟩
  | cons x defs ih =>
    intro hd
    obtain ⟨s, ⟨N, hN⟩, s1, s2⟩ := ih (fun y hy => hd y (List.mem_cons_of_mem _ hy))
    have hx := hd x (by simp)
    obtain ⟨b, ⟨M, hM⟩⟩ := stuck_validate he hs x
    have hsel : ∃ t, Yields (hullSelections env dirty db x) t ∧ (∀ y ∈ t, y = x) ∧ (Whole env ps h G x → x ∈ t) := by
      by_cases h1 : x.range.size = 1
      · refine ⟨[], ⟨0, fun _ _ => by simp only [hullSelections, h1, if_true]⟩, by simp, fun hw => ?_⟩
        rw [hw.range] at h1
        simp only [Rng.size] at h1
        have := hs.three
        omega
      · by_cases h2 : x.geom.isLineString = true
        · refine ⟨[], ⟨0, fun _ _ => by simp only [hullSelections, h1, if_false, h2, if_true]⟩, by simp, fun hw => ?_⟩
          rw [hw.geom, hs.proper] at h2; cases h2
        · refine ⟨if b then [] else [x], ⟨M, fun fuel hf => ?_⟩, by cases b <;> simp, fun hw => ?_⟩
          · simp only [hullSelections, h1, if_false, h2, Bool.false_eq_true, fcSelections, hx, hs.avoid, Res.ok_bind, ctxSelections, notSelected, List.any_nil,
              Bool.not_false, if_true, hM fuel hf, Res.pure_eq, List.nil_append]
          · cases b with
            | true => exact absurd ⟨M, hM⟩ (hs.bad x hw)
            | false => simp
    obtain ⟨t, ⟨L, hL⟩, t1, t2⟩ := hsel
    refine ⟨t ++ s, ⟨max L N, fun fuel hf => ?_⟩, fun y hy => ?_, fun y hy hw => ?_⟩
    · have e := hN fuel (by omega)
      simp only [] at e
      simp only [selectionsOf, hL fuel (by omega), e, Res.ok_bind, Res.pure_eq]
    · rcases List.mem_append.1 hy with hy | hy
      · rw [t1 y hy]; simp
      · exact List.mem_cons_of_mem _ (s1 y hy)
    · rcases List.mem_cons.1 hy with rfl | hy
      · exact List.mem_append_left _ (t2 hw)
      · exact List.mem_append_right _ (s2 y hy hw)

/-- the deformation loop never ends -/
theorem stuck_loop (he : EnvOK env) (hs : Stuck env sed ps h G) (hinj : Function.Injective ids) : ∀ (fuel : Nat) (st : LoopSt P C B) (defs : List (Node P C B)),
    DbOK st.db → StuckList env ps h G ids st.g (Hdb.contents st.db) → (∀ x ∈ defs, x ∈ Hdb.contents st.db) → (∃ x ∈ defs, Whole env ps h G x) →
    deformLoop env ids fuel defs st = .timeout := by
  intro fuel
  induction fuel with
  | zero => intros; rfl
  | succ fuel ih =>
    intro st defs hd hl hm hw
    obtain ⟨x, hx, hwx⟩ := hw
    have hne : defs ≠ [] := fun h0 => by rw [h0] at hx; cases hx
    obtain ⟨s, ⟨N, hN⟩, s1, s2⟩ := stuck_select he hs st.dirty st.db defs (fun y hy => (hl.piece y (hm y hy)).1)
    obtain ⟨d1, d2, d3⟩ := dedupId_spec s
    have hy : Yields (findDeformable env st.dirty defs st.db) (dedupId s) := ⟨N, fun f hf => by
      have e := hN f hf
      simp only [] at e
      simp only [findDeformable, e, Res.ok_bind, Res.pure_eq]⟩
    simp only [deformLoop, hne, if_false]
    rcases (findDeformable_le env st.dirty defs st.db).eq_of_yields hy fuel with e | e
    · simp only [e]; rfl
    obtain ⟨y, hy1, hy2⟩ := d3 x (s2 x hx hwx)
    have hyx : y = x := List.inj_on_of_nodup_map hl.nodup (hm y (s1 y (d1 y hy1))) (hm x hx) hy2
    subst hyx
    have hne' : dedupId s ≠ [] := fun h0 => by rw [h0] at hy1; cases hy1
    simp only [e, Res.ok_bind, hne', if_false]
    have o1 := he.ord st.g (dedupId s)
    have o2 := he.ordRm st.g (dedupId s)
    have hsub : ∀ z ∈ dedupId s, z ∈ Hdb.contents st.db := fun z hz => hm z (s1 z (d1 z hz))
    obtain ⟨rest, hr⟩ := exists_rest d2 hsub
    obtain ⟨out, g', dirty', e1, hl1, w1⟩ := stuck_deform hs hinj (env.ord st.g (dedupId s)) rest st.g st.dirty
      (hl.perm (hr.trans (o1.symm.append_right rest)))
    obtain ⟨db1, ⟨N1, h1⟩, k1, p1⟩ := cleanUpLoop_yields (env.ordRm st.g (dedupId s)) st.db hd hl.nodup ((o2.map _).nodup_iff.2 d2)
      (fun x hx => hsub x (o2.mem_iff.1 hx))
    obtain ⟨db2, ⟨N2, h2⟩, k2, p2⟩ := k1.load he out
    have hrest : (Hdb.contents db1).Perm rest := by
      have h3 : (dedupId s ++ Hdb.contents db1).Perm (dedupId s ++ rest) := ((o2.append_right _).symm.trans (p1.symm)).trans hr
      exact (List.perm_append_left_iff _).1 h3
    have p3 : (Hdb.contents db2).Perm (out ++ rest) := p2.trans (List.perm_append_comm.trans (hrest.append_left out))
    have hround : Yields (deformRound env ids st (dedupId s)) (out, ⟨db2, g', dirty'⟩) := ⟨max N1 N2, fun f hf => by
      have a1 := h1 f (by omega)
      have a2 := h2 f (by omega)
      simp only [] at a1 a2
      simp only [deformRound, e1, a1, a2, Res.ok_bind, Res.pure_eq]⟩
    rcases (deformRound_le env ids st (dedupId s)).eq_of_yields hround fuel with e3 | e3
    · rw [e3]; rfl
    · rw [e3]
      exact ih ⟨db2, g', dirty'⟩ out k2 (hl1.perm p3.symm) (fun z hz => p3.mem_iff.2 (List.mem_append_left _ hz))
        (w1 ⟨y, o1.mem_iff.2 hy1, hwx⟩)

/-- C11, the part that holds: the unconstrained decomposition of such a line ends, with the whole line in one piece (whatever the tolerance) -/
theorem C11_unconstrained_partial {lib : Lib P C B K} {rel : Fl K → Bool} (h3 : 3 ≤ ps.length) (hn : NoTime sed ps) (hrel : rel (.fin 0) = true)
    (hh : hullGeometry (lib.convexHull (Coords.sub ps 0 ((ps.length : Int) - 1))) = .ok G) (g : Nat) :
    Yields (decompose lib ids g (createPolyline (coordsOf ps)) (maxSEDOffset sed) rel h)
      ([⟨ids g, Coords.sub ps 0 ((ps.length : Int) - 1), ⟨0, (ps.length : Int) - 1⟩, lib.bounds G, G, h⟩], g + 1) := by
  have hlen : (coordsOf ps).len = ps.length := by rw [coordsOf, Coords.len_sub _ _ _ (by omega)]; omega
  have hpl : createPolyline (coordsOf ps) = ⟨some (coordsOf ps)⟩ := by rw [createPolyline, if_neg (by omega)]
  refine ⟨2, fun f hf => ?_⟩
  obtain ⟨f, rfl⟩ := Nat.exists_eq_add_of_le' hf
  simp only [decompose, hpl, range_ok (show 2 ≤ ps.length by omega), Res.ok_bind]
  have hsc : (⟨some (coordsOf ps)⟩ : Polyline P).subCoordinates ⟨0, (ps.length : Int) - 1⟩ = .ok (Coords.sub ps 0 ((ps.length : Int) - 1)) := rfl
  simp only [dpLoop, hsc, Res.ok_bind, sed_nan hn h3, hrel, if_true, createNode, hh, Res.pure_eq, List.nil_append]

/-- C11, the part that holds: if the synchronised distances are numbers ≥ 0 (or infinite) the assumption of C10 on the score function is met -/
theorem C11_usable_partial (hpln : (env.inst h).pln = createPolyline (coordsOf ps)) (h2 : 2 ≤ ps.length) (hull : HullOk env.lib ps)
    (box : ∀ i j : Int, 0 ≤ i → i < j → j < ps.length → ∀ g : Geo P C, hullGeometry (env.lib.convexHull (Coords.sub ps i j)) = .ok g → (env.lib.bounds g).Valid)
    (hsc : (env.inst h).scoreFn = maxSEDOffset sed) (hpos : ∀ a ∈ ps, ∀ b ∈ ps, ∀ p ∈ ps, (Fl.fin 0).le (sed a b p) = true)
    (hrel : (env.inst h).rel (.fin 0) = true) (hctx : Hdb.TreeWF nodeOps (env.inst h).ctxdb) (he : EnvOK env) (hl : LnrOK env.lnr)
    (hinj : Function.Injective ids) {cv : List Int} (hcv : ∀ i ∈ cv, 0 ≤ i ∧ i < ps.length) (dirty : Int → Bool) :
    ∃ r, Yields (simplify env ids h cv dirty) r := by
  refine C10_terminates (pts := fun _ => ps) he hl ⟨hpln, h2, hull, box, ?_, ?_, hctx⟩ hinj hcv dirty
  · rw [hsc]; exact maxOffset_splitsInside sed _ hrel ps
  · intro i j h0 h1 h2
    rw [hsc]
    have hlen : (Coords.sub ps i j).len = j + 1 - i := Coords.len_sub _ _ _ (by omega)
    have hq : ∀ k, 0 ≤ k → k < (Coords.sub ps i j).len → (Coords.sub ps i j).pt k = .ok (ps[(i + k).toNat]?.getD (ps[0]'(by omega))) := by
      intro k hk0 hk1
      obtain ⟨p, hp, hp'⟩ := Coords.pt_sub_ok (pts := ps) (i := i) (j := j) (k := k) (by omega) (by omega) h0 h2
      rw [hp', hp]; rfl
    have hm : ∀ k : Int, ps[k.toNat]?.getD (ps[0]'(by omega)) ∈ ps := by
      intro k
      cases e : ps[k.toNat]? with
      | none => exact List.getElem_mem _
      | some p => exact List.mem_of_getElem? e
    obtain ⟨k, e, k0, k1, -⟩ := C03_maxOffset sed _ _ (by omega) hq (fun _ _ _ => hpos _ (hm _) _ (hm _) _ (hm _))
    exact ⟨k, _, e, k0, by omega⟩

/-- C11 is false as stated: a line without usable times that does not respect a constraint as a whole is simplified for ever.  (The score names the last
vertex, so splitting the line gives the line itself and a piece of one vertex.) -/
theorem C11_refuted (he : EnvOK env) (hs : Stuck env sed ps h G) (hinj : Function.Injective ids) (cv : List Int) (dirty : Int → Bool) :
    Diverges (simplify env ids h cv dirty) := by
  intro fuel
  have h3 := hs.three
  let x : Node P C B := ⟨ids 0, Coords.sub ps 0 ((ps.length : Int) - 1), ⟨0, (ps.length : Int) - 1⟩, env.lib.bounds G, G, h⟩
  have hw : Whole env ps h G x := ⟨rfl, rfl, rfl, rfl, rfl⟩
  have hdec : Yields (decompose env.lib ids 0 (env.inst h).pln (env.inst h).scoreFn (env.inst h).rel h) ([x], 1) := by
    rw [hs.pln, hs.score]
    exact C11_unconstrained_partial h3 hs.noTime hs.accept hs.hull 0
  unfold simplify
  rcases (decompose_le env.lib ids 0 (env.inst h).pln (env.inst h).scoreFn (env.inst h).rel h).eq_of_yields hdec fuel with e | e
  · simp only [e]; rfl
  have hts : toSelfIntersects env ids 1 [x] (env.inst h) cv fuel = .ok ([x], [], 1) := by
    simp only [toSelfIntersects, hs.planar, Bool.not_false, if_true]
  simp only [e, Res.ok_bind, hts]
  obtain ⟨db, hy, k, p⟩ := DbOK.new.load he [x]
  rw [contents_new, List.nil_append] at p
  rcases (Hdb.load_le nodeOps env.heur (Hdb.newHdb Hdb.defaultCap) [x]).eq_of_yields hy fuel with e | e
  · simp only [e]; rfl
  simp only [e, Res.ok_bind]
  have hst : StuckList env ps h G ids 1 [x] := by
    refine ⟨by simp, fun nd hnd k hk => ?_, fun nd hnd => ?_⟩
    · rw [List.mem_singleton.1 hnd]
      exact fun hc => by have := hinj hc; omega
    · rw [List.mem_singleton.1 hnd]; exact ⟨rfl, fun _ => hw⟩
  rw [stuck_loop he hs hinj fuel ⟨db, 1, markDirty dirty h⟩ [x] k (hst.perm p.symm) (fun y hy => p.mem_iff.2 hy) ⟨x, by simp, hw⟩]
  rfl

end

/-! ### a concrete case -/

namespace Axis

/-- arithmetic on the integers with the rules of `Arith.Ieee` -/
def arith : Arith Int where
  add a b := match a, b with | .fin x, .fin y => .fin (x + y) | _, _ => .nan
  sub a b := match a, b with | .fin x, .fin y => .fin (x - y) | _, _ => .nan
  mul a b := match a, b with | .fin x, .fin y => .fin (x * y) | _, _ => .nan
  div a b := match a, b with | .fin x, .fin y => if y = 0 then .pinf else .fin (x / y) | _, .fin 0 => .pinf | _, _ => .nan
  sqrt a := a
  magnitude a _ := a
  cosOf _ _ := .fin 1
  sinOf _ _ := .fin 0

theorem arith_ieee : arith.Ieee := by
  refine ⟨fun k => by simp [arith], fun a => by cases a <;> simp [arith], fun a h => ?_, fun a => by cases a <;> rfl, fun a => by cases a <;> rfl,
    fun a => by cases a <;> rfl, fun a => by cases a <;> rfl⟩
  rcases h with rfl | rfl | rfl <;> rfl

/-- the synchronised distance on the axis, every vertex at time 0 -/
def sed (a b p : Int) : Fl Int := sedDist arith (hypot arith (.fin 1)) (.fin a, .fin 0, .fin 0) (.fin b, .fin 0, .fin 0) (.fin p, .fin 0, .fin 0)

/-- the line 0, 5, 2 beside the constraint 4, geometric relation only -/
def sedLine : Demo.Line Int Int Int :=
  ⟨[0, 5, 2], [4], { opts 10 2 with planarSelf := false, avoidNewSelfIntersects := false, distRelation := false, dirRelation := false }⟩

def sedEnv : Env Int Int Bx Int := { env (fun _ => sedLine) with
  inst := fun h => { (env (fun _ => sedLine)).inst h with score := maxSEDOffset sed, square := none } }

theorem sed_stuck : Stuck sedEnv sed sedLine.pts 0 (.poly (Coords.sub [0, 5, 2] 0 2)) where
  three := by decide
  score := rfl
  noTime := by
    intro a _ b _ p _
    exact (noTime_of_constant (t := 0) (qs := [(.fin a, .fin 0, .fin 0), (.fin b, .fin 0, .fin 0), (.fin p, .fin 0, .fin 0)]) arith_ieee (.fin 1) (by simp)).1
      (.fin a, .fin 0, .fin 0) (by simp) (.fin b, .fin 0, .fin 0) (by simp) (.fin p, .fin 0, .fin 0) (by simp)
  accept := rfl
  pln := rfl
  hull := rfl
  proper := rfl
  last := ⟨.point 2, rfl⟩
  planar := rfl
  avoid := rfl
  geomOn := rfl
  distOff := rfl
  dirOff := rfl
  ctx := (Demo.ctxdb_spec lib 0 sedLine.ctx).1
  bad := by
    intro x hw ⟨N, hN⟩
    have hx : x = ⟨x.id, Coords.sub [0, 5, 2] 0 2, ⟨0, 2⟩, lib.bounds (.poly (Coords.sub [0, 5, 2] 0 2)), .poly (Coords.sub [0, 5, 2] 0 2), 0⟩ := by
      obtain ⟨i, c, r, m, g, h⟩ := x
      obtain ⟨h1, h2, h3, h4, h5⟩ := hw
      simp only at h1 h2 h3 h4 h5
      subst h1 h2 h3 h4 h5
      rfl
    have h0 : (match validateContextRelation sedEnv ⟨0, Coords.sub [0, 5, 2] 0 2, ⟨0, 2⟩, lib.bounds (.poly (Coords.sub [0, 5, 2] 0 2)),
        .poly (Coords.sub [0, 5, 2] 0 2), 0⟩ (sedEnv.inst 0) 40 with | .ok b => !b | _ => false) = true := by decide +kernel
    have h1 : validateContextRelation sedEnv x (sedEnv.inst 0) 40 = .ok false := by
      rw [hx]
      have : validateContextRelation sedEnv ⟨x.id, Coords.sub [0, 5, 2] 0 2, ⟨0, 2⟩, lib.bounds (.poly (Coords.sub [0, 5, 2] 0 2)),
        .poly (Coords.sub [0, 5, 2] 0 2), 0⟩ (sedEnv.inst 0) 40 = validateContextRelation sedEnv ⟨0, Coords.sub [0, 5, 2] 0 2, ⟨0, 2⟩,
        lib.bounds (.poly (Coords.sub [0, 5, 2] 0 2)), .poly (Coords.sub [0, 5, 2] 0 2), 0⟩ (sedEnv.inst 0) 40 := rfl
      rw [this]
      split at h0
      · rename_i b e
        rw [e]; cases b
        · rfl
        · cases h0
      · cases h0
    have h2 := (validateContextRelation_le sedEnv x (sedEnv.inst 0)).yields h1
    have := Yields.unique h2 ⟨N, hN⟩
    cases this

/-- the concrete case beside C11_refuted -/
theorem sed_case : Diverges (simplify sedEnv (fun n => (n : Int)) 0 [] (fun _ => false)) :=
  have he := env_ok (lines := fun _ => sedLine)
  C11_refuted (ids := fun n => (n : Int)) (⟨he.heur, he.heap, he.ord, he.ordRm, he.point⟩ : EnvOK sedEnv) sed_stuck (fun a b h => by simpa using h) [] _

end Axis
end Verif
