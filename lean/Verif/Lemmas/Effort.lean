import Verif.Lemmas.Draws
import Verif.Lemmas.FeatureClass
import Verif.Lemmas.Mono
import Verif.Spec.Effort

/-! How many pieces the stages create: every split adds at least as many pieces as half of those it creates. -/

set_option linter.unusedSectionVars false

namespace Verif

variable {P C B K : Type} [LinearOrder B] [BoundedOrder B] [LinearOrder K]
variable {env : Env P C B K} {pts : Int → List P} {hs : List Int} {src : Int → Prop} {ids : Nat → Int} {g g' : Nat}

theorem Chain.length_le {a b : Int} : ∀ {rs : List Rng}, Chain a b rs → (rs.length : Int) ≤ b - a
  | [], h => by
    have : a = b := h
    simp [this]
  | r :: rs, ⟨h1, h2, h3⟩ => by
    have := Chain.length_le h3
    rw [List.length_cons]
    omega

theorem Pieces.length_one {h : Int} {l : List (Node P C B)} (hp : Pieces env pts [h] src ids g l) (h2 : 2 ≤ (pts h).length) :
    1 ≤ l.length ∧ l.length + 1 ≤ (pts h).length := by
  obtain ⟨s, ps, hc⟩ := hp.cover h (by simp)
  have e : l.filter (fun nd => nd.inst = h) = l := List.filter_eq_self.2 (fun nd hnd => by simpa using (hp.piece nd hnd).1)
  rw [e] at ps
  have hl := hc.length_le
  rw [List.length_map, ps.length_eq] at hl
  refine ⟨?_, by omega⟩
  rcases s with _ | ⟨x, s⟩
  · have : (0 : Int) = (pts h).length - 1 := hc
    omega
  · rw [← ps.length_eq, List.length_cons]; omega

theorem count_aux {ks : List Int} {k : Int} (hk : k ∉ ks) : ∀ l : List (Node P C B),
    (l.filter (fun nd => nd.inst ∈ k :: ks)).length = (l.filter (fun nd => nd.inst = k)).length + (l.filter (fun nd => nd.inst ∈ ks)).length
  | [] => rfl
  | nd :: l => by
    have ih := count_aux hk l
    by_cases c1 : nd.inst = k
    · simp only [List.filter_cons, c1, hk, List.mem_cons, true_or, decide_true, if_true, decide_false, Bool.false_eq_true, if_false, List.length_cons] at ih ⊢
      omega
    · by_cases c2 : nd.inst ∈ ks
      · simp only [List.filter_cons, c1, c2, List.mem_cons, false_or, decide_true, if_true, decide_false, Bool.false_eq_true, if_false, List.length_cons] at ih ⊢
        omega
      · simp only [List.filter_cons, c1, c2, List.mem_cons, false_or, decide_false, Bool.false_eq_true, if_false] at ih ⊢
        omega

theorem Pieces.length_le {l : List (Node P C B)} (hp : Pieces env pts hs src ids g l) (hn : hs.Nodup) (h2 : ∀ h ∈ hs, 2 ≤ (pts h).length) :
    hs.length ≤ l.length ∧ l.length ≤ segments pts hs := by
  have key : ∀ ks : List Int, ks.Nodup → (∀ k ∈ ks, k ∈ hs) →
      ks.length ≤ (l.filter (fun nd => nd.inst ∈ ks)).length ∧ (l.filter (fun nd => nd.inst ∈ ks)).length ≤ segments pts ks := by
    intro ks
    induction ks with
    | nil => intro _ _; simp [segments]
    | cons k ks ih =>
      intro hnk hk
      rw [List.nodup_cons] at hnk
      have hk' := hk k (by simp)
      obtain ⟨a1, a2⟩ := ih hnk.2 (fun x hx => hk x (List.mem_cons_of_mem _ hx))
      have e : (l.filter (fun nd => nd.inst ∈ k :: ks)).length = (l.filter (fun nd => nd.inst = k)).length + (l.filter (fun nd => nd.inst ∈ ks)).length := by
        exact count_aux hnk.1 l
      obtain ⟨b1, b2⟩ := (hp.restrict hk').length_one (h2 k hk')
      rw [e]
      simp only [segments, List.map_cons, List.sum_cons, List.length_cons] at a2 ⊢
      omega
  have := key hs hn (fun k hk => hk)
  rw [List.filter_eq_self.2 (fun nd hnd => by simpa using (hp.piece nd hnd).1)] at this
  exact this

theorem Chain.two_le {a b v : Int} {rs : List Rng} (h : Chain a b rs) (h1 : a < v) (h2 : v < b) (hs : ∀ r ∈ rs, ¬ (r.I < v ∧ v < r.J)) : 2 ≤ rs.length := by
  match rs, h with
  | [], h =>
    have : a = b := h
    omega
  | [r], ⟨e1, e2, e3⟩ =>
    have e3 : r.J = b := e3
    exact absurd ⟨by omega, by omega⟩ (hs r (by simp))
  | _ :: _ :: _, _ => simp

/-- constrain/split.go:33-40 -/
theorem splitNodes_count (he : EnvOK env) (hi : ∀ k ∈ hs, InstOK env k (pts k)) (hinj : Function.Injective ids) {idxs : List Int} {fuel : Nat} :
    ∀ (nodes : List (Node P C B)) (db : Db P C B) (g : Nat) {db' : Db P C B} {g' : Nat}, DbOK db → Pieces env pts hs src ids g (Hdb.contents db) →
    (nodes.map Node.id).Nodup → (∀ x ∈ nodes, x ∈ Hdb.contents db) → splitNodes env ids idxs fuel nodes db g = .ok (db', g') →
    DbOK db' ∧ Pieces env pts hs src ids g' (Hdb.contents db') ∧ g' + 2 * (Hdb.contents db).length ≤ g + 2 * (Hdb.contents db').length
  | [], db, g, db', g', hd, hp, _, _, h => by
    cases h
    exact ⟨hd, hp, Nat.le_refl _⟩
  | x :: nodes, db, g, db', g', hd, hp, hn, hm, h => by
    rw [List.map_cons, List.nodup_cons] at hn
    have hx := hp.known (hm x (by simp))
    rcases atIndex_spec (hi _ hx.inst).hull hx.piece hx.lo hx.hi ids g idxs with ⟨hno, e⟩ | ⟨⟨v, hv, hv1, hv2⟩, ns, e, ne, ch, pc, fr, nd, sp⟩
    · simp only [splitNodes, e, Res.ok_bind, List.length_nil, if_true] at h
      exact splitNodes_count he hi hinj nodes db g hd hp hn.2 (fun y hy => hm y (List.mem_cons_of_mem _ hy)) h
    · have hl : ns.length ≠ 0 := by simpa using ne
      simp only [splitNodes, e, Res.ok_bind, hl, if_false] at h
      obtain ⟨d1, h1, h⟩ := Res.bind_eq_ok.1 h
      obtain ⟨d2, h2, h⟩ := Res.bind_eq_ok.1 h
      obtain ⟨d1', y1, w1, p1⟩ := hd.remove hp.nodup (hm x (by simp))
      obtain rfl := Mono.val (fun n => Hdb.remove_le nodeOps db x n) h1 y1
      obtain ⟨d2', y2, w2, p2⟩ := w1.load he ns
      obtain rfl := Mono.val (fun n => Hdb.load_le nodeOps env.heur d1 ns n) h2 y2
      have hp2 : Pieces env pts hs src ids (g + ns.length) (Hdb.contents d2) := by
        have := (hp.perm p1).replace (g' := g + ns.length) (by omega) (nd hinj) fr hinj pc ch
        exact this.perm (List.perm_append_comm.trans p2.symm)
      obtain ⟨a1, a2, a3⟩ := splitNodes_count he hi hinj nodes d2 (g + ns.length) w2 hp2 hn.2 (fun y hy => by
        have h1 := p1.mem_iff.1 (hm y (List.mem_cons_of_mem _ hy))
        rcases List.mem_cons.1 h1 with rfl | h1
        · exact absurd (List.mem_map.2 ⟨y, hy, rfl⟩) hn.1
        · exact p2.mem_iff.2 (List.mem_append_left _ h1)) h
      refine ⟨a1, a2, ?_⟩
      have l1 := p1.length_eq
      have l2 := p2.length_eq
      have l3 := ch.two_le hv1 hv2 (fun r hr => by
        obtain ⟨n, hn, rfl⟩ := List.mem_map.1 hr
        exact sp v hv n hn)
      rw [List.length_map] at l3
      rw [List.length_cons] at l1
      rw [List.length_append] at l2
      omega

/-- constrain/split.go:21-41 -/
theorem splitAtInters_count (he : EnvOK env) (hi : ∀ k ∈ hs, InstOK env k (pts k)) (hinj : Function.Injective ids) {fuel : Nat} :
    ∀ (inters : List (Inter P)) (db : Db P C B) (g : Nat) {db' : Db P C B} {g' : Nat}, DbOK db → Pieces env pts hs src ids g (Hdb.contents db) →
    splitAtInters env ids fuel inters db g = .ok (db', g') →
    DbOK db' ∧ Pieces env pts hs src ids g' (Hdb.contents db') ∧ g' + 2 * (Hdb.contents db).length ≤ g + 2 * (Hdb.contents db').length
  | [], db, g, db', g', hd, hp, h => by
    cases h
    exact ⟨hd, hp, Nat.le_refl _⟩
  | inter :: inters, db, g, db', g', hd, hp, h => by
    rw [splitAtInters] at h
    by_cases hz : inter.splitIdxs.length = 0
    · rw [if_pos hz] at h
      exact splitAtInters_count he hi hinj inters db g hd hp h
    · rw [if_neg hz] at h
      obtain ⟨ns, h1, h⟩ := Res.bind_eq_ok.1 h
      obtain ⟨⟨d1, g1⟩, h2, h⟩ := Res.bind_eq_ok.1 h
      obtain ⟨near, hl, hmono⟩ := he.heap
      obtain ⟨nodes, y1, rest, kp, -, -⟩ := Hdb.contextNeighbours_yields (strong := False) hd.wf hl hmono
        (boxDist := env.lib.boxDistance (.point inter.pt)) (itemDist := fun nd => env.lib.distance (.point inter.pt) nd.geom)
        (fun h => h.elim) env.eps
      obtain rfl := Mono.val (fun n => Hdb.contextNeighbours_le env.heap db _ _ env.eps n) h1 y1
      have hnd : (ns.map Node.id).Nodup := by
        have := (kp.map Node.id).nodup_iff.2 hp.nodup
        rw [List.map_append, List.nodup_append] at this
        exact this.1
      obtain ⟨a1, a2, a3⟩ := splitNodes_count he hi hinj ns db g hd hp hnd (fun x hx => kp.mem_iff.1 (List.mem_append_left _ hx)) h2
      obtain ⟨b1, b2, b3⟩ := splitAtInters_count he hi hinj inters d1 g1 a1 a2 h
      exact ⟨b1, b2, by omega⟩

/-- constrain/toself.go:15-67 -/
theorem toSelfIntersects_count (he : EnvOK env) (hi : ∀ k ∈ hs, InstOK env k (pts k)) (hinj : Function.Injective ids) {self : Inst P C B K}
    {nodes nodes' : List (Node P C B)} {cv cvs : List Int} {fuel : Nat} (hp : Pieces env pts hs src ids g nodes)
    (h : toSelfIntersects env ids g nodes self cv fuel = .ok (nodes', cvs, g')) :
    Pieces env pts hs src ids g' nodes' ∧ g' + 2 * nodes.length ≤ g + 2 * nodes'.length := by
  by_cases hps : self.opts.planarSelf = true
  · simp only [toSelfIntersects, hps, Bool.not_true, Bool.false_eq_true, if_false] at h
    obtain ⟨db, h1, h⟩ := Res.bind_eq_ok.1 h
    obtain ⟨inters, h2, h⟩ := Res.bind_eq_ok.1 h
    obtain ⟨⟨vs, added⟩, h3, h⟩ := Res.bind_eq_ok.1 h
    obtain ⟨⟨d1, g1⟩, h4, h⟩ := Res.bind_eq_ok.1 h
    obtain ⟨out, h5, h⟩ := Res.bind_eq_ok.1 h
    simp only [Res.pure_eq, Res.ok.injEq, Prod.mk.injEq] at h
    obtain ⟨rfl, rfl, rfl⟩ := h
    obtain ⟨d0, y0, w0, p0⟩ := DbOK.new.load he nodes
    obtain rfl := Mono.val (fun n => Hdb.load_le nodeOps env.heur _ nodes n) h1 y0
    rw [contents_new, List.nil_append] at p0
    obtain ⟨a1, a2, a3⟩ := splitAtInters_count he hi hinj (inters ++ added) db g w0 (hp.perm p0.symm) h4
    obtain ⟨out', y5, p5⟩ := Hdb.all_yields a1.wf
    obtain rfl := Mono.val (fun n => Hdb.all_le d1 n) h5 y5
    refine ⟨a2.perm (p5.symm.trans mem_sortNodes.symm), ?_⟩
    rw [mem_sortNodes.length_eq, p5.length_eq, ← p0.length_eq]
    exact a3
  · simp only [Bool.not_eq_true] at hps
    simp only [toSelfIntersects, hps, Bool.not_false, if_true] at h
    cases h
    exact ⟨hp, Nat.le_refl _⟩

theorem deformNodesLoop_grows : ∀ (sel : List (Node P C B)) (g : Nat) (dirty : Int → Bool) {out : List (Node P C B)} {g' : Nat} {dirty' : Int → Bool},
    deformNodesLoop env ids sel g dirty = .ok (out, g', dirty') → (∃ x ∈ sel, x.range.size > 1) → sel.length < out.length
  | [], _, _, _, _, _, _, h => by obtain ⟨x, hx, -⟩ := h; cases hx
  | hull :: hs, g, dirty, out, g', dirty', h, hb => by
    rw [deformNodesLoop] at h
    by_cases hz : hull.range.size > 1
    · simp only [hz, if_true] at h
      obtain ⟨⟨a, b, g1⟩, h1, h⟩ := Res.bind_eq_ok.1 h
      obtain ⟨⟨rest, g2, dd⟩, h2, h⟩ := Res.bind_eq_ok.1 h
      simp only [Res.pure_eq, Res.ok.injEq, Prod.mk.injEq] at h h2
      obtain ⟨rfl, rfl, rfl⟩ := h
      obtain ⟨e3, e4, -⟩ := deformNodesLoop_draws hs _ _ h2
      simp only [List.length_cons]
      omega
    · simp only [hz, if_false] at h
      obtain ⟨⟨rest, g2, dd⟩, h2, h⟩ := Res.bind_eq_ok.1 h
      simp only [Res.pure_eq, Res.ok.injEq, Prod.mk.injEq] at h h2
      obtain ⟨rfl, rfl, rfl⟩ := h
      obtain ⟨x, hx, hx'⟩ := hb
      have := deformNodesLoop_grows hs _ _ h2 ⟨x, (List.mem_cons.1 hx).resolve_left (fun e => hz (e ▸ hx')), hx'⟩
      simp only [List.length_cons]
      omega

theorem deformRound_grows {st st' : LoopSt P C B} {sel out : List (Node P C B)} {fuel : Nat} (ho : (env.ord st.g sel).Perm sel)
    (h : deformRound env ids st sel fuel = .ok (out, st')) (hb : ∃ x ∈ sel, x.range.size > 1) : sel.length < out.length := by
  rw [deformRound] at h
  obtain ⟨⟨out', g1, dd⟩, h1, h⟩ := Res.bind_eq_ok.1 h
  obtain ⟨d1, h2, h⟩ := Res.bind_eq_ok.1 h
  obtain ⟨d2, h3, h⟩ := Res.bind_eq_ok.1 h
  cases h
  obtain ⟨x, hx, hx'⟩ := hb
  have := deformNodesLoop_grows _ _ _ h1 ⟨x, ho.mem_iff.2 hx, hx'⟩
  rwa [ho.length_eq] at this

/-- constdp/simplify.go:41-55, constdp/fc_simplify.go:51-66 -/
theorem deformLoop_count (he : EnvOK env) (hi : ∀ k ∈ hs, InstOK env k (pts k)) (hinj : Function.Injective ids) : ∀ (fuel : Nat) (defs : List (Node P C B))
    (st : LoopSt P C B) {st' : LoopSt P C B}, DbOK st.db → Pieces env pts hs src ids st.g (Hdb.contents st.db) → (∀ x ∈ defs, x ∈ Hdb.contents st.db) →
    deformLoop env ids fuel defs st = .ok st' →
    DbOK st'.db ∧ Pieces env pts hs src ids st'.g (Hdb.contents st'.db) ∧ st'.g + 2 * (Hdb.contents st.db).length = st.g + 2 * (Hdb.contents st'.db).length ∧
      ∃ k, Rounds env ids k defs st st' ∧ k + (Hdb.contents st.db).length ≤ (Hdb.contents st'.db).length + 1 ∧
        ((∀ x ∈ defs, x.range.size = 1) → k = 0)
  | 0, defs, st, st', _, _, _, h => by cases h
  | fuel + 1, defs, st, st', hd, hp, hm, h => by
    rw [deformLoop] at h
    by_cases hdef : defs = []
    · rw [if_pos hdef] at h
      cases h
      exact ⟨hd, hp, rfl, 0, hdef ▸ .empty st, by omega, fun _ => rfl⟩
    · rw [if_neg hdef] at h
      obtain ⟨sel, h1, h⟩ := Res.bind_eq_ok.1 h
      have hy1 : Yields (findDeformable env st.dirty defs st.db) sel := Mono.yields (fun n => findDeformable_le _ _ _ _ n) h1
      by_cases hsel : sel = []
      · rw [if_pos hsel] at h
        cases h
        exact ⟨hd, hp, rfl, 0, .settled (hsel ▸ hy1), by omega, fun _ => rfl⟩
      · rw [if_neg hsel] at h
        obtain ⟨⟨out, st1⟩, h2, h⟩ := Res.bind_eq_ok.1 h
        dsimp only at h
        have hy2 : Yields (deformRound env ids st sel) (out, st1) := Mono.yields (fun n => deformRound_le _ _ _ _ n) h2
        obtain ⟨sel', y1, a1, a2, a3, a4⟩ := findDeformable_yields he hi st.dirty hd hp defs hm
        obtain rfl := Mono.val (fun n => findDeformable_le _ _ _ _ n) h1 y1
        obtain ⟨out', st1', rest, y2, d1, g1, p1, r1, r2, s1, x1, x2⟩ := deformRound_yields he hi hinj hd hp a1 a2
        have e := Mono.val (fun n => deformRound_le _ _ _ _ n) h2 y2
        simp only [Prod.mk.injEq] at e
        obtain ⟨rfl, rfl⟩ := e
        have hm1 : ∀ x ∈ out, x ∈ Hdb.contents st1.db := fun x hx => r2.mem_iff.2 (List.mem_append_left _ hx)
        obtain ⟨b1, b2, b3, k, b4, b5, b6⟩ := deformLoop_count he hi hinj fuel out st1 d1 p1 hm1 h
        obtain ⟨c1, -, -⟩ := deformRound_draws (he.ord _ _).length_eq h2
        have l1 := r1.length_eq
        have l2 := r2.length_eq
        rw [List.length_append] at l1 l2
        refine ⟨b1, b2, by omega, k + 1, .round hy1 hsel hy2 b4, ?_, fun hall => absurd (a3 hall) hsel⟩
        by_cases hbig : ∃ x ∈ sel, x.range.size > 1
        · have := deformRound_grows (he.ord _ _) h2 hbig
          omega
        · have hsmall : ∀ x ∈ out, x.range.size = 1 := by
            intro x hx
            have hx' := (x2 (fun x hx h => hbig ⟨x, hx, h⟩)).mem_iff.1 hx
            have := (hp.bounds (a1 x hx')).2.1
            have : ¬ x.range.size > 1 := fun h => hbig ⟨x, hx', h⟩
            simp only [Rng.size] at this ⊢
            omega
          have := b6 hsmall
          have := (deformLoop_draws (fun g l => (he.ord g l).length_eq) fuel out st1 h).1
          have := (x2 (fun x hx h => hbig ⟨x, hx, h⟩)).length_eq
          omega

theorem decompose_count {h : Int} (hi : InstOK env h (pts h)) (hinj : Function.Injective ids) {fuel : Nat} {hulls : List (Node P C B)} {g' : Nat}
    (e : decompose env.lib ids 0 (env.inst h).pln (env.inst h).scoreFn (env.inst h).rel h fuel = .ok (hulls, g')) :
    g' = hulls.length ∧ Pieces env pts [h] (∃ k, ids k = ·) ids g' hulls := by
  obtain ⟨h0, g0, y0, p0, -⟩ := decompose_yields hi hinj
  have e' := Mono.val (fun n => decompose_le _ _ _ _ _ _ _ n) e y0
  simp only [Prod.mk.injEq] at e'
  obtain ⟨rfl, rfl⟩ := e'
  refine ⟨?_, p0⟩
  have := (decompose_draws e).1
  omega

theorem aggregate_draws {self : Inst P C B K} {cvs : List Int} {db db' : Db P C B} {g g' fuel : Nat} (hd : DbOK db)
    (h : aggregate env ids self cvs db g fuel = .ok (db', g')) :
    g ≤ g' ∧ g' ≤ g + 2 * (Hdb.contents db).length ∧ ∀ ids' : Nat → Int, (∀ k < g', ids' k = ids k) → aggregate env ids' self cvs db g fuel = .ok (db', g') := by
  rw [aggregate] at h
  obtain ⟨out, h1, h⟩ := Res.bind_eq_ok.1 h
  obtain ⟨out', y1, p1⟩ := Hdb.all_yields hd.wf
  obtain rfl := Mono.val (fun n => Hdb.all_le db n) h1 y1
  obtain ⟨e1, e2, e3⟩ := aggLoop_draws _ _ _ _ _ h
  rw [mem_sortNodes.length_eq, p1.length_eq] at e2
  refine ⟨e1, e2, fun ids' e => ?_⟩
  rw [aggregate, h1, Res.ok_bind]
  exact e3 ids' e

theorem Rounds.unique {k k' : Nat} {defs : List (Node P C B)} {st a b : LoopSt P C B} (h : Rounds env ids k defs st a) (h' : Rounds env ids k' defs st b) :
    k = k' ∧ a = b := by
  have hnil : ∀ st : LoopSt P C B, Yields (findDeformable env st.dirty [] st.db) [] := fun st => ⟨0, fun _ _ => rfl⟩
  induction h generalizing k' b with
  | empty st =>
    cases h' with
    | empty => exact ⟨rfl, rfl⟩
    | settled => exact ⟨rfl, rfl⟩
    | round y ne => exact absurd ((hnil _).unique y).symm ne
  | settled y1 =>
    cases h' with
    | empty => exact ⟨rfl, rfl⟩
    | settled => exact ⟨rfl, rfl⟩
    | round y ne => exact absurd (y1.unique y).symm ne
  | round y1 ne1 y2 _ ih =>
    cases h' with
    | empty => exact absurd ((hnil _).unique y1).symm ne1
    | settled y => exact absurd (y1.unique y) ne1
    | round y1' _ y2' h' =>
      obtain rfl := y1.unique y1'
      have e := y2.unique y2'
      simp only [Prod.mk.injEq] at e
      obtain ⟨rfl, rfl⟩ := e
      obtain ⟨rfl, rfl⟩ := ih h'
      exact ⟨rfl, rfl⟩

/-- constdp/simplify.go:13-72 the work on one line -/
theorem simplify_effort (he : EnvOK env) {h : Int} (hi : InstOK env h (pts h)) (hinj : Function.Injective ids) {cv : List Int} {dirty : Int → Bool}
    {fuel : Nat} {r : Out P C B × (Int → Bool)} (e : simplify env ids h cv dirty fuel = .ok r) :
    (∀ ids' : Nat → Int, (∀ k < 4 * ((pts h).length - 1), ids' k = ids k) → simplify env ids' h cv dirty fuel = .ok r) ∧
      ∃ k, LineRounds env ids h cv dirty k ∧ k + 1 ≤ (pts h).length := by
  have hi' : ∀ k ∈ [h], InstOK env k (pts k) := by
    intro k hk; rw [List.mem_singleton] at hk; rw [hk]; exact hi
  simp only [simplify] at e
  obtain ⟨⟨h0, g0⟩, e1, e⟩ := Res.bind_eq_ok.1 e
  dsimp only at e
  obtain ⟨⟨h1, cvs, g1⟩, e2, e⟩ := Res.bind_eq_ok.1 e
  dsimp only at e
  obtain ⟨db, e3, e⟩ := Res.bind_eq_ok.1 e
  obtain ⟨st, e4, e⟩ := Res.bind_eq_ok.1 e
  obtain ⟨⟨db', g4⟩, e5, e⟩ := Res.bind_eq_ok.1 e
  dsimp only at e
  obtain ⟨nodes, e6, e⟩ := Res.bind_eq_ok.1 e
  simp only [Res.pure_eq, Res.ok.injEq] at e
  subst e
  obtain ⟨a1, a2⟩ := decompose_count hi hinj e1
  obtain ⟨b1, b2⟩ := toSelfIntersects_count he hi' hinj a2 e2
  obtain ⟨d0, y3, w3, p3⟩ := DbOK.new.load he h1
  obtain rfl := Mono.val (fun n => Hdb.load_le nodeOps env.heur _ h1 n) e3 y3
  rw [contents_new, List.nil_append] at p3
  obtain ⟨c1, c2, c3, k, c4, c5, -⟩ := deformLoop_count he hi' hinj fuel h1 ⟨db, g1, _⟩ w3 (b1.perm p3.symm) (fun x hx => p3.mem_iff.2 hx) e4
  have l3 := p3.length_eq
  obtain ⟨f1, f2, f3⟩ := aggregate_draws c1 e5
  have l0 := a2.length_one hi.two
  have lk := c2.length_one hi.two
  have l1 := b1.length_one hi.two
  obtain ⟨t1, t2⟩ := toSelfIntersects_draws e2
  obtain ⟨u1, u2⟩ := deformLoop_draws (fun g l => (he.ord g l).length_eq) fuel h1 _ e4
  dsimp only at c3 c5 u1
  refine ⟨fun ids' hk => ?_, k, ⟨h0, g0, h1, cvs, g1, db, st, Mono.yields (fun n => decompose_le _ _ _ _ _ _ _ n) e1,
    Mono.yields (fun n => toSelfIntersects_le _ _ _ _ _ _ n) e2, y3, c4⟩, by omega⟩
  have hk' : ∀ k < g4, ids' k = ids k := fun k hlt => hk k (by omega)
  simp only [simplify, (decompose_draws e1).2 ids' (fun k hlt => hk' k (by omega)), Res.ok_bind, t2 ids' (fun k hlt => hk' k (by omega)), e3,
    u2 ids' (fun k hlt => hk' k (by omega)), f3 ids' hk', e6, Res.pure_eq]

theorem LineRounds.unique {h : Int} {cv : List Int} {dirty : Int → Bool} {k k' : Nat} (a : LineRounds env ids h cv dirty k)
    (b : LineRounds env ids h cv dirty k') : k = k' := by
  obtain ⟨_, _, _, _, _, _, _, a1, a2, a3, a4⟩ := a
  obtain ⟨_, _, _, _, _, _, _, b1, b2, b3, b4⟩ := b
  have e := a1.unique b1
  simp only [Prod.mk.injEq] at e
  obtain ⟨rfl, rfl⟩ := e
  have e := a2.unique b2
  simp only [Prod.mk.injEq] at e
  obtain ⟨rfl, rfl, rfl⟩ := e
  obtain rfl := a3.unique b3
  exact (a4.unique b4).1

theorem ClassRounds.unique {idsOf : Int → Nat → Int} {handles : List Int} {o : Opts K} {dirty : Int → Bool} {k k' : Nat}
    (a : ClassRounds env ids idsOf handles o dirty k) (b : ClassRounds env ids idsOf handles o dirty k') : k = k' := by
  obtain ⟨_, _, _, _, _, a1, a2, a3, a4⟩ := a
  obtain ⟨_, _, _, _, _, b1, b2, b3, b4⟩ := b
  obtain rfl := Res.ok.inj (a1.symm.trans b1)
  have e := a2.unique b2
  simp only [Prod.mk.injEq] at e
  obtain ⟨rfl, rfl⟩ := e
  obtain rfl := a3.unique b3
  exact (a4.unique b4).1

/-- constdp/fc_simplify.go:71-106 -/
theorem simplifyInstances_effort (he : EnvOK env) {idsOf : Int → Nat → Int} {js : List (Int × Int)} {fuel : Nat} : ∀ (handles : List Int) (dirty : Int → Bool)
    {r : List (Int × Out P C B) × (Int → Bool)}, (∀ h ∈ handles, InstOK env h (pts h)) → (∀ h ∈ handles, Function.Injective (idsOf h)) →
    simplifyInstances env idsOf js fuel handles dirty = .ok r → ∀ idsOf' : Int → Nat → Int,
    (∀ h ∈ handles, ∀ k < 4 * ((pts h).length - 1), idsOf' h k = idsOf h k) → simplifyInstances env idsOf' js fuel handles dirty = .ok r
  | [], dirty, r, _, _, h, _, _ => h
  | h :: handles, dirty, r, hi, hinj, e, idsOf', hk => by
    rw [simplifyInstances] at e
    obtain ⟨⟨o, d1⟩, e1, e⟩ := Res.bind_eq_ok.1 e
    dsimp only at e
    obtain ⟨⟨rest, d2⟩, e2, e⟩ := Res.bind_eq_ok.1 e
    have e1' := (simplify_effort he (hi h (by simp)) (hinj h (by simp)) e1).1 (idsOf' h) (hk h (by simp))
    have e2' := simplifyInstances_effort he handles d1 (fun k hk => hi k (List.mem_cons_of_mem _ hk)) (fun k hk => hinj k (List.mem_cons_of_mem _ hk)) e2
      idsOf' (fun k hm => hk k (List.mem_cons_of_mem _ hm))
    simp only [simplifyInstances, e1', e2', Res.ok_bind]
    exact e

/-- constdp/fc_simplify.go:14-69 the work on a feature class -/
theorem simplifyFeatureClass_effort (he : EnvOK env) (hl : LnrOK env.lnr) {handles : List Int} (hi : ∀ h ∈ handles, InstOK env h (pts h))
    (hn : handles.Nodup) (hid : ∀ a ∈ handles, ∀ b ∈ handles, (env.inst a).id = (env.inst b).id → a = b) {idsOf : Int → Nat → Int}
    (hst : Streams ids idsOf handles) {o : Opts K} {dirty : Int → Bool} {fuel : Nat} {r : List (Int × Out P C B)}
    (e : simplifyFeatureClass env ids idsOf handles o dirty fuel = .ok r) :
    (∀ (ids' : Nat → Int) (idsOf' : Int → Nat → Int), (∀ h ∈ handles, ∀ k < 4 * ((pts h).length - 1), idsOf' h k = idsOf h k) →
      (∀ k < 2 * (segments pts handles - handles.length), ids' k = ids k) → simplifyFeatureClass env ids' idsOf' handles o dirty fuel = .ok r) ∧
      ((o.avoidNewSelfIntersects || o.planarSelf || o.geomRelation || o.dirRelation || o.distRelation) = true →
        ∃ k, ClassRounds env ids idsOf handles o dirty k ∧ k ≤ segments pts handles + 1 - handles.length) := by
  simp only [simplifyFeatureClass] at e
  obtain ⟨js, e1, e⟩ := Res.bind_eq_ok.1 e
  obtain ⟨⟨outs, d1⟩, e2, e⟩ := Res.bind_eq_ok.1 e
  dsimp only at e
  have i2 := simplifyInstances_effort he handles dirty hi hst.each e2
  by_cases hc : (o.avoidNewSelfIntersects || o.planarSelf || o.geomRelation || o.dirRelation || o.distRelation) = true
  · rw [if_pos hc] at e
    obtain ⟨db, e3, e⟩ := Res.bind_eq_ok.1 e
    obtain ⟨st, e4, e⟩ := Res.bind_eq_ok.1 e
    obtain ⟨nodes, e5, e⟩ := Res.bind_eq_ok.1 e
    obtain ⟨js', j1, -, -, j2⟩ := fcJunctions_ok hl hi hid o.planarSelf
    obtain rfl := Res.ok.inj (e1.symm.trans j1)
    obtain ⟨outs', d1', y2, r1, r2⟩ := simplifyInstances_yields he hl (js := js) handles dirty hi hst.each j2
    have e' := Mono.val (fun n => simplifyInstances_le env idsOf js n handles dirty) e2 y2
    simp only [Prod.mk.injEq] at e'
    obtain ⟨rfl, rfl⟩ := e'
    obtain ⟨p1, -⟩ := joint_pieces (ids := ids) (cv := fun h => junctionsOf js (env.inst h).id) outs (by rw [r1]; exact hn) (by rw [r1]; exact hst) r2
    rw [r1] at p1
    obtain ⟨d0, y3, w3, p3⟩ := DbOK.new.load he (outs.flatMap (fun x => x.2.hulls))
    obtain rfl := Mono.val (fun n => Hdb.load_le nodeOps env.heur _ _ n) e3 y3
    rw [contents_new, List.nil_append] at p3
    obtain ⟨c1, c2, c3, k, c4, c5, -⟩ := deformLoop_count he hi hst.joint fuel _ ⟨db, 0, d1⟩ w3 (p1.perm p3.symm) (fun x hx => p3.mem_iff.2 hx) e4
    have l1 := (p1.perm p3.symm).length_le hn (fun h hh => (hi h hh).two)
    have l2 := c2.length_le hn (fun h hh => (hi h hh).two)
    obtain ⟨u1, u2⟩ := deformLoop_draws (fun g l => (he.ord g l).length_eq) fuel _ _ e4
    dsimp only at c3 c5 u1
    refine ⟨fun ids' idsOf' hk1 hk2 => ?_, fun _ => ⟨k, ⟨js, outs, d1, db, st, e1, y2, y3, c4⟩, by omega⟩⟩
    simp only [simplifyFeatureClass, e1, Res.ok_bind, i2 idsOf' hk1, if_pos hc, e3, u2 ids' (fun k hlt => hk2 k (by omega)), e5]
    exact e
  · rw [if_neg hc] at e
    refine ⟨fun ids' idsOf' hk1 hk2 => ?_, fun h => absurd h hc⟩
    simp only [simplifyFeatureClass, e1, Res.ok_bind, i2 idsOf' hk1, if_neg hc]
    exact e

end Verif
