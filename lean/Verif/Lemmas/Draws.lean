import Verif.Lemmas.Simplify

/-! Which identifiers of its stream a run reads, and how many. -/

set_option linter.unusedSectionVars false

namespace Verif

variable {P C B K : Type} [LinearOrder B] [BoundedOrder B] [LinearOrder K]


section
variable {lib : Lib P C B K} {ids : Nat → Int} {env : Env P C B K} {inst : Int}

theorem atScoreSelection_draws {g g' : Nat} {score : ScoreFn P K} {hull a b : Node P C B} (h : atScoreSelection lib ids g score hull = .ok (a, b, g')) :
    g' = g + 2 ∧ ∀ ids' : Nat → Int, (∀ k < g', ids' k = ids k) → atScoreSelection lib ids' g score hull = .ok (a, b, g') := by
  have h0 := h
  rw [atScoreSelection] at h
  obtain ⟨⟨k, v⟩, h1, h⟩ := Res.bind_eq_ok.1 h
  obtain ⟨ca, h2, h⟩ := Res.bind_eq_ok.1 h
  obtain ⟨ha, h3, h⟩ := Res.bind_eq_ok.1 h
  obtain ⟨cb, h4, h⟩ := Res.bind_eq_ok.1 h
  obtain ⟨hb, h5, h⟩ := Res.bind_eq_ok.1 h
  have h := Res.ok.inj h
  simp only [Prod.mk.injEq] at h
  obtain ⟨-, -, rfl⟩ := h
  refine ⟨rfl, fun ids' e => ?_⟩
  rw [← h0]
  simp only [atScoreSelection, e g (by omega), e (g + 1) (by omega)]

theorem atIndexLoop_draws {hull : Node P C B} : ∀ (rs : List Rng) (g : Nat) {ns : List (Node P C B)} {g' : Nat}, atIndexLoop lib ids hull rs g = .ok (ns, g') →
    g' = g + ns.length ∧ ∀ ids' : Nat → Int, (∀ k < g', ids' k = ids k) → atIndexLoop lib ids' hull rs g = .ok (ns, g')
  | [], g, ns, g', h => by
    cases h
    exact ⟨rfl, fun _ _ => rfl⟩
  | r :: rs, g, ns, g', h => by
    rw [atIndexLoop] at h
    obtain ⟨c, h1, h⟩ := Res.bind_eq_ok.1 h
    obtain ⟨n, h2, h⟩ := Res.bind_eq_ok.1 h
    obtain ⟨⟨ns', g1⟩, h3, h⟩ := Res.bind_eq_ok.1 h
    cases h
    obtain ⟨e1, e2⟩ := atIndexLoop_draws rs (g + 1) h3
    refine ⟨by rw [e1, List.length_cons]; omega, fun ids' e => ?_⟩
    simp only [atIndexLoop, h1, Res.ok_bind, e g (by omega), h2, e2 ids' e, Res.pure_eq]

theorem dpLoop_draws {pln : Polyline P} {score : ScoreFn P K} {rel : Fl K → Bool} : ∀ (fuel : Nat) (stack : List Rng) (hq : List (Node P C B)) (g : Nat)
    {ns : List (Node P C B)} {g' : Nat}, dpLoop lib ids pln score rel inst fuel stack hq g = .ok (ns, g') →
    g' + hq.length = g + ns.length ∧ g ≤ g' ∧ ∀ ids' : Nat → Int, (∀ k < g', ids' k = ids k) → dpLoop lib ids' pln score rel inst fuel stack hq g = .ok (ns, g')
  | fuel, [], hq, g, ns, g', h => by
    cases fuel <;> (simp only [dpLoop] at h; cases h; exact ⟨rfl, Nat.le_refl _, fun _ _ => by simp only [dpLoop]⟩)
  | 0, r :: stack, hq, g, ns, g', h => by simp only [dpLoop] at h; cases h
  | fuel + 1, r :: stack, hq, g, ns, g', h => by
    rw [dpLoop] at h
    obtain ⟨c, h1, h⟩ := Res.bind_eq_ok.1 h
    obtain ⟨⟨k, v⟩, h2, h⟩ := Res.bind_eq_ok.1 h
    by_cases hr : rel v = true
    · simp only [hr, if_true] at h
      obtain ⟨nd, h3, h⟩ := Res.bind_eq_ok.1 h
      obtain ⟨e1, e2, e3⟩ := dpLoop_draws fuel stack _ _ h
      rw [List.length_append, List.length_singleton] at e1
      refine ⟨by omega, by omega, fun ids' e => ?_⟩
      simp only [dpLoop, h1, h2, Res.ok_bind, hr, if_true, e g (by omega), h3, e3 ids' e]
    · simp only [hr, Bool.false_eq_true, if_false] at h
      obtain ⟨e1, e2, e3⟩ := dpLoop_draws fuel _ _ _ h
      refine ⟨e1, e2, fun ids' e => ?_⟩
      simp only [dpLoop, h1, h2, Res.ok_bind, hr, Bool.false_eq_true, if_false, e3 ids' e]

theorem decompose_draws {pln : Polyline P} {score : ScoreFn P K} {rel : Fl K → Bool} {fuel g g' : Nat} {ns : List (Node P C B)}
    (h : decompose lib ids g pln score rel inst fuel = .ok (ns, g')) :
    g' = g + ns.length ∧ ∀ ids' : Nat → Int, (∀ k < g', ids' k = ids k) → decompose lib ids' g pln score rel inst fuel = .ok (ns, g') := by
  simp only [decompose] at h ⊢
  cases hp : pln.ls with
  | none =>
    rw [hp] at h
    cases h
    exact ⟨rfl, fun _ _ => rfl⟩
  | some l =>
    rw [hp] at h
    obtain ⟨r, h1, h⟩ := Res.bind_eq_ok.1 h
    obtain ⟨e1, e2, e3⟩ := dpLoop_draws _ _ _ _ h
    refine ⟨by simpa using e1, fun ids' e => ?_⟩
    simp only [h1, Res.ok_bind, e3 ids' e]

theorem splitNodes_draws {idxs : List Int} {fuel : Nat} : ∀ (nodes : List (Node P C B)) (db : Db P C B) (g : Nat) {db' : Db P C B} {g' : Nat},
    splitNodes env ids idxs fuel nodes db g = .ok (db', g') →
    g ≤ g' ∧ ∀ ids' : Nat → Int, (∀ k < g', ids' k = ids k) → splitNodes env ids' idxs fuel nodes db g = .ok (db', g')
  | [], db, g, db', g', h => by
    cases h
    exact ⟨Nat.le_refl _, fun _ _ => rfl⟩
  | hull :: hs, db, g, db', g', h => by
    rw [splitNodes] at h
    obtain ⟨⟨ns, g1⟩, h1, h⟩ := Res.bind_eq_ok.1 h
    obtain ⟨e1, e2⟩ := atIndexLoop_draws _ _ h1
    by_cases hz : ns.length = 0
    · simp only [hz, if_true] at h
      obtain ⟨e3, e4⟩ := splitNodes_draws hs _ _ h
      refine ⟨by omega, fun ids' e => ?_⟩
      have := e2 ids' (fun k hk => e k (by omega))
      simp only [splitNodes, atIndex, this, Res.ok_bind, hz, if_true, e4 ids' e]
    · simp only [hz, if_false] at h
      obtain ⟨d1, h2, h⟩ := Res.bind_eq_ok.1 h
      obtain ⟨d2, h3, h⟩ := Res.bind_eq_ok.1 h
      obtain ⟨e3, e4⟩ := splitNodes_draws hs _ _ h
      refine ⟨by omega, fun ids' e => ?_⟩
      have := e2 ids' (fun k hk => e k (by omega))
      simp only [splitNodes, atIndex, this, Res.ok_bind, hz, if_false, h2, h3, e4 ids' e]

theorem splitAtInters_draws {fuel : Nat} : ∀ (inters : List (Inter P)) (db : Db P C B) (g : Nat) {db' : Db P C B} {g' : Nat},
    splitAtInters env ids fuel inters db g = .ok (db', g') →
    g ≤ g' ∧ ∀ ids' : Nat → Int, (∀ k < g', ids' k = ids k) → splitAtInters env ids' fuel inters db g = .ok (db', g')
  | [], db, g, db', g', h => by
    cases h
    exact ⟨Nat.le_refl _, fun _ _ => rfl⟩
  | inter :: is, db, g, db', g', h => by
    rw [splitAtInters] at h
    by_cases hz : inter.splitIdxs.length = 0
    · simp only [hz, if_true] at h
      obtain ⟨e3, e4⟩ := splitAtInters_draws is _ _ h
      exact ⟨e3, fun ids' e => by simp only [splitAtInters, hz, if_true, e4 ids' e]⟩
    · simp only [hz, if_false] at h
      obtain ⟨ns, h1, h⟩ := Res.bind_eq_ok.1 h
      obtain ⟨⟨d1, g1⟩, h2, h⟩ := Res.bind_eq_ok.1 h
      obtain ⟨e1, e2⟩ := splitNodes_draws _ _ _ h2
      obtain ⟨e3, e4⟩ := splitAtInters_draws is _ _ h
      refine ⟨by omega, fun ids' e => ?_⟩
      simp only [splitAtInters, hz, if_false, h1, Res.ok_bind, e2 ids' (fun k hk => e k (by omega)), e4 ids' e]

theorem toSelfIntersects_draws {fuel g g' : Nat} {nodes nodes' : List (Node P C B)} {self : Inst P C B K} {cv cvs : List Int}
    (h : toSelfIntersects env ids g nodes self cv fuel = .ok (nodes', cvs, g')) :
    g ≤ g' ∧ ∀ ids' : Nat → Int, (∀ k < g', ids' k = ids k) → toSelfIntersects env ids' g nodes self cv fuel = .ok (nodes', cvs, g') := by
  by_cases hps : self.opts.planarSelf = true
  · simp only [toSelfIntersects, hps, Bool.not_true, Bool.false_eq_true, if_false] at h
    obtain ⟨db, h1, h⟩ := Res.bind_eq_ok.1 h
    obtain ⟨inters, h2, h⟩ := Res.bind_eq_ok.1 h
    obtain ⟨⟨vs, added⟩, h3, h⟩ := Res.bind_eq_ok.1 h
    obtain ⟨⟨d1, g1⟩, h4, h⟩ := Res.bind_eq_ok.1 h
    obtain ⟨out, h5, h⟩ := Res.bind_eq_ok.1 h
    cases h
    obtain ⟨e1, e2⟩ := splitAtInters_draws _ _ _ h4
    refine ⟨e1, fun ids' e => ?_⟩
    simp only [toSelfIntersects, hps, Bool.not_true, Bool.false_eq_true, if_false, h1, h2, h3, Res.ok_bind, e2 ids' e, h5, Res.pure_eq]
  · simp only [Bool.not_eq_true] at hps
    simp only [toSelfIntersects, hps, Bool.not_false, if_true] at h ⊢
    cases h
    exact ⟨Nat.le_refl _, fun _ _ => rfl⟩

theorem deformNodesLoop_draws : ∀ (sel : List (Node P C B)) (g : Nat) (dirty : Int → Bool) {out : List (Node P C B)} {g' : Nat} {dirty' : Int → Bool},
    deformNodesLoop env ids sel g dirty = .ok (out, g', dirty') →
    g' + 2 * sel.length = g + 2 * out.length ∧ g ≤ g' ∧ ∀ ids' : Nat → Int, (∀ k < g', ids' k = ids k) → deformNodesLoop env ids' sel g dirty = .ok (out, g', dirty')
  | [], g, dirty, out, g', dirty', h => by
    cases h
    exact ⟨rfl, Nat.le_refl _, fun _ _ => rfl⟩
  | hull :: hs, g, dirty, out, g', dirty', h => by
    rw [deformNodesLoop] at h
    by_cases hz : hull.range.size > 1
    · simp only [hz, if_true] at h
      obtain ⟨⟨a, b, g1⟩, h1, h⟩ := Res.bind_eq_ok.1 h
      obtain ⟨⟨rest, g2, dd⟩, h2, h⟩ := Res.bind_eq_ok.1 h
      simp only [Res.pure_eq, Res.ok.injEq, Prod.mk.injEq] at h h2
      obtain ⟨rfl, rfl, rfl⟩ := h
      obtain ⟨e1, e2⟩ := atScoreSelection_draws h1
      obtain ⟨e3, e4, e5⟩ := deformNodesLoop_draws hs _ _ h2
      refine ⟨by simp only [List.length_cons]; omega, by omega, fun ids' e => ?_⟩
      simp only [deformNodesLoop, hz, if_true, e2 ids' (fun k hk => e k (by omega)), Res.ok_bind, e5 ids' e, Res.pure_eq]
    · simp only [hz, if_false] at h
      obtain ⟨⟨rest, g2, dd⟩, h2, h⟩ := Res.bind_eq_ok.1 h
      simp only [Res.pure_eq, Res.ok.injEq, Prod.mk.injEq] at h h2
      obtain ⟨rfl, rfl, rfl⟩ := h
      obtain ⟨e3, e4, e5⟩ := deformNodesLoop_draws hs _ _ h2
      refine ⟨by simp only [List.length_cons]; omega, by omega, fun ids' e => ?_⟩
      simp only [deformNodesLoop, hz, if_false, Res.ok_bind, e5 ids' e, Res.pure_eq]

theorem deformRound_draws {st st' : LoopSt P C B} {sel out : List (Node P C B)} {fuel : Nat} (ho : (env.ord st.g sel).length = sel.length)
    (h : deformRound env ids st sel fuel = .ok (out, st')) :
    st'.g + 2 * sel.length = st.g + 2 * out.length ∧ st.g ≤ st'.g ∧
      ∀ ids' : Nat → Int, (∀ k < st'.g, ids' k = ids k) → deformRound env ids' st sel fuel = .ok (out, st') := by
  rw [deformRound] at h
  obtain ⟨⟨out', g1, dd⟩, h1, h⟩ := Res.bind_eq_ok.1 h
  obtain ⟨d1, h2, h⟩ := Res.bind_eq_ok.1 h
  obtain ⟨d2, h3, h⟩ := Res.bind_eq_ok.1 h
  cases h
  obtain ⟨e1, e2, e3⟩ := deformNodesLoop_draws _ _ _ h1
  rw [ho] at e1
  refine ⟨e1, e2, fun ids' e => ?_⟩
  simp only [deformRound, e3 ids' e, Res.ok_bind, h2, h3, Res.pure_eq]

theorem deformLoop_draws (ho : ∀ g l, (env.ord g l).length = l.length) : ∀ (fuel : Nat) (defs : List (Node P C B)) (st : LoopSt P C B) {st' : LoopSt P C B},
    deformLoop env ids fuel defs st = .ok st' →
    st.g ≤ st'.g ∧ ∀ ids' : Nat → Int, (∀ k < st'.g, ids' k = ids k) → deformLoop env ids' fuel defs st = .ok st'
  | 0, defs, st, st', h => by cases h
  | fuel + 1, defs, st, st', h => by
    rw [deformLoop] at h
    by_cases hd : defs = []
    · simp only [hd, if_true] at h
      cases h
      exact ⟨Nat.le_refl _, fun _ _ => by simp only [deformLoop, hd, if_true]⟩
    · simp only [hd, if_false] at h
      obtain ⟨sel, h1, h⟩ := Res.bind_eq_ok.1 h
      by_cases hs : sel = []
      · simp only [hs, if_true] at h
        cases h
        exact ⟨Nat.le_refl _, fun _ _ => by simp only [deformLoop, hd, if_false, h1, Res.ok_bind, hs, if_true]⟩
      · simp only [hs, if_false] at h
        obtain ⟨⟨out, st1⟩, h2, h⟩ := Res.bind_eq_ok.1 h
        dsimp only at h
        obtain ⟨-, e2, e3⟩ := deformRound_draws (ho _ _) h2
        obtain ⟨e4, e5⟩ := deformLoop_draws ho fuel _ _ h
        refine ⟨by omega, fun ids' e => ?_⟩
        simp only [deformLoop, hd, if_false, h1, Res.ok_bind, hs, e3 ids' (fun k hk => e k (by omega)), e5 ids' e]

theorem tryMerge_draws {self : Inst P C B K} {enabled : Bool} {a b m : Option (Node P C B)} {cache cache' : List (List Int)} {g g' : Nat}
    (h : tryMerge env ids self enabled a b cache g = .ok (m, cache', g')) :
    g ≤ g' ∧ g' ≤ g + 1 ∧ ∀ ids' : Nat → Int, (∀ k < g', ids' k = ids k) → tryMerge env ids' self enabled a b cache g = .ok (m, cache', g') := by
  match enabled, a, b with
  | true, some a, some b =>
    simp only [tryMerge] at h ⊢
    by_cases hc : cacheKey env a b ∈ cache
    · simp only [hc, if_true] at h ⊢
      cases h
      exact ⟨Nat.le_refl _, Nat.le_succ _, fun _ _ => rfl⟩
    · simp only [hc, if_false] at h ⊢
      obtain ⟨⟨m', g1⟩, h1, h⟩ := Res.bind_eq_ok.1 h
      cases h
      rw [contiguousFragmentsAtThreshold] at h1
      by_cases hk : a.range.contiguous b.range = true
      · simp only [hk, Bool.not_true, Bool.false_eq_true, if_false] at h1
        obtain ⟨c, h2, h1⟩ := Res.bind_eq_ok.1 h1
        obtain ⟨⟨k, v⟩, h3, h1⟩ := Res.bind_eq_ok.1 h1
        by_cases hr : self.rel v = true
        · simp only [hr, if_true] at h1
          obtain ⟨nd, h4, h1⟩ := Res.bind_eq_ok.1 h1
          cases h1
          refine ⟨Nat.le_succ _, Nat.le_refl _, fun ids' e => ?_⟩
          simp only [contiguousFragmentsAtThreshold, hk, Bool.not_true, Bool.false_eq_true, if_false, h2, h3, Res.ok_bind, hr, if_true, e g (by omega), h4, Res.pure_eq]
        · simp only [hr, Bool.false_eq_true, if_false] at h1
          cases h1
          refine ⟨Nat.le_refl _, Nat.le_succ _, fun ids' e => ?_⟩
          simp only [contiguousFragmentsAtThreshold, hk, Bool.not_true, Bool.false_eq_true, if_false, h2, h3, Res.ok_bind, hr, Res.pure_eq]
      · simp only [Bool.not_eq_true] at hk
        simp only [hk, Bool.not_false, if_true] at h1
        cases h1
  | false, _, _ =>
    simp only [tryMerge] at h ⊢
    cases h
    exact ⟨Nat.le_refl _, Nat.le_succ _, fun _ _ => rfl⟩
  | true, none, _ =>
    simp only [tryMerge] at h ⊢
    cases h
    exact ⟨Nat.le_refl _, Nat.le_succ _, fun _ _ => rfl⟩
  | true, some _, none =>
    simp only [tryMerge] at h ⊢
    cases h
    exact ⟨Nat.le_refl _, Nat.le_succ _, fun _ _ => rfl⟩

theorem mergeNext_objects {self : Inst P C B K} {m nxt : Option (Node P C B)} {fuel : Nat} {s s' : MergeSt P C B} (h : mergeNext env self m nxt fuel s = .ok s') :
    s'.objects.length ≤ s.objects.length := by
  simp only [mergeNext] at h
  split at h
  · obtain ⟨db, h1, h⟩ := Res.bind_eq_ok.1 h
    obtain ⟨ok, h2, h⟩ := Res.bind_eq_ok.1 h
    cases ok with
    | true =>
      simp only [if_true] at h
      split at h
      · cases h
      · rename_i o os ho
        cases h
        rw [ho]
        simp only []
        split <;> simp
    | false =>
      simp only [Bool.false_eq_true, if_false] at h
      cases h
      exact Nat.le_refl _
  · cases h
    exact Nat.le_refl _

theorem mergePrev_objects {self : Inst P C B K} {m prv : Option (Node P C B)} {fuel : Nat} {s s' : MergeSt P C B} (h : mergePrev env self m prv fuel s = .ok s') :
    s'.objects = s.objects := by
  simp only [mergePrev] at h
  split at h
  · obtain ⟨db, h1, h⟩ := Res.bind_eq_ok.1 h
    obtain ⟨ok, h2, h⟩ := Res.bind_eq_ok.1 h
    cases ok <;> (simp only [Bool.false_eq_true, if_false, if_true] at h; cases h; rfl)
  · cases h
    rfl

theorem aggStep_draws {self : Inst P C B K} {cvs : List Int} {hull : Node P C B} {objects objects' : List (Node P C B)} {db db' : Db P C B}
    {cache cache' : List (List Int)} {g g' fuel : Nat} (h : aggStep env ids self cvs hull objects db cache g fuel = .ok (db', objects', cache', g')) :
    g ≤ g' ∧ g' ≤ g + 2 ∧ objects'.length ≤ objects.length ∧
      ∀ ids' : Nat → Int, (∀ k < g', ids' k = ids k) → aggStep env ids' self cvs hull objects db cache g fuel = .ok (db', objects', cache', g') := by
  rw [aggStep] at h
  obtain ⟨d1, h1, h⟩ := Res.bind_eq_ok.1 h
  obtain ⟨nb, h2, h⟩ := Res.bind_eq_ok.1 h
  obtain ⟨⟨m1, c1, g1⟩, h3, h⟩ := Res.bind_eq_ok.1 h
  obtain ⟨⟨m2, c2, g2⟩, h4, h⟩ := Res.bind_eq_ok.1 h
  obtain ⟨s1, h5, h⟩ := Res.bind_eq_ok.1 h
  obtain ⟨s2, h6, h⟩ := Res.bind_eq_ok.1 h
  obtain ⟨d2, h7, h⟩ := Res.bind_eq_ok.1 h
  cases h
  obtain ⟨e1, e2, e3⟩ := tryMerge_draws h3
  obtain ⟨e4, e5, e6⟩ := tryMerge_draws h4
  have o1 := mergeNext_objects h5
  have o2 := mergePrev_objects h6
  refine ⟨by omega, by omega, by rw [o2]; exact o1, fun ids' e => ?_⟩
  simp only [aggStep, h1, h2, Res.ok_bind, e3 ids' (fun k hk => e k (by omega)), e6 ids' e, h5, h6, h7, Res.pure_eq]

theorem aggLoop_draws {self : Inst P C B K} {cvs : List Int} : ∀ (fuel : Nat) (objects : List (Node P C B)) (db : Db P C B) (cache : List (List Int)) (g : Nat)
    {db' : Db P C B} {g' : Nat}, aggLoop env ids self cvs fuel objects db cache g = .ok (db', g') →
    g ≤ g' ∧ g' ≤ g + 2 * objects.length ∧ ∀ ids' : Nat → Int, (∀ k < g', ids' k = ids k) → aggLoop env ids' self cvs fuel objects db cache g = .ok (db', g')
  | 0, objects, db, cache, g, db', g', h => by simp only [aggLoop] at h; cases h
  | fuel + 1, [], db, cache, g, db', g', h => by
    simp only [aggLoop] at h ⊢
    cases h
    exact ⟨Nat.le_refl _, Nat.le_add_right _ _, fun _ _ => rfl⟩
  | fuel + 1, hull :: objects, db, cache, g, db', g', h => by
    rw [aggLoop] at h
    by_cases h1 : hull.range.size ≠ 1
    · rw [if_pos h1] at h
      obtain ⟨e1, e2, e3⟩ := aggLoop_draws fuel _ _ _ _ h
      refine ⟨e1, by simp only [List.length_cons]; omega, fun ids' e => ?_⟩
      rw [aggLoop, if_pos h1, e3 ids' e]
    · rw [if_neg h1] at h
      by_cases h2 : hull.range.I ∈ cvs ∧ hull.range.J ∈ cvs
      · rw [if_pos h2] at h
        obtain ⟨e1, e2, e3⟩ := aggLoop_draws fuel _ _ _ _ h
        refine ⟨e1, by simp only [List.length_cons]; omega, fun ids' e => ?_⟩
        rw [aggLoop, if_neg h1, if_pos h2, e3 ids' e]
      · rw [if_neg h2] at h
        obtain ⟨⟨d1, o1, c1, g1⟩, h3, h⟩ := Res.bind_eq_ok.1 h
        dsimp only at h
        obtain ⟨e1, e2, e3, e4⟩ := aggStep_draws h3
        obtain ⟨e5, e6, e7⟩ := aggLoop_draws fuel _ _ _ _ h
        refine ⟨by omega, by simp only [List.length_cons]; omega, fun ids' e => ?_⟩
        rw [aggLoop, if_neg h1, if_neg h2, e4 ids' (fun k hk => e k (by omega))]
        exact e7 ids' e

end

end Verif
