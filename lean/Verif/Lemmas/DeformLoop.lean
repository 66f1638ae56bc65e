import Verif.Lemmas.Deform
import Verif.Props.C16_Index

/-! The deformation loop terminates, keeps the cover, only refines it, and ends with settled pieces. -/

set_option linter.unusedSectionVars false

namespace Verif

variable {P C B K : Type} [LinearOrder B] [BoundedOrder B] [LinearOrder K]
variable {env : Env P C B K} {pts : Int → List P} {hs : List Int} {src : Int → Prop} {ids : Nat → Int} {g : Nat}

/-- `n` is a part of `x` -/
structure Sub (n x : Node P C B) : Prop where
  inst : n.inst = x.inst
  lo : x.range.I ≤ n.range.I
  hi : n.range.J ≤ x.range.J

theorem Sub.refl (x : Node P C B) : Sub x x := ⟨rfl, Int.le_refl _, Int.le_refl _⟩
theorem Sub.trans {a b c : Node P C B} (h1 : Sub a b) (h2 : Sub b c) : Sub a c :=
  ⟨h1.inst.trans h2.inst, Int.le_trans h2.lo h1.lo, Int.le_trans h1.hi h2.hi⟩

/-- how many more splits are possible -/
def excess (l : List (Node P C B)) : Nat := (l.map (fun n => (n.range.size - 1).toNat)).sum

theorem excess_append (l m : List (Node P C B)) : excess (l ++ m) = excess l + excess m := by simp [excess]
theorem excess_perm {l m : List (Node P C B)} (h : l.Perm m) : excess l = excess m := (h.map _).sum_nat
theorem excess_cons (x : Node P C B) (l : List (Node P C B)) : excess (x :: l) = (x.range.size - 1).toNat + excess l := by simp [excess]

/-- constdp/simple_1.go:16-30 -/
theorem deformNodesLoop_ok (hi : ∀ k ∈ hs, InstOK env k (pts k)) (hinj : Function.Injective ids) :
    ∀ (sel rest : List (Node P C B)) (g : Nat) (dirty : Int → Bool), Pieces env pts hs src ids g (sel ++ rest) →
    ∃ out g' dirty', deformNodesLoop env ids sel g dirty = .ok (out, g', dirty') ∧ g ≤ g' ∧ Pieces env pts hs src ids g' (out ++ rest) ∧
      (∀ n ∈ out, ∃ x ∈ sel, Sub n x) ∧ excess out ≤ excess sel ∧ ((∃ x ∈ sel, x.range.size > 1) → excess out < excess sel) ∧
      ((∀ x ∈ sel, ¬ x.range.size > 1) → out = sel) := by
  intro sel
  induction sel with
  | nil =>
    intro rest g dirty h
    exact ⟨[], g, dirty, rfl, Nat.le_refl _, h, by simp, Nat.le_refl _, by simp, fun _ => rfl⟩
  | cons x sel ih =>
    intro rest g dirty h
    have hx := h.known (nd := x) (by simp)
    by_cases hsz : x.range.size > 1
    · have hsz' : x.range.I + 1 < x.range.J := by simp only [Rng.size] at hsz; omega
      obtain ⟨k, v, sk, k0, k1⟩ := (hi _ hx.inst).score _ _ hx.lo hsz' hx.hi
      obtain ⟨ha, hb, e1, p1, p2, r1, r2, i1, i2⟩ := atScoreSelection_spec (hi _ hx.inst).hull hx.piece hx.lo hx.hi sk k0 k1 ids g
      have h1 : Pieces env pts hs src ids (g + 2) ([ha, hb] ++ (sel ++ rest)) := by
        refine Pieces.replace (x := x) (h := by simpa using h) (by omega) ?_ ?_ hinj ?_ ?_
        · simp only [List.map_cons, List.map_nil, i1, i2, List.nodup_cons, List.mem_singleton, List.not_mem_nil, not_false_iff, List.nodup_nil, and_true]
          intro hc; have := hinj hc; omega
        · intro n hn
          simp only [List.mem_cons, List.not_mem_nil, or_false] at hn
          rcases hn with rfl | rfl
          · exact ⟨g, by omega, by omega, i1⟩
          · exact ⟨g + 1, by omega, by omega, i2⟩
        · intro n hn
          simp only [List.mem_cons, List.not_mem_nil, or_false] at hn
          rcases hn with rfl | rfl <;> assumption
        · simp only [List.map_cons, List.map_nil, r1, r2]
          exact ⟨rfl, by simp; omega, rfl, by simp; omega, rfl⟩
      have hperm : ([ha, hb] ++ (sel ++ rest)).Perm (sel ++ (ha :: hb :: rest)) := by
        have : (sel ++ ([ha, hb] ++ rest)).Perm ([ha, hb] ++ (sel ++ rest)) := List.perm_append_comm_assoc _ _ _
        exact this.symm
      obtain ⟨out, g', dirty', e2, hg, h2, s2, x2, x3, x4⟩ := ih (ha :: hb :: rest) (g + 2) (markDirty dirty x.inst) (h1.perm hperm)
      have hexc : excess [ha, hb] < (x.range.size - 1).toNat := by
        rw [excess_cons, excess_cons, r1, r2]; simp only [Rng.size, excess, List.map_nil, List.sum_nil]; omega
      refine ⟨ha :: hb :: out, g', dirty', ?_, by omega, ?_, ?_, ?_, ?_, ?_⟩
      · simp only [deformNodesLoop, hsz, if_true, e1, e2, Res.ok_bind, Res.pure_eq]
      · refine h2.perm ?_
        have : (out ++ ([ha, hb] ++ rest)).Perm ([ha, hb] ++ (out ++ rest)) := List.perm_append_comm_assoc _ _ _
        exact this
      · intro n hn
        rcases List.mem_cons.1 hn with rfl | hn
        · exact ⟨x, by simp, p1.inst, by rw [r1], by rw [r1]; simp; omega⟩
        · rcases List.mem_cons.1 hn with rfl | hn
          · exact ⟨x, by simp, p2.inst, by rw [r2]; simp; omega, by rw [r2]⟩
          · obtain ⟨y, hy, hs⟩ := s2 n hn
            exact ⟨y, List.mem_cons_of_mem _ hy, hs⟩
      · have := excess_append [ha, hb] out
        simp only [List.cons_append, List.nil_append] at this
        rw [this, excess_cons x]; omega
      · intro _
        have := excess_append [ha, hb] out
        simp only [List.cons_append, List.nil_append] at this
        rw [this, excess_cons x]; omega
      · intro hall; exact absurd hsz (hall x (by simp))
    · have hperm : (x :: sel ++ rest).Perm (sel ++ (x :: rest)) := by
        rw [List.cons_append]; exact List.perm_middle.symm
      obtain ⟨out, g', dirty', e2, hg, h2, s2, x2, x3, x4⟩ := ih (x :: rest) g dirty (h.perm hperm)
      refine ⟨x :: out, g', dirty', ?_, hg, ?_, ?_, ?_, ?_, ?_⟩
      · simp only [deformNodesLoop, hsz, if_false, e2, Res.ok_bind, Res.pure_eq]
      · refine h2.perm ?_
        rw [List.cons_append]; exact List.perm_middle
      · intro n hn
        rcases List.mem_cons.1 hn with rfl | hn
        · exact ⟨n, by simp, Sub.refl n⟩
        · obtain ⟨y, hy, hs⟩ := s2 n hn
          exact ⟨y, List.mem_cons_of_mem _ hy, hs⟩
      · rw [excess_cons, excess_cons]; omega
      · rintro ⟨y, hy, hy'⟩
        rcases List.mem_cons.1 hy with rfl | hy
        · exact absurd hy' hsz
        · have := x3 ⟨y, hy, hy'⟩
          rw [excess_cons, excess_cons]; omega
      · intro hall
        rw [x4 (fun y hy => hall y (List.mem_cons_of_mem _ hy))]

/-- constdp/simple_2.go:8-12 -/
theorem cleanUpLoop_yields : ∀ (sel : List (Node P C B)) (db : Db P C B), DbOK db → ((Hdb.contents db).map Node.id).Nodup → (sel.map Node.id).Nodup →
    (∀ x ∈ sel, x ∈ Hdb.contents db) →
    ∃ db', Yields (fun fuel => cleanUpLoop fuel sel db) db' ∧ DbOK db' ∧ (Hdb.contents db).Perm (sel ++ Hdb.contents db') := by
  intro sel
  induction sel with
  | nil => intro db hd _ _ _; exact ⟨db, ⟨0, fun _ _ => rfl⟩, hd, by simp⟩
  | cons x sel ih =>
    intro db hd hn hs hm
    obtain ⟨d1, ⟨N, hN⟩, w, c, p⟩ := Hdb.remove_mem_yields hd.wf hn (hm x (by simp))
    rw [List.map_cons, List.nodup_cons] at hs
    have hn1 : ((Hdb.contents d1).map Node.id).Nodup := by
      have := (p.map Node.id).nodup_iff.1 hn
      rw [List.map_cons, List.nodup_cons] at this
      exact this.2
    obtain ⟨d2, ⟨M, hM⟩, w2, p2⟩ := ih d1 ⟨w, c.trans hd.cap⟩ hn1 hs.2 (by
      intro y hy
      have := p.mem_iff.1 (hm y (List.mem_cons_of_mem _ hy))
      rcases List.mem_cons.1 this with rfl | h
      · exact absurd (List.mem_map.2 ⟨y, hy, rfl⟩) hs.1
      · exact h)
    refine ⟨d2, ⟨max N M, fun fuel hf => ?_⟩, w2, p.trans (List.Perm.cons x p2)⟩
    have e2 := hM fuel (by omega)
    simp only [] at e2
    simp only [cleanUpLoop, hN fuel (by omega), Res.ok_bind, e2]

theorem DbOK.load (he : EnvOK env) {db : Db P C B} (hd : DbOK db) (items : List (Node P C B)) :
    ∃ db', Yields (fun fuel => Hdb.load nodeOps env.heur db items fuel) db' ∧ DbOK db' ∧ (Hdb.contents db').Perm (Hdb.contents db ++ items) := by
  obtain ⟨t, y, w, c, _, p⟩ := Hdb.load_yields hd.wf (by rw [hd.cap]; exact he.heur) items
  exact ⟨t, y, ⟨w, c.trans hd.cap⟩, p⟩

theorem DbOK.new : DbOK (Hdb.newHdb Hdb.defaultCap : Db P C B) := ⟨Hdb.newHdb_wf _ _, rfl⟩

theorem contents_new (cap : Nat) : Hdb.contents (Hdb.newHdb cap : Db P C B) = [] := by
  simp [Hdb.newHdb, Hdb.contents, Hdb.emptyRoot, Hdb.flat]

theorem DbOK.remove {db : Db P C B} (hd : DbOK db) (hn : ((Hdb.contents db).map Node.id).Nodup) {x : Node P C B} (hx : x ∈ Hdb.contents db) :
    ∃ db', Yields (Hdb.remove nodeOps db x) db' ∧ DbOK db' ∧ (Hdb.contents db).Perm (x :: Hdb.contents db') := by
  obtain ⟨d1, y, w, c, p⟩ := Hdb.remove_mem_yields hd.wf hn hx
  exact ⟨d1, y, ⟨w, c.trans hd.cap⟩, p⟩

/-- distinct members of a list form a sub-bag -/
theorem exists_rest {l sel : List (Node P C B)} (hs : (sel.map Node.id).Nodup) (hm : ∀ x ∈ sel, x ∈ l) : ∃ rest, l.Perm (sel ++ rest) := by
  induction sel generalizing l with
  | nil => exact ⟨l, by simp⟩
  | cons x sel ih =>
    obtain ⟨u, v, rfl⟩ := List.append_of_mem (hm x (by simp))
    rw [List.map_cons, List.nodup_cons] at hs
    obtain ⟨rest, hr⟩ := ih (l := u ++ v) hs.2 (by
      intro y hy
      have := hm y (List.mem_cons_of_mem _ hy)
      simp only [List.mem_append, List.mem_cons] at this ⊢
      rcases this with h | rfl | h
      · exact .inl h
      · exact absurd (List.mem_map.2 ⟨y, hy, rfl⟩) hs.1
      · exact .inr h)
    exact ⟨rest, List.perm_middle.trans (List.Perm.cons x hr)⟩

/-- one round with a non-empty selection -/
theorem deformRound_yields (he : EnvOK env) (hi : ∀ k ∈ hs, InstOK env k (pts k)) (hinj : Function.Injective ids) {st : LoopSt P C B} (hd : DbOK st.db)
    (hp : Pieces env pts hs src ids st.g (Hdb.contents st.db)) {sel : List (Node P C B)} (hm : ∀ x ∈ sel, x ∈ Hdb.contents st.db)
    (hn : (sel.map Node.id).Nodup) :
    ∃ out st' rest, Yields (deformRound env ids st sel) (out, st') ∧ DbOK st'.db ∧ st.g ≤ st'.g ∧ Pieces env pts hs src ids st'.g (Hdb.contents st'.db) ∧
      (Hdb.contents st.db).Perm (sel ++ rest) ∧ (Hdb.contents st'.db).Perm (out ++ rest) ∧ (∀ n ∈ out, ∃ x ∈ sel, Sub n x) ∧
      ((∃ x ∈ sel, x.range.size > 1) → excess (Hdb.contents st'.db) < excess (Hdb.contents st.db)) ∧
      ((∀ x ∈ sel, ¬ x.range.size > 1) → out.Perm sel) := by
  have o1 := he.ord st.g sel
  have o2 := he.ordRm st.g sel
  obtain ⟨rest, hr⟩ := exists_rest hn hm
  obtain ⟨out, g', dirty', e1, hg, h1, s1, x1, x2, x3⟩ := deformNodesLoop_ok hi hinj (env.ord st.g sel) rest st.g st.dirty
    (hp.perm (hr.trans (o1.symm.append_right rest)))
  obtain ⟨d1, ⟨N, hN⟩, w1, p1⟩ := cleanUpLoop_yields (env.ordRm st.g sel) st.db hd hp.nodup ((o2.map _).nodup_iff.2 hn)
    (fun x hx => hm x (o2.mem_iff.1 hx))
  obtain ⟨d2, ⟨M, hM⟩, w2, p2⟩ := w1.load he out
  have hrest : (Hdb.contents d1).Perm rest := by
    have h3 : (sel ++ Hdb.contents d1).Perm (sel ++ rest) := ((o2.append_right _).symm.trans (p1.symm)).trans hr
    exact (List.perm_append_left_iff sel).1 h3
  have p3 : (Hdb.contents d2).Perm (out ++ rest) := p2.trans (List.perm_append_comm.trans (hrest.append_left out))
  refine ⟨out, ⟨d2, g', dirty'⟩, rest, ⟨max N M, fun fuel hf => ?_⟩, w2, hg, h1.perm p3.symm, hr, p3, ?_, ?_, ?_⟩
  · have a1 := hN fuel (by omega)
    have a2 := hM fuel (by omega)
    simp only [] at a1 a2
    simp only [deformRound, e1, a1, a2, Res.ok_bind, Res.pure_eq]
  · intro n hn
    obtain ⟨x, hx, hs⟩ := s1 n hn
    exact ⟨x, o1.mem_iff.1 hx, hs⟩
  · rintro ⟨x, hx, hx'⟩
    have := x2 ⟨x, o1.mem_iff.2 hx, hx'⟩
    show excess (Hdb.contents d2) < _
    rw [excess_perm p3, excess_perm hr, excess_append, excess_append, ← excess_perm o1]
    omega
  · intro hall
    rw [x3 (fun x hx => hall x (o1.mem_iff.1 hx))]
    exact o1

/-- constdp/simplify.go:41-55, constdp/fc_simplify.go:51-66: the loop terminates for every cover; it only refines the pieces, and all pieces it leaves
are settled -/
theorem deformLoop_yields (he : EnvOK env) (hi : ∀ k ∈ hs, InstOK env k (pts k)) (hinj : Function.Injective ids) : ∀ (n : Nat) (st : LoopSt P C B)
    (defs : List (Node P C B)), excess (Hdb.contents st.db) = n → DbOK st.db → Pieces env pts hs src ids st.g (Hdb.contents st.db) →
    (∀ x ∈ defs, x ∈ Hdb.contents st.db) → (∀ x ∈ Hdb.contents st.db, x ∈ defs ∨ Settled env x) →
    ∃ st', Yields (fun fuel => deformLoop env ids fuel defs st) st' ∧ DbOK st'.db ∧ st.g ≤ st'.g ∧ Pieces env pts hs src ids st'.g (Hdb.contents st'.db) ∧
      (∀ m ∈ Hdb.contents st'.db, ∃ x ∈ Hdb.contents st.db, Sub m x) ∧ (∀ m ∈ Hdb.contents st'.db, Settled env m) := by
  intro n
  induction n using Nat.strong_induction_on with
  | _ n ih =>
    intro st defs hex hd hp hm hset
    by_cases hdef : defs = []
    · refine ⟨st, ⟨1, fun fuel hf => ?_⟩, hd, Nat.le_refl _, hp, fun m hm => ⟨m, hm, Sub.refl m⟩, fun m hm' => ?_⟩
      · obtain ⟨f, rfl⟩ := Nat.exists_eq_add_of_le' hf
        simp only [deformLoop, hdef, if_true]
      · rcases hset m hm' with h | h
        · rw [hdef] at h; cases h
        · exact h
    obtain ⟨sel, ⟨N, hN⟩, a1, a2, a3, a4⟩ := findDeformable_yields he hi st.dirty hd hp defs hm
    by_cases hsel : sel = []
    · refine ⟨st, ⟨N + 1, fun fuel hf => ?_⟩, hd, Nat.le_refl _, hp, fun m hm => ⟨m, hm, Sub.refl m⟩, fun m hm' => ?_⟩
      · obtain ⟨f, rfl⟩ := Nat.exists_eq_add_of_le' (Nat.le_trans (by omega : 1 ≤ N + 1) hf)
        simp only [deformLoop, hdef, if_false, hN f (by omega), Res.ok_bind, hsel, if_true]
      · rcases hset m hm' with h | h
        · rcases a4 m h with h | h
          · rw [hsel] at h; cases h
          · exact h
        · exact h
    obtain ⟨out, st1, rest, ⟨M, hM⟩, d1, g1, p1, r1, r2, s1, x1, x2⟩ := deformRound_yields he hi hinj hd hp a1 a2
    have hm1 : ∀ x ∈ out, x ∈ Hdb.contents st1.db := fun x hx => r2.mem_iff.2 (List.mem_append_left _ hx)
    have hsub1 : ∀ m ∈ Hdb.contents st1.db, ∃ x ∈ Hdb.contents st.db, Sub m x := by
      intro m hm'
      rcases List.mem_append.1 (r2.mem_iff.1 hm') with h | h
      · obtain ⟨x, hx, hs⟩ := s1 m h
        exact ⟨x, r1.mem_iff.2 (List.mem_append_left _ hx), hs⟩
      · exact ⟨m, r1.mem_iff.2 (List.mem_append_right _ h), Sub.refl m⟩
    have hset1 : ∀ x ∈ Hdb.contents st1.db, x ∈ out ∨ Settled env x := by
      intro m hm'
      rcases List.mem_append.1 (r2.mem_iff.1 hm') with h | h
      · exact .inl h
      · right
        have hms : m ∉ sel := by
          intro hms
          have hn := (r1.map Node.id).nodup_iff.1 hp.nodup
          rw [List.map_append, List.nodup_append] at hn
          exact hn.2.2 _ (List.mem_map.2 ⟨m, hms, rfl⟩) _ (List.mem_map.2 ⟨m, h, rfl⟩) rfl
        rcases hset m (r1.mem_iff.2 (List.mem_append_right _ h)) with h' | h'
        · rcases a4 m h' with h'' | h''
          · exact absurd h'' hms
          · exact h''
        · exact h'
    have hstep : ∀ st', Yields (fun fuel => deformLoop env ids fuel out st1) st' → Yields (fun fuel => deformLoop env ids fuel defs st) st' := by
      rintro st' ⟨L, hL⟩
      refine ⟨max N (max M L) + 1, fun fuel hf => ?_⟩
      obtain ⟨f, rfl⟩ := Nat.exists_eq_add_of_le' (Nat.le_trans (by omega : 1 ≤ max N (max M L) + 1) hf)
      have e := hL f (by omega)
      simp only [] at e
      simp only [deformLoop, hdef, if_false, hN f (by omega), Res.ok_bind, hsel, hM f (by omega), e]
    by_cases hbig : ∃ x ∈ sel, x.range.size > 1
    · obtain ⟨st', y, d', g', p', s', t'⟩ := ih _ (hex ▸ x1 hbig) st1 out rfl d1 p1 hm1 hset1
      refine ⟨st', hstep _ y, d', by omega, p', fun m hm' => ?_, t'⟩
      obtain ⟨x, hx, hs⟩ := s' m hm'
      obtain ⟨z, hz, hs'⟩ := hsub1 x hx
      exact ⟨z, hz, hs.trans hs'⟩
    · -- the selected pieces cannot be split: they are put back and the next round selects nothing
      have hsmall : ∀ x ∈ out, x.range.size = 1 := by
        intro x hx
        have hx' := (x2 (fun x hx h => hbig ⟨x, hx, h⟩)).mem_iff.1 hx
        have := (hp.bounds (a1 x hx')).2.1
        have : ¬ x.range.size > 1 := fun h => hbig ⟨x, hx', h⟩
        simp only [Rng.size] at this ⊢
        omega
      obtain ⟨sel2, ⟨N2, hN2⟩, b1, b2, b3, b4⟩ := findDeformable_yields he hi st1.dirty d1 p1 out hm1
      refine ⟨st1, hstep _ ⟨N2 + 1, fun fuel hf => ?_⟩, d1, g1, p1, hsub1, fun m hm' => ?_⟩
      · obtain ⟨f, rfl⟩ := Nat.exists_eq_add_of_le' (Nat.le_trans (by omega : 1 ≤ N2 + 1) hf)
        by_cases ho : out = []
        · simp only [deformLoop, ho, if_true]
        · simp only [deformLoop, ho, if_false, hN2 f (by omega), Res.ok_bind, b3 hsmall, if_true]
      · rcases hset1 m hm' with h | h
        · exact .inl (hsmall m h)
        · exact h

end Verif
