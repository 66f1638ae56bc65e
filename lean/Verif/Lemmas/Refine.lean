import Verif.Lemmas.RunsFC
import Verif.Spec.Refine

/-! Without the option to avoid new self-intersections, the deformation loop is the recursive procedure `RecCut`. -/

set_option linter.unusedSectionVars false

namespace Verif

/-! ### lists -/

namespace Each
variable {α β : Type} {R : α → List β → Prop}

theorem append {l m : List α} {xs ys : List β} (h1 : Each R l xs) (h2 : Each R m ys) : Each R (l ++ m) (xs ++ ys) := by
  induction h1 with
  | nil => exact h2
  | cons h t ih => rw [List.append_assoc]; exact .cons h ih

theorem of_append : ∀ {l m : List α} {zs : List β}, Each R (l ++ m) zs → ∃ xs ys, zs = xs ++ ys ∧ Each R l xs ∧ Each R m ys := by
  intro l
  induction l with
  | nil => intro m zs h; exact ⟨[], zs, rfl, .nil, h⟩
  | cons a l ih =>
    intro m zs h
    cases h with
    | cons h t =>
      obtain ⟨xs, ys, rfl, h1, h2⟩ := ih t
      exact ⟨_, _, (List.append_assoc _ _ _).symm, .cons h h1, h2⟩

theorem perm {l m : List α} (hp : l.Perm m) : ∀ {xs : List β}, Each R l xs → ∃ ys, Each R m ys ∧ xs.Perm ys := by
  induction hp with
  | nil => intro xs h; exact ⟨xs, h, .refl _⟩
  | cons a _ ih =>
    intro xs h
    cases h with
    | cons h t =>
      obtain ⟨ys, h1, h2⟩ := ih t
      exact ⟨_, .cons h h1, h2.append_left _⟩
  | swap a b l =>
    intro xs h
    cases h with
    | cons h t =>
      cases t with
      | cons h' t => exact ⟨_, .cons h' (.cons h t), List.perm_append_comm_assoc _ _ _⟩
  | trans _ _ ih1 ih2 =>
    intro xs h
    obtain ⟨ys, h1, h2⟩ := ih1 h
    obtain ⟨zs, h3, h4⟩ := ih2 h1
    exact ⟨zs, h3, h2.trans h4⟩

theorem self : ∀ {l : List α} {R : α → List α → Prop}, (∀ a ∈ l, R a [a]) → Each R l l := by
  intro l R
  induction l with
  | nil => intro _; exact .nil
  | cons a l ih =>
    intro h
    have := Each.cons (h a (by simp)) (ih (fun b hb => h b (List.mem_cons_of_mem _ hb)))
    simpa using this

theorem mem {l : List α} {xs : List β} (h : Each R l xs) : ∀ {b : β}, b ∈ xs → ∃ a ∈ l, ∃ ys, R a ys ∧ b ∈ ys := by
  induction h with
  | nil => intro b hb; cases hb
  | cons h t ih =>
    intro b hb
    rcases List.mem_append.1 hb with hb | hb
    · exact ⟨_, by simp, _, h, hb⟩
    · obtain ⟨a, ha, r⟩ := ih hb
      exact ⟨a, List.mem_cons_of_mem _ ha, r⟩

theorem sub {l : List α} {xs : List β} (h : Each R l xs) : ∀ {a : α}, a ∈ l → ∃ ys, R a ys ∧ ∀ b ∈ ys, b ∈ xs := by
  induction h with
  | nil => intro a ha; cases ha
  | cons h t ih =>
    intro a ha
    rcases List.mem_cons.1 ha with rfl | ha
    · exact ⟨_, h, fun b hb => List.mem_append_left _ hb⟩
    · obtain ⟨ys, h1, h2⟩ := ih ha
      exact ⟨ys, h1, fun b hb => List.mem_append_right _ (h2 b hb)⟩

end Each

variable {P C B K : Type} [LinearOrder B] [BoundedOrder B] [LinearOrder K]
variable {env : Env P C B K} {pts : Int → List P} {hs : List Int} {src : Int → Prop} {ids : Nat → Int} {g : Nat}

/-- Specification: the validation of constdp/validate.go:33-67 rejects the sub-line `i .. j` of the polyline `h` as one segment: it has more than one segment, its
hull is not a line, and the verdict is negative. -/
def Rejected (env : Env P C B K) (pts : Int → List P) (h : Int) (i j : Int) : Prop :=
  i + 1 < j ∧ ∃ nd : Node P C B, IsPiece env.lib (pts h) h nd ∧ nd.range = ⟨i, j⟩ ∧ nd.geom.isLineString = false ∧
    Yields (validateContextRelation env nd (env.inst h)) false

/-- the verdict on a piece is that on its range -/
theorem rejected_iff {nd : Node P C B} (hk : Known env pts hs nd) : Rejected env pts nd.inst nd.range.I nd.range.J ↔
    nd.range.size ≠ 1 ∧ nd.geom.isLineString = false ∧ Yields (validateContextRelation env nd (env.inst nd.inst)) false := by
  have hlt := hk.lt
  have hsz : nd.range.size ≠ 1 ↔ nd.range.I + 1 < nd.range.J := by simp only [Rng.size]; omega
  constructor
  · rintro ⟨h0, m, hm, hr, hg, hv⟩
    have hg' := hk.piece.geom
    have hmg := hm.geom
    have hmc := hm.coords
    rw [hr] at hmg hmc
    have e1 : m.geom = nd.geom := by rw [hg'] at hmg; exact (Res.ok.inj hmg).symm
    have e2 : m.coords = nd.coords := by rw [hmc, hk.piece.coords]
    have e3 : m.mbr = nd.mbr := by rw [hm.mbr, hk.piece.mbr, e1]
    have : m = { nd with id := m.id } := by
      cases m; cases nd
      simp_all
      exact hm.inst
    refine ⟨hsz.2 h0, by rw [← e1]; exact hg, ?_⟩
    rw [this] at hv
    exact hv
  · rintro ⟨h0, hg, hv⟩
    exact ⟨hsz.1 h0, nd, hk.piece, rfl, hg, hv⟩

theorem Settled.not_rejected {nd : Node P C B} (hk : Known env pts hs nd) (hset : Settled env nd) : ¬ Rejected env pts nd.inst nd.range.I nd.range.J := by
  rw [rejected_iff hk]
  rintro ⟨h1, h2, h3⟩
  rcases hset with h | h | h
  · exact h1 h
  · rw [h2] at h; cases h
  · have := h.unique h3; cases this

/-- constdp/simple_0.go:33-61 without the first check: only the piece itself is selected, when it is rejected -/
theorem hullSelections_free {nd : Node P C B} (hav : (env.inst nd.inst).opts.avoidNewSelfIntersects = false) {dirty : Int → Bool} {db : Db P C B} {fuel : Nat}
    {s : List (Node P C B)} (e : hullSelections env dirty db nd fuel = .ok s) : ∀ x ∈ s, x = nd ∧ nd.range.size ≠ 1 ∧ nd.geom.isLineString = false ∧
      Yields (validateContextRelation env nd (env.inst nd.inst)) false := by
  unfold hullSelections at e
  split at e
  · cases e; simp
  rename_i h1
  split at e
  · cases e; simp
  rename_i h2
  simp only [fcSelections, hav, Bool.false_eq_true, if_false, Res.ok_bind, ctxSelections, notSelected, List.any_nil, Bool.not_false, if_true] at e
  obtain ⟨b, e1, e⟩ := Res.bind_eq_ok.1 e
  cases b with
  | true => simp only [if_true, Res.pure_eq, Res.ok.injEq] at e; subst e; simp
  | false =>
    simp only [Bool.false_eq_true, if_false, Res.pure_eq, Res.ok.injEq, List.nil_append] at e
    subst e
    intro x hx
    rw [List.mem_singleton] at hx
    exact ⟨hx, h1, by simpa using h2, (validateContextRelation_le _ _ _).yields e1⟩

theorem selectionsOf_free {dirty : Int → Bool} {db : Db P C B} {fuel : Nat} : ∀ {l s : List (Node P C B)},
    (∀ x ∈ l, (env.inst x.inst).opts.avoidNewSelfIntersects = false) → selectionsOf env dirty db fuel l = .ok s → ∀ x ∈ s, x ∈ l ∧ x.range.size ≠ 1 ∧
      x.geom.isLineString = false ∧ Yields (validateContextRelation env x (env.inst x.inst)) false := by
  intro l
  induction l with
  | nil => intro s _ e; cases e; simp
  | cons a l ih =>
    intro s hav e
    rw [selectionsOf] at e
    obtain ⟨s1, e1, e⟩ := Res.bind_eq_ok.1 e
    obtain ⟨s2, e2, e⟩ := Res.bind_eq_ok.1 e
    simp only [Res.pure_eq, Res.ok.injEq] at e
    subst e
    intro x hx
    rcases List.mem_append.1 hx with hx | hx
    · obtain ⟨rfl, h1⟩ := hullSelections_free (hav a (by simp)) e1 x hx
      exact ⟨by simp, h1⟩
    · obtain ⟨h0, h1⟩ := ih (fun y hy => hav y (List.mem_cons_of_mem _ hy)) e2 x hx
      exact ⟨List.mem_cons_of_mem _ h0, h1⟩

/-- the two halves of a piece at the vertex named by the score -/
def Halves (env : Env P C B K) (pts : Int → List P) (x : Int × Rng) (l : List (Int × Rng)) : Prop :=
  ∃ k v, (env.inst x.1).scoreFn (Coords.sub (pts x.1) x.2.I x.2.J) = .ok (k, v) ∧ l = [(x.1, ⟨x.2.I, x.2.I + k⟩), (x.1, ⟨x.2.I + k, x.2.J⟩)]

/-- the recursive procedure on a piece -/
def Cuts (env : Env P C B K) (pts : Int → List P) (x : Int × Rng) (l : List (Int × Rng)) : Prop :=
  ∃ rs, RecCut (env.inst x.1).scoreFn (Rejected env pts x.1) (pts x.1) x.2.I x.2.J rs ∧ l = rs.map (fun r => (x.1, r))

/-- constdp/simple_1.go:16-30 on pieces that can be split -/
theorem deformNodesLoop_each (hi : ∀ k ∈ hs, InstOK env k (pts k)) : ∀ {sel out : List (Node P C B)} {g g' : Nat} {dirty dirty' : Int → Bool},
    (∀ x ∈ sel, Known env pts hs x ∧ x.range.size ≠ 1) → deformNodesLoop env ids sel g dirty = .ok (out, g', dirty') →
    Each (Halves env pts) (sel.map Node.key) (out.map Node.key) := by
  intro sel
  induction sel with
  | nil => intro out g g' dirty dirty' _ e; cases e; exact .nil
  | cons x sel ih =>
    intro out g g' dirty dirty' hx e
    obtain ⟨hk, hsz⟩ := hx x (by simp)
    have hlt := hk.lt
    have hsz' : x.range.I + 1 < x.range.J := by simp only [Rng.size] at hsz; omega
    have hgt : x.range.size > 1 := by simp only [Rng.size]; omega
    obtain ⟨k, v, sk, k0, k1⟩ := (hi _ hk.inst).score _ _ hk.lo hsz' hk.hi
    obtain ⟨ha, hb, e1, p1, p2, r1, r2, i1, i2⟩ := atScoreSelection_spec (hi _ hk.inst).hull hk.piece hk.lo hk.hi sk k0 k1 ids g
    simp only [deformNodesLoop, hgt, if_true, e1, Res.ok_bind] at e
    obtain ⟨⟨rest, g2, d2⟩, e2, e3⟩ := Res.bind_eq_ok.1 e
    simp only [Res.pure_eq, Res.ok.injEq, Prod.mk.injEq] at e3
    obtain ⟨rfl, rfl, rfl⟩ := e3
    have := Each.cons (R := Halves env pts) (a := x.key) ⟨k, v, sk, rfl⟩ (ih (fun y hy => hx y (List.mem_cons_of_mem _ hy)) e2)
    simpa [Node.key, r1, r2, p1.inst, p2.inst] using this

theorem Each.halves_cuts {l m L : List (Int × Rng)} (h : Each (Halves env pts) l m) (hb : ∀ x ∈ l, Rejected env pts x.1 x.2.I x.2.J) :
    Each (Cuts env pts) m L → Each (Cuts env pts) l L := by
  induction h generalizing L with
  | nil => exact id
  | @cons a l xs ys h t ih =>
    intro hL
    obtain ⟨k, v, hk, rfl⟩ := h
    have ih := @ih
    cases hL with
    | cons h1 t1 =>
      cases t1 with
      | cons h2 t2 =>
        obtain ⟨rs1, c1, rfl⟩ := h1
        obtain ⟨rs2, c2, rfl⟩ := h2
        have h3 := ih (fun x hx => hb x (List.mem_cons_of_mem _ hx)) t2
        have h4 : Cuts env pts a ((rs1 ++ rs2).map (fun r => (a.1, r))) := ⟨rs1 ++ rs2, .cut _ _ k v _ _ (hb a (by simp)) hk c1 c2, rfl⟩
        have := Each.cons h4 h3
        simpa [List.map_append, List.append_assoc] using this

/-- **The loop is the recursion.**  When new self-intersections need not be avoided, the deformation loop (constdp/simplify.go:41-55, constdp/fc_simplify.go:51-66)
leaves exactly the segments of the recursive procedure on every piece it started with. -/
theorem deformLoop_cuts (he : EnvOK env) (hi : ∀ k ∈ hs, InstOK env k (pts k)) (hinj : Function.Injective ids)
    (hav : ∀ k ∈ hs, (env.inst k).opts.avoidNewSelfIntersects = false) : ∀ (fuel : Nat) (st : LoopSt P C B) (defs : List (Node P C B)) (st' : LoopSt P C B),
    DbOK st.db → Pieces env pts hs src ids st.g (Hdb.contents st.db) → (∀ x ∈ defs, x ∈ Hdb.contents st.db) →
    (∀ x ∈ Hdb.contents st.db, x ∈ defs ∨ Settled env x) → deformLoop env ids fuel defs st = .ok st' →
    ∃ L, Each (Cuts env pts) ((Hdb.contents st.db).map Node.key) L ∧ L.Perm ((Hdb.contents st'.db).map Node.key) := by
  intro fuel
  induction fuel with
  | zero => intro st defs st' _ _ _ _ e; cases e
  | succ fuel ih =>
    intro st defs st' hd hp hm hset e
    have done : (∀ x ∈ Hdb.contents st.db, Settled env x) →
        ∃ L, Each (Cuts env pts) ((Hdb.contents st.db).map Node.key) L ∧ L.Perm ((Hdb.contents st.db).map Node.key) := by
      intro hall
      refine ⟨_, Each.self ?_, .refl _⟩
      intro a ha
      obtain ⟨x, hx, rfl⟩ := List.mem_map.1 ha
      exact ⟨[x.range], .keep _ _ ((hall x hx).not_rejected (hp.known hx)), rfl⟩
    rw [deformLoop] at e
    split at e
    · rename_i hnil
      cases e
      exact done (fun x hx => (hset x hx).resolve_left (by rw [hnil]; simp))
    obtain ⟨sel, e1, e2⟩ := Res.bind_eq_ok.1 e
    obtain ⟨sel', y, a1, a2, a3, a4⟩ := findDeformable_yields he hi st.dirty hd hp defs hm
    have : sel = sel' := (findDeformable_le env st.dirty defs st.db).val e1 y
    subst this
    split at e2
    · rename_i hnil
      cases e2
      refine done (fun x hx => ?_)
      rcases hset x hx with h | h
      · rcases a4 x h with h' | h'
        · rw [hnil] at h'; cases h'
        · exact h'
      · exact h
    have hsel : ∀ x ∈ sel, x.range.size ≠ 1 ∧ Rejected env pts x.inst x.range.I x.range.J := by
      intro x hx
      simp only [findDeformable] at e1
      obtain ⟨s, e3, e4⟩ := Res.bind_eq_ok.1 e1
      simp only [Res.pure_eq, Res.ok.injEq] at e4
      rw [← e4] at hx
      obtain ⟨-, h1, h2, h3⟩ := selectionsOf_free (fun z hz => hav _ (hp.known (hm z hz)).inst) e3 x ((dedupId_spec s).1 x hx)
      exact ⟨h1, (rejected_iff (hp.known (a1 x ((e4 ▸ hx))))).2 ⟨h1, h2, h3⟩⟩
    obtain ⟨⟨out, st1⟩, e3, e4⟩ := Res.bind_eq_ok.1 e2
    obtain ⟨out', st1', rest, y1, d1, g1, p1, r1, r2, -, -, -⟩ := deformRound_yields he hi hinj hd hp a1 a2
    have := (deformRound_le env ids st sel).val e3 y1
    cases this
    have hset1 : ∀ x ∈ Hdb.contents st1.db, x ∈ out ∨ Settled env x := by
      intro m hm'
      rcases List.mem_append.1 (r2.mem_iff.1 hm') with h | h
      · exact .inl h
      · right
        have hms : m ∉ sel := by
          intro hms
          have hn := (r1.map Node.id).nodup_iff.1 hp.nodup
          rw [List.map_append, List.nodup_append] at hn
          exact hn.2.2 _ (List.mem_map.2 ⟨m, hms, rfl⟩) _ (List.mem_map.2 ⟨m, h, rfl⟩) rfl
        rcases hset m (r1.mem_iff.2 (List.mem_append_right _ h)) with h' | h'
        · rcases a4 m h' with h'' | h''
          · exact absurd h'' hms
          · exact h''
        · exact h'
    obtain ⟨L1, c1, q1⟩ := ih st1 out st' d1 p1 (fun x hx => r2.mem_iff.2 (List.mem_append_left _ hx)) hset1 e4
    obtain ⟨L2, c2, q2⟩ := c1.perm (r2.map Node.key)
    rw [List.map_append] at c2
    obtain ⟨xs, ys, rfl, c3, c4⟩ := c2.of_append
    simp only [deformRound] at e3
    obtain ⟨⟨defs', g2, dirty2⟩, e5, e6⟩ := Res.bind_eq_ok.1 e3
    obtain ⟨db2, e7, e8⟩ := Res.bind_eq_ok.1 e6
    obtain ⟨db3, e9, e10⟩ := Res.bind_eq_ok.1 e8
    simp only [Res.pure_eq, Res.ok.injEq, Prod.mk.injEq] at e10
    obtain ⟨rfl, -⟩ := e10
    have ho := he.ord st.g sel
    have hh := deformNodesLoop_each hi (fun x hx => ⟨hp.known (a1 x (ho.mem_iff.1 hx)), (hsel x (ho.mem_iff.1 hx)).1⟩) e5
    have c5 := hh.halves_cuts (fun a ha => by
      obtain ⟨x, hx, rfl⟩ := List.mem_map.1 ha
      exact (hsel x (ho.mem_iff.1 hx)).2) c3
    obtain ⟨L, c6, q6⟩ := (c5.append c4).perm (m := (Hdb.contents st.db).map Node.key) (by
      rw [← List.map_append]
      exact ((ho.append_right rest).trans r1.symm).map _)
    exact ⟨L, c6, q6.symm.trans (q2.symm.trans q1)⟩

end Verif
