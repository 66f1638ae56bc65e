import Verif.Lemmas.FeatureClass

/-! Feature classes, new self-intersections are to be avoided: if no piece has neighbours of different features with the same index range, two pieces that can be split and
are left by the joint stage have been compared with each other, and the comparison asked for no deformation. -/

set_option linter.unusedSectionVars false

namespace Verif

variable {P C B K : Type} [LinearOrder B] [BoundedOrder B] [LinearOrder K]
variable {env : Env P C B K} {pts : Int → List P} {hs : List Int} {src : Int → Prop} {ids : Nat → Int} {g : Nat}

/-- `[i, j]` is the index range of a piece of feature `h` after the simplification of the single features, or comes from such a range by repeated splits at the
vertex chosen by the score function -/
inductive Occurs (env : Env P C B K) (pts : Int → List P) (outs : List (Int × Out P C B)) (h : Int) : Int → Int → Prop
  | first {out : Out P C B} {nd : Node P C B} : (h, out) ∈ outs → nd ∈ out.hulls → Occurs env pts outs h nd.range.I nd.range.J
  | left {i j k : Int} {v : Fl K} : Occurs env pts outs h i j → i + 1 < j → (env.inst h).scoreFn (Coords.sub (pts h) i j) = .ok (k, v) →
      Occurs env pts outs h i (i + k)
  | right {i j k : Int} {v : Fl K} : Occurs env pts outs h i j → i + 1 < j → (env.inst h).scoreFn (Coords.sub (pts h) i j) = .ok (k, v) →
      Occurs env pts outs h (i + k) j

/-- the piece `[i, j]` of feature `h` is the piece `[k, l]` of feature `h'`, or does not overlap it and finds it as a neighbour -/
def Touches (env : Env P C B K) (pts : Int → List P) (h i j h' k l : Int) : Prop :=
  (h = h' ∧ i = k ∧ j = l) ∨ (h = h' → j ≤ k ∨ l ≤ i) ∧ ∃ g g', hullGeometry (env.lib.convexHull (Coords.sub (pts h) i j)) = .ok g ∧
    hullGeometry (env.lib.convexHull (Coords.sub (pts h') k l)) = .ok g' ∧ (env.lib.bounds g).intersects (env.lib.bounds g') = true ∧
    (env.lib.distance g' g).le env.eps = true

/-- no piece has among its neighbours and itself pieces of different features with the same index range -/
def RangesApart (env : Env P C B K) (pts : Int → List P) (outs : List (Int × Out P C B)) (handles : List Int) : Prop :=
  ∀ a ∈ handles, ∀ b ∈ handles, ∀ c ∈ handles, ∀ i j k l, Occurs env pts outs a k l → Occurs env pts outs b i j → Occurs env pts outs c i j →
    k + 1 < l → i + 1 < j → Touches env pts a k l b i j → Touches env pts a k l c i j → b = c

/-- if `b` is a neighbour of `a`, comparing `a` with it in the joint stage asks for no deformation -/
def ClearFC (env : Env P C B K) (a b : Node P C B) : Prop :=
  Nbr env a b → ∃ r, fcContiguous env a b = .ok r ∧ candidates env.lib (env.inst a.inst).opts.nonPlanarDisplacement a b r = .ok (none, none)

theorem Pieces.range_eq {l : List (Node P C B)} (hp : Pieces env pts hs src ids g l) {a b : Node P C B} (ha : a ∈ l) (hb : b ∈ l) (hi : a.inst = b.inst)
    (hr : a.range = b.range) : a = b := by
  have hh := (hp.known ha).inst
  exact (hp.restrict hh).range_inj (List.mem_filter.2 ⟨ha, by simp⟩) (List.mem_filter.2 ⟨hb, by simp [hi]⟩) hr

/-- a piece that is examined is selected, or the other piece is selected, or the two are clear -/
theorem findDeformable_clearFC (he : EnvOK env) (hi : ∀ k ∈ hs, InstOK env k (pts k)) {dirty : Int → Bool}
    (hid : ∀ a ∈ hs, ∀ b ∈ hs, (env.inst a).id = (env.inst b).id → a = b)
    {db : Db P C B} (hd : DbOK db) (hp : Pieces env pts hs src ids g (Hdb.contents db))
    {defs sel : List (Node P C B)} (hm : ∀ x ∈ defs, x ∈ Hdb.contents db) {n : Nat} (e : findDeformable env dirty defs db n = .ok sel)
    {a b : Node P C B} (ha : a ∈ defs) (hb : b ∈ Hdb.contents db) (hab : a.id ≠ b.id) (hbig : Big a) (hbb : Big b)
    (hrng : ∀ x ∈ Hdb.contents db, ∀ y ∈ Hdb.contents db, Big x → x = a ∨ Nbr env a x → y = a ∨ Nbr env a y → y.range = x.range → y = x)
    (hav : (env.inst a.inst).opts.avoidNewSelfIntersects = true) (hq : dirty a.inst = true ∨ a.inst ≠ b.inst) :
    a ∈ sel ∨ b ∈ sel ∨ ClearFC env a b := by
  have kv : ∀ x ∈ Hdb.contents db, Known env pts hs x ∧ x.mbr.Valid := fun x hx => ⟨hp.known hx, hp.valid hi hx⟩
  have hac := hm a ha
  simp only [findDeformable, Res.bind_eq_ok] at e
  obtain ⟨sels, e1, e⟩ := e
  cases e
  obtain ⟨q, e2, hq2⟩ := selectionsOf_mem e1 a ha
  obtain ⟨d1, d2, d3⟩ := dedupId_spec sels
  have hsels : ∀ x ∈ sels, x ∈ Hdb.contents db := by
    obtain ⟨z, hz, h1, -⟩ := selectionsOf_yields he hi dirty hd kv defs hm
    have : sels = z := Mono.val (f := fun n => selectionsOf env dirty db n defs) (fun n => selectionsOf_le _ _ _ n defs) e1 hz
    rw [this]; exact h1
  have hin : ∀ x ∈ Hdb.contents db, x ∈ q → x ∈ dedupId sels := by
    intro x hx hxq
    obtain ⟨y, hy, hid⟩ := d3 x (hq2 x hxq)
    have : y = x := hp.eq_of_id (hsels y (d1 y hy)) hx hid
    exact this ▸ hy
  rw [hullSelections, if_neg hbig.1, hbig.2, if_neg (by simp)] at e2
  obtain ⟨s, e3, e2⟩ := Res.bind_eq_ok.1 e2
  have hsq : ∀ x ∈ s, x ∈ q := by
    intro x hx
    unfold ctxSelections at e2
    split_ifs at e2
    · obtain ⟨v, -, e2⟩ := Res.bind_eq_ok.1 e2
      cases e2
      cases v
      · exact List.mem_append_left _ hx
      · exact hx
    · cases e2; exact hx
  rw [fcSelections] at e3
  simp only [hav, if_true] at e3
  obtain ⟨ns, e4, e5⟩ := Res.bind_eq_ok.1 e3
  obtain ⟨ns', y1, p1⟩ := neighboursOf_yields (env := env) hd (fun x hx => (kv x hx).2) a
  have hns : ns = ns' := Mono.val (neighboursOf_le env db a) e4 y1
  subst hns
  have hmem : ∀ m ∈ ns, m ∈ Hdb.contents db := fun m hm => (List.mem_filter.1 (p1.mem_iff.1 hm)).1
  by_cases hnb : Nbr env a b
  swap
  · exact .inr (.inr (fun h => absurd h hnb))
  have hbn : b ∈ ns := p1.mem_iff.2 (List.mem_filter.2 ⟨hb, by simpa using ⟨fun h => hab h.symm, hnb⟩⟩)
  have hopt : ∀ m ∈ optimizeNeighbours env dirty a ns, m ∈ ns := by
    intro m hm
    unfold optimizeNeighbours at hm
    split_ifs at hm
    · exact hm
    · exact (List.mem_filter.1 hm).1
  have hsub : ∀ m ∈ optimizeNeighbours env dirty a ns, m ∈ Hdb.contents db := fun m hm => hmem m (hopt m hm)
  have hnbr : ∀ m ∈ optimizeNeighbours env dirty a ns, Nbr env a m := by
    intro m hm
    have := (List.mem_filter.1 (p1.mem_iff.1 (hopt m hm))).2
    simp only [decide_eq_true_eq] at this
    exact this.2
  have hbo : b ∈ optimizeNeighbours env dirty a ns := by
    unfold optimizeNeighbours
    rcases hq with hq | hq
    · rw [if_pos hq]; exact hbn
    · split_ifs
      · exact hbn
      · exact List.mem_filter.2 ⟨hbn, decide_eq_true fun h => hq (hid _ (kv a hac).1.inst _ (kv b hb).1.inst h)⟩
  obtain ⟨r, h1, h2⟩ := fcContiguous_ok (kv a hac).1 (kv b hb).1
  obtain ⟨c, h3, h4, h5⟩ := candidates_ok he (d := (env.inst a.inst).opts.nonPlanarDisplacement) (kv a hac).1 (kv b hb).1 h2
  have hw : ∀ m ∈ optimizeNeighbours env dirty a ns, ∀ y, Wanted env (env.inst a.inst).opts.nonPlanarDisplacement a m y → y = a ∨ y = m := by
    rintro m hm y ⟨r', s', f1, f2, f3⟩
    obtain ⟨r1, g1, g2⟩ := fcContiguous_ok (kv a hac).1 (kv m (hsub m hm)).1
    rw [f1] at g1; cases g1
    obtain ⟨c1, g3, g4, g5⟩ := candidates_ok he (d := (env.inst a.inst).opts.nonPlanarDisplacement) (kv a hac).1 (kv m (hsub m hm)).1 g2
    rw [f2] at g3; cases g3
    rcases f3 with f3 | f3
    · exact .inl (g4 y f3)
    · exact .inr (g5 y f3)
  have hu : ∀ x ∈ Hdb.contents db, Big x → x = a ∨ Nbr env a x → ∀ m ∈ optimizeNeighbours env dirty a ns, ∀ y,
      Wanted env (env.inst a.inst).opts.nonPlanarDisplacement a m y → y.range = x.range → y = x := by
    intro x hx bx nx m hm y hy hr
    have ⟨hyc, ny⟩ : y ∈ Hdb.contents db ∧ (y = a ∨ Nbr env a y) := by
      rcases hw m hm y hy with rfl | rfl
      · exact ⟨hac, .inl rfl⟩
      · exact ⟨hsub _ hm, .inr (hnbr _ hm)⟩
    exact hrng x hx y hyc bx nx ny hr
  have hsel : ∀ x ∈ Hdb.contents db, Big x → x = a ∨ Nbr env a x → c.1 = some x ∨ c.2 = some x → x ∈ dedupId sels := by
    intro x hx bx nx hc
    refine hin x hx (hsq x ?_)
    exact selectFCLoop_complete _ _ _ e5 x (.inr ⟨b, hbo, r, c, h1, h3, hc⟩) (hu x hx bx nx)
  obtain ⟨c1, c2⟩ := c
  cases c1 with
  | some x =>
    have := h4 x rfl
    subst this
    exact .inl (hsel _ hac hbig (.inl rfl) (.inl rfl))
  | none =>
    cases c2 with
    | some x =>
      have := h5 x rfl
      subst this
      exact .inr (.inl (hsel _ hb hbb (.inr hnb) (.inr rfl)))
    | none => exact .inr (.inr (fun _ => ⟨r, h1, h3⟩))

/-- what splitting gives: pieces that cannot be split come back, the others are halves of pieces of instances that are then dirty -/
theorem deformNodesLoop_halves (hi : ∀ k ∈ hs, InstOK env k (pts k)) : ∀ {sel : List (Node P C B)} {g : Nat} {dirty : Int → Bool}
    {out : List (Node P C B)} {g' : Nat} {dirty' : Int → Bool}, deformNodesLoop env ids sel g dirty = .ok (out, g', dirty') →
    (∀ x ∈ sel, Known env pts hs x) → ∀ n ∈ out, n ∈ sel ∧ ¬ n.range.size > 1 ∨ dirty' n.inst = true ∧ ∃ x ∈ sel, n.inst = x.inst ∧ x.range.I + 1 < x.range.J ∧
      ∃ k v, (env.inst x.inst).scoreFn (Coords.sub (pts x.inst) x.range.I x.range.J) = .ok (k, v) ∧
        (n.range = ⟨x.range.I, x.range.I + k⟩ ∨ n.range = ⟨x.range.I + k, x.range.J⟩) := by
  intro sel
  induction sel with
  | nil => intro g dirty out g' dirty' e _ n hn; cases e; cases hn
  | cons x sel ih =>
    intro g dirty out g' dirty' e hk n hn
    have hx := hk x (by simp)
    have lift : ∀ {o : List (Node P C B)} {g1 g2 : Nat} {d1 d2 : Int → Bool}, deformNodesLoop env ids sel g1 d1 = .ok (o, g2, d2) → n ∈ o →
        n ∈ x :: sel ∧ ¬ n.range.size > 1 ∨ d2 n.inst = true ∧ ∃ x' ∈ x :: sel, n.inst = x'.inst ∧ x'.range.I + 1 < x'.range.J ∧
          ∃ k v, (env.inst x'.inst).scoreFn (Coords.sub (pts x'.inst) x'.range.I x'.range.J) = .ok (k, v) ∧
            (n.range = ⟨x'.range.I, x'.range.I + k⟩ ∨ n.range = ⟨x'.range.I + k, x'.range.J⟩) := by
      intro o g1 g2 d1 d2 e2 hn
      rcases ih e2 (fun y hy => hk y (List.mem_cons_of_mem _ hy)) n hn with ⟨h1, h2⟩ | ⟨h1, y, hy, h2⟩
      · exact .inl ⟨List.mem_cons_of_mem _ h1, h2⟩
      · exact .inr ⟨h1, y, List.mem_cons_of_mem _ hy, h2⟩
    unfold deformNodesLoop at e
    split_ifs at e with hsz
    · have hsz' : x.range.I + 1 < x.range.J := by simp only [Rng.size] at hsz; omega
      obtain ⟨⟨ha, hb, g1⟩, e1, e⟩ := Res.bind_eq_ok.1 e
      obtain ⟨⟨rest, g2, dirty2⟩, e2, e⟩ := Res.bind_eq_ok.1 e
      cases e
      obtain ⟨k, v, sk, k0, k1⟩ := (hi _ hx.inst).score _ _ hx.lo hsz' hx.hi
      obtain ⟨ha', hb', f1, p1, p2, r1, r2, -⟩ := atScoreSelection_spec (hi _ hx.inst).hull hx.piece hx.lo hx.hi sk k0 k1 ids g
      rw [e1] at f1
      cases f1
      have hdirty : dirty' x.inst = true := deformNodesLoop_dirty e2 (by simp [markDirty])
      rcases List.mem_cons.1 hn with rfl | hn
      · exact .inr ⟨by rw [p1.inst]; exact hdirty, x, by simp, p1.inst, hsz', k, v, sk, .inl r1⟩
      rcases List.mem_cons.1 hn with rfl | hn
      · exact .inr ⟨by rw [p2.inst]; exact hdirty, x, by simp, p2.inst, hsz', k, v, sk, .inr r2⟩
      · exact lift e2 hn
    · obtain ⟨⟨rest, g2, dirty2⟩, e2, e⟩ := Res.bind_eq_ok.1 e
      cases e
      rcases List.mem_cons.1 hn with rfl | hn
      · exact .inl ⟨by simp, hsz⟩
      · exact lift e2 hn

/-- two pieces that are compared, or next to each other on one feature -/
def GoodFC (env : Env P C B K) (a b : Node P C B) : Prop := (a.inst = b.inst ∧ Adj a b) ∨ ClearFC env a b ∨ ClearFC env b a

/-- constdp/fc_simplify.go:51-66: what the loop leaves -/
theorem deformLoop_sepFC (he : EnvOK env) (hi : ∀ k ∈ hs, InstOK env k (pts k)) (hinj : Function.Injective ids)
    (hid : ∀ a ∈ hs, ∀ b ∈ hs, (env.inst a).id = (env.inst b).id → a = b) {outs : List (Int × Out P C B)} (hap : RangesApart env pts outs hs)
    (hav : ∀ k ∈ hs, (env.inst k).opts.avoidNewSelfIntersects = true) : ∀ (n : Nat) (st st' : LoopSt P C B) (defs : List (Node P C B)),
    deformLoop env ids n defs st = .ok st' → DbOK st.db → Pieces env pts hs src ids st.g (Hdb.contents st.db) →
    (∀ x ∈ defs, x ∈ Hdb.contents st.db) → (∀ x ∈ Hdb.contents st.db, Occurs env pts outs x.inst x.range.I x.range.J) →
    (∀ a ∈ Hdb.contents st.db, ∀ b ∈ Hdb.contents st.db, a.id ≠ b.id → Big a → Big b →
      a ∈ defs ∧ (st.dirty a.inst = true ∨ a.inst ≠ b.inst) ∨ b ∈ defs ∧ (st.dirty b.inst = true ∨ b.inst ≠ a.inst) ∨ GoodFC env a b) →
    ∀ a ∈ Hdb.contents st'.db, ∀ b ∈ Hdb.contents st'.db, a.id ≠ b.id → Big a → Big b → GoodFC env a b := by
  intro n
  induction n with
  | zero => intro st st' defs e; cases e
  | succ n ih =>
    intro st st' defs e hd hp hm hocc hinv
    unfold deformLoop at e
    split_ifs at e with hdef
    · cases e
      intro a ha b hb hab ba bb
      rcases hinv a ha b hb hab ba bb with ⟨h, -⟩ | ⟨h, -⟩ | h
      · rw [hdef] at h; cases h
      · rw [hdef] at h; cases h
      · exact h
    obtain ⟨sel, e1, e⟩ := Res.bind_eq_ok.1 e
    have hsz : ∀ x ∈ Hdb.contents st.db, Big x → x.range.I + 1 < x.range.J := by
      intro x hx bx
      have := (hp.known hx).lt
      have h1 := bx.1
      simp only [Rng.size] at h1
      omega
    have htouch : ∀ a ∈ Hdb.contents st.db, ∀ x ∈ Hdb.contents st.db, x = a ∨ Nbr env a x →
        Touches env pts a.inst a.range.I a.range.J x.inst x.range.I x.range.J := by
      intro a ha x hx hax
      by_cases hxa : x = a
      · subst hxa; exact .inl ⟨rfl, rfl, rfl⟩
      · obtain ⟨h1, h2⟩ := hax.resolve_left hxa
        have pa := (hp.known ha).piece
        have px := (hp.known hx).piece
        rw [pa.mbr, px.mbr] at h1
        refine .inr ⟨fun hin => ?_, _, _, pa.geom, px.geom, h1, h2⟩
        have hd := (hp.restrict (hp.known ha).inst).disjoint (a := a) (b := x) (List.mem_filter.2 ⟨ha, by simp⟩) (List.mem_filter.2 ⟨hx, by simp [hin]⟩)
        exact hd.resolve_left (fun h => hxa h.symm)
    have hrng : ∀ a ∈ Hdb.contents st.db, Big a → ∀ x ∈ Hdb.contents st.db, ∀ y ∈ Hdb.contents st.db, Big x → x = a ∨ Nbr env a x → y = a ∨ Nbr env a y →
        y.range = x.range → y = x := by
      intro a ha ba x hx y hy bx nx ny hr
      have oy := hocc y hy
      have ty := htouch a ha y hy ny
      rw [hr] at oy ty
      exact hp.range_eq hy hx (hap _ (hp.known ha).inst _ (hp.known hy).inst _ (hp.known hx).inst _ _ _ _ (hocc a ha) oy (hocc x hx) (hsz a ha ba) (hsz x hx bx)
        ty (htouch a ha x hx nx)) hr
    have hcl : ∀ a ∈ Hdb.contents st.db, ∀ b ∈ Hdb.contents st.db, a.id ≠ b.id → Big a → Big b → a ∈ sel ∨ b ∈ sel ∨ GoodFC env a b := by
      intro a ha b hb hab ba bb
      rcases hinv a ha b hb hab ba bb with ⟨h, hq⟩ | ⟨h, hq⟩ | h
      · rcases findDeformable_clearFC he hi hid hd hp hm e1 h hb hab ba bb (hrng a ha ba) (hav _ (hp.known ha).inst) hq with h | h | h
        · exact .inl h
        · exact .inr (.inl h)
        · exact .inr (.inr (.inr (.inl h)))
      · rcases findDeformable_clearFC he hi hid hd hp hm e1 h ha (Ne.symm hab) bb ba (hrng b hb bb) (hav _ (hp.known hb).inst) hq with h | h | h
        · exact .inr (.inl h)
        · exact .inl h
        · exact .inr (.inr (.inr (.inr h)))
      · exact .inr (.inr h)
    split_ifs at e with hsel
    · cases e
      intro a ha b hb hab ba bb
      rcases hcl a ha b hb hab ba bb with h | h | h
      · rw [hsel] at h; cases h
      · rw [hsel] at h; cases h
      · exact h
    obtain ⟨⟨out, st1⟩, e2, e⟩ := Res.bind_eq_ok.1 e
    have ⟨a1, a2⟩ : (∀ x ∈ sel, x ∈ Hdb.contents st.db) ∧ (sel.map Node.id).Nodup := by
      obtain ⟨z, hz, h1, h2, -⟩ := findDeformable_yields he hi st.dirty hd hp defs hm
      have : sel = z := Mono.val (findDeformable_le env st.dirty defs st.db) e1 hz
      rw [this]; exact ⟨h1, h2⟩
    have hhalf := e2
    simp only [deformRound, Res.bind_eq_ok] at hhalf
    obtain ⟨⟨o, g1, dirty1⟩, f1, d1, -, d2, -, f⟩ := hhalf
    have ho := he.ord st.g sel
    have hh := deformNodesLoop_halves hi f1 (fun x hx => hp.known (a1 x (ho.mem_iff.1 hx)))
    have hoo : o = out ∧ dirty1 = st1.dirty := by cases f; exact ⟨rfl, rfl⟩
    rw [hoo.1, hoo.2] at hh
    obtain ⟨out', st1', rest, y, w1, g1, p1, r1, r2, -⟩ := deformRound_yields he hi hinj hd hp a1 a2
    have heq : (out, st1) = (out', st1') := Mono.val (deformRound_le env ids st sel) e2 y
    cases heq
    have hrest : ∀ x ∈ rest, x ∉ sel ∧ x ∈ Hdb.contents st.db := by
      intro x hx
      refine ⟨fun hxs => ?_, r1.mem_iff.2 (List.mem_append_right _ hx)⟩
      have hn := (r1.map Node.id).nodup_iff.1 hp.nodup
      rw [List.map_append, List.nodup_append] at hn
      exact hn.2.2 _ (List.mem_map.2 ⟨x, hxs, rfl⟩) _ (List.mem_map.2 ⟨x, hx, rfl⟩) rfl
    have hnew : ∀ x ∈ out, x ∈ Hdb.contents st1.db → Big x → st1.dirty x.inst = true := by
      intro x hx hxc bx
      rcases hh x hx with ⟨-, h⟩ | ⟨h, -⟩
      · have hlt := (p1.known hxc).lt
        have := bx.1
        simp only [Rng.size] at h this
        omega
      · exact h
    refine ih st1 st' out e w1 p1 (fun x hx => r2.mem_iff.2 (List.mem_append_left _ hx)) ?_ ?_
    · intro x hx
      rcases List.mem_append.1 (r2.mem_iff.1 hx) with hx | hx
      · rcases hh x hx with ⟨h, -⟩ | ⟨-, z, hz, hzi, hsz, k, v, sk, hr⟩
        · exact hocc x (a1 x (ho.mem_iff.1 h))
        · have hz := hocc z (a1 z (ho.mem_iff.1 hz))
          rw [hzi]
          rcases hr with hr | hr <;> rw [hr]
          · exact .left hz hsz sk
          · exact .right hz hsz sk
      · exact hocc x (hrest x hx).2
    · intro a ha b hb hab ba bb
      rcases List.mem_append.1 (r2.mem_iff.1 ha) with ha' | ha'
      · exact .inl ⟨ha', .inl (hnew a ha' ha ba)⟩
      rcases List.mem_append.1 (r2.mem_iff.1 hb) with hb' | hb'
      · exact .inr (.inl ⟨hb', .inl (hnew b hb' hb bb)⟩)
      rcases hcl a (hrest a ha').2 b (hrest b hb').2 hab ba bb with h | h | h
      · exact absurd h (hrest a ha').1
      · exact absurd h (hrest b hb').1
      · exact .inr (.inr h)

theorem Clear.toFC {a b : Node P C B} (hi : a.inst = b.inst) (h : Clear env (env.inst a.inst).opts.nonPlanarDisplacement a b) : ClearFC env a b := by
  intro hn
  obtain ⟨r, h1, h2⟩ := h hn
  exact ⟨r, by unfold fcContiguous; rw [hi, if_pos rfl]; exact h1, h2⟩

/-- constdp/fc_simplify.go:14-69: what the joint stage leaves, when no piece has neighbours of different features with the same index range -/
theorem simplifyFeatureClass_sep (he : EnvOK env) (hl : LnrOK env.lnr) {handles : List Int} (hi : ∀ h ∈ handles, InstOK env h (pts h))
    (hn : handles.Nodup) (hid : ∀ a ∈ handles, ∀ b ∈ handles, (env.inst a).id = (env.inst b).id → a = b) {idsOf : Int → Nat → Int}
    (hst : Streams ids idsOf handles) {o : Opts K} {dirty d : Int → Bool} (ho : o.avoidNewSelfIntersects = true)
    (hav : ∀ h ∈ handles, (env.inst h).opts.avoidNewSelfIntersects = true) {js : List (Int × Int)} (hj : fcJunctions env handles o.planarSelf = .ok js)
    {fuel : Nat} {outs res : List (Int × Out P C B)} (hs : simplifyInstances env idsOf js fuel handles dirty = .ok (outs, d))
    (hap : RangesApart env pts outs handles) (hr : simplifyFeatureClass env ids idsOf handles o dirty fuel = .ok res) :
    (∀ x ∈ res, ∀ a ∈ x.2.hulls, a.inst = x.1 ∧ Known env pts handles a) ∧ (∀ x ∈ res, ∀ y ∈ res, ∀ a ∈ x.2.hulls, ∀ b ∈ y.2.hulls, a.id = b.id → a = b) ∧
      ∀ x ∈ res, ∀ y ∈ res, ∀ a ∈ x.2.hulls, ∀ b ∈ y.2.hulls, a.id ≠ b.id → Big a → Big b → GoodFC env a b := by
  obtain ⟨js', j1, -, -, j2⟩ := fcJunctions_ok hl hi hid o.planarSelf
  rw [hj] at j1; cases j1
  obtain ⟨outs', d1, y1, r1, r2⟩ := simplifyInstances_yields he hl (js := js) handles dirty hi hst.each j2
  have : (outs, d) = (outs', d1) := Mono.val (f := fun fuel => simplifyInstances env idsOf js fuel handles dirty)
    (fun n => simplifyInstances_le env idsOf js n handles dirty) hs y1
  cases this
  obtain ⟨p1, p2⟩ := joint_pieces (ids := ids) (cv := fun h => junctionsOf js (env.inst h).id) outs (by rw [r1]; exact hn) (by rw [r1]; exact hst) r2
  have hc : (o.avoidNewSelfIntersects || o.planarSelf || o.geomRelation || o.dirRelation || o.distRelation) = true := by simp [ho]
  simp only [simplifyFeatureClass, hj, hs, Res.ok_bind, hc, if_true, Res.bind_eq_ok] at hr
  obtain ⟨db, e2, st, e3, nodes, e5, hr⟩ := hr
  cases hr
  obtain ⟨d2, y2, w2, q2⟩ := DbOK.new.load he (outs.flatMap (fun x => x.2.hulls))
  have : db = d2 := Mono.val (Hdb.load_le nodeOps env.heur _ _) e2 y2
  subst this
  rw [contents_new, List.nil_append] at q2
  rw [r1] at p1
  obtain ⟨st2, y3, w3, hg3, p3, -⟩ := deformLoop_yields he hi hst.joint _ ⟨db, 0, d⟩ (outs.flatMap (fun x => x.2.hulls)) rfl w2
    (p1.perm q2.symm) (fun x hx => q2.mem_iff.2 hx) (fun x hx => .inl (q2.mem_iff.1 hx))
  have : st = st2 := Mono.val (f := fun fuel => deformLoop env ids fuel _ _) (fun n => deformLoop_le env ids n _ _) e3 y3
  subst this
  have hmem : ∀ x ∈ Hdb.contents db, ∃ z ∈ outs, x ∈ z.2.hulls ∧ x.inst = z.1 := by
    intro x hx
    obtain ⟨z, hz, hxz⟩ := List.mem_flatMap.1 (q2.mem_iff.1 hx)
    obtain ⟨g, hp⟩ := (r2 z hz).pieces
    exact ⟨z, hz, hxz, by simpa using (hp.piece x hxz).1⟩
  have hsep := deformLoop_sepFC he hi hst.joint hid hap hav fuel ⟨db, 0, d⟩ st _ e3 w2 (p1.perm q2.symm) (fun x hx => q2.mem_iff.2 hx)
    (fun x hx => by
      obtain ⟨z, hz, hxz, hi⟩ := hmem x hx
      rw [hi]
      exact .first (out := z.2) hz hxz)
    (fun a ha b hb hab ba bb => by
      by_cases hin : a.inst = b.inst
      · obtain ⟨z, hz, haz, hia⟩ := hmem a ha
        obtain ⟨w, hw, hbw, hib⟩ := hmem b hb
        have hbz : b ∈ z.2.hulls := by
          rw [← p2 z hz]
          exact List.mem_filter.2 ⟨q2.mem_iff.1 hb, decide_eq_true (hin.symm.trans hia)⟩
        have hzh : z.1 ∈ handles := by rw [← r1]; exact List.mem_map.2 ⟨z, hz, rfl⟩
        rcases (r2 z hz).sep (hav _ hzh) a haz b hbz hab ba bb with h | h | h
        · exact .inr (.inr (.inl ⟨hin, h⟩))
        · rw [← hia] at h
          exact .inr (.inr (.inr (.inl (h.toFC hin))))
        · rw [← hia, hin] at h
          exact .inr (.inr (.inr (.inr (h.toFC hin.symm))))
      · exact .inl ⟨q2.mem_iff.1 ha, .inr hin⟩)
  obtain ⟨nodes', y5, q5⟩ := Hdb.all_yields w3.wf
  have : nodes = nodes' := Mono.val (Hdb.all_le _) e5 y5
  subst this
  have p5 := p3.perm q5.symm
  have hres : ∀ x ∈ outs.map (fun x => (x.1, groupResult env nodes x.1 x.2)), ∀ a ∈ x.2.hulls, a ∈ nodes ∧ a.inst = x.1 := by
    intro x hx a ha
    obtain ⟨z, hz, rfl⟩ := List.mem_map.1 hx
    have hzh : z.1 ∈ handles := by rw [← r1]; exact List.mem_map.2 ⟨z, hz, rfl⟩
    simp only at ha ⊢
    rw [groupResult_eq hid p5 hzh (hi _ hzh).two] at ha
    obtain ⟨h1, h2⟩ := List.mem_filter.1 ha
    exact ⟨h1, by simpa using h2⟩
  refine ⟨fun x hx a ha => ⟨(hres x hx a ha).2, p5.known (hres x hx a ha).1⟩,
    fun x hx y hy a ha b hb hab => p5.eq_of_id (hres x hx a ha).1 (hres y hy b hb).1 hab, fun x hx y hy a ha b hb => ?_⟩
  exact hsep a (q5.mem_iff.1 (hres x hx a ha).1) b (q5.mem_iff.1 (hres y hy b hb).1)

end Verif
