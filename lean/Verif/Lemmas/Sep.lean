import Verif.Lemmas.MergePass
import Verif.Lemmas.DeformLoop
import Verif.Lemmas.Wanted
import Verif.Lemmas.Mono

/-! Single polylines, new self-intersections are to be avoided: two pieces that can be split and are left by the deformation loop and the merge pass have been
compared with each other, and the comparison asked for no deformation. -/

set_option linter.unusedSectionVars false

namespace Verif

variable {P C B K : Type} [LinearOrder B] [BoundedOrder B] [LinearOrder K]
variable {env : Env P C B K} {pts : Int → List P} {src : Int → Prop} {ids : Nat → Int} {g : Nat} {h : Int}

theorem rel_of_pairwise {α : Type} {R : α → α → Prop} {l : List α} (hp : l.Pairwise R) {a b : α} (ha : a ∈ l) (hb : b ∈ l) : a = b ∨ R a b ∨ R b a := by
  induction hp with
  | nil => cases ha
  | @cons x l h1 _ ih =>
    rcases List.mem_cons.1 ha with rfl | ha' <;> rcases List.mem_cons.1 hb with rfl | hb'
    · exact .inl rfl
    · exact .inr (.inl (h1 _ hb'))
    · exact .inr (.inr (h1 _ ha'))
    · exact ih ha' hb'

/-- different pieces of a cover of one polyline do not overlap -/
theorem Pieces.disjoint {src : Int → Prop} {ids : Nat → Int} {g : Nat} {e : Env P C B K} {l : List (Node P C B)} (hp : Pieces e pts [h] src ids g l)
    {a b : Node P C B} (ha : a ∈ l) (hb : b ∈ l) : a = b ∨ a.range.J ≤ b.range.I ∨ b.range.J ≤ a.range.I := by
  obtain ⟨t, h1, h2⟩ := hp.cover h (by simp)
  have hall : ∀ x ∈ l, x ∈ t := fun x hx => h1.mem_iff.2 (List.mem_filter.2 ⟨hx, by simpa using List.mem_singleton.1 (hp.piece x hx).1⟩)
  have hpw := h2.pairwise
  rw [List.pairwise_map] at hpw
  exact rel_of_pairwise hpw (hall a ha) (hall b hb)

theorem Pieces.range_inj {src : Int → Prop} {ids : Nat → Int} {g : Nat} {e : Env P C B K} {l : List (Node P C B)} (hp : Pieces e pts [h] src ids g l)
    {a b : Node P C B} (ha : a ∈ l) (hb : b ∈ l) (hr : a.range = b.range) : a = b := by
  have hlt := (hp.bounds ha).2.1
  rcases hp.disjoint ha hb with h1 | h1 | h1
  · exact h1
  · rw [← hr] at h1; omega
  · rw [← hr] at h1; omega

/-- the piece has more than two vertices and a hull with more than two corners: it is examined for conflicts -/
def Big (x : Node P C B) : Prop := x.range.size ≠ 1 ∧ x.geom.isLineString = false

/-- `x` is found as a neighbour of `a` -/
def Nbr (env : Env P C B K) (a x : Node P C B) : Prop :=
  a.mbr.intersects x.mbr = true ∧ (env.lib.distance x.geom a.geom).le env.eps = true

/-- if `b` is a neighbour of `a`, comparing `a` with it asks for no deformation -/
def Clear (env : Env P C B K) (d : Fl K) (a b : Node P C B) : Prop :=
  Nbr env a b → ∃ r, Node.isContiguous env.lib a b = .ok r ∧ candidates env.lib d a b r = .ok (none, none)

/-- one of the pieces begins where the other one ends -/
def Adj (a b : Node P C B) : Prop := a.range.J = b.range.I ∨ b.range.J = a.range.I

/-- all pairs of pieces that are examined have been compared -/
def Sep (env : Env P C B K) (h : Int) (l : List (Node P C B)) : Prop :=
  ∀ a ∈ l, ∀ b ∈ l, a.id ≠ b.id → Big a → Big b →
    Adj a b ∨ Clear env (env.inst h).opts.nonPlanarDisplacement a b ∨ Clear env (env.inst h).opts.nonPlanarDisplacement b a

theorem Sep.mono {l l' : List (Node P C B)} (hs : Sep env h l) (hm : ∀ x ∈ l', x ∈ l) : Sep env h l' :=
  fun a ha b hb => hs a (hm a ha) b (hm b hb)

/-! ### the deformation loop -/

theorem selectionsOf_mem {dirty : Int → Bool} {db : Db P C B} {n : Nat} : ∀ {hulls o : List (Node P C B)}, selectionsOf env dirty db n hulls = .ok o →
    ∀ x ∈ hulls, ∃ q, hullSelections env dirty db x n = .ok q ∧ ∀ y ∈ q, y ∈ o := by
  intro hulls
  induction hulls with
  | nil => intro o _ x hx; cases hx
  | cons a hulls ih =>
    intro o e x hx
    simp only [selectionsOf, Res.bind_eq_ok] at e
    obtain ⟨s, e1, rest, e2, e⟩ := e
    cases e
    rcases List.mem_cons.1 hx with rfl | hx
    · exact ⟨s, e1, fun y hy => List.mem_append_left _ hy⟩
    · obtain ⟨q, h1, h2⟩ := ih e2 x hx
      exact ⟨q, h1, fun y hy => List.mem_append_right _ (h2 y hy)⟩

/-- a piece that is examined is selected, or the other piece is selected, or the two are clear -/
theorem findDeformable_clear (he : EnvOK env) (hi : InstOK env h (pts h)) {dirty : Int → Bool} (hdirty : dirty h = true)
    (hav : (env.inst h).opts.avoidNewSelfIntersects = true) {db : Db P C B} (hd : DbOK db) (hp : Pieces env pts [h] src ids g (Hdb.contents db))
    {defs sel : List (Node P C B)} (hm : ∀ x ∈ defs, x ∈ Hdb.contents db) {n : Nat} (e : findDeformable env dirty defs db n = .ok sel)
    {a b : Node P C B} (ha : a ∈ defs) (hb : b ∈ Hdb.contents db) (hab : a.id ≠ b.id) (hbig : Big a) :
    a ∈ sel ∨ b ∈ sel ∨ Clear env (env.inst h).opts.nonPlanarDisplacement a b := by
  have hi' : ∀ k ∈ [h], InstOK env k (pts k) := by
    intro k hk; rw [List.mem_singleton] at hk; rw [hk]; exact hi
  have hone : ∀ x ∈ Hdb.contents db, x.inst = h := fun x hx => List.mem_singleton.1 (hp.known hx).inst
  have kv : ∀ x ∈ Hdb.contents db, Known env pts [h] x ∧ x.mbr.Valid := fun x hx => ⟨hp.known hx, hp.valid hi' hx⟩
  have hac := hm a ha
  simp only [findDeformable, Res.bind_eq_ok] at e
  obtain ⟨sels, e1, e⟩ := e
  cases e
  obtain ⟨q, e2, hq⟩ := selectionsOf_mem e1 a ha
  obtain ⟨d1, d2, d3⟩ := dedupId_spec sels
  have hsels : ∀ x ∈ sels, x ∈ Hdb.contents db := by
    obtain ⟨z, hz, h1, -⟩ := selectionsOf_yields he hi' dirty hd kv defs hm
    have : sels = z := Mono.val (f := fun n => selectionsOf env dirty db n defs) (fun n => selectionsOf_le _ _ _ n defs) e1 hz
    rw [this]; exact h1
  have hin : ∀ x ∈ Hdb.contents db, x ∈ q → x ∈ dedupId sels := by
    intro x hx hxq
    obtain ⟨y, hy, hid⟩ := d3 x (hq x hxq)
    have : y = x := hp.eq_of_id (hsels y (d1 y hy)) hx hid
    exact this ▸ hy
  rw [hullSelections, if_neg hbig.1, hbig.2, if_neg (by simp)] at e2
  obtain ⟨s, e3, e2⟩ := Res.bind_eq_ok.1 e2
  have hsq : ∀ x ∈ s, x ∈ q := by
    intro x hx
    unfold ctxSelections at e2
    split_ifs at e2
    · obtain ⟨v, -, e2⟩ := Res.bind_eq_ok.1 e2
      cases e2
      cases v
      · exact List.mem_append_left _ hx
      · exact hx
    · cases e2; exact hx
  rw [fcSelections, hone a hac] at e3
  simp only [hav, if_true] at e3
  obtain ⟨ns, e4, e5⟩ := Res.bind_eq_ok.1 e3
  rw [optimizeNeighbours, hone a hac, if_pos hdirty] at e5
  obtain ⟨ns', y1, p1⟩ := neighboursOf_yields (env := env) hd (fun x hx => (kv x hx).2) a
  have hns : ns = ns' := Mono.val (neighboursOf_le env db a) e4 y1
  subst hns
  have hmem : ∀ m ∈ ns, m ∈ Hdb.contents db := fun m hm => (List.mem_filter.1 (p1.mem_iff.1 hm)).1
  by_cases hnb : Nbr env a b
  swap
  · exact .inr (.inr (fun h => absurd h hnb))
  have hbn : b ∈ ns := p1.mem_iff.2 (List.mem_filter.2 ⟨hb, by simpa using ⟨fun h => hab h.symm, hnb⟩⟩)
  have hsame : ∀ m ∈ ns, fcContiguous env a m = Node.isContiguous env.lib a m := by
    intro m hm
    unfold fcContiguous
    rw [hone a hac, hone m (hmem m hm), if_pos rfl]
  obtain ⟨r, h1, h2⟩ := isContiguous_ok (kv a hac).1 (kv b hb).1
  obtain ⟨c, h3, h4, h5⟩ := candidates_ok he (d := (env.inst h).opts.nonPlanarDisplacement) (kv a hac).1 (kv b hb).1 h2
  have hw : ∀ m ∈ ns, ∀ y, Wanted env (env.inst h).opts.nonPlanarDisplacement a m y → y = a ∨ y = m := by
    rintro m hm y ⟨r', s', f1, f2, f3⟩
    rw [hsame m hm] at f1
    obtain ⟨r1, g1, g2⟩ := isContiguous_ok (kv a hac).1 (kv m (hmem m hm)).1
    rw [f1] at g1; cases g1
    obtain ⟨c1, g3, g4, g5⟩ := candidates_ok he (d := (env.inst h).opts.nonPlanarDisplacement) (kv a hac).1 (kv m (hmem m hm)).1 g2
    rw [f2] at g3; cases g3
    rcases f3 with f3 | f3
    · exact .inl (g4 y f3)
    · exact .inr (g5 y f3)
  have hu : ∀ x ∈ Hdb.contents db, ∀ m ∈ ns, ∀ y, Wanted env (env.inst h).opts.nonPlanarDisplacement a m y → y.range = x.range → y = x := by
    intro x hx m hm y hy hr
    have hyc : y ∈ Hdb.contents db := by
      rcases hw m hm y hy with rfl | rfl
      · exact hac
      · exact hmem _ hm
    exact hp.range_inj hyc hx hr
  have hsel : ∀ x ∈ Hdb.contents db, c.1 = some x ∨ c.2 = some x → x ∈ dedupId sels := by
    intro x hx hc
    refine hin x hx (hsq x ?_)
    exact selectFCLoop_complete _ _ _ e5 x (.inr ⟨b, hbn, r, c, (hsame b hbn).trans h1, h3, hc⟩) (hu x hx)
  obtain ⟨c1, c2⟩ := c
  cases c1 with
  | some x =>
    have := h4 x rfl
    subst this
    exact .inl (hsel _ hac (.inl rfl))
  | none =>
    cases c2 with
    | some x =>
      have := h5 x rfl
      subst this
      exact .inr (.inl (hsel _ hb (.inr rfl)))
    | none => exact .inr (.inr (fun _ => ⟨r, h1, h3⟩))

theorem deformNodesLoop_dirty : ∀ {sel : List (Node P C B)} {g : Nat} {dirty : Int → Bool} {out : List (Node P C B)} {g' : Nat}
    {dirty' : Int → Bool}, deformNodesLoop env ids sel g dirty = .ok (out, g', dirty') → dirty h = true → dirty' h = true := by
  intro sel
  induction sel with
  | nil => intro g dirty out g' dirty' e hd; cases e; exact hd
  | cons x sel ih =>
    intro g dirty out g' dirty' e hd
    unfold deformNodesLoop at e
    split_ifs at e
    · obtain ⟨⟨ha, hb, g1⟩, -, e⟩ := Res.bind_eq_ok.1 e
      obtain ⟨⟨rest, g2, dirty2⟩, e2, e⟩ := Res.bind_eq_ok.1 e
      cases e
      refine ih e2 ?_
      unfold markDirty
      split_ifs
      · rfl
      · exact hd
    · obtain ⟨⟨rest, g2, dirty2⟩, e2, e⟩ := Res.bind_eq_ok.1 e
      cases e
      exact ih e2 hd

/-- constdp/simplify.go:41-55: what the loop leaves on one polyline -/
theorem deformLoop_sep (he : EnvOK env) (hi : InstOK env h (pts h)) (hinj : Function.Injective ids)
    (hav : (env.inst h).opts.avoidNewSelfIntersects = true) : ∀ (n : Nat) (st st' : LoopSt P C B) (defs : List (Node P C B)),
    deformLoop env ids n defs st = .ok st' → st.dirty h = true → DbOK st.db → Pieces env pts [h] src ids st.g (Hdb.contents st.db) →
    (∀ x ∈ defs, x ∈ Hdb.contents st.db) →
    (∀ a ∈ Hdb.contents st.db, ∀ b ∈ Hdb.contents st.db, a.id ≠ b.id → Big a → Big b → a ∈ defs ∨ b ∈ defs ∨
      Clear env (env.inst h).opts.nonPlanarDisplacement a b ∨ Clear env (env.inst h).opts.nonPlanarDisplacement b a) →
    ∀ a ∈ Hdb.contents st'.db, ∀ b ∈ Hdb.contents st'.db, a.id ≠ b.id → Big a → Big b →
      Clear env (env.inst h).opts.nonPlanarDisplacement a b ∨ Clear env (env.inst h).opts.nonPlanarDisplacement b a := by
  have hi' : ∀ k ∈ [h], InstOK env k (pts k) := by
    intro k hk; rw [List.mem_singleton] at hk; rw [hk]; exact hi
  intro n
  induction n with
  | zero => intro st st' defs e; cases e
  | succ n ih =>
    intro st st' defs e hdirty hd hp hm hinv
    unfold deformLoop at e
    split_ifs at e with hdef
    · cases e
      intro a ha b hb hab ba bb
      rcases hinv a ha b hb hab ba bb with h | h | h
      · rw [hdef] at h; cases h
      · rw [hdef] at h; cases h
      · exact h
    obtain ⟨sel, e1, e⟩ := Res.bind_eq_ok.1 e
    have hcl : ∀ a ∈ Hdb.contents st.db, ∀ b ∈ Hdb.contents st.db, a.id ≠ b.id → Big a → Big b → a ∈ sel ∨ b ∈ sel ∨
        Clear env (env.inst h).opts.nonPlanarDisplacement a b ∨ Clear env (env.inst h).opts.nonPlanarDisplacement b a := by
      intro a ha b hb hab ba bb
      rcases hinv a ha b hb hab ba bb with h | h | h
      · rcases findDeformable_clear he hi hdirty hav hd hp hm e1 h hb hab ba with h | h | h
        · exact .inl h
        · exact .inr (.inl h)
        · exact .inr (.inr (.inl h))
      · rcases findDeformable_clear he hi hdirty hav hd hp hm e1 h ha (Ne.symm hab) bb with h | h | h
        · exact .inr (.inl h)
        · exact .inl h
        · exact .inr (.inr (.inr h))
      · exact .inr (.inr h)
    split_ifs at e with hsel
    · cases e
      intro a ha b hb hab ba bb
      rcases hcl a ha b hb hab ba bb with h | h | h
      · rw [hsel] at h; cases h
      · rw [hsel] at h; cases h
      · exact h
    obtain ⟨⟨out, st1⟩, e2, e⟩ := Res.bind_eq_ok.1 e
    have ⟨a1, a2⟩ : (∀ x ∈ sel, x ∈ Hdb.contents st.db) ∧ (sel.map Node.id).Nodup := by
      obtain ⟨z, hz, h1, h2, -⟩ := findDeformable_yields he hi' st.dirty hd hp defs hm
      have : sel = z := Mono.val (findDeformable_le env st.dirty defs st.db) e1 hz
      rw [this]; exact ⟨h1, h2⟩
    have hdirty1 : st1.dirty h = true := by
      simp only [deformRound, Res.bind_eq_ok] at e2
      obtain ⟨⟨o, g1, dirty1⟩, f1, f⟩ := e2
      obtain ⟨d1, -, d2, -, f⟩ := f
      cases f
      exact deformNodesLoop_dirty f1 hdirty
    obtain ⟨out', st1', rest, y, w1, g1, p1, r1, r2, -⟩ := deformRound_yields he hi' hinj hd hp a1 a2
    have heq : (out, st1) = (out', st1') := Mono.val (deformRound_le env ids st sel) e2 y
    cases heq
    refine ih st1 st' out e hdirty1 w1 p1 (fun x hx => r2.mem_iff.2 (List.mem_append_left _ hx)) ?_
    intro a ha b hb hab ba bb
    have hrest : ∀ x ∈ rest, x ∉ sel ∧ x ∈ Hdb.contents st.db := by
      intro x hx
      refine ⟨fun hxs => ?_, r1.mem_iff.2 (List.mem_append_right _ hx)⟩
      have hn := (r1.map Node.id).nodup_iff.1 hp.nodup
      rw [List.map_append, List.nodup_append] at hn
      exact hn.2.2 _ (List.mem_map.2 ⟨x, hxs, rfl⟩) _ (List.mem_map.2 ⟨x, hx, rfl⟩) rfl
    rcases List.mem_append.1 (r2.mem_iff.1 ha) with ha | ha
    · exact .inl ha
    rcases List.mem_append.1 (r2.mem_iff.1 hb) with hb | hb
    · exact .inr (.inl hb)
    rcases hcl a (hrest a ha).2 b (hrest b hb).2 hab ba bb with h | h | h
    · exact absurd h (hrest a ha).1
    · exact absurd h (hrest b hb).1
    · exact .inr (.inr h)

/-! ### the merge pass -/

theorem validateMerge_clear (he : EnvOK env) (hi : InstOK env h (pts h)) (hav : (env.inst h).opts.avoidNewSelfIntersects = true) {db : Db P C B} (hd : DbOK db)
    (hp : ∀ x ∈ Hdb.contents db, Known env pts [h] x ∧ x.mbr.Valid) {m : Node P C B} (hk : Known env pts [h] m)
    (hv : Yields (validateMerge env (env.inst h) m db) true) {x : Node P C B} (hx : x ∈ Hdb.contents db) (hid : x.id ≠ m.id) :
    Clear env (env.inst h).opts.nonPlanarDisplacement m x := by
  have hi' : ∀ k ∈ [h], InstOK env k (pts k) := by
    intro k hk; rw [List.mem_singleton] at hk; rw [hk]; exact hi
  obtain ⟨b, hb, hb2⟩ := validateMerge_yields he hi' (h := h) (by simp) hd hp hk
  obtain ⟨N, hN⟩ := (hb2.1 (hb.unique hv)).1 hav
  obtain ⟨ns, e1, e2⟩ := Res.bind_eq_ok.1 (hN N (Nat.le_refl _))
  obtain ⟨ns', y1, p1⟩ := neighboursOf_yields (env := env) hd (fun x hx => (hp x hx).2) m
  have : ns = ns' := Mono.val (neighboursOf_le env db m) e1 y1
  subst this
  intro hnb
  exact (selectLoop_nil _ _ e2).2 x (p1.mem_iff.2 (List.mem_filter.2 ⟨hx, by simpa using ⟨hid, hnb⟩⟩))

theorem AggOut.sep (he : EnvOK env) (hi : InstOK env h (pts h)) (hav : (env.inst h).opts.avoidNewSelfIntersects = true) {g g' : Nat} {cvs : List Int}
    {hull : Node P C B} {o o' l l' : List (Node P C B)} (hp : Pieces env pts [h] src ids g l) (ho : AggOut env pts ids g g' h cvs hull o o' l l')
    (hs : Sep env h l) : Sep env h l' := by
  have hi' : ∀ k ∈ [h], InstOK env k (pts k) := by
    intro k hk; rw [List.mem_singleton] at hk; rw [hk]; exact hi
  have hone : ∀ x ∈ l, x.inst = h := fun x hx => List.mem_singleton.1 (hp.known hx).inst
  have kv : ∀ x ∈ l, Known env pts [h] x ∧ x.mbr.Valid := fun x hx => ⟨hp.known hx, hp.valid hi' hx⟩
  have key : ∀ {m : Node P C B} {rest : List (Node P C B)}, l'.Perm (m :: rest) → (∀ x ∈ rest, x ∈ l) →
      (∀ x ∈ rest, x.id ≠ m.id → Adj m x ∨ Clear env (env.inst h).opts.nonPlanarDisplacement m x) → Sep env h l' := by
    intro m rest h1 h2 h3 a ha b hb hab ba bb
    rcases List.mem_cons.1 (h1.mem_iff.1 ha) with rfl | ha <;> rcases List.mem_cons.1 (h1.mem_iff.1 hb) with rfl | hb
    · exact absurd rfl hab
    · rcases h3 b hb (Ne.symm hab) with h | h
      · exact .inl h
      · exact .inr (.inl h)
    · rcases h3 a ha hab with h | h
      · exact .inl (Or.symm h)
      · exact .inr (.inr h)
    · exact hs a (h2 a ha) b (h2 b hb) hab ba bb
  rcases ho with ⟨hb, -⟩ | ⟨nxt, m, rest, db0, hb, ha, -, -, hm, hd0, hc0, hv⟩ | ⟨prv, m, rest, out, db0, hb, ha, -, -, hm, hd0, hc0, hout, hv⟩
  · exact hs.mono (fun x hx => hb.mem_iff.1 hx)
  · have m1 : hull ∈ l := hb.mem_iff.2 (by simp)
    have m2 : nxt ∈ l := hb.mem_iff.2 (by simp)
    have m3 : ∀ x ∈ rest, x ∈ l := fun x hx => hb.mem_iff.2 (List.mem_cons_of_mem _ (List.mem_cons_of_mem _ hx))
    have hkm := hm.known (hs := [h]) (by simp) (kv _ m1).1 (kv _ m2).1 (hone _ m2)
    exact key ha m3 (fun x hx hid => .inr (validateMerge_clear he hi hav hd0 (fun y hy => kv y (m3 y (hc0.mem_iff.1 hy))) hkm hv (hc0.mem_iff.2 hx) hid))
  · have m1 : prv ∈ l := hb.mem_iff.2 (by simp)
    have m2 : hull ∈ l := hb.mem_iff.2 (by simp)
    have m3 : ∀ x ∈ rest, x ∈ l := fun x hx => hb.mem_iff.2 (List.mem_cons_of_mem _ (List.mem_cons_of_mem _ hx))
    have hkm := hm.known (hs := [h]) (by simp) (kv _ m1).1 (kv _ m2).1 (hone _ m2)
    refine key ha m3 (fun x hx hid => ?_)
    rcases List.mem_append.1 (hc0.mem_iff.1 hx) with hx | hx
    · rcases hout with rfl | ⟨nxt, rfl, hr⟩
      · cases hx
      · rw [List.mem_singleton] at hx
        subst hx
        left; left
        rw [hm.range]; exact hr.symm
    · exact .inr (validateMerge_clear he hi hav hd0 (fun y hy => kv y (m3 y (hc0.mem_iff.2 (List.mem_append_right _ hy)))) hkm hv hx hid)

end Verif
