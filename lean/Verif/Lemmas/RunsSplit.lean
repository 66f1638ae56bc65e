import Verif.Lemmas.Runs

/-! Two runs on the same input: decomposition and splitting leave the same ranges. -/

set_option linter.unusedSectionVars false

namespace Verif

variable {P C B K : Type} [LinearOrder B] [BoundedOrder B] [LinearOrder K]
variable {env : Env P C B K} {s s1 s2 : Sched P C B K} {pts : Int → List P} {h : Int}

/-! ### decomposition -/

theorem dpLoop_same {lib : Lib P C B K} {ids1 ids2 : Nat → Int} {pln : Polyline P} {score : ScoreFn P K} {rel : Fl K → Bool} {inst : Int} :
    ∀ {n m : Nat} {stack : List Rng} {q1 q2 : List (Node P C B)} {g1 g2 : Nat} {o1 o2 : List (Node P C B) × Nat},
    q1.map Node.range = q2.map Node.range → dpLoop lib ids1 pln score rel inst n stack q1 g1 = .ok o1 →
    dpLoop lib ids2 pln score rel inst m stack q2 g2 = .ok o2 → o1.1.map Node.range = o2.1.map Node.range := by
  intro n
  induction n with
  | zero =>
    intro m stack q1 q2 g1 g2 o1 o2 hq e1 e2
    cases stack with
    | nil => simp only [dpLoop] at e1 e2; cases e1; cases e2; exact hq
    | cons r stack => cases e1
  | succ n ih =>
    intro m stack q1 q2 g1 g2 o1 o2 hq e1 e2
    cases stack with
    | nil => simp only [dpLoop] at e1 e2; cases e1; cases e2; exact hq
    | cons r stack =>
      cases m with
      | zero => cases e2
      | succ m =>
        rw [dpLoop] at e1 e2
        obtain ⟨c, f1, e1⟩ := Res.bind_eq_ok.1 e1
        obtain ⟨⟨k, v⟩, f2, e1⟩ := Res.bind_eq_ok.1 e1
        rw [f1, Res.ok_bind, f2, Res.ok_bind] at e2
        by_cases hr : rel v = true
        · simp only [hr, if_true] at e1 e2
          obtain ⟨n1, k1, e1⟩ := Res.bind_eq_ok.1 e1
          obtain ⟨n2, k2, e2⟩ := Res.bind_eq_ok.1 e2
          refine ih ?_ e1 e2
          rw [List.map_append, List.map_append, hq, List.map_singleton, List.map_singleton, createNode_range k1, createNode_range k2]
        · simp only [hr, Bool.false_eq_true, if_false] at e1 e2
          exact ih hq e1 e2

theorem decompose_same {lib : Lib P C B K} {ids1 ids2 : Nat → Int} {pln : Polyline P} {score : ScoreFn P K} {rel : Fl K → Bool} {inst : Int} {g1 g2 n m : Nat}
    {o1 o2 : List (Node P C B) × Nat} (e1 : decompose lib ids1 g1 pln score rel inst n = .ok o1) (e2 : decompose lib ids2 g2 pln score rel inst m = .ok o2) :
    o1.1.map Node.range = o2.1.map Node.range := by
  unfold decompose at e1 e2
  cases hl : pln.ls with
  | none => rw [hl] at e1 e2; cases e1; cases e2; rfl
  | some c =>
    rw [hl] at e1 e2
    obtain ⟨r, f1, e1⟩ := Res.bind_eq_ok.1 e1
    rw [f1] at e2
    exact dpLoop_same rfl e1 e2

/-! ### splitting -/

theorem atIndexLoop_ranges {lib : Lib P C B K} {ids : Nat → Int} {hull : Node P C B} : ∀ {rs : List Rng} {g g' : Nat} {ns : List (Node P C B)},
    atIndexLoop lib ids hull rs g = .ok (ns, g') → ns.map Node.range = rs := by
  intro rs
  induction rs with
  | nil => intro g g' ns e; cases e; rfl
  | cons r rs ih =>
    intro g g' ns e
    rw [atIndexLoop] at e
    obtain ⟨c, -, e⟩ := Res.bind_eq_ok.1 e
    obtain ⟨nd, e1, e⟩ := Res.bind_eq_ok.1 e
    obtain ⟨⟨l, g2⟩, e2, e⟩ := Res.bind_eq_ok.1 e
    cases e
    rw [List.map_cons, createNode_range e1, ih e2]

/-- constrain/split.go:33-40: the ranges one piece is replaced by -/
def SplitTo (idxs : List Int) (r r' : Rng) : Prop := if r.split idxs = [] then r' = r else r' ∈ r.split idxs

theorem splitNodes_ranges {V : Rng → Bool} {ids : Nat → Int} (ro : RunOK env s pts h V) (hinj : Function.Injective ids) {idxs : List Int} {n : Nat} :
    ∀ {nodes : List (Node P C B)} {db db' : Db P C B} {g g' : Nat}, Stored env s pts h ids g db → (nodes.map Node.id).Nodup →
    (∀ x ∈ nodes, x ∈ Hdb.contents db) → splitNodes (env.run s) ids idxs n nodes db g = .ok (db', g') →
    Stored env s pts h ids g' db' ∧ ∀ r, r ∈ (Hdb.contents db').map Node.range ↔
      (∃ x ∈ nodes, SplitTo idxs x.range r) ∨ (r ∈ (Hdb.contents db).map Node.range ∧ r ∉ nodes.map Node.range) := by
  intro nodes
  induction nodes with
  | nil => intro db db' g g' t _ _ e; cases e; exact ⟨t, by simp⟩
  | cons x nodes ih =>
    intro db db' g g' t hn hm e
    obtain ⟨okd, src, hp⟩ := t
    rw [List.map_cons, List.nodup_cons] at hn
    have hxm := hm x (by simp)
    have hx := hp.known hxm
    have hm' := fun y hy => hm y (List.mem_cons_of_mem x hy)
    have hxn : ∀ y ∈ nodes, y ≠ x := by
      rintro y hy rfl
      exact hn.1 (List.mem_map.2 ⟨y, hy, rfl⟩)
    have hxr : x.range ∉ nodes.map Node.range := by
      intro h0
      obtain ⟨y, hy, hyr⟩ := List.mem_map.1 h0
      exact hxn y hy (hp.range_inj (hm' y hy) hxm hyr)
    rw [splitNodes] at e
    rcases atIndex_spec (ro.insts _ hx.inst).hull hx.piece hx.lo hx.hi ids g idxs with ⟨hno, e0⟩ | ⟨-, ns, e0, ne, ch, pc, fr, nd, sp⟩
    · rw [e0, Res.ok_bind] at e
      simp only [List.length_nil, if_true] at e
      obtain ⟨i1, i2⟩ := ih ⟨okd, src, hp⟩ hn.2 hm' e
      refine ⟨i1, fun r => ?_⟩
      have hs : SplitTo idxs x.range r ↔ r = x.range := by
        have : x.range.split idxs = [] := (atIndexLoop_ranges e0).symm
        rw [SplitTo, if_pos this]
      rw [i2 r]
      simp only [List.mem_cons, exists_eq_or_imp, hs, List.map_cons, not_or]
      constructor
      · rintro (h1 | ⟨h1, h2⟩)
        · exact .inl (.inr h1)
        · by_cases hrx : r = x.range
          · exact .inl (.inl hrx)
          · exact .inr ⟨h1, hrx, h2⟩
      · rintro ((rfl | h1) | ⟨h1, h2, h3⟩)
        · exact .inr ⟨List.mem_map_of_mem hxm, hxr⟩
        · exact .inl h1
        · exact .inr ⟨h1, h3⟩
    · rw [e0, Res.ok_bind] at e
      have hl : ¬ ns.length = 0 := by simpa using ne
      simp only [hl, if_false] at e
      obtain ⟨d1, f1, e⟩ := Res.bind_eq_ok.1 e
      obtain ⟨d2, f2, e⟩ := Res.bind_eq_ok.1 e
      obtain ⟨d1', y1, w1, p1⟩ := okd.remove hp.nodup hxm
      have : d1 = d1' := (Hdb.remove_le _ _ _).val f1 y1
      subst this
      obtain ⟨d2', y2, w2, p2⟩ := w1.load ro.legal ns
      have : d2 = d2' := (Hdb.load_le _ _ _ _).val f2 y2
      subst this
      have hp2 : Pieces (env.run s) pts [h] src ids (g + ns.length) (Hdb.contents d2) := by
        have := (hp.perm p1).replace (g' := g + ns.length) (by omega) (nd hinj) fr hinj pc ch
        exact this.perm (List.perm_append_comm.trans p2.symm)
      obtain ⟨i1, i2⟩ := ih ⟨w2, src, hp2⟩ hn.2 (by
        intro y hy
        have h1 := p1.mem_iff.1 (hm' y hy)
        rcases List.mem_cons.1 h1 with rfl | h1
        · exact absurd rfl (hxn y hy)
        · exact p2.mem_iff.2 (List.mem_append_left _ h1)) e
      refine ⟨i1, fun r => ?_⟩
      have hns : ns.map Node.range = x.range.split idxs := atIndexLoop_ranges e0
      have hs : SplitTo idxs x.range r ↔ r ∈ ns.map Node.range := by
        have : ¬ x.range.split idxs = [] := by rw [← hns]; simpa using ne
        rw [SplitTo, if_neg this, hns]
      have hd1 : r ∈ (Hdb.contents d1).map Node.range ↔ r ∈ (Hdb.contents db).map Node.range ∧ r ≠ x.range := by
        rw [(p1.map Node.range).mem_iff, List.map_cons, List.mem_cons]
        constructor
        · intro h1
          refine ⟨.inr h1, ?_⟩
          rintro rfl
          obtain ⟨y, hy, hyr⟩ := List.mem_map.1 h1
          have : y = x := hp.range_inj (p1.mem_iff.2 (List.mem_cons_of_mem _ hy)) hxm hyr
          subst this
          have hn' := (p1.map Node.id).nodup_iff.1 hp.nodup
          rw [List.map_cons, List.nodup_cons] at hn'
          exact hn'.1 (List.mem_map_of_mem hy)
        · rintro ⟨h1 | h1, h2⟩
          · exact absurd h1 h2
          · exact h1
      have hdis : r ∈ ns.map Node.range → r ∉ nodes.map Node.range := by
        intro h1 h2
        have hb := ch.mem h1
        obtain ⟨y, hy, hyr⟩ := List.mem_map.1 h2
        have hyx := hp.disjoint (hm' y hy) hxm
        rcases hyx with h3 | h3 | h3
        · exact hxn y hy h3
        · rw [hyr] at h3; omega
        · rw [hyr] at h3; omega
      rw [i2 r, (p2.map Node.range).mem_iff, List.map_append, List.mem_append, hd1]
      simp only [List.mem_cons, exists_eq_or_imp, hs, List.map_cons, not_or]
      constructor
      · rintro (h1 | ⟨⟨h1, h2⟩ | h1, h3⟩)
        · exact .inl (.inr h1)
        · exact .inr ⟨h1, h2, h3⟩
        · exact .inl (.inl h1)
      · rintro ((h1 | h1) | ⟨h1, h2, h3⟩)
        · exact .inr ⟨.inr h1, hdis h1⟩
        · exact .inl h1
        · exact .inr ⟨.inl ⟨h1, h2⟩, h3⟩

/-- constrain/split.go:28-31: the pieces near a point, in one run -/
theorem near_point {ids : Nat → Int} {g : Nat} (ro : Exact env s) {db : Db P C B} (t : Stored env s pts h ids g db) {p : P} {n : Nat}
    {nodes : List (Node P C B)}
    (e : Hdb.contextNeighbours (env.run s).heap db ((env.run s).lib.boxDistance (.point p)) (fun nd => (env.run s).lib.distance (.point p) nd.geom) (env.run s).eps n = .ok nodes) :
    (nodes.map Node.id).Nodup ∧ ∀ x, x ∈ nodes ↔ x ∈ Hdb.contents db ∧ (env.lib.distance (.point p) x.geom).le env.eps = true := by
  obtain ⟨okd, src, hp⟩ := t
  obtain ⟨out', y, hout⟩ := Hdb.contextNeighbours_yields (strong := True) (ops := nodeOps) okd.wf ro.heap (fun a b c h1 h2 => Fl.le_trans h1 h2)
    (boxDist := env.lib.boxDistance (.point p)) (itemDist := fun nd => env.lib.distance (.point p) nd.geom)
    (fun _ nd hnd b hb => ro.box _ _ _ (by have : nd.mbr ≤ b := hb; rwa [(hp.known hnd).piece.mbr] at this)) env.eps
  have : nodes = out' := (Hdb.contextNeighbours_le _ _ _ _ _).val e y
  subst this
  have hpm := (Hdb.KOut_exact hout).1
  refine ⟨(hpm.map Node.id).nodup_iff.2 ((List.filter_sublist.map _).nodup hp.nodup), fun x => ?_⟩
  rw [hpm.mem_iff, List.mem_filter]

/-- constrain/split.go:21-41 -/
theorem splitAtInters_same {V : Rng → Bool} {ids1 ids2 : Nat → Int} (r1 : RunOK env s1 pts h V) (r2 : RunOK env s2 pts h V)
    (X1 : Exact env s1) (X2 : Exact env s2) (j1 : Function.Injective ids1) (j2 : Function.Injective ids2) {n m : Nat} : ∀ {is : List (Inter P)} {a1 a2 b1 b2 : Db P C B} {g1 g2 k1 k2 : Nat},
    Stored env s1 pts h ids1 g1 a1 → Stored env s2 pts h ids2 g2 a2 → SameR (Hdb.contents a1) (Hdb.contents a2) →
    splitAtInters (env.run s1) ids1 n is a1 g1 = .ok (b1, k1) → splitAtInters (env.run s2) ids2 m is a2 g2 = .ok (b2, k2) →
    Stored env s1 pts h ids1 k1 b1 ∧ Stored env s2 pts h ids2 k2 b2 ∧ SameR (Hdb.contents b1) (Hdb.contents b2) := by
  intro is
  induction is with
  | nil => intro a1 a2 b1 b2 g1 g2 k1 k2 t1 t2 hs e1 e2; cases e1; cases e2; exact ⟨t1, t2, hs⟩
  | cons i is ih =>
    intro a1 a2 b1 b2 g1 g2 k1 k2 t1 t2 hs e1 e2
    rw [splitAtInters] at e1 e2
    split at e1
    · rename_i c
      rw [if_pos c] at e2
      exact ih t1 t2 hs e1 e2
    · rename_i c
      rw [if_neg c] at e2
      obtain ⟨n1, f1, e1⟩ := Res.bind_eq_ok.1 e1
      obtain ⟨n2, f2, e2⟩ := Res.bind_eq_ok.1 e2
      obtain ⟨⟨d1, l1⟩, q1, e1⟩ := Res.bind_eq_ok.1 e1
      obtain ⟨⟨d2, l2⟩, q2, e2⟩ := Res.bind_eq_ok.1 e2
      obtain ⟨u1, v1⟩ := near_point X1 t1 f1
      obtain ⟨u2, v2⟩ := near_point X2 t2 f2
      obtain ⟨w1, x1⟩ := splitNodes_ranges r1 j1 t1 u1 (fun x hx => ((v1 x).1 hx).1) q1
      obtain ⟨w2, x2⟩ := splitNodes_ranges r2 j2 t2 u2 (fun x hx => ((v2 x).1 hx).1) q2
      have hsn : SameR n1 n2 := by
        obtain ⟨src1, p1⟩ := t1.pieces
        obtain ⟨src2, p2⟩ := t2.pieces
        refine SameR.of (fun x hx => ?_) (fun x hx => ?_)
        · obtain ⟨h1, h2⟩ := (v1 x).1 hx
          obtain ⟨y, hy, hyr⟩ := hs.mem h1
          refine ⟨y, (v2 y).2 ⟨hy, ?_⟩, hyr⟩
          rw [(p1.known h1).eq_withId (p2.known hy) hyr.symm]; exact h2
        · obtain ⟨h1, h2⟩ := (v2 x).1 hx
          obtain ⟨y, hy, hyr⟩ := hs.symm.mem h1
          refine ⟨y, (v1 y).2 ⟨hy, ?_⟩, hyr⟩
          rw [(p2.known h1).eq_withId (p1.known hy) hyr.symm]; exact h2
      have hsd : SameR (Hdb.contents d1) (Hdb.contents d2) := by
        intro r
        rw [x1, x2, hs r, hsn r]
        refine or_congr_left ⟨?_, ?_⟩
        · rintro ⟨x, hx, hr⟩
          obtain ⟨y, hy, hyr⟩ := hsn.mem hx
          exact ⟨y, hy, hyr ▸ hr⟩
        · rintro ⟨x, hx, hr⟩
          obtain ⟨y, hy, hyr⟩ := hsn.symm.mem hx
          exact ⟨y, hy, hyr ▸ hr⟩
      exact ih w1 w2 hsd e1 e2

/-- constdp/simplify.go:35-36: pieces put into a new index -/
theorem Stored.of_load {V : Rng → Bool} {ids : Nat → Int} {g : Nat} {src : Int → Prop} (ro : RunOK env s pts h V) {l : List (Node P C B)}
    (hp : Pieces (env.run s) pts [h] src ids g l) {n : Nat} {db : Db P C B}
    (e : Hdb.load nodeOps (env.run s).heur (Hdb.newHdb Hdb.defaultCap) l n = .ok db) : Stored env s pts h ids g db ∧ (Hdb.contents db).Perm l := by
  obtain ⟨d, y, w, p⟩ := DbOK.new.load ro.legal l
  have : db = d := (Hdb.load_le _ _ _ _).val e y
  subst this
  rw [contents_new, List.nil_append] at p
  exact ⟨⟨w, src, hp.perm p.symm⟩, p⟩

/-- constrain/toself.go:15-67: the ranges and the fixed vertices do not depend on the run -/
theorem toSelfIntersects_same {V : Rng → Bool} {ids1 ids2 : Nat → Int} (r1 : RunOK env s1 pts h V) (r2 : RunOK env s2 pts h V)
    (X1 : Exact env s1) (X2 : Exact env s2) (j1 : Function.Injective ids1) (j2 : Function.Injective ids2) {n m : Nat} {src1 src2 : Int → Prop} {l1 l2 : List (Node P C B)} {g1 g2 : Nat}
    (p1 : Pieces (env.run s1) pts [h] src1 ids1 g1 l1) (p2 : Pieces (env.run s2) pts [h] src2 ids2 g2 l2) (hl : SameR l1 l2) {cv : List Int}
    {o1 o2 : List (Node P C B)} {v1 v2 : List Int} {k1 k2 : Nat}
    (e1 : toSelfIntersects (env.run s1) ids1 g1 l1 ((env.run s1).inst h) cv n = .ok (o1, v1, k1))
    (e2 : toSelfIntersects (env.run s2) ids2 g2 l2 ((env.run s2).inst h) cv m = .ok (o2, v2, k2)) :
    (∃ src, Pieces (env.run s1) pts [h] src ids1 k1 o1) ∧ (∃ src, Pieces (env.run s2) pts [h] src ids2 k2 o2) ∧ SameR o1 o2 ∧ v1 = v2 := by
  have hopt : ∀ t : Sched P C B K, ((env.run t).inst h).opts = (env.inst h).opts := fun _ => rfl
  have hpln : ∀ t : Sched P C B K, ((env.run t).inst h).pln = (env.inst h).pln := fun _ => rfl
  have hlib : ∀ t : Sched P C B K, (env.run t).lib = env.lib := fun _ => rfl
  have hlnr : ∀ t : Sched P C B K, (env.run t).lnr = env.lnr := fun _ => rfl
  simp only [toSelfIntersects, hopt, hpln, hlib, hlnr] at e1 e2
  split at e1
  · rename_i c
    rw [if_pos c] at e2
    cases e1; cases e2
    exact ⟨⟨_, p1⟩, ⟨_, p2⟩, hl, rfl⟩
  · rename_i c
    rw [if_neg c] at e2
    obtain ⟨d1, f1, e1⟩ := Res.bind_eq_ok.1 e1
    obtain ⟨d2, f2, e2⟩ := Res.bind_eq_ok.1 e2
    obtain ⟨is, x1, e1⟩ := Res.bind_eq_ok.1 e1
    rw [x1, Res.ok_bind] at e2
    obtain ⟨⟨vs, added⟩, x2, e1⟩ := Res.bind_eq_ok.1 e1
    rw [x2, Res.ok_bind] at e2
    obtain ⟨⟨b1, c1⟩, y1, e1⟩ := Res.bind_eq_ok.1 e1
    obtain ⟨⟨b2, c2⟩, y2, e2⟩ := Res.bind_eq_ok.1 e2
    obtain ⟨a1, z1, e1⟩ := Res.bind_eq_ok.1 e1
    obtain ⟨a2, z2, e2⟩ := Res.bind_eq_ok.1 e2
    cases e1; cases e2
    obtain ⟨t1, q1⟩ := Stored.of_load r1 p1 f1
    obtain ⟨t2, q2⟩ := Stored.of_load r2 p2 f2
    obtain ⟨w1, w2, hs⟩ := splitAtInters_same r1 r2 X1 X2 j1 j2 t1 t2 (hl.perm q1.symm q2.symm) y1 y2
    obtain ⟨okd1, s1', hp1⟩ := w1
    obtain ⟨okd2, s2', hp2⟩ := w2
    obtain ⟨u1, uy1, up1⟩ := Hdb.all_yields okd1.wf
    obtain ⟨u2, uy2, up2⟩ := Hdb.all_yields okd2.wf
    have : a1 = u1 := (Hdb.all_le _).val z1 uy1
    subst this
    have : a2 = u2 := (Hdb.all_le _).val z2 uy2
    subst this
    have m1 := (mem_sortNodes (l := a1)).trans up1
    have m2 := (mem_sortNodes (l := a2)).trans up2
    exact ⟨⟨_, hp1.perm m1.symm⟩, ⟨_, hp2.perm m2.symm⟩, hs.perm m1.symm m2.symm, rfl⟩

end Verif
