import Verif.Lemmas.RunsSplit

/-! Two runs on the same input: the merge pass leaves the same ranges. -/

set_option linter.unusedSectionVars false

namespace Verif

variable {P C B K : Type} [LinearOrder B] [BoundedOrder B] [LinearOrder K]
variable {env : Env P C B K} {s s1 s2 : Sched P C B K} {pts : Int → List P} {h : Int}

/-! ### parts of a stored cover -/

/-- the index `d` holds some of the pieces of the index `db` -/
structure Part (db d : Db P C B) : Prop where
  okd : DbOK d
  sub : ∀ x ∈ Hdb.contents d, x ∈ Hdb.contents db
  nodup : ((Hdb.contents d).map Node.id).Nodup

theorem Part.refl {ids : Nat → Int} {g : Nat} {db : Db P C B} (t : Stored env s pts h ids g db) : Part db db := by
  obtain ⟨okd, src, hp⟩ := t
  exact ⟨okd, fun _ hx => hx, hp.nodup⟩

theorem Part.remove {ids : Nat → Int} {g : Nat} {db d d' : Db P C B} (t : Stored env s pts h ids g db) (p : Part db d) {x : Node P C B}
    (hx : x ∈ Hdb.contents d) {n : Nat} (e : Hdb.remove nodeOps d x n = .ok d') :
    Part db d' ∧ (Hdb.contents d).Perm (x :: Hdb.contents d') ∧ ∀ r, r ∈ (Hdb.contents d').map Node.range ↔ r ∈ (Hdb.contents d).map Node.range ∧ r ≠ x.range := by
  obtain ⟨okd, src, hp⟩ := t
  obtain ⟨d1, y, w, q⟩ := p.okd.remove p.nodup hx
  have : d' = d1 := (Hdb.remove_le _ _ _).val e y
  subst this
  have hn := (q.map Node.id).nodup_iff.1 p.nodup
  rw [List.map_cons, List.nodup_cons] at hn
  refine ⟨⟨w, fun z hz => p.sub z (q.mem_iff.2 (List.mem_cons_of_mem _ hz)), hn.2⟩, q, fun r => ?_⟩
  rw [(q.map Node.range).mem_iff, List.map_cons, List.mem_cons]
  constructor
  · intro h1
    refine ⟨.inr h1, ?_⟩
    rintro rfl
    obtain ⟨z, hz, hzr⟩ := List.mem_map.1 h1
    have : z = x := hp.range_inj (p.sub z (q.mem_iff.2 (List.mem_cons_of_mem _ hz))) (p.sub x hx) hzr
    subst this
    exact hn.1 (List.mem_map_of_mem hz)
  · rintro ⟨h1 | h1, h2⟩
    · exact absurd h1 h2
    · exact h1

theorem Part.around {V : Rng → Bool} {ids : Nat → Int} {g : Nat} {db d : Db P C B} (ro : RunOK env s pts h V) (t : Stored env s pts h ids g db) (p : Part db d)
    {hull : Node P C B} (hh : hull ∈ Hdb.contents db) : Around env s pts h d hull := by
  have A := t.around ro hh
  exact ⟨p.okd, fun x hx => A.known x (p.sub x hx), A.own, fun x hx => A.ident x (p.sub x hx)⟩

theorem Part.around_merged {V : Rng → Bool} {ids : Nat → Int} {g g0 g1 : Nat} {db d : Db P C B} (ro : RunOK env s pts h V)
    (t : Stored env s pts h ids g db) (p : Part db d) {a b m : Node P C B} (ha : a ∈ Hdb.contents db) (hb : b ∈ Hdb.contents db)
    (hm : Merged (env.run s) pts ids g0 g1 h a b m) (hg : g ≤ g0) : Around env s pts h d m := by
  obtain ⟨okd, src, hp⟩ := t
  have kb := hp.known hb
  have ka := hp.known ha
  have hbi : b.inst = h := List.mem_singleton.1 kb.inst
  refine ⟨p.okd, fun x hx => ⟨hp.known (p.sub x hx), hp.valid ro.insts (p.sub x hx)⟩, hm.known (by simp) ka kb hbi, fun x hx => ⟨fun h1 => ?_, fun h1 => ?_⟩⟩
  · obtain ⟨k, k1, -, k3⟩ := hm.id
    exact absurd (h1.trans k3) (hp.fresh x (p.sub x hx) k (by omega))
  · exfalso
    have := ka.lt; have := kb.lt; have := hm.adj
    rw [hm.range] at h1
    rcases hp.disjoint (p.sub x hx) ha with h2 | h2 | h2
    · subst h2
      have : x.range.J = b.range.J := by rw [h1]
      omega
    · rw [h1] at h2; simp only at h2; omega
    · rw [h1] at h2; simp only at h2; omega

/-! ### the two neighbours -/

theorem neighboursLoop_none (hull : Node P C B) : ∀ (ns : List (Node P C B)) (prev nxt : Option (Node P C B)),
    (∀ x ∈ ns, x.id ≠ hull.id ∧ ¬ (hull.range.I = x.range.J ∧ hull.range.J = x.range.I)) →
    ((Node.neighboursLoop hull ns prev nxt).1 = none → prev = none ∧ ∀ x ∈ ns, x.range.J ≠ hull.range.I) ∧
    ((Node.neighboursLoop hull ns prev nxt).2 = none → nxt = none ∧ ∀ x ∈ ns, hull.range.J ≠ x.range.I) := by
  intro ns
  induction ns with
  | nil => intro prev nxt _; exact ⟨fun h => ⟨h, by simp⟩, fun h => ⟨h, by simp⟩⟩
  | cons n ns ih =>
    intro prev nxt hm
    obtain ⟨c1, c4⟩ := hm n (by simp)
    have hm' := fun x hx => hm x (List.mem_cons_of_mem n hx)
    have key : ∀ (pr nx : Option (Node P C B)),
        ((if pr.isSome && nx.isSome then (pr, nx) else Node.neighboursLoop hull ns pr nx).1 = none → pr = none ∧ ∀ x ∈ ns, x.range.J ≠ hull.range.I) ∧
        ((if pr.isSome && nx.isSome then (pr, nx) else Node.neighboursLoop hull ns pr nx).2 = none → nx = none ∧ ∀ x ∈ ns, hull.range.J ≠ x.range.I) := by
      intro pr nx
      cases pr with
      | none => exact ih none nx hm'
      | some p =>
        cases nx with
        | none => exact ih (some p) none hm'
        | some q => exact ⟨fun h => by simp at h, fun h => by simp at h⟩
    rw [Node.neighboursLoop]
    by_cases c2 : hull.range.I = n.range.J
    · have c3 : ¬ hull.range.J = n.range.I := fun h => c4 ⟨c2, h⟩
      have k := key (some n) nxt
      simp only [c1, c2, if_true, ne_eq, not_false_iff] at k ⊢
      refine ⟨fun h => by simpa using (k.1 h).1, fun h => ⟨(k.2 h).1, fun x hx => ?_⟩⟩
      rcases List.mem_cons.1 hx with rfl | hx
      · exact c3
      · exact (k.2 h).2 x hx
    · by_cases c3 : hull.range.J = n.range.I
      · have k := key prev (some n)
        simp only [c1, c2, c3, if_true, if_false, ne_eq, not_false_iff] at k ⊢
        refine ⟨fun h => ⟨(k.1 h).1, fun x hx => ?_⟩, fun h => by simpa using (k.2 h).1⟩
        rcases List.mem_cons.1 hx with rfl | hx
        · exact fun h => c2 h.symm
        · exact (k.1 h).2 x hx
      · have k := key prev nxt
        simp only [c1, c2, c3, if_true, if_false, ne_eq, not_false_iff] at k ⊢
        refine ⟨fun h => ⟨(k.1 h).1, fun x hx => ?_⟩, fun h => ⟨(k.2 h).1, fun x hx => ?_⟩⟩
        · rcases List.mem_cons.1 hx with rfl | hx
          · exact fun h => c2 h.symm
          · exact (k.1 h).2 x hx
        · rcases List.mem_cons.1 hx with rfl | hx
          · exact c3
          · exact (k.2 h).2 x hx

/-- two optional pieces with the same range (or none) -/
def SameO (a b : Option (Node P C B)) : Prop := a.map Node.range = b.map Node.range

/-- node/contig.go:35-53: the neighbours found do not depend on the run -/
theorem neighboursPair_same {ids1 ids2 : Nat → Int} {g1 g2 : Nat} {db1 db2 : Db P C B} (t1 : Stored env s1 pts h ids1 g1 db1)
    (t2 : Stored env s2 pts h ids2 g2 db2) {a b : Node P C B} (ha : a ∈ Hdb.contents db1) (hb : b ∈ Hdb.contents db2) (hr : a.range = b.range)
    {ns1 ns2 : List (Node P C B)} (m1 : ∀ x ∈ ns1, x ∈ Hdb.contents db1 ∧ x.id ≠ a.id) (m2 : ∀ x ∈ ns2, x ∈ Hdb.contents db2 ∧ x.id ≠ b.id) (hs : SameR ns1 ns2) :
    SameO (Node.neighbours a ns1).1 (Node.neighbours b ns2).1 ∧ SameO (Node.neighbours a ns1).2 (Node.neighbours b ns2).2 := by
  have key : ∀ {u1 u2 : Sched P C B K} {ids1 ids2 : Nat → Int} {g1 g2 : Nat} {db1 db2 : Db P C B}, Stored env u1 pts h ids1 g1 db1 →
      Stored env u2 pts h ids2 g2 db2 → ∀ {a b : Node P C B}, a ∈ Hdb.contents db1 → b ∈ Hdb.contents db2 → a.range = b.range →
      ∀ {ns1 ns2 : List (Node P C B)}, (∀ x ∈ ns1, x ∈ Hdb.contents db1 ∧ x.id ≠ a.id) → (∀ x ∈ ns2, x ∈ Hdb.contents db2 ∧ x.id ≠ b.id) → SameR ns1 ns2 →
      (∀ x, (Node.neighbours a ns1).1 = some x → ∃ y, (Node.neighbours b ns2).1 = some y ∧ y.range = x.range) ∧
      (∀ x, (Node.neighbours a ns1).2 = some x → ∃ y, (Node.neighbours b ns2).2 = some y ∧ y.range = x.range) := by
    intro u1 u2 ids1 ids2 g1 g2 db1 db2 t1 t2 a b ha hb hr ns1 ns2 m1 m2 hs
    obtain ⟨src2, p2⟩ := t2.pieces
    obtain ⟨b1, b2⟩ := neighboursLoop_spec a ns1 none none ns1 (by simp) (by simp) (fun x hx => hx)
    obtain ⟨c1, c2⟩ := neighboursLoop_spec b ns2 none none ns2 (by simp) (by simp) (fun x hx => hx)
    have hb' := (p2.known hb).lt
    obtain ⟨d1, d2⟩ := neighboursLoop_none b ns2 none none (fun x hx => ⟨(m2 x hx).2, fun ⟨h1, h2⟩ => by
      have := (p2.known (m2 x hx).1).lt; omega⟩)
    refine ⟨fun x hx => ?_, fun x hx => ?_⟩
    · obtain ⟨x1, x2⟩ := b1 x hx
      obtain ⟨y, hy, hyr⟩ := hs.mem x1
      cases hn : (Node.neighbours b ns2).1 with
      | none => exact absurd (by rw [hyr, x2, hr]) ((d1 hn).2 y hy)
      | some z =>
        obtain ⟨z1, z2⟩ := c1 z hn
        refine ⟨z, rfl, ?_⟩
        have hzy : z.range.J = y.range.J := by rw [z2, hyr, x2, hr]
        have := (p2.known (m2 z z1).1).lt
        have := (p2.known (m2 y hy).1).lt
        rcases p2.disjoint (m2 z z1).1 (m2 y hy).1 with h1 | h1 | h1
        · rw [h1, hyr]
        · omega
        · omega
    · obtain ⟨x1, x2⟩ := b2 x hx
      obtain ⟨y, hy, hyr⟩ := hs.mem x1
      cases hn : (Node.neighbours b ns2).2 with
      | none => exact absurd (by rw [hyr, ← x2, hr]) ((d2 hn).2 y hy)
      | some z =>
        obtain ⟨z1, z2⟩ := c2 z hn
        refine ⟨z, rfl, ?_⟩
        have hzy : z.range.I = y.range.I := by rw [← z2, hyr, ← x2, hr]
        have := (p2.known (m2 z z1).1).lt
        have := (p2.known (m2 y hy).1).lt
        rcases p2.disjoint (m2 z z1).1 (m2 y hy).1 with h1 | h1 | h1
        · rw [h1, hyr]
        · omega
        · omega
  have both : ∀ {p q : Option (Node P C B)}, (∀ x, p = some x → ∃ y, q = some y ∧ y.range = x.range) → (∀ x, q = some x → ∃ y, p = some y ∧ y.range = x.range) →
      SameO p q := by
    intro p q h1 h2
    cases p with
    | none =>
      cases q with
      | none => rfl
      | some y => obtain ⟨_, h3, -⟩ := h2 y rfl; cases h3
    | some x =>
      obtain ⟨y, rfl, hy⟩ := h1 x rfl
      exact congrArg some hy.symm
  have k1 := key t1 t2 ha hb hr m1 m2 hs
  have k2 := key t2 t1 hb ha hr.symm m2 m1 hs.symm
  exact ⟨both k1.1 k2.1, both k1.2 k2.2⟩

/-! ### one merge -/

theorem contiguousCoordinates_withId (a b : Node P C B) (i j : Int) : contiguousCoordinates (a.withId i) (b.withId j) = contiguousCoordinates a b := by
  have h1 : (a.withId i).range = a.range := rfl
  have h2 : (b.withId j).range = b.range := rfl
  unfold contiguousCoordinates
  rw [h1, h2]
  split
  · rfl
  · by_cases hc : b.range.I < a.range.J ∧ b.range.J = a.range.I
    · simp only [hc, and_self, if_true]; rfl
    · simp only [hc, if_false]; rfl

theorem mergeFragments_same {lib : Lib P C B K} {ids1 ids2 : Nat → Int} {g1 g2 k1 k2 : Nat} {score : ScoreFn P K} {rel : Fl K → Bool} {a b : Node P C B} {i j : Int}
    {m1 m2 : Option (Node P C B)} (e1 : contiguousFragmentsAtThreshold lib ids1 g1 score rel a b = .ok (m1, k1))
    (e2 : contiguousFragmentsAtThreshold lib ids2 g2 score rel (a.withId i) (b.withId j) = .ok (m2, k2)) : SameO m1 m2 := by
  have h1 : (a.withId i).range = a.range := rfl
  have h2 : (b.withId j).range = b.range := rfl
  have h3 : (a.withId i).inst = a.inst := rfl
  simp only [contiguousFragmentsAtThreshold, h1, h2, h3, contiguousCoordinates_withId] at e1 e2
  cases hc : a.range.contiguous b.range with
  | false => rw [hc] at e1; cases e1
  | true =>
    simp only [hc, Bool.not_true, Bool.false_eq_true, if_false] at e1 e2
    obtain ⟨c, f1, e1⟩ := Res.bind_eq_ok.1 e1
    rw [f1, Res.ok_bind] at e2
    obtain ⟨⟨k, v⟩, f2, e1⟩ := Res.bind_eq_ok.1 e1
    rw [f2, Res.ok_bind] at e2
    by_cases hr : rel v = true
    · simp only [hr, if_true] at e1 e2
      obtain ⟨n1, f3, e1⟩ := Res.bind_eq_ok.1 e1
      obtain ⟨n2, f4, e2⟩ := Res.bind_eq_ok.1 e2
      cases e1; cases e2
      exact congrArg some ((createNode_range f3).trans (createNode_range f4).symm)
    · simp only [hr, Bool.false_eq_true, if_false] at e1 e2
      cases e1; cases e2; rfl

theorem cacheKey_same {a1 b1 a2 b2 : Node P C B} (ka1 : Known (env.run s1) pts [h] a1) (kb1 : Known (env.run s1) pts [h] b1)
    (ka2 : Known (env.run s2) pts [h] a2) (kb2 : Known (env.run s2) pts [h] b2) (ha : a1.range = a2.range) (hb : b1.range = b2.range) :
    cacheKey (env.run s1) a1 b1 = cacheKey (env.run s2) a2 b2 := by
  have h1 : a1.inst = h := List.mem_singleton.1 ka1.inst
  have h2 : a2.inst = h := List.mem_singleton.1 ka2.inst
  have h3 : b1.inst = h := List.mem_singleton.1 kb1.inst
  have h4 : b2.inst = h := List.mem_singleton.1 kb2.inst
  unfold cacheKey
  rw [h1, h2, h3, h4, ha, hb]
  rfl

/-- constdp/node_aggregates.go:62-80 -/
theorem tryMerge_same {ids1 ids2 : Nat → Int} {en : Bool} {a1 b1 a2 b2 : Option (Node P C B)} {cache c1 c2 : List (List Int)} {g1 g2 k1 k2 : Nat}
    {m1 m2 : Option (Node P C B)} (ka1 : ∀ x, a1 = some x → Known (env.run s1) pts [h] x) (kb1 : ∀ x, b1 = some x → Known (env.run s1) pts [h] x)
    (ka2 : ∀ x, a2 = some x → Known (env.run s2) pts [h] x) (kb2 : ∀ x, b2 = some x → Known (env.run s2) pts [h] x) (ha : SameO a1 a2) (hb : SameO b1 b2)
    (e1 : tryMerge (env.run s1) ids1 ((env.run s1).inst h) en a1 b1 cache g1 = .ok (m1, c1, k1))
    (e2 : tryMerge (env.run s2) ids2 ((env.run s2).inst h) en a2 b2 cache g2 = .ok (m2, c2, k2)) : SameO m1 m2 ∧ c1 = c2 := by
  cases en with
  | false => cases e1; cases e2; exact ⟨rfl, rfl⟩
  | true =>
    cases a1 with
    | none =>
      cases a2 with
      | none => cases e1; cases e2; exact ⟨rfl, rfl⟩
      | some y => cases ha
    | some x1 =>
      cases a2 with
      | none => cases ha
      | some x2 =>
        cases b1 with
        | none =>
          cases b2 with
          | none => cases e1; cases e2; exact ⟨rfl, rfl⟩
          | some y => cases hb
        | some y1 =>
          cases b2 with
          | none => cases hb
          | some y2 =>
            have ha : x1.range = x2.range := Option.some.inj ha
            have hb : y1.range = y2.range := Option.some.inj hb
            have hkey := cacheKey_same (ka1 _ rfl) (kb1 _ rfl) (ka2 _ rfl) (kb2 _ rfl) ha hb
            simp only [tryMerge] at e1 e2
            rw [← hkey] at e2
            by_cases hc : cacheKey (env.run s1) x1 y1 ∈ cache
            · rw [if_pos hc] at e1 e2
              cases e1; cases e2; exact ⟨rfl, rfl⟩
            · rw [if_neg hc] at e1 e2
              obtain ⟨⟨o1, q1⟩, f1, e1⟩ := Res.bind_eq_ok.1 e1
              obtain ⟨⟨o2, q2⟩, f2, e2⟩ := Res.bind_eq_ok.1 e2
              cases e1; cases e2
              rw [(ka1 _ rfl).eq_withId (ka2 _ rfl) ha, (kb1 _ rfl).eq_withId (kb2 _ rfl) hb] at f2
              exact ⟨mergeFragments_same f1 f2, rfl⟩

/-- constdp/validate.go:11-28 -/
theorem validateMerge_same {V : Rng → Bool} {d1 d2 : Db P C B} (r1 : RunOK env s1 pts h V) (r2 : RunOK env s2 pts h V) {a b : Node P C B}
    (A1 : Around env s1 pts h d1 a) (A2 : Around env s2 pts h d2 b) (hr : a.range = b.range) (hs : SameR (Hdb.contents d1) (Hdb.contents d2)) {n m : Nat} {v w : Bool}
    (e1 : validateMerge (env.run s1) ((env.run s1).inst h) a d1 n = .ok v) (e2 : validateMerge (env.run s2) ((env.run s2).inst h) b d2 m = .ok w) : v = w := by
  have hopt : ∀ t : Sched P C B K, ((env.run t).inst h).opts = (env.inst h).opts := fun _ => rfl
  simp only [validateMerge, hopt] at e1 e2
  by_cases hav : (env.inst h).opts.avoidNewSelfIntersects = true
  · simp only [hav, if_true] at e1 e2
    obtain ⟨q1, f1, e1⟩ := Res.bind_eq_ok.1 e1
    obtain ⟨q2, f2, e2⟩ := Res.bind_eq_ok.1 e2
    have hq : SameR q1 q2 := select_same A1 A2 hr hs f1 f2
    have hnil : q1 = [] ↔ q2 = [] := by
      constructor
      · rintro rfl
        rw [List.eq_nil_iff_forall_not_mem]
        intro z hz
        obtain ⟨_, h1, -⟩ := hq.symm.mem hz
        cases h1
      · rintro rfl
        rw [List.eq_nil_iff_forall_not_mem]
        intro z hz
        obtain ⟨_, h1, -⟩ := hq.mem hz
        cases h1
    by_cases h0 : q1 = []
    · have h1 := hnil.1 h0
      subst h0; subst h1
      simp only [List.length_nil, ne_eq, not_true, decide_false, notSelected, List.any_nil, Bool.not_false, Bool.not_true, Bool.or_self, Bool.false_eq_true, if_false] at e1 e2
      exact (r1.val A1.own e1).trans (by rw [hr]; exact (r2.val A2.own e2).symm)
    · have h1 : ¬ q2 = [] := fun h => h0 (hnil.2 h)
      have l1 : decide (q1.length ≠ 0) = true := by simpa using h0
      have l2 : decide (q2.length ≠ 0) = true := by simpa using h1
      rw [l1] at e1
      rw [l2] at e2
      simp only [Bool.true_or, if_true] at e1 e2
      cases e1; cases e2; rfl
  · simp only [hav, Bool.false_eq_true, if_false, Res.ok_bind, List.length_nil, ne_eq, not_true, decide_false, notSelected, List.any_nil, Bool.not_false, Bool.not_true,
      Bool.or_self] at e1 e2
    exact (r1.val A1.own e1).trans (by rw [hr]; exact (r2.val A2.own e2).symm)

/-! ### one fragment -/

theorem mergeNext_run {self : Inst P C B K} {m x : Node P C B} {n : Nat} {d : Db P C B} {objects : List (Node P C B)} {st : MergeSt P C B}
    (e : mergeNext env self (some m) (some x) n { db := d, objects := objects, insertList := [], merged := false } = .ok st) :
    ∃ d1 v, Hdb.remove nodeOps d x n = .ok d1 ∧ validateMerge env self m d1 n = .ok v ∧
      ((v = true ∧ ∃ o os, objects = o :: os ∧ st = { db := d1, objects := if o.id = x.id then os else o :: os, insertList := [m], merged := true }) ∨
       (v = false ∧ st = { db := d1, objects := objects, insertList := [x], merged := false })) := by
  simp only [mergeNext] at e
  obtain ⟨d1, f1, e⟩ := Res.bind_eq_ok.1 e
  obtain ⟨v, f2, e⟩ := Res.bind_eq_ok.1 e
  refine ⟨d1, v, f1, f2, ?_⟩
  cases v with
  | true =>
    simp only [if_true] at e
    cases objects with
    | nil => cases e
    | cons o os => cases e; exact .inl ⟨rfl, o, os, rfl, rfl⟩
  | false => simp only [Bool.false_eq_true, if_false] at e; cases e; exact .inr ⟨rfl, rfl⟩

theorem mergePrev_run {self : Inst P C B K} {m x : Node P C B} {n : Nat} {d : Db P C B} {objects ins : List (Node P C B)} {st : MergeSt P C B}
    (e : mergePrev env self (some m) (some x) n { db := d, objects := objects, insertList := ins, merged := false } = .ok st) :
    ∃ d1 v, Hdb.remove nodeOps d x n = .ok d1 ∧ validateMerge env self m d1 n = .ok v ∧
      st = { db := d1, objects := objects, insertList := ins ++ [if v then m else x], merged := v } := by
  simp only [mergePrev] at e
  obtain ⟨d1, f1, e⟩ := Res.bind_eq_ok.1 e
  obtain ⟨v, f2, e⟩ := Res.bind_eq_ok.1 e
  refine ⟨d1, v, f1, f2, ?_⟩
  cases v with
  | true => simp only [if_true] at e; cases e; rfl
  | false => simp only [Bool.false_eq_true, if_false] at e; cases e; rfl

/-- what two runs agree on in the middle of the treatment of a fragment -/
structure MidSame (a b : MergeSt P C B) : Prop where
  dbs : SameR (Hdb.contents a.db) (Hdb.contents b.db)
  objects : a.objects.map Node.range = b.objects.map Node.range
  ins : a.insertList.map Node.range = b.insertList.map Node.range
  merged : a.merged = b.merged

theorem SameO.some_left {a : Node P C B} {o : Option (Node P C B)} (hs : SameO (some a) o) : ∃ b, o = some b ∧ a.range = b.range := by
  cases o with
  | none => cases hs
  | some b => exact ⟨b, rfl, Option.some.inj hs⟩

theorem SameO.none_left {o : Option (Node P C B)} (hs : SameO none o) : o = none := by
  cases o with
  | none => rfl
  | some b => cases hs

/-- constdp/node_aggregates.go:85-97 -/
theorem mergeNext_same {V : Rng → Bool} {ids1 ids2 : Nat → Int} {g1 g2 : Nat} {db1 db2 d1 d2 : Db P C B} (r1 : RunOK env s1 pts h V)
    (r2 : RunOK env s2 pts h V) (t1 : Stored env s1 pts h ids1 g1 db1) (t2 : Stored env s2 pts h ids2 g2 db2) (p1 : Part db1 d1) (p2 : Part db2 d2)
    (hs : SameR (Hdb.contents d1) (Hdb.contents d2)) {a b : Node P C B} (ha : a ∈ Hdb.contents db1) (hb : b ∈ Hdb.contents db2)
    {nx1 nx2 mn1 mn2 : Option (Node P C B)} (hnx : SameO nx1 nx2) (hmn : SameO mn1 mn2) {o1 o2 : List (Node P C B)} (ho : o1.map Node.range = o2.map Node.range)
    (k1 : ∀ x, nx1 = some x → x ∈ Hdb.contents d1 ∧ ∃ os, o1 = x :: os) (k2 : ∀ x, nx2 = some x → x ∈ Hdb.contents d2 ∧ ∃ os, o2 = x :: os)
    (l1 : ∀ m, mn1 = some m → ∃ x l g', nx1 = some x ∧ g1 ≤ l ∧ Merged (env.run s1) pts ids1 l g' h a x m)
    (l2 : ∀ m, mn2 = some m → ∃ x l g', nx2 = some x ∧ g2 ≤ l ∧ Merged (env.run s2) pts ids2 l g' h b x m) {n m : Nat} {st1 st2 : MergeSt P C B}
    (e1 : mergeNext (env.run s1) ((env.run s1).inst h) mn1 nx1 n { db := d1, objects := o1, insertList := [], merged := false } = .ok st1)
    (e2 : mergeNext (env.run s2) ((env.run s2).inst h) mn2 nx2 m { db := d2, objects := o2, insertList := [], merged := false } = .ok st2) :
    MidSame st1 st2 ∧ Part db1 st1.db ∧ Part db2 st2.db ∧
      (st1.merged = false → ∀ r ∈ (Hdb.contents d1).map Node.range, r ∈ (Hdb.contents st1.db).map Node.range ∨ nx1.map Node.range = some r) ∧
      (st2.merged = false → ∀ r ∈ (Hdb.contents d2).map Node.range, r ∈ (Hdb.contents st2.db).map Node.range ∨ nx2.map Node.range = some r) := by
  cases mn1 with
  | none =>
    rw [hmn.none_left] at e2
    cases e1; cases e2
    exact ⟨⟨hs, ho, rfl, rfl⟩, p1, p2, fun _ r hr => .inl hr, fun _ r hr => .inl hr⟩
  | some m1 =>
    obtain ⟨m2, rfl, hmr⟩ := hmn.some_left
    obtain ⟨x1, i1, j1, rfl, q1, w1⟩ := l1 m1 rfl
    obtain ⟨x2, i2, j2, rfl, q2, w2⟩ := l2 m2 rfl
    have hxr : x1.range = x2.range := Option.some.inj hnx
    obtain ⟨c1, v1, f1, y1, z1⟩ := mergeNext_run e1
    obtain ⟨c2, v2, f2, y2, z2⟩ := mergeNext_run e2
    obtain ⟨x1m, os1, hos1⟩ := k1 x1 rfl
    obtain ⟨x2m, os2, hos2⟩ := k2 x2 rfl
    obtain ⟨P1, -, R1⟩ := p1.remove t1 x1m f1
    obtain ⟨P2, -, R2⟩ := p2.remove t2 x2m f2
    have hc : SameR (Hdb.contents c1) (Hdb.contents c2) := by
      intro r; rw [R1, R2, hs r, hxr]
    have hv := validateMerge_same r1 r2 (P1.around_merged r1 t1 ha (p1.sub _ x1m) w1 q1) (P2.around_merged r2 t2 hb (p2.sub _ x2m) w2 q2) hmr hc y1 y2
    subst hv
    have hsplit : ∀ {r : Rng} {d c : Db P C B} {x : Node P C B}, (∀ r, r ∈ (Hdb.contents c).map Node.range ↔ r ∈ (Hdb.contents d).map Node.range ∧ r ≠ x.range) →
        r ∈ (Hdb.contents d).map Node.range → r ∈ (Hdb.contents c).map Node.range ∨ (some x).map Node.range = some r := by
      intro r d c x hR hr
      by_cases hx : r = x.range
      · exact .inr (by rw [hx]; rfl)
      · exact .inl ((hR r).2 ⟨hr, hx⟩)
    rcases z1 with ⟨rfl, o, os, ho1, rfl⟩ | ⟨rfl, rfl⟩
    · rcases z2 with ⟨-, o', os', ho2, rfl⟩ | ⟨h0, -⟩
      · refine ⟨⟨hc, ?_, congrArg (fun r => [r]) hmr, rfl⟩, P1, P2, (fun h => by cases h), (fun h => by cases h)⟩
        rw [ho1] at hos1
        rw [ho2] at hos2
        cases hos1; cases hos2
        rw [ho1, ho2, List.map_cons, List.map_cons] at ho
        simp only [if_true]
        exact (List.cons.inj ho).2
      · cases h0
    · rcases z2 with ⟨h0, -⟩ | ⟨-, rfl⟩
      · cases h0
      · exact ⟨⟨hc, ho, congrArg (fun r => [r]) hxr, rfl⟩, P1, P2, fun _ r hr => hsplit R1 hr, fun _ r hr => hsplit R2 hr⟩

/-- constdp/node_aggregates.go:99-109 -/
theorem mergePrev_same {V : Rng → Bool} {ids1 ids2 : Nat → Int} {g1 g2 : Nat} {db1 db2 : Db P C B} (r1 : RunOK env s1 pts h V)
    (r2 : RunOK env s2 pts h V) (t1 : Stored env s1 pts h ids1 g1 db1) (t2 : Stored env s2 pts h ids2 g2 db2) {a b : Node P C B}
    (ha : a ∈ Hdb.contents db1) (hb : b ∈ Hdb.contents db2) {pr1 pr2 mp1 mp2 : Option (Node P C B)} (hpr : SameO pr1 pr2) (hmp : SameO mp1 mp2)
    {a1 a2 : MergeSt P C B} (ms : MidSame a1 a2) (p1 : Part db1 a1.db) (p2 : Part db2 a2.db)
    (k1 : a1.merged = false → ∀ x, pr1 = some x → x ∈ Hdb.contents a1.db) (k2 : a2.merged = false → ∀ x, pr2 = some x → x ∈ Hdb.contents a2.db)
    (l1 : ∀ m, mp1 = some m → ∃ x l g', pr1 = some x ∧ g1 ≤ l ∧ Merged (env.run s1) pts ids1 l g' h x a m)
    (l2 : ∀ m, mp2 = some m → ∃ x l g', pr2 = some x ∧ g2 ≤ l ∧ Merged (env.run s2) pts ids2 l g' h x b m) {n m : Nat} {st1 st2 : MergeSt P C B}
    (e1 : mergePrev (env.run s1) ((env.run s1).inst h) mp1 pr1 n a1 = .ok st1)
    (e2 : mergePrev (env.run s2) ((env.run s2).inst h) mp2 pr2 m a2 = .ok st2) : MidSame st1 st2 ∧ Part db1 st1.db ∧ Part db2 st2.db := by
  obtain ⟨d1, o1, i1, b1⟩ := a1
  obtain ⟨d2, o2, i2, b2⟩ := a2
  have hbb : b1 = b2 := ms.merged
  subst hbb
  cases b1 with
  | true => cases e1; cases e2; exact ⟨ms, p1, p2⟩
  | false =>
    cases mp1 with
    | none =>
      rw [hmp.none_left] at e2
      cases e1; cases e2
      exact ⟨ms, p1, p2⟩
    | some m1 =>
      obtain ⟨m2, rfl, hmr⟩ := hmp.some_left
      obtain ⟨x1, i1, j1, rfl, q1, w1⟩ := l1 m1 rfl
      obtain ⟨x2, i2, j2, rfl, q2, w2⟩ := l2 m2 rfl
      have hxr : x1.range = x2.range := Option.some.inj hpr
      obtain ⟨c1, v1, f1, y1, z1⟩ := mergePrev_run e1
      obtain ⟨c2, v2, f2, y2, z2⟩ := mergePrev_run e2
      have x1m := k1 rfl x1 rfl
      have x2m := k2 rfl x2 rfl
      obtain ⟨P1, -, R1⟩ := p1.remove t1 x1m f1
      obtain ⟨P2, -, R2⟩ := p2.remove t2 x2m f2
      have hc : SameR (Hdb.contents c1) (Hdb.contents c2) := by
        intro r; rw [R1, R2, ms.dbs r, hxr]
      have hv := validateMerge_same r1 r2 (P1.around_merged r1 t1 (p1.sub _ x1m) ha w1 q1) (P2.around_merged r2 t2 (p2.sub _ x2m) hb w2 q2) hmr hc y1 y2
      subst hv
      subst z1; subst z2
      refine ⟨⟨hc, ms.objects, ?_, rfl⟩, P1, P2⟩
      have hins := ms.ins
      simp only at hins
      simp only [List.map_append, hins, List.map_singleton]
      cases v1 with
      | true => simp only [if_true, hmr]
      | false => simp only [Bool.false_eq_true, if_false, hxr]

/-- one run of the merge loop: the pieces dealt with and the work list together are the stored pieces in the order of the polyline -/
structure Work (env : Env P C B K) (s : Sched P C B K) (pts : Int → List P) (h : Int) (ids : Nat → Int) (g : Nat) (u objects : List (Node P C B)) (db : Db P C B) :
    Prop where
  stored : Stored env s pts h ids g db
  perm : (u ++ objects).Perm (Hdb.contents db)
  chain : Chain 0 ((pts h).length - 1) ((u ++ objects).map Node.range)

/-- one run up to the two attempts: what the neighbours and the unions are -/
theorem aggStep_run {V : Rng → Bool} {ids : Nat → Int} {g : Nat} {cvs : List Int} {hull : Node P C B} {u objects : List (Node P C B)} {db : Db P C B}
    (ro : RunOK env s pts h V) (w : Work env s pts h ids g u (hull :: objects) db) {cache : List (List Int)} {n : Nat} {db' : Db P C B}
    {objects' : List (Node P C B)} {cache' : List (List Int)} {g' : Nat}
    (e : aggStep (env.run s) ids ((env.run s).inst h) cvs hull objects db cache g n = .ok (db', objects', cache', g')) :
    ∃ d0 ns mp c1 g1 mn st st', Hdb.remove nodeOps db hull n = .ok d0 ∧ Part db d0 ∧
      (∀ r, r ∈ (Hdb.contents d0).map Node.range ↔ r ∈ (Hdb.contents db).map Node.range ∧ r ≠ hull.range) ∧
      neighboursOf (env.run s) d0 hull n = .ok ns ∧ (∀ x ∈ ns, x ∈ Hdb.contents d0 ∧ x.id ≠ hull.id) ∧
      tryMerge (env.run s) ids ((env.run s).inst h) (!decide (hull.range.I ∈ cvs)) (Node.neighbours hull ns).1 (some hull) cache g = .ok (mp, c1, g1) ∧
      tryMerge (env.run s) ids ((env.run s).inst h) (!decide (hull.range.J ∈ cvs)) (some hull) (Node.neighbours hull ns).2 c1 g1 = .ok (mn, cache', g') ∧
      mergeNext (env.run s) ((env.run s).inst h) mn (Node.neighbours hull ns).2 n { db := d0, objects := objects, insertList := [], merged := false } = .ok st ∧
      mergePrev (env.run s) ((env.run s).inst h) mp (Node.neighbours hull ns).1 n st = .ok st' ∧
      Hdb.load nodeOps (env.run s).heur st'.db (if st'.merged then st'.insertList else st'.insertList ++ [hull]) n = .ok db' ∧ objects' = st'.objects ∧
      (∀ x, (Node.neighbours hull ns).1 = some x → x ∈ Hdb.contents d0 ∧ x.range.J = hull.range.I) ∧
      (∀ x, (Node.neighbours hull ns).2 = some x → x ∈ Hdb.contents d0 ∧ hull.range.J = x.range.I ∧ ∃ os, objects = x :: os) ∧
      (∀ m, mp = some m → ∃ x l k, (Node.neighbours hull ns).1 = some x ∧ g ≤ l ∧ Merged (env.run s) pts ids l k h x hull m) ∧
      (∀ m, mn = some m → ∃ x l k, (Node.neighbours hull ns).2 = some x ∧ g ≤ l ∧ Merged (env.run s) pts ids l k h hull x m) := by
  obtain ⟨d0, f0, e⟩ := Res.bind_eq_ok.1 e
  obtain ⟨ns, f1, e⟩ := Res.bind_eq_ok.1 e
  obtain ⟨⟨mp, c1, g1⟩, f2, e⟩ := Res.bind_eq_ok.1 e
  obtain ⟨⟨mn, c2, g2⟩, f3, e⟩ := Res.bind_eq_ok.1 e
  obtain ⟨st, f4, e⟩ := Res.bind_eq_ok.1 e
  obtain ⟨st', f5, e⟩ := Res.bind_eq_ok.1 e
  obtain ⟨d6, f6, e⟩ := Res.bind_eq_ok.1 e
  cases e
  obtain ⟨t, hperm, hc⟩ := w
  have hh : hull ∈ Hdb.contents db := hperm.mem_iff.1 (by simp)
  obtain ⟨P0, -, R0⟩ := (Part.refl t).remove t hh f0
  have A0 := P0.around ro t hh
  have hns : ∀ x ∈ ns, x ∈ Hdb.contents d0 ∧ x.id ≠ hull.id := fun x hx => by
    obtain ⟨h1, h2, -⟩ := (neighboursOf_mem A0.okd (fun x hx => (A0.known x hx).2) f1 x).1 hx
    exact ⟨h1, h2⟩
  obtain ⟨b1, b2⟩ := neighboursLoop_spec hull ns none none (Hdb.contents d0) (by simp) (by simp) (fun x hx => (hns x hx).1)
  have hone : ∀ {x : Node P C B}, Known (env.run s) pts [h] x → x.inst = h := fun hk => List.mem_singleton.1 hk.inst
  obtain ⟨mp', c1', g1', e1', hg1, q1⟩ := tryMerge_ok (ids := ids) ro.insts (h := h) (by simp) (!decide (hull.range.I ∈ cvs)) (a := (Node.neighbours hull ns).1)
    (b := some hull) (by
      rintro x y hx ⟨⟩
      obtain ⟨t1, t2⟩ := b1 x hx
      exact ⟨(A0.known x t1).1, A0.own, hone (A0.known x t1).1, hone A0.own, t2⟩) cache g
  rw [f2] at e1'
  cases e1'
  obtain ⟨mn', c2', g2', e2', hg2, q2⟩ := tryMerge_ok (ids := ids) ro.insts (h := h) (by simp) (!decide (hull.range.J ∈ cvs)) (a := some hull)
    (b := (Node.neighbours hull ns).2) (by
      rintro x y ⟨⟩ hy
      obtain ⟨t1, t2⟩ := b2 y hy
      exact ⟨A0.own, (A0.known y t1).1, hone A0.own, hone (A0.known y t1).1, t2⟩) c1 g1
  rw [f3] at e2'
  cases e2'
  refine ⟨d0, ns, mp, c1, g1, mn, st, st', f0, P0, R0, f1, hns, f2, f3, f4, f5, f6, rfl, b1, fun x hx => ?_, fun m hm => ?_, fun m hm => ?_⟩
  · obtain ⟨h1, h2⟩ := b2 x hx
    exact ⟨h1, h2, next_is_head hc (hperm.mem_iff.2 (P0.sub x h1)) h2⟩
  · obtain ⟨-, x, y, h1, ⟨⟩, h3⟩ := q1 m hm
    exact ⟨x, g, g1, h1, Nat.le_refl _, h3⟩
  · obtain ⟨-, x, y, ⟨⟩, h2, h3⟩ := q2 m hm
    exact ⟨y, g1, g', h2, hg1, h3⟩

/-- constdp/node_aggregates.go:48-115 -/
theorem aggStep_same {V : Rng → Bool} {ids1 ids2 : Nat → Int} {g1 g2 : Nat} {cvs : List Int} {hull1 hull2 : Node P C B}
    {u1 u2 objects1 objects2 : List (Node P C B)} {db1 db2 : Db P C B} (r1 : RunOK env s1 pts h V) (r2 : RunOK env s2 pts h V)
    (w1 : Work env s1 pts h ids1 g1 u1 (hull1 :: objects1) db1) (w2 : Work env s2 pts h ids2 g2 u2 (hull2 :: objects2) db2)
    (hs : SameR (Hdb.contents db1) (Hdb.contents db2)) (hr : hull1.range = hull2.range) (ho : objects1.map Node.range = objects2.map Node.range)
    {cache c1 c2 : List (List Int)} {n m : Nat} {d1 d2 : Db P C B} {o1 o2 : List (Node P C B)} {k1 k2 : Nat}
    (e1 : aggStep (env.run s1) ids1 ((env.run s1).inst h) cvs hull1 objects1 db1 cache g1 n = .ok (d1, o1, c1, k1))
    (e2 : aggStep (env.run s2) ids2 ((env.run s2).inst h) cvs hull2 objects2 db2 cache g2 m = .ok (d2, o2, c2, k2)) :
    SameR (Hdb.contents d1) (Hdb.contents d2) ∧ o1.map Node.range = o2.map Node.range ∧ c1 = c2 := by
  obtain ⟨d01, ns1, mp1, c11, g11, mn1, st1, st1', a1, P1, R1, n1, N1, tp1, tn1, nx1, px1, ld1, ob1, pr1, nr1, mm1, ml1⟩ := aggStep_run r1 w1 e1
  obtain ⟨d02, ns2, mp2, c12, g12, mn2, st2, st2', a2, P2, R2, n2, N2, tp2, tn2, nx2, px2, ld2, ob2, pr2, nr2, mm2, ml2⟩ := aggStep_run r2 w2 e2
  have h1 : hull1 ∈ Hdb.contents db1 := w1.perm.mem_iff.1 (by simp)
  have h2 : hull2 ∈ Hdb.contents db2 := w2.perm.mem_iff.1 (by simp)
  have A1 := P1.around r1 w1.stored h1
  have A2 := P2.around r2 w2.stored h2
  have hs0 : SameR (Hdb.contents d01) (Hdb.contents d02) := by
    intro r; rw [R1, R2, hs r, hr]
  have hns := neighbours_same A1 A2 hr hs0 n1 n2
  obtain ⟨sp, sn⟩ := neighboursPair_same w1.stored w2.stored h1 h2 hr (fun x hx => ⟨P1.sub _ (N1 x hx).1, (N1 x hx).2⟩) (fun x hx => ⟨P2.sub _ (N2 x hx).1, (N2 x hx).2⟩) hns
  rw [← hr] at tp2 tn2
  obtain ⟨smp, hc1⟩ := tryMerge_same (fun x hx => (A1.known x (pr1 x hx).1).1) (fun x hx => by cases hx; exact A1.own)
    (fun x hx => (A2.known x (pr2 x hx).1).1) (fun x hx => by cases hx; exact A2.own) sp (show SameO (some hull1) (some hull2) from congrArg some hr) tp1 tp2
  subst hc1
  obtain ⟨smn, hc2⟩ := tryMerge_same (fun x hx => by cases hx; exact A1.own) (fun x hx => (A1.known x (nr1 x hx).1).1)
    (fun x hx => by cases hx; exact A2.own) (fun x hx => (A2.known x (nr2 x hx).1).1) (show SameO (some hull1) (some hull2) from congrArg some hr) sn tn1 tn2
  obtain ⟨ms, Q1, Q2, in1, in2⟩ := mergeNext_same r1 r2 w1.stored w2.stored P1 P2 hs0 h1 h2 sn smn ho (fun x hx => ⟨(nr1 x hx).1, (nr1 x hx).2.2⟩)
    (fun x hx => ⟨(nr2 x hx).1, (nr2 x hx).2.2⟩) ml1 ml2 nx1 nx2
  have mem : ∀ {u : Sched P C B K} {ids : Nat → Int} {g : Nat} {db d : Db P C B} {st : MergeSt P C B} {hull x : Node P C B} {nx : Option (Node P C B)},
      Stored env u pts h ids g db → Part db d → Part db st.db → hull ∈ Hdb.contents db → x ∈ Hdb.contents d → x.range.J = hull.range.I →
      (∀ y, nx = some y → y ∈ Hdb.contents d ∧ hull.range.J = y.range.I) →
      (∀ r ∈ (Hdb.contents d).map Node.range, r ∈ (Hdb.contents st.db).map Node.range ∨ nx.map Node.range = some r) → x ∈ Hdb.contents st.db := by
    intro u ids g db d st hull x nx t p q hh hx hxj hnx hin
    obtain ⟨src, hp⟩ := t.pieces
    rcases hin x.range (List.mem_map_of_mem hx) with h3 | h3
    · obtain ⟨y, hy, hyr⟩ := List.mem_map.1 h3
      have : y = x := hp.range_inj (q.sub y hy) (p.sub x hx) hyr
      exact this ▸ hy
    · exfalso
      cases nx with
      | none => cases h3
      | some y =>
        have hyx : y.range = x.range := Option.some.inj h3
        have := (hnx y rfl).2
        have := (hp.known hh).lt
        have := (hp.known (p.sub x hx)).lt
        rw [hyx] at *
        omega
  obtain ⟨ms', Q1', Q2'⟩ := mergePrev_same r1 r2 w1.stored w2.stored h1 h2 sp smp ms Q1 Q2
    (fun hf x hx => mem w1.stored P1 Q1 h1 (pr1 x hx).1 (pr1 x hx).2 (fun y hy => ⟨(nr1 y hy).1, (nr1 y hy).2.1⟩) (in1 hf))
    (fun hf x hx => mem w2.stored P2 Q2 h2 (pr2 x hx).1 (pr2 x hx).2 (fun y hy => ⟨(nr2 y hy).1, (nr2 y hy).2.1⟩) (in2 hf)) mm1 mm2 px1 px2
  refine ⟨?_, ?_, hc2⟩
  · obtain ⟨z1, y1, -, q1⟩ := Q1'.okd.load r1.legal (if st1'.merged then st1'.insertList else st1'.insertList ++ [hull1])
    obtain ⟨z2, y2, -, q2⟩ := Q2'.okd.load r2.legal (if st2'.merged then st2'.insertList else st2'.insertList ++ [hull2])
    have : d1 = z1 := (Hdb.load_le _ _ _ _).val ld1 y1
    subst this
    have : d2 = z2 := (Hdb.load_le _ _ _ _).val ld2 y2
    subst this
    intro r
    rw [(q1.map Node.range).mem_iff, (q2.map Node.range).mem_iff, List.map_append, List.map_append, List.mem_append, List.mem_append, ms'.dbs r, ← ms'.merged]
    cases st1'.merged with
    | true => simp only [if_true, ms'.ins]
    | false => simp only [Bool.false_eq_true, if_false, List.map_append, ms'.ins, List.map_singleton, hr]
  · rw [ob1, ob2]; exact ms'.objects

/-- one fragment keeps the work list in order -/
theorem aggStep_work {V : Rng → Bool} {ids : Nat → Int} {g : Nat} {cvs : List Int} {hull : Node P C B} {u objects : List (Node P C B)} {db : Db P C B}
    (ro : RunOK env s pts h V) (hinj : Function.Injective ids) (w : Work env s pts h ids g u (hull :: objects) db) {cache : List (List Int)} {n : Nat}
    {db' : Db P C B} {objects' : List (Node P C B)} {cache' : List (List Int)} {g' : Nat}
    (e : aggStep (env.run s) ids ((env.run s).inst h) cvs hull objects db cache g n = .ok (db', objects', cache', g')) :
    ∃ u', Work env s pts h ids g' u' objects' db' := by
  obtain ⟨⟨okd, src, hp⟩, hperm, hc⟩ := w
  obtain ⟨d1, obj1, c1, g1, y, w1, hg1, hout⟩ := aggStep_yields (ids := ids) ro.legal ro.inst cvs okd hp hperm hc cache
  have := (aggStep_le (env.run s) ids _ cvs hull objects db cache g).val e y
  cases this
  have happ : u ++ hull :: objects = (u ++ [hull]) ++ objects := by simp
  have hone : ∀ x ∈ Hdb.contents db, x.inst = h := fun x hx => List.mem_singleton.1 (hp.known hx).inst
  rcases hout with ⟨hb, ho⟩ | ⟨nxt, m, rest, db0, hb, ha, ho, hj, hm, hd0, hc0, hv⟩ | ⟨prv, m, rest, out, db0, hb, ha, ho, hj, hm, hd0, hc0, -, hv⟩
  · subst ho
    exact ⟨u ++ [hull], ⟨w1, src, (hp.perm hb.symm).mono hg1⟩, (happ ▸ hperm).trans hb.symm, happ ▸ hc⟩
  · subst ho
    have hmem1 : hull ∈ Hdb.contents db := hb.mem_iff.2 (by simp)
    have hmem2 : nxt ∈ Hdb.contents db := hb.mem_iff.2 (by simp)
    have hp1 : Pieces (env.run s) pts [h] src ids g' (m :: rest) :=
      (hp.perm hb).merge ((hone _ hmem1).trans (hone _ hmem2).symm) hm.adj hm.id hinj (by rw [hone _ hmem1]; exact hm.piece) hm.range
    have happ2 : u ++ hull :: nxt :: objects' = u ++ ([hull, nxt] ++ objects') := rfl
    refine ⟨u ++ [m], ⟨w1, src, hp1.perm ha.symm⟩, ?_, ?_⟩
    · refine List.Perm.trans ?_ ha.symm
      have h3 : (hull :: nxt :: (u ++ objects')).Perm (hull :: nxt :: rest) := by
        refine List.Perm.trans ?_ (hperm.trans hb)
        rw [happ2]
        exact List.perm_append_comm_assoc [hull, nxt] u objects'
      have h4 := h3.cons_inv.cons_inv
      rw [List.append_assoc]
      exact List.perm_middle.trans (h4.cons m)
    · rw [List.map_append, List.map_cons, List.map_cons] at hc
      obtain ⟨q, c1, c2, c3, c4, c5, c6⟩ := Chain.append_iff.1 hc
      rw [List.append_assoc, List.map_append]
      refine c1.append ?_
      simp only [List.singleton_append, List.map_cons, hm.range]
      exact ⟨c2, by simp; omega, c6⟩
  · subst ho
    have hmem1 : prv ∈ Hdb.contents db := hb.mem_iff.2 (by simp)
    have hmem2 : hull ∈ Hdb.contents db := hb.mem_iff.2 (by simp)
    have hp0 := hp.perm hb
    have hp1 : Pieces (env.run s) pts [h] src ids g' (m :: rest) :=
      hp0.merge ((hone _ hmem1).trans (hone _ hmem2).symm) hm.adj hm.id hinj (by rw [hone _ hmem1]; exact hm.piece) hm.range
    obtain ⟨u0, hu0⟩ : ∃ u0, u = u0 ++ [prv] := by
      have hprv : prv ∈ u ++ hull :: objects' := hperm.mem_iff.2 hmem1
      have hlt := (hp.known hmem1).lt
      have hlt2 := (hp.known hmem2).lt
      have hadj := hm.adj
      rw [List.map_append, List.map_cons] at hc
      obtain ⟨q, c1, c2, c3, c4⟩ := Chain.append_iff.1 hc
      rcases List.mem_append.1 hprv with h1 | h1
      · obtain ⟨u0, v, rfl⟩ := List.append_of_mem h1
        cases v with
        | nil => exact ⟨u0, rfl⟩
        | cons z v =>
          exfalso
          rw [List.map_append, List.map_cons, List.map_cons] at c1
          obtain ⟨q', x1, x2, x3, x4, x5, x6⟩ := Chain.append_iff.1 c1
          have := x6.le
          omega
      · exfalso
        rcases List.mem_cons.1 h1 with rfl | h1
        · omega
        · have := c4.mem (List.mem_map.2 ⟨prv, h1, rfl⟩); omega
    subst hu0
    have happ2 : (u0 ++ [prv]) ++ hull :: objects' = u0 ++ ([prv, hull] ++ objects') := by simp
    refine ⟨u0 ++ [m], ⟨w1, src, hp1.perm ha.symm⟩, ?_, ?_⟩
    · refine List.Perm.trans ?_ ha.symm
      have h3 : (prv :: hull :: (u0 ++ objects')).Perm (prv :: hull :: rest) := by
        refine List.Perm.trans ?_ (hperm.trans hb)
        rw [happ2]
        exact List.perm_append_comm_assoc [prv, hull] u0 objects'
      have h4 := h3.cons_inv.cons_inv
      rw [List.append_assoc]
      exact List.perm_middle.trans (h4.cons m)
    · rw [happ2, List.map_append] at hc
      obtain ⟨q, c1, c2, c3, c4, c5, c6⟩ := Chain.append_iff.1 hc
      rw [List.append_assoc, List.map_append]
      refine c1.append ?_
      simp only [List.singleton_append, List.map_cons, hm.range]
      exact ⟨c2, by simp; omega, c6⟩

/-- constdp/node_aggregates.go:33-116 -/
theorem aggLoop_same {V : Rng → Bool} {ids1 ids2 : Nat → Int} {cvs : List Int} (r1 : RunOK env s1 pts h V) (r2 : RunOK env s2 pts h V)
    (j1 : Function.Injective ids1) (j2 : Function.Injective ids2) : ∀ {n m : Nat} {u1 u2 objects1 objects2 : List (Node P C B)} {db1 db2 d1 d2 : Db P C B}
    {g1 g2 k1 k2 : Nat} {cache : List (List Int)}, Work env s1 pts h ids1 g1 u1 objects1 db1 → Work env s2 pts h ids2 g2 u2 objects2 db2 →
    SameR (Hdb.contents db1) (Hdb.contents db2) → objects1.map Node.range = objects2.map Node.range →
    aggLoop (env.run s1) ids1 ((env.run s1).inst h) cvs n objects1 db1 cache g1 = .ok (d1, k1) →
    aggLoop (env.run s2) ids2 ((env.run s2).inst h) cvs m objects2 db2 cache g2 = .ok (d2, k2) →
    Stored env s1 pts h ids1 k1 d1 ∧ Stored env s2 pts h ids2 k2 d2 ∧ SameR (Hdb.contents d1) (Hdb.contents d2) := by
  intro n
  induction n with
  | zero => intro m u1 u2 o1 o2 db1 db2 d1 d2 g1 g2 k1 k2 cache _ _ _ _ e1; cases e1
  | succ n ih =>
    intro m u1 u2 o1 o2 db1 db2 d1 d2 g1 g2 k1 k2 cache w1 w2 hs ho e1 e2
    cases m with
    | zero => cases e2
    | succ m =>
      cases o1 with
      | nil =>
        cases o2 with
        | nil => cases e1; cases e2; exact ⟨w1.stored, w2.stored, hs⟩
        | cons y o2 => cases ho
      | cons x o1 =>
        cases o2 with
        | nil => cases ho
        | cons y o2 =>
          obtain ⟨hr, ho⟩ := List.cons.inj ho
          have skip : ∀ {t : Sched P C B K} {ids : Nat → Int} {g : Nat} {u l : List (Node P C B)} {z : Node P C B} {db : Db P C B},
              Work env t pts h ids g u (z :: l) db → Work env t pts h ids g (u ++ [z]) l db := by
            intro t ids g u l z db w
            have happ : u ++ z :: l = (u ++ [z]) ++ l := by simp
            exact ⟨w.stored, happ ▸ w.perm, happ ▸ w.chain⟩
          rw [aggLoop] at e1 e2
          rw [← hr] at e2
          split at e1
          · rename_i c
            rw [if_pos c] at e2
            exact ih (skip w1) (skip w2) hs ho e1 e2
          · rename_i c
            rw [if_neg c] at e2
            split at e1
            · rename_i c'
              rw [if_pos c'] at e2
              exact ih (skip w1) (skip w2) hs ho e1 e2
            · rename_i c'
              rw [if_neg c'] at e2
              obtain ⟨⟨a1, b1, ch1, l1⟩, f1, e1⟩ := Res.bind_eq_ok.1 e1
              obtain ⟨⟨a2, b2, ch2, l2⟩, f2, e2⟩ := Res.bind_eq_ok.1 e2
              obtain ⟨u1', w1'⟩ := aggStep_work r1 j1 w1 f1
              obtain ⟨u2', w2'⟩ := aggStep_work r2 j2 w2 f2
              obtain ⟨hs', ho', hc⟩ := aggStep_same r1 r2 w1 w2 hs hr ho f1 f2
              subst hc
              exact ih w1' w2' hs' ho' e1 e2

theorem Chain.eq_of_mem {a b : Int} : ∀ {rs1 rs2 : List Rng}, Chain a b rs1 → Chain a b rs2 → (∀ r, r ∈ rs1 ↔ r ∈ rs2) → rs1 = rs2 := by
  intro rs1
  induction rs1 generalizing a with
  | nil =>
    intro rs2 _ _ hm
    symm
    rw [List.eq_nil_iff_forall_not_mem]
    intro r hr
    cases (hm r).2 hr
  | cons r rs1 ih =>
    intro rs2 c1 c2 hm
    cases rs2 with
    | nil => cases (hm r).1 (by simp)
    | cons r' rs2 =>
      obtain ⟨x1, x2, x3⟩ := c1
      obtain ⟨y1, y2, y3⟩ := c2
      have hrr : r' = r := by
        rcases List.mem_cons.1 ((hm r').2 (by simp)) with h1 | h1
        · exact h1
        · have := x3.mem h1; omega
      subst hrr
      congr 1
      refine ih x3 y3 (fun q => ⟨fun hq => ?_, fun hq => ?_⟩)
      · rcases List.mem_cons.1 ((hm q).1 (List.mem_cons_of_mem _ hq)) with h1 | h1
        · subst h1; have := x3.mem hq; omega
        · exact h1
      · rcases List.mem_cons.1 ((hm q).2 (List.mem_cons_of_mem _ hq)) with h1 | h1
        · subst h1; have := y3.mem hq; omega
        · exact h1

/-- constdp/node_aggregates.go:14-117 -/
theorem aggregate_same {V : Rng → Bool} {ids1 ids2 : Nat → Int} {cvs : List Int} (r1 : RunOK env s1 pts h V) (r2 : RunOK env s2 pts h V)
    (j1 : Function.Injective ids1) (j2 : Function.Injective ids2) {n m : Nat} {db1 db2 d1 d2 : Db P C B} {g1 g2 k1 k2 : Nat}
    (t1 : Stored env s1 pts h ids1 g1 db1) (t2 : Stored env s2 pts h ids2 g2 db2) (hs : SameR (Hdb.contents db1) (Hdb.contents db2))
    (e1 : aggregate (env.run s1) ids1 ((env.run s1).inst h) cvs db1 g1 n = .ok (d1, k1))
    (e2 : aggregate (env.run s2) ids2 ((env.run s2).inst h) cvs db2 g2 m = .ok (d2, k2)) :
    Stored env s1 pts h ids1 k1 d1 ∧ Stored env s2 pts h ids2 k2 d2 ∧ SameR (Hdb.contents d1) (Hdb.contents d2) := by
  obtain ⟨o1, f1, e1⟩ := Res.bind_eq_ok.1 e1
  obtain ⟨o2, f2, e2⟩ := Res.bind_eq_ok.1 e2
  have one : ∀ {t : Sched P C B K} {ids : Nat → Int} {g n : Nat} {db : Db P C B} {o : List (Node P C B)}, Stored env t pts h ids g db → Hdb.all db n = .ok o →
      Work env t pts h ids g [] (sortNodes o) db := by
    intro t ids g n db o ht ha
    obtain ⟨okd, src, hp⟩ := ht
    obtain ⟨o', y, p⟩ := Hdb.all_yields okd.wf
    have : o = o' := (Hdb.all_le _).val ha y
    subst this
    exact ⟨⟨okd, src, hp⟩, mem_sortNodes.trans p, sortNodes_chain (hp.perm p.symm)⟩
  have w1 := one t1 f1
  have w2 := one t2 f2
  refine aggLoop_same r1 r2 j1 j2 w1 w2 hs ?_ e1 e2
  refine Chain.eq_of_mem w1.chain w2.chain ?_
  exact hs.perm w1.perm.symm w2.perm.symm

/-! ### the whole -/

theorem simpleSet_same {l1 l2 : List (Node P C B)} (hs : SameR l1 l2) : simpleSet l1 = simpleSet l2 := by
  refine pairwise_lt_ext (simpleSet_pairwise _) (simpleSet_pairwise _) (fun y => ?_)
  rw [mem_simpleSet, mem_simpleSet]
  constructor
  · rintro ⟨x, hx, hy⟩
    obtain ⟨z, hz, hzr⟩ := hs.mem hx
    exact ⟨z, hz, by rw [hzr]; exact hy⟩
  · rintro ⟨x, hx, hy⟩
    obtain ⟨z, hz, hzr⟩ := hs.symm.mem hx
    exact ⟨z, hz, by rw [hzr]; exact hy⟩

/-- constdp/simplify.go:31-33: what is left of the input when the deformation loop starts: the same ranges and the same fixed vertices in both runs -/
def SameStart (env : Env P C B K) (s1 s2 : Sched P C B K) (h : Int) (ids1 ids2 : Nat → Int) (cv : List Int) : Prop :=
  ∀ {n m : Nat} {h1 h2 i1 i2 : List (Node P C B)} {g1 g2 k1 k2 : Nat} {v1 v2 : List Int},
    decompose (env.run s1).lib ids1 0 ((env.run s1).inst h).pln ((env.run s1).inst h).scoreFn ((env.run s1).inst h).rel h n = .ok (h1, g1) →
    decompose (env.run s2).lib ids2 0 ((env.run s2).inst h).pln ((env.run s2).inst h).scoreFn ((env.run s2).inst h).rel h m = .ok (h2, g2) →
    toSelfIntersects (env.run s1) ids1 g1 h1 ((env.run s1).inst h) cv n = .ok (i1, v1, k1) →
    toSelfIntersects (env.run s2) ids2 g2 h2 ((env.run s2).inst h) cv m = .ok (i2, v2, k2) → SameR i1 i2 ∧ v1 = v2

theorem decompose_pieces {V : Rng → Bool} {ids : Nat → Int} {n : Nat} {o : List (Node P C B) × Nat} (ro : RunOK env s pts h V) (hinj : Function.Injective ids)
    (e : decompose (env.run s).lib ids 0 ((env.run s).inst h).pln ((env.run s).inst h).scoreFn ((env.run s).inst h).rel h n = .ok o) :
    ∃ src, Pieces (env.run s) pts [h] src ids o.2 o.1 := by
  obtain ⟨hulls, g', y, p, -⟩ := decompose_yields (env := env.run s) (pts := pts) ro.inst hinj
  have : o = (hulls, g') := (show Mono (decompose (env.run s).lib ids 0 ((env.run s).inst h).pln ((env.run s).inst h).scoreFn ((env.run s).inst h).rel h) from
    decompose_le _ _ _ _ _ _ _).val e y
  subst this
  exact ⟨_, p⟩

/-- with an exact search, all runs start the loop from the same ranges -/
theorem SameStart.exact {V : Rng → Bool} {ids1 ids2 : Nat → Int} {cv : List Int} (r1 : RunOK env s1 pts h V) (r2 : RunOK env s2 pts h V)
    (x1 : Exact env s1) (x2 : Exact env s2) (j1 : Function.Injective ids1) (j2 : Function.Injective ids2) : SameStart env s1 s2 h ids1 ids2 cv := by
  intro n m h1 h2 i1 i2 g1 g2 k1 k2 v1 v2 a1 a2 b1 b2
  obtain ⟨src1, p1⟩ := decompose_pieces r1 j1 a1
  obtain ⟨src2, p2⟩ := decompose_pieces r2 j2 a2
  have hh : SameR h1 h2 := by
    have : h1.map Node.range = h2.map Node.range := decompose_same a1 a2
    intro r; rw [this]
  exact (toSelfIntersects_same r1 r2 x1 x2 j1 j2 p1 p2 hh b1 b2).2.2

theorem splitNodes_congr {ids : Nat → Int} {idxs : List Int} {n : Nat} (hh : s1.heur = s2.heur) : ∀ (l : List (Node P C B)) (db : Db P C B) (g : Nat),
    splitNodes (env.run s1) ids idxs n l db g = splitNodes (env.run s2) ids idxs n l db g := by
  intro l
  induction l with
  | nil => intro db g; rfl
  | cons x l ih => intro db g; simp only [splitNodes, ih]; simp only [Env.run, hh]

theorem splitAtInters_congr {ids : Nat → Int} {n : Nat} (hh : s1.heur = s2.heur) (hp : s1.heap = s2.heap) : ∀ (l : List (Inter P)) (db : Db P C B) (g : Nat),
    splitAtInters (env.run s1) ids n l db g = splitAtInters (env.run s2) ids n l db g := by
  intro l
  induction l with
  | nil => intro db g; rfl
  | cons x l ih => intro db g; simp only [splitAtInters, ih, splitNodes_congr hh]; simp only [Env.run, hp]

/-- the loop starts before the first iteration over a map: same identifiers, same index heuristics and same queue give the same start -/
theorem SameStart.fixed {ids : Nat → Int} {cv : List Int} (hh : s1.heur = s2.heur) (hp : s1.heap = s2.heap) : SameStart env s1 s2 h ids ids cv := by
  intro n m h1 h2 i1 i2 g1 g2 k1 k2 v1 v2 a1 a2 b1 b2
  have : (h1, g1) = (h2, g2) := (show Mono (decompose env.lib ids 0 (env.inst h).pln (env.inst h).scoreFn (env.inst h).rel h) from
    decompose_le _ _ _ _ _ _ _).det a1 a2
  cases this
  have he : toSelfIntersects (env.run s2) ids g1 h1 ((env.run s2).inst h) cv m = toSelfIntersects (env.run s1) ids g1 h1 ((env.run s1).inst h) cv m := by
    have hs : splitAtInters (env.run s2) ids m = splitAtInters (env.run s1) ids m := by funext a b c; exact splitAtInters_congr hh.symm hp.symm a b c
    have h3 : (env.run s2).heur = (env.run s1).heur := hh.symm
    have h4 : (env.run s2).lib = (env.run s1).lib := rfl
    have h5 : (env.run s2).lnr = (env.run s1).lnr := rfl
    have h6 : ((env.run s2).inst h).pln = ((env.run s1).inst h).pln := rfl
    have h7 : ((env.run s2).inst h).opts = ((env.run s1).inst h).opts := rfl
    simp only [toSelfIntersects, hs, h3, h4, h5, h6, h7]
  rw [he] at b2
  have := (toSelfIntersects_le (env.run s1) ids g1 h1 ((env.run s1).inst h) cv).det b1 b2
  cases this
  exact ⟨fun r => Iff.rfl, rfl⟩

/-- constrain/toself.go:15-67 in one run -/
theorem selfPieces {V : Rng → Bool} {ids : Nat → Int} {n : Nat} {h1 i1 : List (Node P C B)} {g1 k1 : Nat} {cv v1 : List Int} (ro : RunOK env s pts h V)
    (hl : LnrOK env.lnr) (hcv : ∀ i ∈ cv, 0 ≤ i ∧ i < (pts h).length) (hinj : Function.Injective ids)
    (a1 : decompose (env.run s).lib ids 0 ((env.run s).inst h).pln ((env.run s).inst h).scoreFn ((env.run s).inst h).rel h n = .ok (h1, g1))
    (b1 : toSelfIntersects (env.run s) ids g1 h1 ((env.run s).inst h) cv n = .ok (i1, v1, k1)) : ∃ src, Pieces (env.run s) pts [h] src ids k1 i1 := by
  obtain ⟨src, p⟩ := decompose_pieces ro hinj a1
  obtain ⟨near, hlg, hmono⟩ := ro.legal.heap
  obtain ⟨o, w, k, y, -, q, -⟩ := toSelfIntersects_yields ro.legal hl ro.insts hinj (h := h) (by simp) (strong := False) hlg hmono p hcv
    (fun hf => hf.elim) (fun hf => hf.elim)
  have : (i1, v1, k1) = (o, w, k) := (toSelfIntersects_le _ _ _ _ _ _).val b1 y
  cases this
  exact ⟨_, q⟩

/-- constdp/simplify.go:11-76 -/
theorem simplify_same {V : Rng → Bool} {ids1 ids2 : Nat → Int} {cv : List Int} {dirty1 dirty2 : Int → Bool} (r1 : RunOK env s1 pts h V)
    (r2 : RunOK env s2 pts h V) (hl : LnrOK env.lnr)
    (hcv : ∀ i ∈ cv, 0 ≤ i ∧ i < (pts h).length) (j1 : Function.Injective ids1) (j2 : Function.Injective ids2) (hst : SameStart env s1 s2 h ids1 ids2 cv) {n m : Nat} {o1 o2 : Out P C B} {q1 q2 : Int → Bool}
    (e1 : simplify (env.run s1) ids1 h cv dirty1 n = .ok (o1, q1)) (e2 : simplify (env.run s2) ids2 h cv dirty2 m = .ok (o2, q2)) :
    SameR o1.hulls o2.hulls ∧ o1.simple = o2.simple := by
  obtain ⟨⟨h1, g1⟩, a1, e1⟩ := Res.bind_eq_ok.1 e1
  obtain ⟨⟨h2, g2⟩, a2, e2⟩ := Res.bind_eq_ok.1 e2
  obtain ⟨⟨i1, v1, k1⟩, b1, e1⟩ := Res.bind_eq_ok.1 e1
  obtain ⟨⟨i2, v2, k2⟩, b2, e2⟩ := Res.bind_eq_ok.1 e2
  obtain ⟨d1, c1, e1⟩ := Res.bind_eq_ok.1 e1
  obtain ⟨d2, c2, e2⟩ := Res.bind_eq_ok.1 e2
  obtain ⟨st1, l1, e1⟩ := Res.bind_eq_ok.1 e1
  obtain ⟨st2, l2, e2⟩ := Res.bind_eq_ok.1 e2
  obtain ⟨⟨x1, y1⟩, m1, e1⟩ := Res.bind_eq_ok.1 e1
  obtain ⟨⟨x2, y2⟩, m2, e2⟩ := Res.bind_eq_ok.1 e2
  obtain ⟨w1, z1, e1⟩ := Res.bind_eq_ok.1 e1
  obtain ⟨w2, z2, e2⟩ := Res.bind_eq_ok.1 e2
  cases e1; cases e2
  obtain ⟨hi, hv⟩ := hst a1 a2 b1 b2
  obtain ⟨src1', p1'⟩ := selfPieces r1 hl hcv j1 a1 b1
  obtain ⟨src2', p2'⟩ := selfPieces r2 hl hcv j2 a2 b2
  subst hv
  obtain ⟨t1, q1⟩ := Stored.of_load r1 p1' c1
  obtain ⟨t2, q2⟩ := Stored.of_load r2 p2' c2
  obtain ⟨T1, T2, hs⟩ := deformLoop_same (a1 := ⟨d1, k1, markDirty dirty1 h⟩) (a2 := ⟨d2, k2, markDirty dirty2 h⟩) r1 r2 j1 j2 t1 t2 (hi.perm q1.symm q2.symm)
    (by simp [markDirty]) (by simp [markDirty]) (fun x hx => q1.mem_iff.2 hx) (fun x hx => q2.mem_iff.2 hx) hi l1 l2
  obtain ⟨U1, U2, hs⟩ := aggregate_same r1 r2 j1 j2 T1 T2 hs m1 m2
  obtain ⟨n1, ny1, np1⟩ := Hdb.all_yields U1.okd.wf
  obtain ⟨n2, ny2, np2⟩ := Hdb.all_yields U2.okd.wf
  have : w1 = n1 := (Hdb.all_le _).val z1 ny1
  subst this
  have : w2 = n2 := (Hdb.all_le _).val z2 ny2
  subst this
  have := hs.perm np1.symm np2.symm
  exact ⟨this, simpleSet_same this⟩

end Verif
