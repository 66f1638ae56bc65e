import Verif.Lemmas.Pointers

/-! The merge pass with pointers follows the merge pass with identifiers. -/

set_option linter.unusedSectionVars false

namespace Verif

variable {P C B K : Type} [LinearOrder B] [BoundedOrder B] [LinearOrder K]
variable {env : Env P C B K} {pts : Int → List P} {hs : List Int} {src : Int → Prop} {ids : Nat → Int} {g : Nat}

/-- after one fragment the work list is again the end of the chain of stored pieces -/
theorem AggOut.work {h : Int} (hinj : Function.Injective ids) {g' : Nat} (hg : g ≤ g') {cvs : List Int} {hull : Node P C B} {u o o' l l' : List (Node P C B)}
    (hp : Pieces env pts [h] src ids g l) (hperm : (u ++ hull :: o).Perm l) (hc : Chain 0 ((pts h).length - 1) ((u ++ hull :: o).map Node.range))
    (ho : AggOut env pts ids g g' h cvs hull o o' l l') :
    ∃ u' : List (Node P C B), Pieces env pts [h] src ids g' l' ∧ (u' ++ o').Perm l' ∧ Chain 0 ((pts h).length - 1) ((u' ++ o').map Node.range) := by
  have hone : ∀ x ∈ l, x.inst = h := fun x hx => List.mem_singleton.1 (hp.known hx).inst
  have happ : u ++ hull :: o = (u ++ [hull]) ++ o := by simp
  rcases ho with ⟨hb, ho⟩ | ⟨nxt, m, rest, db0, hb, ha, ho, hj, hm, hd0, hc0, hv⟩ | ⟨prv, m, rest, out, db0, hb, ha, ho, hj, hm, hd0, hc0, -, hv⟩
  · subst ho
    exact ⟨u ++ [hull], (hp.perm hb.symm).mono hg, (happ ▸ hperm).trans hb.symm, happ ▸ hc⟩
  · subst ho
    have hmem1 : hull ∈ l := hb.mem_iff.2 (by simp)
    have hmem2 : nxt ∈ l := hb.mem_iff.2 (by simp)
    have hp1 : Pieces env pts [h] src ids g' (m :: rest) :=
      (hp.perm hb).merge ((hone _ hmem1).trans (hone _ hmem2).symm) hm.adj hm.id hinj (by rw [hone _ hmem1]; exact hm.piece) hm.range
    have happ2 : u ++ hull :: nxt :: o' = u ++ ([hull, nxt] ++ o') := rfl
    refine ⟨u ++ [m], hp1.perm ha.symm, ?_, ?_⟩
    · refine List.Perm.trans ?_ ha.symm
      have h3 : (hull :: nxt :: (u ++ o')).Perm (hull :: nxt :: rest) := by
        refine List.Perm.trans ?_ (hperm.trans hb)
        rw [happ2]
        exact List.perm_append_comm_assoc [hull, nxt] u o'
      have h4 := h3.cons_inv.cons_inv
      rw [List.append_assoc]
      exact List.perm_middle.trans (h4.cons m)
    · rw [List.map_append, List.map_cons, List.map_cons] at hc
      obtain ⟨q, c1, c2, c3, c4, c5, c6⟩ := Chain.append_iff.1 hc
      rw [List.append_assoc, List.map_append]
      refine c1.append ?_
      simp only [List.singleton_append, List.map_cons, hm.range]
      exact ⟨c2, by simp; omega, c6⟩
  · subst ho
    have hmem1 : prv ∈ l := hb.mem_iff.2 (by simp)
    have hmem2 : hull ∈ l := hb.mem_iff.2 (by simp)
    have hp0 := hp.perm hb
    have hp1 : Pieces env pts [h] src ids g' (m :: rest) :=
      hp0.merge ((hone _ hmem1).trans (hone _ hmem2).symm) hm.adj hm.id hinj (by rw [hone _ hmem1]; exact hm.piece) hm.range
    obtain ⟨u0, hu0⟩ : ∃ u0, u = u0 ++ [prv] := by
      have hall : (prv :: hull :: rest).filter (fun nd => decide (nd.inst = prv.inst)) = prv :: hull :: rest := by
        rw [List.filter_eq_self]
        intro a ha
        rw [hone prv hmem1, hone a (hb.mem_iff.2 ha)]; simp
      obtain ⟨p, q, hpq⟩ := hp0.adjacent (s := u ++ hull :: o') ((hone _ hmem1).trans (hone _ hmem2).symm) hm.adj
        (by rw [hall]; exact hperm.trans hb) (by rw [hone prv hmem1]; exact hc)
      have hnd : ((u ++ hull :: o').map Node.id).Nodup := (hperm.map Node.id).nodup_iff.2 hp.nodup
      have hnd' : (u ++ hull :: o').Nodup := hnd.of_map
      have h1 : u ++ hull :: o' = (p ++ [prv]) ++ hull :: q := by rw [hpq]; simp
      refine ⟨p, ?_⟩
      have hnu : hull ∉ u := by
        intro hm'
        rw [List.nodup_append] at hnd'
        exact hnd'.2.2 hull hm' hull (by simp) rfl
      have hnp : hull ∉ p ++ [prv] := by
        intro hm'
        rw [h1, List.nodup_append] at hnd'
        exact hnd'.2.2 hull hm' hull (by simp) rfl
      rcases List.append_eq_append_iff.1 h1 with ⟨as, h2, h3⟩ | ⟨bs, h2, h3⟩
      · cases as with
        | nil => simpa using h2.symm
        | cons a as =>
          simp only [List.cons_append, List.cons.injEq] at h3
          exact absurd (h2 ▸ (by rw [h3.1]; simp)) hnp
      · cases bs with
        | nil => simpa using h2
        | cons a as =>
          simp only [List.cons_append, List.cons.injEq] at h3
          exact absurd (h2 ▸ (by rw [h3.1]; simp)) hnu
    subst hu0
    have happ2 : (u0 ++ [prv]) ++ hull :: o' = u0 ++ ([prv, hull] ++ o') := by simp
    refine ⟨u0 ++ [m], hp1.perm ha.symm, ?_, ?_⟩
    · refine List.Perm.trans ?_ ha.symm
      have h3 : (prv :: hull :: (u0 ++ o')).Perm (prv :: hull :: rest) := by
        refine List.Perm.trans ?_ (hperm.trans hb)
        rw [happ2]
        exact List.perm_append_comm_assoc [prv, hull] u0 o'
      have h4 := h3.cons_inv.cons_inv
      rw [List.append_assoc]
      exact List.perm_middle.trans (h4.cons m)
    · rw [happ2, List.map_append] at hc
      obtain ⟨q, c1, c2, c3, c4, c5, c6⟩ := Chain.append_iff.1 hc
      rw [List.append_assoc, List.map_append]
      refine c1.append ?_
      simp only [List.singleton_append, List.map_cons, hm.range]
      exact ⟨c2, by simp; omega, c6⟩

namespace Ptr

/-- a pointer that was stored once: the index stores its address for no other identifier -/
structure Obj (m : Mem) (r : Ref P C B) : Prop where
  ne : r.addr ≠ 0
  lt : r.addr < m.next
  only : ∀ i, m.cur i = r.addr → i = r.node.id

theorem Stored.obj {m : Mem} (hm : m.OK) {r : Ref P C B} (h : Stored m r) : Obj m r :=
  ⟨h.2, by rw [h.1]; exact hm.lt _, fun i hi => hm.inj _ _ (hi.trans h.1) (hi ▸ h.2)⟩

theorem Obj.load {m : Mem} {r : Ref P C B} (h : Obj m r) (l : List (Node P C B)) : Obj (m.load l).2 r := by
  have h1 := Mem.load_next m l
  have h2 := h.lt
  refine ⟨h.ne, by omega, fun i hi => ?_⟩
  rcases Mem.load_cur m l i with h3 | h3
  · exact h.only i (h3 ▸ hi)
  · omega

/-- node/contig.go:35-53 with pointers that are all different from the first argument -/
theorem neighboursLoop_eq (m : Mem) (hull : Ref P C B) : ∀ (ns : List (Node P C B)) (p q : Option (Node P C B)),
    (∀ n ∈ ns, n.id ≠ hull.node.id ∧ m.cur n.id ≠ hull.addr) →
    neighboursLoop hull (ns.map m.at) (p.map m.at) (q.map m.at) =
      ((Node.neighboursLoop hull.node ns p q).1.map m.at, (Node.neighboursLoop hull.node ns p q).2.map m.at) := by
  intro ns
  induction ns with
  | nil => intro p q _; rfl
  | cons n ns ih =>
    intro p q hn
    obtain ⟨h1, h2⟩ := hn n (by simp)
    have h2' : (m.at n).addr ≠ hull.addr := h2
    have ih' := fun p q => ih p q (fun x hx => hn x (List.mem_cons_of_mem _ hx))
    have e1 : (m.at n).node = n := rfl
    have key : ∀ p q : Option (Node P C B),
        (if (p.map m.at).isSome && (q.map m.at).isSome then (p.map m.at, q.map m.at) else neighboursLoop hull (ns.map m.at) (p.map m.at) (q.map m.at)) =
        ((if p.isSome && q.isSome then (p, q) else Node.neighboursLoop hull.node ns p q).1.map m.at,
         (if p.isSome && q.isSome then (p, q) else Node.neighboursLoop hull.node ns p q).2.map m.at) := by
      intro p q
      rw [Option.isSome_map, Option.isSome_map]
      split
      · rfl
      · exact ih' p q
    rw [List.map_cons, neighboursLoop, Node.neighboursLoop]
    simp only [e1]
    rw [if_pos h2', if_pos h1]
    by_cases c2 : hull.node.range.I = n.range.J
    · rw [if_pos c2, if_pos c2]
      exact key (some n) q
    · rw [if_neg c2, if_neg c2]
      by_cases c3 : hull.node.range.J = n.range.I
      · rw [if_pos c3, if_pos c3]
        exact key p (some n)
      · rw [if_neg c3, if_neg c3]
        exact key p q

/-- corresponding states of one fragment -/
structure SameSt (s : MergeSt P C B) (s' : Verif.MergeSt P C B) : Prop where
  db : s.db = s'.db
  objects : s.objects.map Ref.node = s'.objects
  insert : s.insertList = s'.insertList
  merged : s.merged = s'.merged

/-- constdp/node_aggregates.go:85-97 -/
theorem mergeNext_sim (self : Inst P C B K) (m : Mem) (a : Nat) (mn : Option (Node P C B)) (nxt : Option (Ref P C B)) (fuel : Nat) {s : MergeSt P C B}
    {s' : Verif.MergeSt P C B} (hs : SameSt s s') (hcmp : ∀ n o os, nxt = some n → s.objects = o :: os → (o.addr = n.addr ↔ o.node.id = n.node.id)) :
    Res.Sim (fun t t' => SameSt t t' ∧ (t.objects = s.objects ∨ ∃ o, s.objects = o :: t.objects) ∧
        ∀ x ∈ t.insertList, x ∈ s.insertList ∨ mn = some x ∨ nxt.map Ref.node = some x)
      (mergeNext env self m a mn nxt fuel s) (Verif.mergeNext env self mn (nxt.map Ref.node) fuel s') := by
  obtain ⟨db, objects, il, mg⟩ := s
  obtain ⟨db', objects', il', mg'⟩ := s'
  obtain ⟨h1, h2, h3, h4⟩ := hs
  simp only [] at h1 h2 h3 h4 hcmp
  subst h1 h2 h3 h4
  unfold mergeNext Verif.mergeNext
  cases mg with
  | true => exact .ok ⟨⟨rfl, rfl, rfl, rfl⟩, .inl rfl, fun x hx => .inl hx⟩
  | false =>
    cases mn with
    | none => exact .ok ⟨⟨rfl, rfl, rfl, rfl⟩, .inl rfl, fun x hx => .inl hx⟩
    | some mg =>
      cases nxt with
      | none => exact .ok ⟨⟨rfl, rfl, rfl, rfl⟩, .inl rfl, fun x hx => .inl hx⟩
      | some n =>
        simp only [Option.map_some]
        refine Res.Sim.bind_same (fun db1 _ => ?_)
        rw [validateMerge_eq]
        refine Res.Sim.bind_same (fun ok _ => ?_)
        cases ok with
        | true =>
          simp only [if_true]
          cases objects with
          | nil => exact .panic
          | cons o os =>
            simp only [List.map_cons]
            have hiff := hcmp n o os rfl rfl
            refine .ok ⟨⟨rfl, ?_, rfl, rfl⟩, ?_, ?_⟩
            · by_cases hid : o.node.id = n.node.id
              · simp only [hid, hiff.2 hid, if_true]
              · have : ¬ o.addr = n.addr := fun h => hid (hiff.1 h)
                simp only [hid, this, if_false, List.map_cons]
            · by_cases hid : o.addr = n.addr
              · simp only [hid, if_true]; exact .inr ⟨o, rfl⟩
              · simp only [hid, if_false]; exact .inl trivial
            · intro x hx
              rcases List.mem_append.1 hx with hx | hx
              · exact .inl hx
              · rw [List.mem_singleton.1 hx]; exact .inr (.inl rfl)
        | false =>
          refine .ok ⟨⟨rfl, rfl, rfl, rfl⟩, .inl rfl, ?_⟩
          intro x hx
          rcases List.mem_append.1 hx with hx | hx
          · exact .inl hx
          · rw [List.mem_singleton.1 hx]; exact .inr (.inr rfl)

/-- constdp/node_aggregates.go:99-109 -/
theorem mergePrev_sim (self : Inst P C B K) (m : Mem) (a : Nat) (mp : Option (Node P C B)) (prev : Option (Ref P C B)) (fuel : Nat) {s : MergeSt P C B}
    {s' : Verif.MergeSt P C B} (hs : SameSt s s') :
    Res.Sim (fun t t' => SameSt t t' ∧ t.objects = s.objects ∧ ∀ x ∈ t.insertList, x ∈ s.insertList ∨ mp = some x ∨ prev.map Ref.node = some x)
      (mergePrev env self m a mp prev fuel s) (Verif.mergePrev env self mp (prev.map Ref.node) fuel s') := by
  obtain ⟨db, objects, il, mg⟩ := s
  obtain ⟨db', objects', il', mg'⟩ := s'
  obtain ⟨h1, h2, h3, h4⟩ := hs
  simp only [] at h1 h2 h3 h4
  subst h1 h2 h3 h4
  unfold mergePrev Verif.mergePrev
  cases mg with
  | true => exact .ok ⟨⟨rfl, rfl, rfl, rfl⟩, rfl, fun x hx => .inl hx⟩
  | false =>
    cases mp with
    | none => exact .ok ⟨⟨rfl, rfl, rfl, rfl⟩, rfl, fun x hx => .inl hx⟩
    | some mg =>
      cases prev with
      | none => exact .ok ⟨⟨rfl, rfl, rfl, rfl⟩, rfl, fun x hx => .inl hx⟩
      | some n =>
        simp only [Option.map_some]
        refine Res.Sim.bind_same (fun db1 _ => ?_)
        rw [validateMerge_eq]
        refine Res.Sim.bind_same (fun ok _ => ?_)
        cases ok with
        | true =>
          refine .ok ⟨⟨rfl, rfl, rfl, rfl⟩, rfl, ?_⟩
          intro x hx
          rcases List.mem_append.1 hx with hx | hx
          · exact .inl hx
          · rw [List.mem_singleton.1 hx]; exact .inr (.inl rfl)
        | false =>
          refine .ok ⟨⟨rfl, rfl, rfl, rfl⟩, rfl, ?_⟩
          intro x hx
          rcases List.mem_append.1 hx with hx | hx
          · exact .inl hx
          · rw [List.mem_singleton.1 hx]; exact .inr (.inr rfl)

/-- constdp/node_aggregates.go:48-115 -/
theorem aggStep_sim {h : Int} (hi : InstOK env h (pts h)) (cvs : List Int) {hull : Ref P C B} {u : List (Node P C B)}
    {objects : List (Ref P C B)} {m : Mem} {db : Db P C B} (hd : DbOK db) (hp : Pieces env pts [h] src ids g (Hdb.contents db))
    (hperm : (u ++ hull.node :: objects.map Ref.node).Perm (Hdb.contents db))
    (hc : Chain 0 ((pts h).length - 1) ((u ++ hull.node :: objects.map Ref.node).map Node.range)) (hm : m.OK) (hh : Obj m hull)
    (ho : ∀ o ∈ objects, Obj m o ∧ o.addr = m.cur o.node.id) (cache : List (List Int)) (fuel : Nat) :
    Res.Sim (fun x y => x.1 = y.1 ∧ x.2.1.map Ref.node = y.2.1 ∧ x.2.2.2 = y.2.2 ∧ x.2.2.1.OK ∧ (∀ o ∈ x.2.1, Obj x.2.2.1 o) ∧
        ∀ o ∈ x.2.1.tail, o.addr = x.2.2.1.cur o.node.id)
      (aggStep env ids (env.inst h) cvs hull objects m db cache g fuel)
      (Verif.aggStep env ids (env.inst h) cvs hull.node (objects.map Ref.node) db cache g fuel) := by
  have hi' : ∀ k ∈ [h], InstOK env k (pts k) := by
    intro k hk; rw [List.mem_singleton] at hk; rw [hk]; exact hi
  have hone : ∀ x ∈ Hdb.contents db, x.inst = h := fun x hx => List.mem_singleton.1 (hp.known hx).inst
  have hhull : hull.node ∈ Hdb.contents db := hperm.mem_iff.1 (by simp)
  obtain ⟨d0, y0, w0, p0⟩ := hd.remove hp.nodup hhull
  have m0 : ∀ x ∈ Hdb.contents d0, x ∈ Hdb.contents db := fun x hx => p0.mem_iff.2 (List.mem_cons_of_mem _ hx)
  have kv : ∀ x ∈ Hdb.contents db, Known env pts [h] x ∧ x.mbr.Valid := fun x hx => ⟨hp.known hx, hp.valid hi' hx⟩
  obtain ⟨ns, y1, p1⟩ := neighboursOf_yields (env := env) w0 (fun x hx => (kv x (m0 x hx)).2) hull.node
  obtain ⟨b1, b2⟩ := neighboursLoop_spec hull.node ns none none (Hdb.contents d0) (by simp) (by simp)
    (fun x hx => (List.mem_filter.1 (p1.mem_iff.1 hx)).1)
  have e := neighboursLoop_eq m hull ns none none (by
    intro n hn
    have hf := (List.mem_filter.1 (p1.mem_iff.1 hn)).2
    have hid : n.id ≠ hull.node.id := (of_decide_eq_true hf).1
    exact ⟨hid, fun hcur => hid (hh.only _ hcur)⟩)
  simp only [Option.map_none] at e
  have hpn : Node.neighboursLoop hull.node ns none none = Node.neighbours hull.node ns := rfl
  rw [hpn] at b1 b2 e
  have hkh := (kv hull.node hhull).1
  have hnode : ∀ x : Option (Node P C B), (x.map m.at).map Ref.node = x := by intro x; cases x <;> rfl
  unfold aggStep Verif.aggStep
  refine Res.Sim.bind_same (fun db1 hdb1 => ?_)
  obtain rfl := (Hdb.remove_le nodeOps db hull.node).val hdb1 y0
  unfold neighboursOf
  rw [Res.bind_assoc]
  refine Res.Sim.bind_same (fun ns1 hns1 => ?_)
  obtain rfl := (neighboursOf_le env db1 hull.node).val hns1 y1
  simp only [Res.pure_eq, Res.ok_bind, e, hnode]
  generalize (Node.neighbours hull.node ns1).1 = pr at b1 ⊢
  generalize (Node.neighbours hull.node ns1).2 = nx at b2 ⊢
  obtain ⟨mp, c1, g1, e1, hg1, q1⟩ := tryMerge_ok (ids := ids) hi' (h := h) (by simp) (!decide (hull.node.range.I ∈ cvs)) (a := pr) (b := some hull.node)
    (by
      rintro x y hx ⟨⟩
      obtain ⟨t1, t2⟩ := b1 x hx
      exact ⟨(kv x (m0 x t1)).1, hkh, hone x (m0 x t1), hone hull.node hhull, t2⟩) cache g
  obtain ⟨mn, c2, g2, e2, hg2, q2⟩ := tryMerge_ok (ids := ids) hi' (h := h) (by simp) (!decide (hull.node.range.J ∈ cvs)) (a := some hull.node) (b := nx)
    (by
      rintro x y ⟨⟩ hy
      obtain ⟨t1, t2⟩ := b2 y hy
      exact ⟨hkh, (kv y (m0 y t1)).1, hone hull.node hhull, hone y (m0 y t1), t2⟩) c1 g1
  simp only [e1, e2, Res.ok_bind]
  have s0 : SameSt (⟨db1, objects, [], false⟩ : MergeSt P C B) ⟨db1, objects.map Ref.node, [], false⟩ := ⟨rfl, rfl, rfl, rfl⟩
  have A := mergeNext_sim (env := env) (env.inst h) ⟨m.cur, m.next + 2⟩ (m.next + 1) mn (nx.map m.at) fuel s0 (by
    intro n o os hn hos
    have hoo := ho o (by simp only [] at hos; rw [hos]; simp)
    cases nx with
    | none => cases hn
    | some n' =>
      simp only [Option.map_some, Option.some.injEq] at hn
      subst hn
      constructor
      · intro haddr; exact (hoo.1.only _ haddr.symm).symm
      · intro hid; rw [hoo.2, hid]; rfl)
  rw [hnode] at A
  refine Res.Sim.bind A ?_
  rintro s s' - - ⟨hs1, hs2, hs3⟩
  have A2 := mergePrev_sim (env := env) (env.inst h) ⟨m.cur, m.next + 2⟩ m.next mp (pr.map m.at) fuel hs1
  rw [hnode] at A2
  refine Res.Sim.bind A2 ?_
  rintro t t' - - ⟨ht1, ht2, ht3⟩
  rw [← ht1.db, ← ht1.insert, ← ht1.merged]
  refine Res.Sim.bind_same (fun db2 _ => ?_)
  refine .ok ?_
  -- what was inserted
  have hil : ∀ x ∈ (if t.merged = true then t.insertList else t.insertList ++ [hull.node]), x = hull.node ∨ mn = some x ∨ nx = some x ∨ mp = some x ∨ pr = some x := by
    intro x hx
    have hx' : x ∈ t.insertList ∨ x = hull.node := by
      split at hx
      · exact .inl hx
      · simpa using hx
    rcases hx' with hx | hx
    · rcases ht3 x hx with hx | hx | hx
      · rcases hs3 x hx with hx | hx | hx
        · cases hx
        · exact .inr (.inl hx)
        · exact .inr (.inr (.inl hx))
      · exact .inr (.inr (.inr (.inl hx)))
      · exact .inr (.inr (.inr (.inr hx)))
    · exact .inl hx
  have hnd : ((u ++ hull.node :: objects.map Ref.node).map Node.id).Nodup := (hperm.map Node.id).nodup_iff.2 hp.nodup
  rw [List.map_append, List.map_cons, List.nodup_append, List.nodup_cons] at hnd
  have hob : ∀ o ∈ objects, o.node ∈ Hdb.contents db := fun o ho' =>
    hperm.mem_iff.1 (List.mem_append_right _ (List.mem_cons_of_mem _ (List.mem_map.2 ⟨o, ho', rfl⟩)))
  have hafter : ∀ o ∈ objects, hull.node.range.J ≤ o.node.range.I := by
    intro o ho'
    rw [List.map_append, List.map_cons] at hc
    obtain ⟨k, -, -, -, c4⟩ := Chain.append_iff.1 hc
    exact (c4.mem (List.mem_map.2 ⟨o.node, List.mem_map.2 ⟨o, ho', rfl⟩, rfl⟩)).1
  have hnew : ∀ o ∈ objects.tail, o.node.id ∉ (if t.merged = true then t.insertList else t.insertList ++ [hull.node]).map Node.id := by
    intro o ho' hmem
    have ho'' : o ∈ objects := List.mem_of_mem_tail ho'
    obtain ⟨x, hx, hid⟩ := List.mem_map.1 hmem
    have hfresh : ∀ k, g ≤ k → o.node.id ≠ ids k := fun k hk => hp.fresh _ (hob o ho'') k hk
    rcases hil x hx with rfl | hx | hx | hx | hx
    · exact hnd.2.1.1 (List.mem_map.2 ⟨o.node, List.mem_map.2 ⟨o, ho'', rfl⟩, hid.symm⟩)
    · obtain ⟨-, a, b, -, -, hmg⟩ := q2 x hx
      obtain ⟨k, k1, -, k3⟩ := hmg.id
      exact hfresh k (by omega) (hid.symm.trans k3)
    · obtain ⟨t1, t2⟩ := b2 x hx
      obtain ⟨os, hos⟩ := next_is_head hc (hperm.mem_iff.2 (m0 x t1)) t2
      have htail : o.node ∈ os := by
        have : o.node ∈ (objects.map Ref.node).tail := by rw [← List.map_tail]; exact List.mem_map.2 ⟨o, ho', rfl⟩
        rw [hos] at this; exact this
      have h2 := hnd.2.1.2
      rw [hos, List.map_cons, List.nodup_cons] at h2
      exact h2.1 (List.mem_map.2 ⟨o.node, htail, hid.symm⟩)
    · obtain ⟨-, a, b, -, -, hmg⟩ := q1 x hx
      obtain ⟨k, k1, -, k3⟩ := hmg.id
      exact hfresh k (by omega) (hid.symm.trans k3)
    · obtain ⟨t1, t2⟩ := b1 x hx
      have hxo : x = o.node := hp.eq_of_id (m0 x t1) (hob o ho'') hid
      subst hxo
      have h1 := hafter o ho''
      have h2 := (kv _ (hob o ho'')).1.lt
      have h3 := hkh.lt
      omega
  have hobj : ∀ o ∈ t.objects, o ∈ objects := by
    intro o ho'
    rw [ht2] at ho'
    rcases hs2 with h2 | ⟨o', h2⟩
    · simp only [] at h2; rw [h2] at ho'; exact ho'
    · simp only [] at h2; rw [h2]; exact List.mem_cons_of_mem _ ho'
  have htl : ∀ o ∈ t.objects.tail, o ∈ objects.tail := by
    intro o ho'
    rw [ht2] at ho'
    rcases hs2 with h2 | ⟨o', h2⟩
    · simp only [] at h2; rw [h2] at ho'; exact ho'
    · simp only [] at h2; rw [h2]; exact List.mem_of_mem_tail ho'
  have hm1 : (⟨m.cur, m.next + 2⟩ : Mem).OK := ⟨fun i => Nat.lt_of_lt_of_le (hm.lt i) (Nat.le_add_right _ _), hm.inj⟩
  refine ⟨rfl, ht1.objects, rfl, hm1.load _, fun o ho' => ?_, fun o ho' => ?_⟩
  · have h1 := (ho o (hobj o ho')).1
    exact Obj.load (m := ⟨m.cur, m.next + 2⟩) ⟨h1.ne, Nat.lt_of_lt_of_le h1.lt (Nat.le_add_right _ _), h1.only⟩ _
  · rw [Mem.load_other (hnew o (htl o ho'))]
    exact (ho o (hobj o (List.mem_of_mem_tail ho'))).2

/-- constdp/node_aggregates.go:33-116 -/
theorem aggLoop_sim (he : EnvOK env) {h : Int} (hi : InstOK env h (pts h)) (hinj : Function.Injective ids) (cvs : List Int) : ∀ (fuel : Nat)
    (u : List (Node P C B)) (objects : List (Ref P C B)) (m : Mem) (db : Db P C B) (cache : List (List Int)) (g : Nat), DbOK db →
    Pieces env pts [h] src ids g (Hdb.contents db) → (u ++ objects.map Ref.node).Perm (Hdb.contents db) →
    Chain 0 ((pts h).length - 1) ((u ++ objects.map Ref.node).map Node.range) → m.OK → (∀ o ∈ objects, Obj m o) →
    (∀ o ∈ objects.tail, o.addr = m.cur o.node.id) →
    aggLoop env ids (env.inst h) cvs fuel objects m db cache g = Verif.aggLoop env ids (env.inst h) cvs fuel (objects.map Ref.node) db cache g := by
  intro fuel
  induction fuel with
  | zero => intro u objects m db cache g _ _ _ _ _ _ _; rfl
  | succ fuel ih =>
    intro u objects m db cache g hd hp hperm hc hm hob htl
    cases objects with
    | nil => rfl
    | cons hull objects =>
      rw [List.map_cons] at hperm hc ⊢
      rw [aggLoop, Verif.aggLoop]
      have happ : u ++ hull.node :: objects.map Ref.node = (u ++ [hull.node]) ++ objects.map Ref.node := by simp
      have hskip := ih (u ++ [hull.node]) objects m db cache g hd hp (happ ▸ hperm) (happ ▸ hc) hm (fun o ho => hob o (List.mem_cons_of_mem _ ho))
        (fun o ho => htl o (List.mem_of_mem_tail ho))
      by_cases c1 : hull.node.range.size ≠ 1
      · rw [if_pos c1, if_pos c1]; exact hskip
      rw [if_neg c1, if_neg c1]
      by_cases c2 : hull.node.range.I ∈ cvs ∧ hull.node.range.J ∈ cvs
      · rw [if_pos c2, if_pos c2]; exact hskip
      rw [if_neg c2, if_neg c2]
      refine Res.Sim.eq (Res.Sim.bind (aggStep_sim hi cvs hd hp hperm hc hm (hob hull (by simp))
        (fun o ho => ⟨hob o (List.mem_cons_of_mem _ ho), htl o ho⟩) cache fuel) ?_)
      rintro ⟨db1, ob1, m1, c1', g1⟩ ⟨db1', ob1', c1'', g1'⟩ - e1 ⟨h1, h2, h3, h4, h5, h6⟩
      simp only [Prod.mk.injEq] at h1 h2 h3 h4 h5 h6
      obtain ⟨h3, h3'⟩ := h3
      subst h1 h2 h3 h3'
      obtain ⟨db', objects', cache', g', y, hd', hg, hout⟩ := aggStep_yields (ids := ids) he hi cvs hd hp hperm hc cache
      have hv := (aggStep_le env ids (env.inst h) cvs hull.node (objects.map Ref.node) db cache g).val e1 y
      simp only [Prod.mk.injEq] at hv
      obtain ⟨rfl, rfl, rfl, rfl⟩ := hv
      obtain ⟨u', hp', hperm', hc'⟩ := hout.work hinj hg hp hperm hc
      simp only []
      rw [ih u' ob1 m1 db1 c1' g1 hd' hp' hperm' hc' h4 h5 h6]
      exact Res.Sim.refl (fun _ => rfl)

/-- constdp/node_aggregates.go:14-117 -/
theorem aggregate_eq (he : EnvOK env) {h : Int} (hi : InstOK env h (pts h)) (hinj : Function.Injective ids) (cvs : List Int) {m : Mem} {db : Db P C B}
    (hd : DbOK db) (hp : Pieces env pts [h] src ids g (Hdb.contents db)) (hm : m.OK) (hc : Covers m (Hdb.contents db)) (fuel : Nat) :
    aggregate env ids (env.inst h) cvs m db g fuel = Verif.aggregate env ids (env.inst h) cvs db g fuel := by
  unfold aggregate Verif.aggregate
  refine Res.Sim.eq (Res.Sim.bind_same (fun l hl => ?_))
  obtain ⟨out, y, p⟩ := Hdb.all_yields hd.wf
  obtain rfl := (Hdb.all_le db).val hl y
  have hst : ∀ o ∈ (sortNodes l).map m.at, Stored m o := by
    intro o ho
    obtain ⟨n, hn, rfl⟩ := List.mem_map.1 ho
    exact hc.stored (p.mem_iff.1 (mem_sortNodes.mem_iff.1 hn))
  have := aggLoop_sim he hi hinj cvs fuel [] ((sortNodes l).map m.at) m db [] g hd hp (by rw [node_at]; exact mem_sortNodes.trans p)
    (by rw [node_at]; exact sortNodes_chain (hp.perm p.symm)) hm (fun o ho => (hst o ho).obj hm) (fun o ho => (hst o (List.mem_of_mem_tail ho)).1)
  rw [node_at] at this
  rw [this]
  exact Res.Sim.refl (fun _ => rfl)

end Ptr
end Verif
