import Verif.Lemmas.HdbInsert

/-! `all`, `Search` and `Collides` against the contents. -/

namespace Verif
namespace Hdb

variable {T B : Type} [LinearOrder B] [BoundedOrder B]

theorem le_sum_of_mem : ∀ {l : List Nat} {a : Nat}, a ∈ l → a ≤ l.sum := by
  intro l
  induction l with
  | nil => intro a h; cases h
  | cons b l ih =>
    intro a h
    rw [List.sum_cons]
    rcases List.mem_cons.1 h with rfl | h
    · omega
    · have := ih h; omega

/-- number of internal nodes at height `h` and below -/
def cnt : Nat → DbNode T B → Nat
  | 0, _ => 0
  | h + 1, nd => 1 + (nd.children.map (cnt h)).sum

/-- number of internal nodes, through the recorded height -/
def cntN (nd : DbNode T B) : Nat := cnt nd.height nd

/-- contents, through the recorded height -/
def flatN (nd : DbNode T B) : List T := flat nd.height nd

theorem cntN_pos {ops : ItemOps T B} {M : Nat} {nd : DbNode T B} (h : RootWF ops M nd) : 0 < cntN nd := by
  rcases h with rfl | ⟨h, hw⟩
  · simp [cntN, cnt]
  · rw [cntN, hw.2.1, cnt]; omega

/-- a node of the traversal: leaf with entries only, or inner node with well-formed children -/
theorem rootWF_cases {ops : ItemOps T B} {M : Nat} {nd : DbNode T B} (h : RootWF ops M nd) :
    (nd.leaf = true ∧ flatN nd = nd.children.flatMap (fun c => c.item.toList) ∧ (∀ c ∈ nd.children, ∃ t, c = newLeafNode ops t)) ∨
    (nd.leaf = false ∧ flatN nd = nd.children.flatMap flatN ∧ cntN nd = 1 + (nd.children.map cntN).sum ∧
      (∀ c ∈ nd.children, ∃ h, WF ops M (h + 1) c)) := by
  rcases h with rfl | ⟨h, hw⟩
  · left; simp [flatN, flat]
  · have hh := hw.2.1
    have hl := hw.2.2.1
    cases h with
    | zero =>
      left
      refine ⟨by simpa using hl, ?_, fun c hc => hw.child hc⟩
      rw [flatN, hh]; rfl
    | succ h =>
      right
      have hch : ∀ c ∈ nd.children, c.height = h + 1 := fun c hc => (hw.child hc).2.1
      refine ⟨by simpa using hl, ?_, ?_, fun c hc => ⟨h, hw.child hc⟩⟩
      · rw [flatN, hh]
        simp only [flat]
        rw [List.flatMap_def, List.flatMap_def]
        congr 1
        apply List.map_congr_left
        intro c hc
        rw [flatN, hch c hc]; rfl
      · rw [cntN, hh, cnt]
        congr 2
        apply List.map_congr_left
        intro c hc
        rw [cntN, hch c hc]

omit [LinearOrder B] [BoundedOrder B] in
theorem leaf_items {ops : ItemOps T B} : ∀ {cs : List (DbNode T B)}, (∀ c ∈ cs, ∃ t, c = newLeafNode ops t) →
    cs.map DbNode.item = (cs.flatMap (fun c => c.item.toList)).map some := by
  intro cs
  induction cs with
  | nil => simp
  | cons c cs ih =>
    intro h
    obtain ⟨t, rfl⟩ := h c (by simp)
    simp [newLeafNode, ih (fun x hx => h x (by simp [hx]))]

theorem allLoop_spec {ops : ItemOps T B} {M : Nat} : ∀ (fuel : Nat) (nd : DbNode T B) (stack : List (DbNode T B)) (result : List (Option T)),
    (∀ x ∈ nd :: stack, RootWF ops M x) → ((nd :: stack).map cntN).sum ≤ fuel →
    ∃ out, allLoop fuel nd stack result = .ok out ∧ out.Perm (result ++ ((nd :: stack).flatMap flatN).map some) := by
  intro fuel
  induction fuel with
  | zero =>
    intro nd stack result h hf
    have := cntN_pos (h nd (by simp))
    simp only [List.map_cons, List.sum_cons] at hf; omega
  | succ fuel ih =>
    intro nd stack result h hf
    simp only [List.map_cons, List.sum_cons] at hf
    have hstack : ∀ x ∈ stack, RootWF ops M x := fun x hx => h x (by simp [hx])
    have hpos := cntN_pos (h nd (by simp))
    rcases rootWF_cases (h nd (by simp)) with ⟨l1, l2, l3⟩ | ⟨l1, l2, l3, l4⟩
    · simp only [allLoop, l1, if_true]
      rw [leaf_items l3, ← l2]
      cases stack with
      | nil => exact ⟨_, rfl, by simp⟩
      | cons x xs =>
        obtain ⟨out, e, hp⟩ := ih x xs (result ++ (flatN nd).map some) hstack (by omega)
        refine ⟨out, e, hp.trans ?_⟩
        simp
    · simp only [allLoop, l1, Bool.false_eq_true, if_false]
      have hall : ∀ x ∈ nd.children.reverse ++ stack, RootWF ops M x := by
        intro x hx
        rcases List.mem_append.1 hx with hx | hx
        · exact Or.inr (l4 x (List.mem_reverse.1 hx))
        · exact hstack x hx
      have hsum : ((nd.children.reverse ++ stack).map cntN).sum ≤ fuel := by
        rw [List.map_append, List.sum_append, List.map_reverse, List.sum_reverse]; omega
      have hfl : (result ++ ((nd.children.reverse ++ stack).flatMap flatN).map some).Perm
          (result ++ ((nd :: stack).flatMap flatN).map some) := by
        refine List.Perm.append_left _ (List.Perm.map _ ?_)
        rw [List.flatMap_append, List.flatMap_cons, l2]
        exact List.Perm.append_right _ ((List.reverse_perm nd.children).flatMap_right flatN)
      cases hs : nd.children.reverse ++ stack with
      | nil =>
        refine ⟨result, rfl, ?_⟩
        rw [hs] at hfl
        simpa using hfl
      | cons x xs =>
        rw [hs] at hall hsum hfl
        obtain ⟨out, e, hp⟩ := ih x xs result hall hsum
        exact ⟨out, e, hp.trans hfl⟩

theorem derefAll_map_some : ∀ l : List T, derefAll (l.map some) = .ok l := by
  intro l
  induction l with
  | nil => rfl
  | cons a l ih => simp [derefAll, ih]

theorem derefAll_perm {l : List (Option T)} {r : List T} (h : l.Perm (r.map some)) : ∃ out, derefAll l = .ok out ∧ out.Perm r := by
  obtain ⟨out, rfl⟩ : ∃ out : List T, l = out.map some := by
    have hm : ∀ x ∈ l, ∃ t, x = some t := by
      intro x hx
      obtain ⟨t, -, rfl⟩ := List.mem_map.1 (h.mem_iff.1 hx)
      exact ⟨t, rfl⟩
    clear h
    induction l with
    | nil => exact ⟨[], rfl⟩
    | cons x l ih =>
      obtain ⟨t, rfl⟩ := hm x (by simp)
      obtain ⟨o, rfl⟩ := ih (fun y hy => hm y (by simp [hy]))
      exact ⟨t :: o, rfl⟩
  refine ⟨out, derefAll_map_some out, ?_⟩
  have := h.filterMap id
  simpa [List.filterMap_map] using this

theorem all_spec {ops : ItemOps T B} {t : Tree T B} (hw : TreeWF ops t) (fuel : Nat) (hf : cntN t.data ≤ fuel) :
    ∃ out, all t fuel = .ok out ∧ out.Perm (contents t) := by
  obtain ⟨o, e, hp⟩ := allLoop_spec (ops := ops) (M := t.maxE) fuel t.data [] [] (by simpa using hw.root) (by simpa using hf)
  simp only [List.flatMap_cons, List.flatMap_nil, List.append_nil, List.nil_append] at hp
  obtain ⟨out, e2, hp2⟩ := derefAll_perm hp
  exact ⟨out, by simp only [all, e, Res.ok_bind, e2], hp2⟩

/-! ### Search -/

/-- items of a node whose box meets the query -/
def hits (ops : ItemOps T B) (q : Box B) (nd : DbNode T B) : List T := (flatN nd).filter (fun t => q.intersects (ops.mbr t))

theorem le_bboxN {ops : ItemOps T B} {M : Nat} {nd : DbNode T B} (h : RootWF ops M nd) : ∀ t ∈ flatN nd, ops.mbr t ≤ nd.bbox := by
  intro t ht
  rcases h with rfl | ⟨h, hw⟩
  · simp [flatN, flat] at ht
  · rw [flatN, hw.2.1] at ht
    exact hw.le_bbox t ht

theorem hits_eq_nil {ops : ItemOps T B} {M : Nat} {nd : DbNode T B} (h : RootWF ops M nd) {q : Box B}
    (hq : q.intersects nd.bbox = false) : hits ops q nd = [] := by
  rw [hits, List.filter_eq_nil_iff]
  intro t ht hi
  have := Box.intersects_mono (le_bboxN h t ht) hi
  rw [hq] at this; cases this

theorem hits_eq_all {ops : ItemOps T B} {M : Nat} {nd : DbNode T B} (h : RootWF ops M nd) {q : Box B}
    (hv : ∀ t ∈ flatN nd, (ops.mbr t).Valid) (hq : q.contains nd.bbox = true) : hits ops q nd = flatN nd := by
  rw [hits, List.filter_eq_self]
  intro t ht
  exact Box.intersects_of_le (Box.le_trans' (le_bboxN h t ht) (Box.contains_iff.1 hq)) (hv t ht)

omit [BoundedOrder B] in
theorem searchChildren_leaf {ops : ItemOps T B} {q : Box B} (fuel : Nat) : ∀ (cs stack : List (DbNode T B)) (result : List (Option T)),
    (∀ c ∈ cs, ∃ t, c = newLeafNode ops t) →
    searchChildren fuel q true cs stack result =
      .ok (stack, result ++ ((cs.flatMap (fun c => c.item.toList)).filter (fun t => q.intersects (ops.mbr t))).map some) := by
  intro cs
  induction cs with
  | nil => intro stack result _; simp [searchChildren]
  | cons c cs ih =>
    intro stack result h
    obtain ⟨t, rfl⟩ := h c (by simp)
    have h' : ∀ c ∈ cs, ∃ t, c = newLeafNode ops t := fun x hx => h x (by simp [hx])
    have hb : (newLeafNode ops t).bbox = ops.mbr t := rfl
    have hi : (newLeafNode ops t).item = some t := rfl
    rw [searchChildren, List.flatMap_cons, hi, Option.toList_some, List.singleton_append, hb]
    by_cases hq : q.intersects (ops.mbr t) = true
    · rw [if_pos hq, if_pos rfl, ih _ _ h', List.filter_cons_of_pos (by simpa using hq)]; simp
    · rw [if_neg hq, ih _ _ h', List.filter_cons_of_neg (by simpa using hq)]

theorem searchChildren_inner {ops : ItemOps T B} {M : Nat} {q : Box B} (fuel : Nat) : ∀ (cs stack : List (DbNode T B))
    (result : List (Option T)), (∀ c ∈ cs, RootWF ops M c) → (∀ c ∈ cs, ∀ t ∈ flatN c, (ops.mbr t).Valid) →
    (∀ c ∈ cs, cntN c ≤ fuel) →
    ∃ push result', searchChildren fuel q false cs stack result = .ok (push ++ stack, result') ∧
      (∀ x ∈ push, x ∈ cs) ∧ (push.map cntN).sum ≤ (cs.map cntN).sum ∧
      (result' ++ (push.flatMap (hits ops q)).map some).Perm (result ++ (cs.flatMap (hits ops q)).map some) := by
  intro cs
  induction cs with
  | nil => intro stack result _ _ _; exact ⟨[], result, by simp [searchChildren], by simp, by simp, by simp⟩
  | cons c cs ih =>
    intro stack result h hv hf
    have h1 : ∀ c ∈ cs, RootWF ops M c := fun x hx => h x (by simp [hx])
    have h2 : ∀ c ∈ cs, ∀ t ∈ flatN c, (ops.mbr t).Valid := fun x hx => hv x (by simp [hx])
    have h3 : ∀ c ∈ cs, cntN c ≤ fuel := fun x hx => hf x (by simp [hx])
    simp only [searchChildren, Bool.false_eq_true, if_false]
    by_cases hq : q.intersects c.bbox = true
    · rw [if_pos hq]
      by_cases hc : q.contains c.bbox = true
      · rw [if_pos hc]
        obtain ⟨o, e, hp⟩ := allLoop_spec (ops := ops) (M := M) fuel c [] result (by simpa using h c (by simp))
          (by simpa using hf c (by simp))
        obtain ⟨push, result', e', p1, p2, p3⟩ := ih stack o h1 h2 h3
        simp only [e, Res.ok_bind]
        refine ⟨push, result', e', fun x hx => by simp [p1 x hx], by simp; omega, ?_⟩
        refine p3.trans ?_
        rw [List.flatMap_cons, hits_eq_all (h c (by simp)) (hv c (by simp)) hc, List.map_append, ← List.append_assoc]
        refine List.Perm.append_right _ ?_
        simpa using hp
      · rw [if_neg hc]
        obtain ⟨push, result', e', p1, p2, p3⟩ := ih (c :: stack) result h1 h2 h3
        refine ⟨push ++ [c], result', by simp [e'], ?_, ?_, ?_⟩
        · intro x hx
          rcases List.mem_append.1 hx with hx | hx
          · simp [p1 x hx]
          · simp at hx; simp [hx]
        · simp; omega
        · rw [List.flatMap_append, List.map_append, ← List.append_assoc, List.flatMap_cons, List.map_append]
          refine (p3.append_right _).trans ?_
          simp only [List.flatMap_cons, List.flatMap_nil, List.append_nil, List.append_assoc, List.map_append, List.map_nil]
          exact List.Perm.append_left _ List.perm_append_comm
    · rw [if_neg hq]
      obtain ⟨push, result', e', p1, p2, p3⟩ := ih stack result h1 h2 h3
      refine ⟨push, result', e', fun x hx => by simp [p1 x hx], by simp; omega, ?_⟩
      rw [List.flatMap_cons, hits_eq_nil (h c (by simp)) (by simpa using hq)]
      simpa using p3

theorem searchLoop_spec {ops : ItemOps T B} {M : Nat} {q : Box B} : ∀ (fuel : Nat) (nd : DbNode T B) (stack : List (DbNode T B))
    (result : List (Option T)), (∀ x ∈ nd :: stack, RootWF ops M x) → (∀ x ∈ nd :: stack, ∀ t ∈ flatN x, (ops.mbr t).Valid) →
    ((nd :: stack).map cntN).sum ≤ fuel →
    ∃ out, searchLoop q fuel nd stack result = .ok out ∧ out.Perm (result ++ ((nd :: stack).flatMap (hits ops q)).map some) := by
  intro fuel
  induction fuel with
  | zero =>
    intro nd stack result h hv hf
    have := cntN_pos (h nd (by simp))
    simp only [List.map_cons, List.sum_cons] at hf; omega
  | succ fuel ih =>
    intro nd stack result h hv hf
    simp only [List.map_cons, List.sum_cons] at hf
    have hstack : ∀ x ∈ stack, RootWF ops M x := fun x hx => h x (by simp [hx])
    have hvs : ∀ x ∈ stack, ∀ t ∈ flatN x, (ops.mbr t).Valid := fun x hx => hv x (by simp [hx])
    have hpos := cntN_pos (h nd (by simp))
    rcases rootWF_cases (h nd (by simp)) with ⟨l1, l2, l3⟩ | ⟨l1, l2, l3, l4⟩
    · simp only [searchLoop, l1, searchChildren_leaf fuel nd.children stack result l3, Res.ok_bind, ← l2]
      cases stack with
      | nil => exact ⟨_, rfl, by simp [hits]⟩
      | cons x xs =>
        obtain ⟨out, e, hp⟩ := ih x xs (result ++ (hits ops q nd).map some) hstack hvs (by omega)
        refine ⟨out, e, hp.trans ?_⟩
        simp
    · have hchn : ∀ c ∈ nd.children, cntN c ≤ (nd.children.map cntN).sum :=
        fun c hc => le_sum_of_mem (List.mem_map_of_mem hc)
      have hvc : ∀ c ∈ nd.children, ∀ t ∈ flatN c, (ops.mbr t).Valid := by
        intro c hc t ht
        refine hv nd (by simp) t ?_
        rw [l2]; exact List.mem_flatMap.2 ⟨c, hc, ht⟩
      obtain ⟨push, result', e, p1, p2, p3⟩ := searchChildren_inner (ops := ops) (M := M) (q := q) fuel nd.children stack result
        (fun c hc => Or.inr (l4 c hc)) hvc (fun c hc => by have := hchn c hc; omega)
      have hn : nd.children.flatMap (hits ops q) = hits ops q nd := by
        rw [hits, l2, List.filter_flatMap]; rfl
      rw [hn] at p3
      simp only [searchLoop, l1, e, Res.ok_bind]
      have hall : ∀ x ∈ push ++ stack, RootWF ops M x := by
        intro x hx
        rcases List.mem_append.1 hx with hx | hx
        · exact Or.inr (l4 x (p1 x hx))
        · exact hstack x hx
      have hvall : ∀ x ∈ push ++ stack, ∀ t ∈ flatN x, (ops.mbr t).Valid := by
        intro x hx
        rcases List.mem_append.1 hx with hx | hx
        · exact hvc x (p1 x hx)
        · exact hvs x hx
      have hsum : ((push ++ stack).map cntN).sum ≤ fuel := by
        rw [List.map_append, List.sum_append]; omega
      have hfl : (result' ++ ((push ++ stack).flatMap (hits ops q)).map some).Perm
          (result ++ ((nd :: stack).flatMap (hits ops q)).map some) := by
        rw [List.flatMap_append, List.map_append, ← List.append_assoc, List.flatMap_cons, List.map_append, ← List.append_assoc]
        exact p3.append_right _
      cases hs : push ++ stack with
      | nil =>
        refine ⟨result', rfl, ?_⟩
        rw [hs] at hfl
        simpa using hfl
      | cons x xs =>
        rw [hs] at hall hvall hsum hfl
        obtain ⟨out, e, hp⟩ := ih x xs result' hall hvall hsum
        exact ⟨out, e, hp.trans hfl⟩

theorem search_spec {ops : ItemOps T B} {t : Tree T B} (hw : TreeWF ops t) (hv : ∀ x ∈ contents t, (ops.mbr x).Valid) (q : Box B)
    (fuel : Nat) (hf : cntN t.data ≤ fuel) :
    ∃ out, search t q fuel = .ok out ∧ out.Perm ((contents t).filter (fun x => q.intersects (ops.mbr x))) := by
  unfold search
  by_cases hq : q.intersects t.data.bbox = true
  · obtain ⟨o, e, hp⟩ := searchLoop_spec (ops := ops) (M := t.maxE) (q := q) fuel t.data [] [] (by simpa using hw.root)
      (by simpa [contents, flatN] using hv) (by simpa using hf)
    simp only [List.flatMap_cons, List.flatMap_nil, List.append_nil, List.nil_append] at hp
    obtain ⟨out, e2, hp2⟩ := derefAll_perm hp
    refine ⟨out, ?_, hp2⟩
    simp only [hq, Bool.not_true, Bool.false_eq_true, if_false, e, Res.ok_bind, e2]
  · have hq' : q.intersects t.data.bbox = false := by simpa using hq
    refine ⟨[], by simp [hq'], ?_⟩
    have := hits_eq_nil hw.root hq'
    rw [hits] at this
    rw [contents]
    rw [flatN] at this
    rw [this]

/-! ### Collides -/

omit [BoundedOrder B] in
theorem collidesChildren_leaf {ops : ItemOps T B} {q : Box B} : ∀ (cs stack : List (DbNode T B)),
    (∀ c ∈ cs, ∃ t, c = newLeafNode ops t) →
    ((collidesChildren q true cs stack).1 = true ↔ ∃ t ∈ cs.flatMap (fun c => c.item.toList), q.intersects (ops.mbr t) = true) ∧
    ((collidesChildren q true cs stack).1 = false → (collidesChildren q true cs stack).2 = stack) := by
  intro cs
  induction cs with
  | nil => intro stack _; simp [collidesChildren]
  | cons c cs ih =>
    intro stack h
    obtain ⟨t, rfl⟩ := h c (by simp)
    obtain ⟨i1, i2⟩ := ih stack (fun x hx => h x (by simp [hx]))
    simp only [collidesChildren, newLeafNode, DbNode.bbox_mk, DbNode.item_mk, List.flatMap_cons, Option.toList, List.singleton_append,
      Bool.true_or, if_true]
    by_cases hq : q.intersects (ops.mbr t) = true
    · simp [hq]
    · simp only [hq, Bool.false_eq_true, if_false, List.mem_cons, exists_eq_or_imp, false_or]
      exact ⟨i1, i2⟩

theorem collidesChildren_inner {ops : ItemOps T B} {M : Nat} {q : Box B} : ∀ (cs stack : List (DbNode T B)),
    (∀ c ∈ cs, ∃ h, WF ops M (h + 1) c) → (∀ c ∈ cs, ∀ t ∈ flatN c, (ops.mbr t).Valid) →
    ((collidesChildren q false cs stack).1 = true → ∃ c ∈ cs, hits ops q c ≠ []) ∧
    ((collidesChildren q false cs stack).1 = false → ∃ push, (collidesChildren q false cs stack).2 = push ++ stack ∧
      (∀ x ∈ push, x ∈ cs) ∧ (push.map cntN).sum ≤ (cs.map cntN).sum ∧ ∀ c ∈ cs, hits ops q c ≠ [] → c ∈ push) := by
  intro cs
  induction cs with
  | nil => intro stack _ _; simp [collidesChildren]
  | cons c cs ih =>
    intro stack h hv
    have h1 : ∀ c ∈ cs, ∃ h, WF ops M (h + 1) c := fun x hx => h x (by simp [hx])
    have h2 : ∀ c ∈ cs, ∀ t ∈ flatN c, (ops.mbr t).Valid := fun x hx => hv x (by simp [hx])
    simp only [collidesChildren, Bool.false_or]
    by_cases hq : q.intersects c.bbox = true
    · rw [if_pos hq]
      by_cases hc : q.contains c.bbox = true
      · rw [if_pos hc]
        refine ⟨fun _ => ⟨c, by simp, ?_⟩, fun hf => by cases hf⟩
        rw [hits_eq_all (Or.inr (h c (by simp))) (hv c (by simp)) hc]
        obtain ⟨k, hk⟩ := h c (by simp)
        rw [flatN, hk.2.1]
        exact hk.flat_ne_nil
      · rw [if_neg hc]
        obtain ⟨i1, i2⟩ := ih (c :: stack) h1 h2
        refine ⟨fun ht => ?_, fun hf => ?_⟩
        · obtain ⟨x, hx, hx'⟩ := i1 ht
          exact ⟨x, by simp [hx], hx'⟩
        · obtain ⟨push, e, p1, p2, p3⟩ := i2 hf
          refine ⟨push ++ [c], by simp [e], ?_, by simp; omega, ?_⟩
          · intro x hx
            rcases List.mem_append.1 hx with hx | hx
            · simp [p1 x hx]
            · simp at hx; simp [hx]
          · intro x hx hx'
            rcases List.mem_cons.1 hx with rfl | hx
            · simp
            · simp [p3 x hx hx']
    · rw [if_neg hq]
      obtain ⟨i1, i2⟩ := ih stack h1 h2
      refine ⟨fun ht => ?_, fun hf => ?_⟩
      · obtain ⟨x, hx, hx'⟩ := i1 ht
        exact ⟨x, by simp [hx], hx'⟩
      · obtain ⟨push, e, p1, p2, p3⟩ := i2 hf
        refine ⟨push, e, fun x hx => by simp [p1 x hx], by simp; omega, ?_⟩
        intro x hx hx'
        rcases List.mem_cons.1 hx with rfl | hx
        · exact absurd (hits_eq_nil (Or.inr (h x (by simp))) (by simpa using hq)) hx'
        · exact p3 x hx hx'

theorem collidesLoop_spec {ops : ItemOps T B} {M : Nat} {q : Box B} : ∀ (fuel : Nat) (nd : DbNode T B) (stack : List (DbNode T B)),
    (∀ x ∈ nd :: stack, RootWF ops M x) → (∀ x ∈ nd :: stack, ∀ t ∈ flatN x, (ops.mbr t).Valid) →
    ((nd :: stack).map cntN).sum ≤ fuel →
    ∃ b, collidesLoop q fuel nd stack = .ok b ∧ (b = true ↔ ∃ x ∈ nd :: stack, hits ops q x ≠ []) := by
  intro fuel
  induction fuel with
  | zero =>
    intro nd stack h hv hf
    have := cntN_pos (h nd (by simp))
    simp only [List.map_cons, List.sum_cons] at hf; omega
  | succ fuel ih =>
    intro nd stack h hv hf
    simp only [List.map_cons, List.sum_cons] at hf
    have hstack : ∀ x ∈ stack, RootWF ops M x := fun x hx => h x (by simp [hx])
    have hvs : ∀ x ∈ stack, ∀ t ∈ flatN x, (ops.mbr t).Valid := fun x hx => hv x (by simp [hx])
    have hpos := cntN_pos (h nd (by simp))
    rcases rootWF_cases (h nd (by simp)) with ⟨l1, l2, l3⟩ | ⟨l1, l2, l3, l4⟩
    · obtain ⟨c1, c2⟩ := collidesChildren_leaf (q := q) nd.children stack l3
      have hh : (∃ t ∈ nd.children.flatMap (fun c => c.item.toList), q.intersects (ops.mbr t) = true) ↔ hits ops q nd ≠ [] := by
        rw [hits, l2, ne_eq, List.filter_eq_nil_iff]
        push Not
        rfl
      rw [hh] at c1
      simp only [collidesLoop, l1]
      cases hb : collidesChildren q true nd.children stack with
      | mk b st =>
        rw [hb] at c1 c2
        cases b with
        | true =>
          refine ⟨true, rfl, ?_⟩
          simp only [true_iff]
          exact ⟨nd, by simp, c1.1 rfl⟩
        | false =>
          have := c2 rfl
          simp only at this
          subst this
          have hnd : ¬ hits ops q nd ≠ [] := fun hc => by have := c1.2 hc; cases this
          cases st with
          | nil => exact ⟨false, rfl, by simpa using hnd⟩
          | cons x xs =>
            obtain ⟨b, e, hb⟩ := ih x xs hstack hvs (by omega)
            refine ⟨b, e, ?_⟩
            rw [hb, List.exists_mem_cons_iff (a := nd)]
            exact ⟨Or.inr, fun h => h.resolve_left hnd⟩
    · have hvc : ∀ c ∈ nd.children, ∀ t ∈ flatN c, (ops.mbr t).Valid := by
        intro c hc t ht
        refine hv nd (by simp) t ?_
        rw [l2]; exact List.mem_flatMap.2 ⟨c, hc, ht⟩
      have hn : hits ops q nd = nd.children.flatMap (hits ops q) := by
        rw [hits, l2, List.filter_flatMap]; rfl
      have hh : (∃ c ∈ nd.children, hits ops q c ≠ []) ↔ hits ops q nd ≠ [] := by
        rw [hn, ne_eq, List.flatMap_eq_nil_iff]; push Not; rfl
      obtain ⟨c1, c2⟩ := collidesChildren_inner (ops := ops) (M := M) (q := q) nd.children stack l4 hvc
      simp only [collidesLoop, l1]
      cases hb : collidesChildren q false nd.children stack with
      | mk b st =>
        rw [hb] at c1 c2
        cases b with
        | true =>
          refine ⟨true, rfl, ?_⟩
          simp only [true_iff]
          exact ⟨nd, by simp, hh.1 (c1 rfl)⟩
        | false =>
          obtain ⟨push, e, p1, p2, p3⟩ := c2 rfl
          simp only at e
          subst e
          have hiff : (∃ x ∈ push ++ stack, hits ops q x ≠ []) ↔ ∃ x ∈ nd :: stack, hits ops q x ≠ [] := by
            rw [List.exists_mem_cons_iff, ← hh]
            constructor
            · rintro ⟨x, hx, hx'⟩
              rcases List.mem_append.1 hx with hx | hx
              · exact Or.inl ⟨x, p1 x hx, hx'⟩
              · exact Or.inr ⟨x, hx, hx'⟩
            · rintro (⟨x, hx, hx'⟩ | ⟨x, hx, hx'⟩)
              · exact ⟨x, List.mem_append.2 (Or.inl (p3 x hx hx')), hx'⟩
              · exact ⟨x, List.mem_append.2 (Or.inr hx), hx'⟩
          rw [← hiff]
          have hall : ∀ x ∈ push ++ stack, RootWF ops M x := by
            intro x hx
            rcases List.mem_append.1 hx with hx | hx
            · exact Or.inr (l4 x (p1 x hx))
            · exact hstack x hx
          have hvall : ∀ x ∈ push ++ stack, ∀ t ∈ flatN x, (ops.mbr t).Valid := by
            intro x hx
            rcases List.mem_append.1 hx with hx | hx
            · exact hvc x (p1 x hx)
            · exact hvs x hx
          have hsum : ((push ++ stack).map cntN).sum ≤ fuel := by
            rw [List.map_append, List.sum_append]; omega
          cases hs : push ++ stack with
          | nil => exact ⟨false, rfl, by simp⟩
          | cons x xs =>
            rw [hs] at hall hvall hsum
            exact ih x xs hall hvall hsum

theorem collides_spec {ops : ItemOps T B} {t : Tree T B} (hw : TreeWF ops t) (hv : ∀ x ∈ contents t, (ops.mbr x).Valid) (q : Box B)
    (fuel : Nat) (hf : cntN t.data ≤ fuel) :
    ∃ b, collides t q fuel = .ok b ∧ (b = true ↔ ∃ x ∈ contents t, q.intersects (ops.mbr x) = true) := by
  have hh : (∃ x ∈ contents t, q.intersects (ops.mbr x) = true) ↔ hits ops q t.data ≠ [] := by
    rw [hits, ne_eq, List.filter_eq_nil_iff]; push Not; rfl
  rw [hh]
  unfold collides
  by_cases hq : q.intersects t.data.bbox = true
  · obtain ⟨b, e, hb⟩ := collidesLoop_spec (ops := ops) (M := t.maxE) (q := q) fuel t.data [] (by simpa using hw.root)
      (by simpa [contents, flatN] using hv) (by simpa using hf)
    exact ⟨b, by simp only [hq, Bool.not_true, Bool.false_eq_true, if_false, e], by simpa using hb⟩
  · have hq' : q.intersects t.data.bbox = false := by simpa using hq
    exact ⟨false, by simp [hq'], by simpa using hits_eq_nil hw.root hq'⟩

end Hdb
end Verif
