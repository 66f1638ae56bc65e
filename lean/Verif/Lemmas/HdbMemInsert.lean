import Verif.Lemmas.HdbMem
import Verif.Lemmas.HdbInsert

/-! Insertion through pointers is insertion into the tree of values. -/

set_option linter.unusedSectionVars false

namespace Verif.Hdb.Mem

variable {T B : Type} [LinearOrder B] [BoundedOrder B]

/-- what happens at one node of the path on the way up: split if it overflows, otherwise extend its box -/
def overflowStep (cfg : Cfg B) (H : MHeur T B) (maxE : Nat) (b : Box B) (h : Heap T B) (p : Ptr) : Res (Heap T B × Option (Cell T B)) := do
  let c ← load h p
  if c.children.len > maxE then do
    let r ← splitNode cfg H h p
    return (r.1, some r.2)
  else return (expandBox h p b, none)

/-- insertion as a recursion along the path; `some` = new sibling, not yet added to the parent -/
def insertRec (cfg : Cfg B) (H : MHeur T B) (maxE : Nat) (new : Cell T B) : (rem : Nat) → Heap T B → Ptr → Res (Heap T B × Option (Cell T B))
  | 0, h, p => do
    let h ← addChild cfg h p new
    overflowStep cfg H maxE new.bbox (expandBox h p new.bbox) p
  | rem + 1, h, p => do
    let c ← load h p
    if c.leaf then .panic else
    match H.choose new.bbox ((cells h c.children).map Cell.bbox) with
    | none => .panic
    | some i =>
      if i < c.children.len then do
        let r ← insertRec cfg H maxE new rem h ⟨c.children.arr, i⟩
        match r.2 with
        | none => return (expandBox r.1 p new.bbox, none)
        | some sib => do
          let h ← addChild cfg r.1 p sib
          overflowStep cfg H maxE new.bbox h p
      else .panic

/-- the new sibling, if any -/
def SibRep (A : Nat → List (Cell T B)) : Option (Cell T B) → Option (DbNode T B) → List Nat → Prop
  | none, none, fs => fs = []
  | some s, some n, fs => Rep A s n fs
  | _, _, _ => False

/-- what a step at `p` achieves: the cell at `p` stands for the first tree, the new sibling for the second -/
def Outcome (h : Heap T B) (p : Ptr) (F : List Nat) (res : Res (Heap T B × Option (Cell T B))) (out : DbNode T B × Option (DbNode T B)) : Prop :=
  ∃ h' r c' fp' fs, res = .ok (h', r) ∧ Upd h h' p F c' ∧ Rep h'.arrays c' out.1 fp' ∧ SibRep h'.arrays r out.2 fs ∧ Own h' (fp' ++ fs) ∧
    p.arr ∉ fp' ++ fs ∧ ∀ a ∈ fp' ++ fs, a ∈ F ∨ h.next ≤ a

theorem Outcome.after {h h1 : Heap T B} {p : Ptr} {F F' : List Nat} {c : Cell T B} {res : Res (Heap T B × Option (Cell T B))}
    {out : DbNode T B × Option (DbNode T B)} (hu : Upd h h1 p F c) (ho : Outcome h1 p F' res out) (hs : ∀ x ∈ F', x ∈ F ∨ h.next ≤ x) :
    Outcome h p F res out := by
  obtain ⟨h', r, c', fp', fs, e, u, r1, r2, o, hp, w⟩ := ho
  refine ⟨h', r, c', fp', fs, e, hu.trans u hs, r1, r2, o, hp, fun a ha => ?_⟩
  rcases w a ha with w | w
  · exact hs a w
  · exact Or.inr (Nat.le_trans hu.frame.next w)

theorem Kids.length_cells {h : Heap T B} {s : Slice} {l : List (Kid T B)} (hk : Kids h.arrays s l) : (cells h s).length = s.len := by
  rw [cells, hk.take, List.length_map, hk.len]

/-- extending the box of the node at `p` -/
theorem expandBox_spec {h : Heap T B} {p : Ptr} {c : Cell T B} {l : List (Kid T B)} (b : Box B) (hc : load h p = .ok c)
    (hk : Kids h.arrays c.children l) (hp' : p.arr ∉ c.children.arr :: foot l) :
    Upd h (expandBox h p b) p [] { c with bbox := c.bbox.expand b } ∧ Kids (expandBox h p b).arrays c.children l := by
  refine ⟨Upd.of_modify hc _, hk.frame (modify_ne _ _ _ fun e => hp' ?_) (fun a ha => modify_ne _ _ _ fun e => hp' ?_)⟩
  · rw [← e]; exact List.mem_cons_self
  · rw [← e]; exact List.mem_cons_of_mem _ ha

theorem overflowStep_spec (cfg : Cfg B) (H : MHeur T B) (hperm : ∀ bs, (H.perm bs).Perm (List.range bs.length)) (maxE : Nat)
    (hat : ∀ bs : List (Box B), bs.length = maxE + 1 → H.splitIdx bs ≤ maxE + 1) (b : Box B) {h : Heap T B} {p : Ptr} {c : Cell T B}
    {l : List (Kid T B)} (hc : load h p = .ok c) (hk : Kids h.arrays c.children l) (ho : Own h (c.children.arr :: foot l))
    (hp : p.arr < h.next) (hp' : p.arr ∉ c.children.arr :: foot l) (hit : c.item = none) (hlen : l.length ≤ maxE + 1) :
    Outcome h p (c.children.arr :: foot l) (overflowStep cfg H maxE b h p)
      (if l.length > maxE then
        ((Hdb.splitNode H.toHeur (l.map (·.2.1)) c.height c.leaf).1, some (Hdb.splitNode H.toHeur (l.map (·.2.1)) c.height c.leaf).2)
       else (.mk (l.map (·.2.1)) c.item c.height c.leaf (c.bbox.expand b), none)) := by
  unfold overflowStep
  rw [hc, Res.ok_bind]
  by_cases hov : c.children.len > maxE
  · have hl : l.length > maxE := by rw [hk.len]; exact hov
    rw [if_pos hov, if_pos hl]
    obtain ⟨h', sib, c', fa, fb, e, u, ra, rb, o, hpx, w⟩ := splitNode_spec cfg H hperm hc hk ho hp hp' hit
      (fun bs hbs => by have := hat bs (by omega); omega)
    exact ⟨h', some sib, c', fa, fb, by rw [e]; rfl, u, ra, rb, o, hpx, w⟩
  · have hl : ¬ l.length > maxE := by rw [hk.len]; exact hov
    rw [if_neg hov, if_neg hl]
    obtain ⟨u, k⟩ := expandBox_spec b hc hk hp'
    refine ⟨_, none, _, c.children.arr :: foot l, [], rfl, u.mono (by simp), Rep.of_kids k, rfl, ?_, by simpa using hp', ?_⟩
    · rw [List.append_nil]; exact ho.mono u.frame.next
    · intro a ha; exact Or.inl (by simpa using ha)

theorem kid_at {l : List (Kid T B)} {i : Nat} (hi : i < l.length) : ∃ x, l[i]? = some x ∧ x ∈ l :=
  ⟨l[i], List.getElem?_eq_getElem hi, List.getElem_mem hi⟩

/-- the arrays of the children other than `i` -/
theorem foot_split {l : List (Kid T B)} {i : Nat} {x : Kid T B} (hx : l[i]? = some x) : (foot l).Perm (x.2.2 ++ foot (l.eraseIdx i)) := by
  obtain ⟨hi, rfl⟩ := List.getElem?_eq_some_iff.1 hx
  have : l.Perm (l[i] :: l.eraseIdx i) := by
    rw [List.eraseIdx_eq_take_drop_succ]
    refine List.Perm.trans (List.Perm.of_eq ?_) List.perm_middle
    rw [List.getElem_cons_drop, List.take_append_drop]
  exact foot_perm this

theorem foot_set {l : List (Kid T B)} {i : Nat} (hi : i < l.length) (y : Kid T B) : (foot (l.set i y)).Perm (y.2.2 ++ foot (l.eraseIdx i)) := by
  have := foot_split (l := l.set i y) (i := i) (x := y) (List.getElem?_set_self hi)
  rwa [List.eraseIdx_set_eq] at this

theorem mem_set_cases {α : Type} {l : List α} {i : Nat} {y z : α} (h : z ∈ l.set i y) : z = y ∨ z ∈ l.eraseIdx i := by
  rw [List.mem_iff_getElem?] at h
  obtain ⟨j, hj⟩ := h
  by_cases e : i = j
  · subst e
    have hl : i < l.length := by
      have := (List.getElem?_eq_some_iff.1 hj).1; simpa using this
    rw [List.getElem?_set_self hl] at hj
    exact Or.inl (Option.some.inj hj).symm
  · rw [List.getElem?_set_ne e] at hj
    exact Or.inr (List.mem_eraseIdx_iff_getElem?.2 ⟨j, fun h => e h.symm, hj⟩)

/-- a change of child `i` in place, seen from its parent -/
theorem kids_of_child {h h1 : Heap T B} {s : Slice} {l : List (Kid T B)} {i : Nat} {x y : Kid T B} {G : List Nat} (hk : Kids h.arrays s l)
    (ho : Own h (s.arr :: (foot l ++ G))) (hx : l[i]? = some x) (hu : Upd h h1 ⟨s.arr, i⟩ (x.2.2 ++ G) y.1) (hy : Rep h1.arrays y.1 y.2.1 y.2.2) :
    Kids h1.arrays s (l.set i y) := by
  obtain ⟨hi, hxe⟩ := List.getElem?_eq_some_iff.1 hx
  have hpf : (foot l ++ G).Perm (foot (l.eraseIdx i) ++ (x.2.2 ++ G)) := by
    refine ((foot_split hx).append_right G).trans ?_
    rw [List.append_assoc, ← List.append_assoc (foot _)]
    refine List.Perm.trans ?_ (List.perm_append_comm.append_right G)
    rw [List.append_assoc]
  have hnd := hpf.nodup_iff.1 (List.nodup_cons.1 ho.nodup).2
  refine ⟨fun z hz => ?_, ?_, by rw [List.length_set, hk.len]⟩
  · rcases mem_set_cases hz with rfl | hz
    · exact hy
    · refine (hk.rep z (List.mem_of_mem_eraseIdx hz)).frame (fun a ha => ?_)
      have hm : a ∈ foot (l.eraseIdx i) := mem_foot.2 ⟨z, hz, ha⟩
      have hm' : a ∈ foot l ++ G := hpf.mem_iff.2 (List.mem_append_left _ hm)
      refine hu.frame.same a (ho.lt a (List.mem_cons_of_mem _ hm')) (fun hc => ?_)
      rcases List.mem_cons.1 hc with hc | hc
      · exact (List.nodup_cons.1 ho.nodup).1 (by have : a = s.arr := hc; rwa [this] at hm')
      · exact (List.disjoint_of_nodup_append hnd) hm hc
  · rw [hu.arr, List.take_set, hk.take, List.map_set]

/-- what insertion `rem` levels down needs of the nodes it can reach -/
def Ready (maxE : Nat) : Nat → DbNode T B → Prop
  | 0, n => n.item = none ∧ n.children.length ≤ maxE
  | r + 1, n => n.item = none ∧ n.children.length ≤ maxE ∧ ∀ c ∈ n.children, Ready maxE r c

theorem WF.ready {ops : ItemOps T B} {maxE : Nat} : ∀ (r hgt : Nat) (n : DbNode T B), r ≤ hgt → WF ops maxE (hgt + 1) n → Ready maxE r n
  | 0, _, _, _, hw => ⟨hw.1, hw.2.2.2.2.1⟩
  | r + 1, hgt, n, hr, hw => ⟨hw.1, hw.2.2.2.2.1, fun c hc => by
      have hcw := hw.2.2.2.2.2.2 c hc
      have hh : hgt = hgt - 1 + 1 := by omega
      rw [hh] at hcw
      exact WF.ready r (hgt - 1) c (by omega) hcw⟩

theorem insertRec_spec (cfg : Cfg B) (H : MHeur T B) (hperm : ∀ bs, (H.perm bs).Perm (List.range bs.length)) (maxE : Nat)
    (hat : ∀ bs : List (Box B), bs.length = maxE + 1 → H.splitIdx bs ≤ maxE + 1) (new : Kid T B) :
    ∀ (rem : Nat) (h : Heap T B) (p : Ptr) (c : Cell T B) (n : DbNode T B) (fp : List Nat), load h p = .ok c → Rep h.arrays c n fp →
      Rep h.arrays new.1 new.2.1 new.2.2 → Own h (fp ++ new.2.2) → p.arr < h.next → p.arr ∉ fp ++ new.2.2 → Ready maxE rem n →
      ∀ out, Hdb.insertAt H.toHeur maxE new.2.1 rem n = .ok out →
      Outcome h p (fp ++ new.2.2) (insertRec cfg H maxE new.1 rem h p) out := by
  intro rem
  induction rem with
  | zero =>
    intro h p c n fp hc hr hnew ho hp hp' hw out hout
    obtain ⟨l, hk, rfl, rfl⟩ := hr.inv
    have hw' := hw
    simp only [Ready, DbNode.item_mk, DbNode.children_mk, List.length_map] at hw'
    rw [List.cons_append] at ho hp'
    obtain ⟨h1, s1, e1, u1, k1, o1, p1, a1⟩ := addChild_spec cfg hc hk hnew ho hp hp'
    have hc1 := u1.load_eq hc
    obtain ⟨u2, k2⟩ := expandBox_spec new.1.bbox hc1 k1 p1
    have hc2 := u2.load_eq hc1
    have hst := overflowStep_spec cfg H hperm maxE hat new.1.bbox hc2 k2 (o1.mono u2.frame.next)
      (Nat.lt_of_lt_of_le hp (Nat.le_trans u1.frame.next u2.frame.next)) p1 hw'.1 (by simp; omega)
    have u12 : Upd h (expandBox h1 p new.1.bbox) p (c.children.arr :: (foot l ++ new.2.2)) _ := (u1.mono (by simp)).trans u2 (by simp)
    have := hst.after u12 (fun x hx => by
      rcases List.mem_cons.1 hx with rfl | hx
      · rcases a1 with a1 | a1
        · exact Or.inl (by simp [a1])
        · exact Or.inr a1
      · exact Or.inl (List.mem_cons_of_mem _ (by simpa using hx)))
    rw [insertRec, e1, Res.ok_bind, List.cons_append]
    convert this using 1
    simp only [Hdb.insertAt] at hout
    have hb : new.2.1.bbox = new.1.bbox := hnew.bbox
    simp only [List.length_append, List.length_map, List.length_cons, List.length_nil, List.map_append, List.map_cons, List.map_nil, hb] at hout ⊢
    split_ifs at hout ⊢ with hif
    · exact (Res.ok.inj hout).symm
    · rw [← Res.ok.inj hout, Box.expand_assoc, Box.expand_self]
  | succ rem ih =>
    intro h p c n fp hc hr hnew ho hp hp' hw out hout
    obtain ⟨l, hk, rfl, rfl⟩ := hr.inv
    have hw' := hw
    simp only [Ready, DbNode.item_mk, DbNode.children_mk, List.length_map] at hw'
    rw [List.cons_append] at ho hp'
    have hb : new.2.1.bbox = new.1.bbox := hnew.bbox
    simp only [Hdb.insertAt] at hout
    split_ifs at hout with hlf
    rw [insertRec, hc, Res.ok_bind, if_neg hlf]
    rw [hk.boxes]
    have hch : H.toHeur.choose = H.choose := rfl
    rw [hch, hb] at hout
    cases hco : H.choose new.1.bbox ((l.map (·.2.1)).map DbNode.bbox) with
    | none => rw [hco] at hout; cases hout
    | some i =>
      simp only [hco, List.getElem?_map] at hout ⊢
      cases hli : l[i]? with
      | none => simp [hli] at hout
      | some x =>
        simp only [hli, Option.map_some] at hout
        obtain ⟨hi, hxe⟩ := List.getElem?_eq_some_iff.1 hli
        have hi' : i < c.children.len := by rw [← hk.len]; exact hi
        rw [if_pos hi']
        have hxl : x ∈ l := List.mem_of_getElem? hli
        obtain ⟨o0, ho0, hout⟩ := Res.bind_eq_ok.1 hout
        have hcx : load h ⟨c.children.arr, i⟩ = .ok x.1 := load_eq.2 (by rw [hk.get hi', hli]; rfl)
        have hsplit := foot_split hli
        have hpf : (foot l ++ new.2.2).Perm ((x.2.2 ++ new.2.2) ++ foot (l.eraseIdx i)) := by
          refine (hsplit.append_right _).trans ?_
          rw [List.append_assoc, List.append_assoc]
          exact List.perm_append_comm.append_left _
        have hxo : Own h (x.2.2 ++ new.2.2) := (ho.of_perm (hpf.cons _)).of_sublist ((List.sublist_append_left _ _).trans (List.sublist_cons_self _ _))
        have hnc := List.nodup_cons.1 ho.nodup
        have hxw : Ready maxE rem x.2.1 := hw'.2.2 _ (List.mem_map.2 ⟨x, hxl, rfl⟩)
        obtain ⟨h1, r, c1, f1, fs, e1, u1, r1, s1, o1, p1, w1⟩ := ih h ⟨c.children.arr, i⟩ x.1 x.2.1 x.2.2 hcx (hk.rep x hxl) hnew hxo
          (ho.lt _ List.mem_cons_self) (fun hm => hnc.1 (hpf.mem_iff.2 (List.mem_append_left _ hm))) hxw o0 ho0
        rw [e1, Res.ok_bind]
        have k1 : Kids h1.arrays c.children (l.set i (c1, o0.1, f1)) := kids_of_child hk ho hli u1 r1
        have hpne : p.arr ∉ c.children.arr :: (x.2.2 ++ new.2.2) := fun hm => hp' (by
          rcases List.mem_cons.1 hm with hm | hm
          · rw [hm]; exact List.mem_cons_self
          · exact List.mem_cons_of_mem _ (hpf.mem_iff.2 (List.mem_append_left _ hm)))
        have hc1 : load h1 p = .ok c := by rw [load_frame u1.frame hp hpne, hc]
        have hfs := foot_set hi (c1, o0.1, f1)
        -- everything below `p` is still owned
        have hpm : (c.children.arr :: (foot (l.set i (c1, o0.1, f1)) ++ fs)).Perm ((f1 ++ fs) ++ c.children.arr :: foot (l.eraseIdx i)) := by
          refine ((hfs.append_right fs).cons _).trans ?_
          refine List.Perm.trans ?_ List.perm_middle.symm
          refine List.Perm.cons _ ?_
          simp only [List.append_assoc]
          exact List.perm_append_comm.append_left _
        have hrest : Own h (c.children.arr :: foot (l.eraseIdx i)) :=
          (ho.of_perm (hpf.cons _)).of_sublist (List.Sublist.cons_cons _ (List.sublist_append_right _ _))
        have hdis : ∀ a ∈ f1 ++ fs, a ∉ c.children.arr :: foot (l.eraseIdx i) := by
          intro a ha hm
          rcases List.mem_cons.1 hm with hm | hm
          · exact p1 (by show c.children.arr ∈ _; rw [← hm]; exact ha)
          · rcases w1 a ha with w | w
            · exact (List.disjoint_of_nodup_append (hpf.nodup_iff.1 hnc.2)) w hm
            · have := hrest.lt a (List.mem_cons_of_mem _ hm); omega
        have hown : Own h1 (c.children.arr :: (foot (l.set i (c1, o0.1, f1)) ++ fs)) := by
          refine Own.of_perm ⟨?_, ?_, ?_⟩ hpm.symm
          · exact List.nodup_append.2 ⟨o1.nodup, hrest.nodup, fun a ha b hb e => hdis a ha (e ▸ hb)⟩
          · intro a ha
            rcases List.mem_append.1 ha with ha | ha
            · exact o1.lt a ha
            · exact Nat.lt_of_lt_of_le (hrest.lt a ha) u1.frame.next
          · intro a ha
            rcases List.mem_append.1 ha with ha | ha
            · exact o1.gt a ha
            · exact hrest.gt a ha
        have hwith : ∀ a ∈ c.children.arr :: (foot (l.set i (c1, o0.1, f1)) ++ fs), a ∈ c.children.arr :: (foot l ++ new.2.2) ∨ h.next ≤ a := by
          intro a ha
          rcases List.mem_append.1 (hpm.mem_iff.1 ha) with ha | ha
          · rcases w1 a ha with w | w
            · exact Or.inl (List.mem_cons_of_mem _ (hpf.mem_iff.2 (List.mem_append_left _ w)))
            · exact Or.inr w
          · rcases List.mem_cons.1 ha with rfl | ha
            · exact Or.inl List.mem_cons_self
            · exact Or.inl (List.mem_cons_of_mem _ (hpf.mem_iff.2 (List.mem_append_right _ ha)))
        have hp1 : p.arr ∉ c.children.arr :: (foot (l.set i (c1, o0.1, f1)) ++ fs) := by
          intro hm
          rcases hwith _ hm with w | w
          · exact hp' w
          · omega
        have hfr : Frame h h1 (c.children.arr :: (foot l ++ new.2.2)) := u1.frame.mono (fun a ha => by
          rcases List.mem_cons.1 ha with rfl | ha
          · exact List.mem_cons_self
          · exact List.mem_cons_of_mem _ (hpf.mem_iff.2 (List.mem_append_left _ ha)))
        have hp1n : p.arr < h1.next := Nat.lt_of_lt_of_le hp u1.frame.next
        -- a change at `p` after the change below
        have hafter : ∀ {h2 : Heap T B} {F' : List Nat} {d : Cell T B}, Upd h1 h2 p F' d →
            (∀ a ∈ F', a ∈ c.children.arr :: (foot (l.set i (c1, o0.1, f1)) ++ fs)) → Upd h h2 p (c.children.arr :: (foot l ++ new.2.2)) d :=
          fun hu hF => hfr.upd hp hp' hu (fun a ha => hwith a (hF a ha))
        rcases o0 with ⟨n1, sib?⟩
        have hset : (l.set i (c1, n1, f1)).map (·.2.1) = (l.map (·.2.1)).set i n1 := by rw [List.map_set]
        cases r with
        | none =>
          cases sib? with
          | some s => exact absurd s1 (by simp [SibRep])
          | none =>
            have hfe : fs = [] := s1
            subst hfe
            simp only [List.append_nil] at hown hp1 hafter hwith
            simp only [Res.pure_eq] at hout ⊢
            obtain ⟨u2, k2⟩ := expandBox_spec new.1.bbox hc1 k1 hp1
            refine ⟨_, none, _, c.children.arr :: foot (l.set i (c1, n1, f1)), [], rfl, hafter u2 (by simp), ?_, ?_, ?_, ?_, ?_⟩
            · rw [← Res.ok.inj hout]
              have := Rep.of_kids (c := { c with bbox := c.bbox.expand new.1.bbox }) k2
              rw [hset] at this
              exact this
            · rw [← Res.ok.inj hout]; rfl
            · rw [List.append_nil]; exact hown.mono u2.frame.next
            · rw [List.append_nil]; exact hp1
            · rw [List.append_nil]; exact hwith
        | some sib =>
          cases sib? with
          | none => exact absurd s1 (by simp [SibRep])
          | some s =>
            have hs1 : Rep h1.arrays sib s fs := s1
            simp only at hout ⊢
            obtain ⟨h2, s2, e2, u2, k2, o2, p2, a2⟩ := addChild_spec cfg (x := (sib, s, fs)) hc1 k1 hs1 hown hp1n hp1
            rw [e2, Res.ok_bind]
            have hc2 := u2.load_eq hc1
            have hst := overflowStep_spec cfg H hperm maxE hat new.1.bbox hc2 k2 o2 (Nat.lt_of_lt_of_le hp1n u2.frame.next) p2 hw'.1 (by simp; omega)
            have u02 := hafter u2 (by simp)
            have := hst.after u02 (fun a ha => by
              rcases List.mem_cons.1 ha with rfl | ha
              · rcases a2 with a2 | a2
                · exact Or.inl (by show s2.arr ∈ _; rw [a2]; exact List.mem_cons_self)
                · exact Or.inr (Nat.le_trans u1.frame.next a2)
              · exact hwith a (List.mem_cons_of_mem _ (by simpa using ha)))
            rw [List.cons_append]
            convert this using 1
            simp only [List.length_append, List.length_set, List.length_map, List.length_cons, List.length_nil, List.map_append, List.map_cons, List.map_nil, hset] at hout ⊢
            split_ifs at hout ⊢ with hif
            · exact (Res.ok.inj hout).symm
            · exact (Res.ok.inj hout).symm

/-! ### The loops over the path -/

/-- hdb/insert.go:46-49 the two loops after the entry was added -/
def up (cfg : Cfg B) (H : MHeur T B) (maxE : Nat) (b : Box B) (path : List Ptr) (h : Heap T B) (lv : Nat) : Res (Heap T B) := do
  let r ← splitOnOverflow cfg H maxE path h lv
  adjustParentBBoxes b path r.1 r.2

/-- what is left to do above `p`, which lies below the nodes `pre` -/
def finish (cfg : Cfg B) (H : MHeur T B) (maxE : Nat) (b : Box B) (p : Ptr) (pre : List Ptr) (r : Heap T B × Option (Cell T B)) : Res (Heap T B) :=
  match r.2 with
  | none => adjustParentBBoxes b pre r.1 pre.length
  | some sib => match pre.getLast? with
    | none => do
      let nd ← load r.1 p
      splitRoot r.1 nd sib
    | some q => do
      let h ← addChild cfg r.1 q sib
      up cfg H maxE b pre h pre.length

theorem adjust_append (b : Box B) (pre post : List Ptr) : ∀ (lv : Nat) (h : Heap T B), lv ≤ pre.length →
    adjustParentBBoxes b (pre ++ post) h lv = adjustParentBBoxes b pre h lv := by
  intro lv
  induction lv with
  | zero => intro h _; rfl
  | succ lv ih =>
    intro h hl
    rw [adjustParentBBoxes, adjustParentBBoxes, List.getElem?_append_left (by omega)]
    cases pre[lv]? with
    | none => rfl
    | some p => exact ih _ (by omega)

theorem split_append (cfg : Cfg B) (H : MHeur T B) (pre post : List Ptr) (h : Heap T B) {lv : Nat} (hl : lv < pre.length) :
    split cfg H h (pre ++ post) lv = split cfg H h pre lv := by
  unfold split
  rw [List.getElem?_append_left hl, List.getElem?_append_left (by omega)]

theorem overflow_append (cfg : Cfg B) (H : MHeur T B) (maxE : Nat) (pre post : List Ptr) : ∀ (lv : Nat) (h : Heap T B), lv ≤ pre.length →
    splitOnOverflow cfg H maxE (pre ++ post) h lv = splitOnOverflow cfg H maxE pre h lv := by
  intro lv
  induction lv with
  | zero => intro h _; rfl
  | succ lv ih =>
    intro h hl
    rw [splitOnOverflow, splitOnOverflow, List.getElem?_append_left (by omega), split_append cfg H pre post h (by omega)]
    have : ∀ h', splitOnOverflow cfg H maxE (pre ++ post) h' lv = splitOnOverflow cfg H maxE pre h' lv := fun h' => ih h' (by omega)
    simp only [this]

theorem overflow_lv (cfg : Cfg B) (H : MHeur T B) (maxE : Nat) (path : List Ptr) : ∀ (lv : Nat) (h : Heap T B) r,
    splitOnOverflow cfg H maxE path h lv = .ok r → r.2 ≤ lv := by
  intro lv
  induction lv with
  | zero => intro h r e; simp only [splitOnOverflow, Res.ok.injEq] at e; subst e; exact Nat.le_refl _
  | succ lv ih =>
    intro h r e
    rw [splitOnOverflow] at e
    obtain ⟨p, _, e⟩ := Res.bind_eq_ok.1 e
    obtain ⟨c, _, e⟩ := Res.bind_eq_ok.1 e
    split_ifs at e
    · obtain ⟨h', _, e⟩ := Res.bind_eq_ok.1 e
      exact Nat.le_trans (ih _ _ e) (Nat.le_succ _)
    · cases e; exact Nat.le_refl _

theorem up_append (cfg : Cfg B) (H : MHeur T B) (maxE : Nat) (b : Box B) (pre post : List Ptr) (lv : Nat) (h : Heap T B) (hl : lv ≤ pre.length) :
    up cfg H maxE b (pre ++ post) h lv = up cfg H maxE b pre h lv := by
  unfold up
  rw [overflow_append cfg H maxE pre post lv h hl]
  cases e : splitOnOverflow cfg H maxE pre h lv with
  | ok r => exact adjust_append b pre post r.2 r.1 (Nat.le_trans (overflow_lv _ _ _ _ _ _ _ e) hl)
  | panic => rfl
  | timeout => rfl

/-- one round of the loops, at the last node of the path -/
theorem up_last (cfg : Cfg B) (H : MHeur T B) (maxE : Nat) (b : Box B) (pre : List Ptr) (p : Ptr) (h : Heap T B) :
    up cfg H maxE b (pre ++ [p]) h (pre.length + 1) = (overflowStep cfg H maxE b h p >>= finish cfg H maxE b p pre) := by
  unfold overflowStep
  rw [up, splitOnOverflow]
  simp only [List.getElem?_append_right (Nat.le_refl _), Nat.sub_self, List.getElem?_cons_zero, Res.ofOption_some, Res.ok_bind]
  cases hc : load h p with
  | panic => rfl
  | timeout => rfl
  | ok c =>
    simp only [Res.ok_bind]
    by_cases hov : c.children.len > maxE
    · simp only [if_pos hov]
      rw [split]
      simp only [List.getElem?_append_right (Nat.le_refl _), Nat.sub_self, List.getElem?_cons_zero, Res.ofOption_some, Res.ok_bind]
      cases hs : splitNode cfg H h p with
      | panic => rfl
      | timeout => rfl
      | ok r =>
        obtain ⟨h1, sib⟩ := r
        simp only [Res.ok_bind, Res.pure_eq]
        rcases List.eq_nil_or_concat pre with rfl | ⟨pre', q, rfl⟩
        · simp only [List.length_nil, Nat.lt_irrefl, if_false, finish, List.getLast?_nil]
          cases load h1 p with
          | panic => rfl
          | timeout => rfl
          | ok nd =>
            simp only [Res.ok_bind]
            cases splitRoot h1 nd sib <;> rfl
        · simp only [List.concat_eq_append, List.length_append, List.length_cons, List.length_nil, finish, List.getLast?_append, List.getLast?_singleton]
          rw [if_pos (by omega)]
          have : ((pre' ++ [q]) ++ [p])[pre'.length + (0 + 1) - 1]? = some q := by simp
          rw [this]
          simp only [Res.ofOption_some, Res.ok_bind, Option.some_or]
          cases addChild cfg h1 q sib with
          | panic => rfl
          | timeout => rfl
          | ok h2 => exact up_append cfg H maxE b (pre' ++ [q]) [p] _ h2 (by simp)
    · simp only [if_neg hov, Res.ok_bind, Res.pure_eq, finish]
      rw [adjustParentBBoxes]
      simp only [List.getElem?_append_right (Nat.le_refl _), Nat.sub_self, List.getElem?_cons_zero, Res.ofOption_some, Res.ok_bind]
      exact adjust_append b pre [p] _ _ (Nat.le_refl _)

/-- the loops over the stored path do what the recursion does -/
theorem insert_loops (cfg : Cfg B) (H : MHeur T B) (maxE : Nat) (new : Cell T B) (h : Heap T B) : ∀ (rem : Nat) (p : Ptr) (pre : List Ptr) r,
    insertRec cfg H maxE new rem h p = .ok r →
    ∃ nd post, chooseSubtree H h new.bbox rem p pre = .ok (nd, pre ++ p :: post) ∧ post.length = rem ∧
      (addChild cfg h nd new >>= fun h1 => up cfg H maxE new.bbox (pre ++ p :: post) (expandBox h1 nd new.bbox) (pre.length + rem + 1)) =
        finish cfg H maxE new.bbox p pre r := by
  intro rem
  induction rem with
  | zero =>
    intro p pre r e
    refine ⟨p, [], by simp [chooseSubtree], rfl, ?_⟩
    rw [insertRec] at e
    obtain ⟨h1, e1, e2⟩ := Res.bind_eq_ok.1 e
    rw [e1, Res.ok_bind, Nat.add_zero, up_last, e2, Res.ok_bind]
  | succ rem ih =>
    intro p pre r e
    rw [insertRec] at e
    obtain ⟨c, hc, e⟩ := Res.bind_eq_ok.1 e
    split_ifs at e with hlf
    cases hco : H.choose new.bbox ((cells h c.children).map Cell.bbox) with
    | none => rw [hco] at e; cases e
    | some i =>
      simp only [hco] at e
      split_ifs at e with hi
      obtain ⟨r0, e0, e⟩ := Res.bind_eq_ok.1 e
      obtain ⟨nd, post, e1, e2, e3⟩ := ih ⟨c.children.arr, i⟩ (pre ++ [p]) r0 e0
      refine ⟨nd, ⟨c.children.arr, i⟩ :: post, ?_, by simp [e2], ?_⟩
      · rw [chooseSubtree, hc, Res.ok_bind, if_neg hlf]
        simp only [hco, if_pos hi, e1]
        simp
      · have hpre : pre ++ p :: ⟨c.children.arr, i⟩ :: post = (pre ++ [p]) ++ ⟨c.children.arr, i⟩ :: post := by simp
        have hlen : pre.length + (rem + 1) + 1 = (pre ++ [p]).length + rem + 1 := by simp; omega
        rw [hpre, hlen, e3]
        unfold finish
        cases hr : r0.2 with
        | none =>
          simp only [hr, Res.pure_eq, Res.ok.injEq] at e
          subst e
          simp only [List.length_append, List.length_cons, List.length_nil]
          rw [adjustParentBBoxes]
          simp only [List.getElem?_append_right (Nat.le_refl _), Nat.sub_self, List.getElem?_cons_zero, Res.ofOption_some, Res.ok_bind]
          exact adjust_append _ pre [p] _ _ (Nat.le_refl _)
        | some sib =>
          simp only [hr] at e
          obtain ⟨h2, e4, e5⟩ := Res.bind_eq_ok.1 e
          simp only [List.getLast?_append, List.getLast?_singleton, Option.some_or, e4, Res.ok_bind, List.length_append, List.length_cons, List.length_nil]
          rw [Nat.zero_add, up_last, e5, Res.ok_bind]
          rfl

/-! ### The whole tree -/

/-- the memory holds the tree `n` at `tree.data` -/
structure Store (h : Heap T B) (n : DbNode T B) (fp : List Nat) : Prop where
  cell : ∃ c, h.arrays 0 = [c] ∧ Rep h.arrays c n fp
  own : Own h fp
  next : 1 < h.next

theorem root_fresh {h : Heap T B} {f : List Nat} (ho : Own h f) : root.arr ∉ f := fun hm => by
  have := ho.gt _ hm; simp [root] at this

theorem splitRoot_spec' {h : Heap T B} {a b : Kid T B} (ha : Rep h.arrays a.1 a.2.1 a.2.2) (hb : Rep h.arrays b.1 b.2.1 b.2.2)
    (ho : Own h (a.2.2 ++ b.2.2)) (hn : 1 < h.next) :
    ∃ h' fp, splitRoot h a.1 b.1 = .ok h' ∧ Store h' (Hdb.splitRoot a.2.1 b.2.1) fp := by
  let h1 := (alloc h [a.1, b.1]).1
  let rc : Cell T B := { children := ⟨h.next, 2⟩, item := none, height := a.1.height + 1, leaf := false, bbox := Box.empty }
  let h2 := setArr h1 0 [rc]
  have hl : load h2 root = .ok rc := load_eq.2 (by simp [h2, root])
  obtain ⟨h3, e3, u3⟩ := calcBBox_spec hl
  have hsame : ∀ x, x ≠ 0 → x ≠ h.next → h2.arrays x = h.arrays x := fun x h0 hx => by
    rw [setArr_ne _ _ h0, alloc_ne _ _ hx]
  have hk2 : Kids h2.arrays rc.children [a, b] := by
    refine ⟨?_, ?_, rfl⟩
    · intro x hx
      simp only [List.mem_cons, List.not_mem_nil, or_false] at hx
      rcases hx with rfl | rfl
      · exact ha.frame (fun y hy => hsame y (by have := ho.gt y (List.mem_append_left _ hy); omega) (by have := ho.lt y (List.mem_append_left _ hy); omega))
      · exact hb.frame (fun y hy => hsame y (by have := ho.gt y (List.mem_append_right _ hy); omega) (by have := ho.lt y (List.mem_append_right _ hy); omega))
    · show (h2.arrays h.next).take 2 = _
      rw [setArr_ne _ _ (by omega)]
      simp [h1]
  have hnx : h2.next = h.next + 1 := rfl
  have ho2 : Own h2 (h.next :: foot [a, b]) := by
    simp only [foot_cons, foot_nil, List.append_nil]
    refine ⟨List.nodup_cons.2 ⟨fun hm => by have := ho.lt _ hm; omega, ho.nodup⟩, ?_, ?_⟩
    · intro x hx
      rcases List.mem_cons.1 hx with rfl | hx
      · omega
      · have := ho.lt x hx; omega
    · intro x hx
      rcases List.mem_cons.1 hx with rfl | hx
      · exact hn
      · exact ho.gt x hx
  have hk3 : Kids h3.arrays rc.children [a, b] := hk2.frame
    (u3.frame.same _ (by show h.next < _; omega) (by simp only [root, List.mem_singleton, rc]; omega))
    (fun x hx => u3.frame.same x (ho2.lt x (List.mem_cons_of_mem _ hx)) (by
      have := ho2.gt x (List.mem_cons_of_mem _ hx)
      simp only [root, List.mem_singleton]; omega))
  refine ⟨h3, h.next :: foot [a, b], e3, ⟨⟨{ rc with bbox := boxOf h2 rc.children }, ?_, ?_⟩, ho2.mono u3.frame.next, Nat.lt_of_lt_of_le (by omega) u3.frame.next⟩⟩
  · have := u3.arr
    simpa [root, h2] using this
  · have := Rep.of_kids (c := { rc with bbox := boxOf h2 rc.children }) hk3
    rw [hk2.boxOf] at this ⊢
    have hh : a.2.1.height = a.1.height := ha.height
    rw [Hdb.splitRoot, hh]
    exact this

/-- hdb/insert.go:35-50 -/
theorem insertNode_mem (cfg : Cfg B) (H : MHeur T B) (hperm : ∀ bs, (H.perm bs).Perm (List.range bs.length)) (maxE : Nat)
    (hat : ∀ bs : List (Box B), bs.length = maxE + 1 → H.splitIdx bs ≤ maxE + 1) {new : Kid T B} {level : Nat} {h : Heap T B} {n n' : DbNode T B}
    {fp : List Nat} (hs : Store h n fp) (hnew : Rep h.arrays new.1 new.2.1 new.2.2) (ho : Own h (fp ++ new.2.2)) (hr : Ready maxE level n)
    (hout : Hdb.insertNode H.toHeur maxE n new.2.1 level = .ok n') :
    ∃ h' fp', insertNode cfg H maxE h new.1 level = .ok h' ∧ Store h' n' fp' := by
  obtain ⟨c, hc, hrep⟩ := hs.cell
  have hl : load h root = .ok c := load_eq.2 (by simp [root, hc])
  obtain ⟨o, ho1, ho2⟩ := Res.bind_eq_ok.1 hout
  obtain ⟨h', r, c', fp', fs, e, u, r1, s1, o1, p1, w1⟩ := insertRec_spec cfg H hperm maxE hat new level h root c n fp hl hrep hnew ho
    (by have := hs.next; simp [root]; omega) (root_fresh ho) hr o ho1
  obtain ⟨nd, post, e1, e2, e3⟩ := insert_loops cfg H maxE new.1 h level root [] _ e
  have hmain : insertNode cfg H maxE h new.1 level = finish cfg H maxE new.1.bbox root [] (h', r) := by
    rw [← e3, insertNode, e1]
    simp only [Res.ok_bind, List.nil_append, List.length_nil, Nat.zero_add]
    rfl
  rw [hmain]
  have hl' := u.load_eq hl
  have hn' : 1 < h'.next := Nat.lt_of_lt_of_le hs.next u.frame.next
  have h0' : h'.arrays 0 = [c'] := by have := u.arr; simpa [root, hc] using this
  rcases o with ⟨n1, sib?⟩
  cases r with
  | none =>
    cases sib? with
    | some s => exact absurd s1 (by simp [SibRep])
    | none =>
      have hfe : fs = [] := s1
      subst hfe
      have hn1 : n1 = n' := Res.ok.inj ho2
      subst hn1
      exact ⟨h', fp', rfl, ⟨c', h0', r1⟩, by simpa using o1, hn'⟩
  | some sib =>
    cases sib? with
    | none => exact absurd s1 (by simp [SibRep])
    | some s =>
      have hn1 : Hdb.splitRoot n1 s = n' := Res.ok.inj ho2
      subst hn1
      obtain ⟨h2, f2, e4, st⟩ := splitRoot_spec' (a := (c', n1, fp')) (b := (sib, s, fs)) r1 s1 o1 hn'
      refine ⟨h2, f2, ?_, st⟩
      simp only [finish, List.getLast?_nil, hl', Res.ok_bind]
      exact e4

end Verif.Hdb.Mem
