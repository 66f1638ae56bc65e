import Verif.Lemmas.HdbMemLoad
import Verif.Lemmas.HdbRemove

/-! Removal in memory is removal from the tree of values. -/

set_option linter.unusedSectionVars false

namespace Verif.Hdb.Mem

variable {T B : Type} [LinearOrder B] [BoundedOrder B]

theorem map_eraseIdx' {α β : Type} (f : α → β) : ∀ (l : List α) (i : Nat), (l.eraseIdx i).map f = (l.map f).eraseIdx i
  | [], _ => rfl
  | _ :: _, 0 => rfl
  | a :: l, i + 1 => by simp [map_eraseIdx' f l i]

theorem foot_erase_sublist : ∀ (l : List (Kid T B)) (i : Nat), (foot (l.eraseIdx i)).Sublist (foot l)
  | [], _ => List.Sublist.refl _
  | _ :: _, 0 => List.sublist_append_right _ _
  | _ :: l, i + 1 => List.Sublist.append_left (foot_erase_sublist l i) _

/-- hdb/remove.go:48-55 -/
theorem removeNode_spec (cfg : Cfg B) {h : Heap T B} {s : Slice} {l : List (Kid T B)} (hk : Kids h.arrays s l) (ho : Own h (s.arr :: foot l))
    {i : Nat} (hi : i < s.len) :
    ∃ h', removeNode cfg h s i = (h', ⟨s.arr, s.len - 1⟩) ∧ Frame h h' [s.arr] ∧ Kids h'.arrays ⟨s.arr, s.len - 1⟩ (l.eraseIdx i) := by
  have hle := hk.le
  have hlc : (cells h s).length = s.len := hk.length_cells
  have hneed : i + ((cells h s).drop (i + 1)).length = s.len - 1 := by rw [List.length_drop, hlc]; omega
  have hn := List.nodup_cons.1 ho.nodup
  unfold removeNode
  rw [if_neg (by omega)]
  simp only [append, hneed]
  rw [if_pos (by omega)]
  have hfr : Frame h (modify (setArr h s.arr ((h.arrays s.arr).take i ++ (cells h s).drop (i + 1) ++ (h.arrays s.arr).drop (s.len - 1)))
      ⟨s.arr, s.len - 1⟩ (fun _ => zeroCell cfg)) [s.arr] := (Frame.setArr _ _ _).trans (Frame.modify _ _ _) (fun x hx => Or.inl hx)
  refine ⟨_, rfl, hfr, ?_, ?_, ?_⟩
  · intro x hx
    have hxl := List.mem_of_mem_eraseIdx hx
    refine (hk.rep x hxl).frame (fun a ha => ?_)
    have ham : a ∈ foot l := mem_foot.2 ⟨x, hxl, ha⟩
    exact hfr.same a (ho.lt a (List.mem_cons_of_mem _ ham)) (by intro e; rw [List.mem_singleton] at e; exact hn.1 (e ▸ ham))
  · have e : (modify (setArr h s.arr ((h.arrays s.arr).take i ++ (cells h s).drop (i + 1) ++ (h.arrays s.arr).drop (s.len - 1)))
      ⟨s.arr, s.len - 1⟩ (fun _ => zeroCell cfg)).arrays s.arr = _ := modify_same _ ⟨s.arr, s.len - 1⟩ _
    show List.take (s.len - 1) ((modify _ _ _).arrays s.arr) = _
    rw [e]
    simp only [setArr_same]
    have htk : ∀ (m : List (Cell T B)) (k : Nat) (f : Cell T B → Cell T B), List.take k (m.modify k f) = List.take k m := by
      intro m k f
      apply List.ext_getElem?
      intro j
      by_cases hj : j < k
      · simp only [List.getElem?_take, if_pos hj]
        rw [List.getElem?_modify]
        have : k ≠ j := by omega
        simp [this]
      · simp only [List.getElem?_take, if_neg hj]
    have e1 : (h.arrays s.arr).take i = (cells h s).take i := by rw [cells, List.take_take, Nat.min_eq_left (by omega)]
    rw [htk, List.take_append_of_le_length (by simp [hlc]; omega), List.take_of_length_le (by simp [hlc]; omega), e1, ← List.eraseIdx_eq_take_drop_succ,
      cells, hk.take, map_eraseIdx']
  · show _ = s.len - 1
    rw [List.length_eraseIdx, hk.len, if_pos hi]

/-- erasing child `k` of the node at `p` -/
def delete (cfg : Cfg B) (h : Heap T B) (p : Ptr) (c : Cell T B) (k : Nat) : Heap T B :=
  modify (removeNode cfg h c.children k).1 p (fun d => { d with children := (removeNode cfg h c.children k).2 })

theorem delete_spec (cfg : Cfg B) {h : Heap T B} {p : Ptr} {c : Cell T B} {l : List (Kid T B)} (hc : load h p = .ok c)
    (hk : Kids h.arrays c.children l) (ho : Own h (c.children.arr :: foot l)) (hp : p.arr < h.next) (hp' : p.arr ∉ c.children.arr :: foot l)
    {k : Nat} (hi : k < c.children.len) :
    Upd h (delete cfg h p c k) p [c.children.arr] { c with children := ⟨c.children.arr, c.children.len - 1⟩ } ∧
      Kids (delete cfg h p c k).arrays ⟨c.children.arr, c.children.len - 1⟩ (l.eraseIdx k) := by
  obtain ⟨h1, e1, f1, k1⟩ := removeNode_spec cfg hk ho hi
  have hpn : p.arr ∉ [c.children.arr] := fun hm => hp' (by simp at hm; simp [hm])
  have hl : load h1 p = .ok c := by rw [load_frame f1 hp hpn, hc]
  unfold delete
  rw [e1]
  refine ⟨f1.upd hp hpn (Upd.of_modify hl (fun d => { d with children := ⟨c.children.arr, c.children.len - 1⟩ })) (by simp), ?_⟩
  have hne : ∀ a ∈ c.children.arr :: foot l, a ≠ p.arr := fun a ha e => hp' (e ▸ ha)
  refine k1.frame (modify_ne _ _ _ (hne _ List.mem_cons_self)) (fun a ha => modify_ne _ _ _ (hne _ (List.mem_cons_of_mem _ ?_)))
  obtain ⟨x, hx, hax⟩ := mem_foot.1 ha
  exact mem_foot.2 ⟨x, List.mem_of_mem_eraseIdx hx, hax⟩

theorem indexOfPtr_self (s : Slice) {i : Nat} (hi : i < s.len) : indexOfPtr ⟨s.arr, i⟩ s = some i := by
  unfold indexOfPtr
  rw [List.find?_range_eq_some]
  refine ⟨by simp, by simpa using hi, fun j hj => ?_⟩
  simp; omega

/-- `removeAt` before the box of the node itself is recomputed -/
def removeKids : (is : List Nat) → (idx : Nat) → DbNode T B → DbNode T B
  | [], idx, .mk cs it h lf bb => .mk (cs.eraseIdx idx) it h lf bb
  | i :: is, idx, .mk cs it h lf bb =>
    match cs[i]? with
    | none => .mk cs it h lf bb
    | some c =>
      .mk (if (removeAt is idx c).children = [] then cs.eraseIdx i else cs.set i (removeAt is idx c)) it h lf bb

/-- the box recomputed -/
def rebox (n : DbNode T B) : DbNode T B :=
  .mk n.children n.item n.height n.leaf (if n.children = [] then n.bbox else Hdb.calcBBox n.children)

theorem rebox_mk {cs : List (DbNode T B)} (hcs : cs ≠ []) (it : Option T) (h : Nat) (lf : Bool) (bb : Box B) :
    rebox (.mk cs it h lf bb) = .mk cs it h lf (Hdb.calcBBox cs) := by
  unfold rebox
  rw [if_neg (by exact hcs)]; rfl

/-- from `a` the child indices lead over the listed nodes to the last one -/
def Down (h : Heap T B) : Ptr → List Nat → List Ptr → Ptr → Prop
  | a, [], qs, p => qs = [] ∧ p = a
  | a, i :: is, qs, p => ∃ c qs', load h a = .ok c ∧ i < c.children.len ∧ qs = a :: qs' ∧ Down h ⟨c.children.arr, i⟩ is qs' p

theorem removeAt_kids {h : Heap T B} : ∀ (is : List Nat) (idx : Nat) (p : Ptr) (c : Cell T B) (n : DbNode T B) (fp : List Nat) (qs : List Ptr) (q : Ptr),
    load h p = .ok c → Rep h.arrays c n fp → Down h p is qs q → removeAt is idx n = rebox (removeKids is idx n) := by
  intro is idx p c n fp qs q hc hr hd
  obtain ⟨l, hk, rfl, rfl⟩ := hr.inv
  cases is with
  | nil => rfl
  | cons i is =>
    obtain ⟨c', qs', h1, h2, _⟩ := hd
    rw [hc] at h1; cases h1
    have : ∃ x, (l.map (·.2.1))[i]? = some x := ⟨_, List.getElem?_eq_getElem (by simpa [hk.len] using h2)⟩
    obtain ⟨x, hx⟩ := this
    simp only [removeAt, removeKids, hx]
    rfl

theorem remove_path (cfg : Cfg B) (idx : Nat) (q : Ptr) (cq : Cell T B) : ∀ (is : List Nat) (h : Heap T B) (p : Ptr) (c : Cell T B) (n : DbNode T B)
    (fp : List Nat) (qs : List Ptr), load h p = .ok c → Rep h.arrays c n fp → Own h fp → p.arr < h.next → p.arr ∉ fp → Down h p is qs q →
    load h q = .ok cq → idx < cq.children.len → ∀ rest, ∃ h1 c1 fp1,
      condense cfg (delete cfg h q cq idx) (q :: (qs.reverse ++ rest)) = condense cfg h1 (p :: rest) ∧ Upd h h1 p fp c1 ∧
      Rep h1.arrays c1 (removeKids is idx n) fp1 ∧ Own h1 fp1 ∧ ∀ a ∈ fp1, a ∈ fp := by
  intro is
  induction is with
  | nil =>
    intro h p c n fp qs hc hr ho hp hp' hd hq hidx rest
    obtain ⟨rfl, rfl⟩ := hd
    have hcq : c = cq := by rw [hc] at hq; exact Res.ok.inj hq
    subst hcq
    obtain ⟨l, hk, rfl, rfl⟩ := hr.inv
    obtain ⟨u, k⟩ := delete_spec cfg hc hk ho hp hp' hidx
    have hsub : (c.children.arr :: foot (l.eraseIdx idx)).Sublist (c.children.arr :: foot l) :=
      List.Sublist.cons_cons _ (foot_erase_sublist l idx)
    refine ⟨_, _, c.children.arr :: foot (l.eraseIdx idx), rfl, u.mono (by simp), ?_, (ho.of_sublist hsub).mono u.frame.next, fun a ha => hsub.subset ha⟩
    have := Rep.of_kids (c := { c with children := ⟨c.children.arr, c.children.len - 1⟩ }) k
    rw [map_eraseIdx'] at this
    exact this
  | cons i is ih =>
    intro h p c n fp qs hc hr ho hp hp' hd hq hidx rest
    obtain ⟨c', qs', h1, hi, rfl, hd⟩ := hd
    rw [hc] at h1; cases h1
    obtain ⟨l, hk, rfl, rfl⟩ := hr.inv
    have hil : i < l.length := by rw [hk.len]; exact hi
    obtain ⟨x, hx, hxl⟩ := kid_at hil
    have hcx : load h ⟨c.children.arr, i⟩ = .ok x.1 := load_eq.2 (by rw [hk.get hi, hx]; rfl)
    have hsplit := foot_split hx
    have hnc := List.nodup_cons.1 ho.nodup
    have hxo : Own h x.2.2 := (ho.of_perm (hsplit.cons _)).of_sublist ((List.sublist_append_left _ _).trans (List.sublist_cons_self _ _))
    have hxf : ∀ a ∈ x.2.2, a ∈ foot l := fun a ha => mem_foot.2 ⟨x, hxl, ha⟩
    obtain ⟨h1, c1, f1, e1, u1, r1, o1, w1⟩ := ih h ⟨c.children.arr, i⟩ x.1 x.2.1 x.2.2 qs' hcx (hk.rep x hxl) hxo (ho.lt _ List.mem_cons_self)
      (fun hm => hnc.1 (hxf _ hm)) hd hq hidx (p :: rest)
    have hra := removeAt_kids is idx _ _ _ _ _ _ hcx (hk.rep x hxl) hd
    have hl1 : load h1 ⟨c.children.arr, i⟩ = .ok c1 := u1.load_eq hcx
    have k1 : Kids h1.arrays c.children (l.set i (c1, removeKids is idx x.2.1, f1)) := kids_of_child (G := []) (y := (c1, removeKids is idx x.2.1, f1))
      hk (by simpa using ho) hx (by simpa using u1) r1
    have hpne : p.arr ∉ c.children.arr :: x.2.2 := fun hm => hp' (by
      rcases List.mem_cons.1 hm with hm | hm
      · rw [hm]; exact List.mem_cons_self
      · exact List.mem_cons_of_mem _ (hxf _ hm))
    have hfr : Frame h h1 (c.children.arr :: foot l) := u1.frame.mono (fun a ha => by
      rcases List.mem_cons.1 ha with rfl | ha
      · exact List.mem_cons_self
      · exact List.mem_cons_of_mem _ (hxf _ ha))
    have hc1 : load h1 p = .ok c := by rw [load_frame hfr hp hp', hc]
    -- what is owned below `p` afterwards
    have hset : ∀ y : Kid T B, y.2.2 = f1 → Own h1 (c.children.arr :: foot (l.set i y)) ∧ ∀ a ∈ c.children.arr :: foot (l.set i y), a ∈ c.children.arr :: foot l := by
      intro y hy
      have hpm := foot_set hil y
      rw [hy] at hpm
      have hmem : ∀ a ∈ c.children.arr :: foot (l.set i y), a ∈ c.children.arr :: foot l := by
        intro a ha
        rcases List.mem_cons.1 ha with rfl | ha
        · exact List.mem_cons_self
        · rcases List.mem_append.1 (hpm.mem_iff.1 ha) with ha | ha
          · exact List.mem_cons_of_mem _ (hxf _ (w1 a ha))
          · exact List.mem_cons_of_mem _ (hsplit.mem_iff.2 (List.mem_append_right _ ha))
      refine ⟨⟨List.nodup_cons.2 ⟨fun hm => ?_, ?_⟩, fun a ha => Nat.lt_of_lt_of_le (ho.lt a (hmem a ha)) hfr.next, fun a ha => ho.gt a (hmem a ha)⟩, hmem⟩
      · rcases List.mem_append.1 (hpm.mem_iff.1 hm) with ha | ha
        · exact hnc.1 (hxf _ (w1 _ ha))
        · exact hnc.1 (hsplit.mem_iff.2 (List.mem_append_right _ ha))
      · refine hpm.nodup_iff.2 (List.nodup_append.2 ⟨o1.nodup, ?_, fun a ha b hb e => ?_⟩)
        · exact (List.nodup_append.1 (hsplit.nodup_iff.1 hnc.2)).2.1
        · exact List.disjoint_of_nodup_append (hsplit.nodup_iff.1 hnc.2) (w1 a ha) (e ▸ hb)
    have hrev : (p :: qs').reverse ++ rest = qs'.reverse ++ (p :: rest) := by simp
    rw [hrev, e1]
    have hlen1 : (removeKids is idx x.2.1).children.length = c1.children.len := r1.children_len
    have hchild : (removeAt is idx x.2.1).children = (removeKids is idx x.2.1).children := by rw [hra]; rfl
    have hxm : (l.map (·.2.1))[i]? = some x.2.1 := by rw [List.getElem?_map, hx]; rfl
    rw [condense]
    simp only [condenseStep, hl1, Res.ok_bind, List.head?_cons, hc1, indexOfPtr_self c.children hi]
    by_cases hz : c1.children.len = 0
    · rw [if_pos hz]
      have hz' : (removeAt is idx x.2.1).children = [] := by rw [hchild]; exact List.eq_nil_of_length_eq_zero (by omega)
      have hp1 : p.arr ∉ c.children.arr :: foot (l.set i (c1, removeKids is idx x.2.1, f1)) := fun hm => hp' ((hset _ rfl).2 _ hm)
      obtain ⟨u2, k2⟩ := delete_spec cfg hc1 k1 (hset _ rfl).1 (Nat.lt_of_lt_of_le hp hfr.next) hp1 hi
      rw [List.eraseIdx_set_eq] at k2
      have hsub : (c.children.arr :: foot (l.eraseIdx i)).Sublist (c.children.arr :: foot l) :=
        List.Sublist.cons_cons _ (foot_erase_sublist l i)
      refine ⟨_, _, c.children.arr :: foot (l.eraseIdx i), rfl, hfr.upd hp hp' u2 (by simp), ?_,
        (ho.of_sublist hsub).mono (Nat.le_trans hfr.next u2.frame.next), fun a ha => hsub.subset ha⟩
      have := Rep.of_kids (c := { c with children := ⟨c.children.arr, c.children.len - 1⟩ }) k2
      rw [map_eraseIdx'] at this
      simp only [removeKids, hxm, hz', if_true]
      exact this
    · rw [if_neg hz]
      have hz' : (removeAt is idx x.2.1).children ≠ [] := by
        rw [hchild]; intro e; rw [e] at hlen1; exact hz hlen1.symm
      obtain ⟨h2, e2, u2⟩ := calcBBox_spec hl1
      rw [e2, Res.ok_bind]
      obtain ⟨l1, kk, hn1, hf1⟩ := r1.inv
      have hpc1 : c.children.arr ∉ f1 := fun hm => hnc.1 (hxf _ (w1 _ hm))
      have hne : ∀ a ∈ f1, a ≠ c.children.arr := fun a ha e => hpc1 (e ▸ ha)
      have kk2 : Kids h2.arrays c1.children l1 := by
        have hsame : ∀ a ∈ f1, h2.arrays a = h1.arrays a := fun a ha => u2.frame.same a (o1.lt a ha) (by
          intro hm; simp only [List.mem_cons, List.not_mem_nil, or_false] at hm; exact hne a ha hm)
        rw [hf1] at hsame
        exact kk.frame (hsame _ List.mem_cons_self) (fun a ha => hsame a (List.mem_cons_of_mem _ ha))
      have r2 : Rep h2.arrays { c1 with bbox := boxOf h1 c1.children } (removeAt is idx x.2.1) f1 := by
        have := Rep.of_kids (c := { c1 with bbox := boxOf h1 c1.children }) kk2
        rw [hra, hn1, hf1]
        have hne' : (l1.map (·.2.1)) ≠ [] := by
          have := hz'; rw [hchild, hn1] at this; exact this
        rw [rebox_mk hne', ← kk.boxOf]
        exact this
      have k2 : Kids h2.arrays c.children (l.set i ({ c1 with bbox := boxOf h1 c1.children }, removeAt is idx x.2.1, f1)) :=
        kids_of_child (G := []) (y := ({ c1 with bbox := boxOf h1 c1.children }, removeAt is idx x.2.1, f1)) hk (by simpa using ho) hx
          (by simpa using u1.trans u2 (by simp)) r2
      have hfr2 : Frame h h2 (c.children.arr :: foot l) := hfr.trans u2.frame (fun a ha => by
        simp only [List.mem_cons, List.not_mem_nil, or_false] at ha
        exact Or.inl (by rw [ha]; exact List.mem_cons_self))
      have hs := hset ({ c1 with bbox := boxOf h1 c1.children }, removeAt is idx x.2.1, f1) rfl
      refine ⟨h2, c, c.children.arr :: foot (l.set i ({ c1 with bbox := boxOf h1 c1.children }, removeAt is idx x.2.1, f1)), rfl, ?_, ?_,
        hs.1.mono u2.frame.next, hs.2⟩
      · refine ⟨hfr2.mono (fun a ha => List.mem_cons_of_mem _ ha), ?_⟩
        rw [hfr2.same _ hp hp']
        have := load_eq.1 hc
        obtain ⟨hlt, he⟩ := List.getElem?_eq_some_iff.1 this
        rw [← he, List.set_getElem_self]
      · have := Rep.of_kids (c := c) k2
        rw [List.map_set] at this
        simp only [removeKids, hxm, if_neg hz']
        exact this

/-! ### the traversal -/

/-- the pointer sees the node -/
def Sees (h : Heap T B) (p : Ptr) (n : DbNode T B) : Prop := ∃ c fp, load h p = .ok c ∧ Rep h.arrays c n fp

/-- path and indexes (most recent first) lead from the root to the node -/
def Reach (h : Heap T B) : List Ptr → List Nat → Ptr → Prop
  | [], is, p => is.length = 1 ∧ p = root
  | q :: qs, is, p => ∃ i is' c, is = i :: is' ∧ load h q = .ok c ∧ i < c.children.len ∧ p = ⟨c.children.arr, i⟩ ∧ Reach h qs is' q

theorem Down.snoc {h : Heap T B} {c : Cell T B} {i : Nat} {p : Ptr} (hc : load h p = .ok c) (hi : i < c.children.len) : ∀ {is : List Nat} {a : Ptr} {qs : List Ptr},
    Down h a is qs p → Down h a (is ++ [i]) (qs ++ [p]) ⟨c.children.arr, i⟩
  | [], a, qs, hd => by obtain ⟨rfl, rfl⟩ := hd; exact ⟨c, [], hc, hi, rfl, rfl, rfl⟩
  | j :: is, a, qs, hd => by
    obtain ⟨c', qs', h1, h2, rfl, h4⟩ := hd
    exact ⟨c', qs' ++ [p], h1, h2, rfl, Down.snoc hc hi h4⟩

theorem Reach.ne_nil {h : Heap T B} {qs : List Ptr} {is : List Nat} {p : Ptr} (hr : Reach h qs is p) : is ≠ [] := by
  cases qs with
  | nil => rintro rfl; exact absurd hr.1 (by simp)
  | cons q qs => obtain ⟨_, _, _, rfl, _⟩ := hr; simp

theorem Reach.down {h : Heap T B} : ∀ {qs : List Ptr} {is : List Nat} {p : Ptr}, Reach h qs is p → Down h root is.reverse.tail qs.reverse p
  | [], is, p, hr => by
    obtain ⟨h1, rfl⟩ := hr
    match is, h1 with
    | [i], _ => exact ⟨rfl, rfl⟩
  | q :: qs, is, p, hr => by
    obtain ⟨i, is', c, rfl, hc, hi, rfl, hr⟩ := hr
    have := Down.snoc hc hi hr.down
    have hne : is'.reverse ≠ [] := by simpa using hr.ne_nil
    rw [List.reverse_cons, List.reverse_cons, List.tail_append_of_ne_nil hne]
    exact this

/-- the state of the traversal in memory and in values -/
structure Same (h : Heap T B) (m : RemState) (s : Hdb.RemState T B) : Prop where
  nd : (m.nd = none ∧ s.nd = none) ∨ ∃ p n, m.nd = some p ∧ s.nd = some n ∧ Sees h p n ∧ Reach h m.path (m.i :: m.indexes) p
  path : List.Forall₂ (Sees h) m.path s.path
  reach : ∀ p ps, m.path = p :: ps → Reach h ps m.indexes p
  parent : m.parent = m.path.head?
  parent' : s.parent = s.path.head?
  indexes : m.indexes = s.indexes
  i : m.i = s.i
  up : m.goingUp = s.goingUp

theorem Kids.indexOfId {ops : ItemOps T B} {id : Int} {h : Heap T B} {s : Slice} {l : List (Kid T B)} (hk : Kids h.arrays s l) :
    indexOfId ops id (cells h s) = Hdb.indexOfId ops id (l.map (·.2.1)) := by
  rw [cells, hk.take]
  have hr := hk.rep
  clear hk
  induction l with
  | nil => rfl
  | cons x l ih =>
    have : x.2.1.item = x.1.item := by obtain ⟨_, _, e, _⟩ := (hr x List.mem_cons_self).inv; rw [e]; rfl
    simp only [List.map_cons, Mem.indexOfId, Hdb.indexOfId, this, ih (fun y hy => hr y (List.mem_cons_of_mem _ hy))]

theorem sees_child {h : Heap T B} {c : Cell T B} {l : List (Kid T B)} (hk : Kids h.arrays c.children l) (i : Nat) :
    (c.children.len ≤ i ∧ (l.map (·.2.1))[i]? = none) ∨ (i < c.children.len ∧ ∃ n, (l.map (·.2.1))[i]? = some n ∧ Sees h ⟨c.children.arr, i⟩ n) := by
  by_cases hi : i < c.children.len
  · right
    obtain ⟨x, hx, hxl⟩ := kid_at (l := l) (i := i) (by rw [hk.len]; exact hi)
    exact ⟨hi, x.2.1, by rw [List.getElem?_map, hx]; rfl, x.1, x.2.2, load_eq.2 (by rw [hk.get hi, hx]; rfl), hk.rep x hxl⟩
  · left
    refine ⟨by omega, ?_⟩
    rw [List.getElem?_eq_none]
    simp [hk.len]; omega

/-- what the memory run does, given the result of the traversal of values -/
def Follows (cfg : Cfg B) (h : Heap T B) (res : Res (Heap T B)) : Option (List Nat × Nat) → Prop
  | none => res = .ok h
  | some (is, idx) => ∃ q qs cq, Down h root is qs q ∧ load h q = .ok cq ∧ idx < cq.children.len ∧
      res = condense cfg (delete cfg h q cq idx) (q :: (qs.reverse ++ []))

/-- the body of a round, once the node is known -/
theorem round_mem {ops : ItemOps T B} (cfg : Cfg B) {h : Heap T B} {id : Int} {bbox : Box B} (fuel : Nat)
    (ih : ∀ (m : RemState) (s : Hdb.RemState T B) r, Same h m s → Hdb.removeLoop ops id bbox fuel s = .ok r → Follows cfg h (removeLoop ops cfg h id bbox fuel m) r)
    {p : Ptr} {n : DbNode T B} {path : List Ptr} {path' : List (DbNode T B)} {indexes : List Nat} {i : Nat} {g : Bool}
    (hsee : Sees h p n) (hre : Reach h path (i :: indexes) p) (hpath : List.Forall₂ (Sees h) path path')
    {r : Option (List Nat × Nat)}
    (e : (match (if n.leaf then Hdb.indexOfId ops id n.children else none) with
        | some idx => Res.ok (some ((i :: indexes).reverse.tail, idx))
        | none =>
          if !g && !n.leaf && n.bbox.contains bbox then
            match n.children[0]? with
            | none => .panic
            | some c => Hdb.removeLoop ops id bbox fuel
                { nd := some c, parent := some n, path := n :: path', indexes := i :: indexes, i := 0, goingUp := g }
          else
            match path'.head? with
            | some q => Hdb.removeLoop ops id bbox fuel { nd := q.children[i + 1]?, parent := path'.head?, path := path', indexes := indexes, i := i + 1, goingUp := false }
            | none => Hdb.removeLoop ops id bbox fuel { nd := none, parent := path'.head?, path := path', indexes := indexes, i := i, goingUp := g }) = .ok r) :
    Follows cfg h (do
        let nd ← load h p
        match (if nd.leaf then indexOfId ops id (cells h nd.children) else none) with
        | some idx =>
          let r := removeNode cfg h nd.children idx
          condense cfg (modify r.1 p (fun c => { c with children := r.2 })) (p :: path)
        | none =>
          if !g && !nd.leaf && nd.bbox.contains bbox then
            if 0 < nd.children.len then
              removeLoop ops cfg h id bbox fuel
                { nd := some ⟨nd.children.arr, 0⟩, parent := some p, path := p :: path, indexes := i :: indexes, i := 0, goingUp := g }
            else .panic
          else
            match path.head? with
            | some q => do
              let par2 ← load h q
              removeLoop ops cfg h id bbox fuel { nd := if i + 1 < par2.children.len then some ⟨par2.children.arr, i + 1⟩ else none, parent := path.head?, path := path, indexes := indexes, i := i + 1, goingUp := false }
            | none => removeLoop ops cfg h id bbox fuel { nd := none, parent := path.head?, path := path, indexes := indexes, i := i, goingUp := g }) r := by
  obtain ⟨c, fp, hc, hrep⟩ := hsee
  obtain ⟨l, hk, hn, hfp⟩ := hrep.inv
  have hch : n.children = l.map (·.2.1) := by rw [hn]; rfl
  have hlf : c.leaf = n.leaf := by rw [hn]; rfl
  have hbb : c.bbox = n.bbox := by rw [hn]; rfl
  rw [hc, Res.ok_bind, hk.indexOfId, hlf, hbb, ← hch]
  cases hf : (if n.leaf then Hdb.indexOfId ops id n.children else none) with
  | some idx =>
    simp only [hf] at e ⊢
    cases e
    refine ⟨p, path.reverse, c, hre.down, hc, ?_, by simp [delete]⟩
    split at hf
    · obtain ⟨e', t, h1, _⟩ := indexOfId_some hf
      have := (List.getElem?_eq_some_iff.1 h1).1
      simpa [hch, hk.len] using this
    · cases hf
  | none =>
    simp only [hf] at e ⊢
    split_ifs at e ⊢ with hb hz
    · rcases sees_child hk 0 with ⟨a, _⟩ | ⟨_, n0, a, b⟩
      · omega
      · rw [hch, a] at e
        refine ih _ _ r ⟨Or.inr ⟨_, n0, rfl, rfl, b, ?_⟩, ?_, ?_, rfl, rfl, rfl, rfl, rfl⟩ e
        · exact ⟨0, _, c, rfl, hc, hz, rfl, hre⟩
        · exact List.Forall₂.cons ⟨c, _, hc, hrep⟩ hpath
        · intro q qs hq; cases hq; exact hre
    · rcases sees_child hk 0 with ⟨_, a⟩ | ⟨a, _⟩
      · rw [hch, a] at e; cases e
      · omega
    · cases hpath with
      | nil =>
        exact ih _ _ r ⟨Or.inl ⟨rfl, rfl⟩, List.Forall₂.nil, (by intro q qs hq; cases hq), rfl, rfl, rfl, rfl, rfl⟩ e
      | @cons q n' qs ns' hq hqs =>
        obtain ⟨cq, fq, hcq, hrq⟩ := hq
        have hq' : Sees h q n' := ⟨cq, fq, hcq, hrq⟩
        obtain ⟨lq, hkq, hnq, _⟩ := hrq.inv
        simp only [List.head?_cons] at e ⊢
        rw [hcq, Res.ok_bind]
        obtain ⟨i', is', c', e1, e2, e3, e4, e5⟩ := hre
        cases e1
        rw [hcq] at e2; cases e2
        refine ih _ _ r ⟨?_, List.Forall₂.cons hq' hqs, (by intro q2 qs2 he; cases he; exact e5), rfl, rfl, rfl, rfl, rfl⟩ e
        rcases sees_child hkq (i + 1) with ⟨a, b⟩ | ⟨a, n1, b, d⟩
        · left
          refine ⟨by simp; omega, ?_⟩
          rw [hnq]; exact b
        · right
          refine ⟨⟨cq.children.arr, i + 1⟩, n1, by simp [a], ?_, d, i + 1, _, cq, rfl, hcq, a, rfl, e5⟩
          rw [hnq]; exact b

theorem removeLoop_mem {ops : ItemOps T B} (cfg : Cfg B) {h : Heap T B} {id : Int} {bbox : Box B} : ∀ (fuel : Nat) (m : RemState) (s : Hdb.RemState T B)
    (r : Option (List Nat × Nat)), Same h m s → Hdb.removeLoop ops id bbox fuel s = .ok r → Follows cfg h (removeLoop ops cfg h id bbox fuel m) r := by
  intro fuel
  induction fuel with
  | zero => intro m s r _ e; cases e
  | succ fuel ih =>
    intro m s r hs e
    obtain ⟨mnd, mpar, mpath, mix, mi, mg⟩ := m
    obtain ⟨snd, spar, spath, six, si, sg⟩ := s
    obtain ⟨g1, g2, g3, g4, g5, g6, g7, g8⟩ := hs
    simp only at g1 g2 g3 g4 g5 g6 g7 g8
    subst g4 g5 g6 g7 g8
    rw [Hdb.removeLoop] at e
    rw [removeLoop]
    rcases g1 with ⟨rfl, rfl⟩ | ⟨p, n, rfl, rfl, hsee, hre⟩
    · cases g2 with
      | nil => cases e; exact rfl
      | @cons q n' qs ns' hq hqs =>
        have hr := g3 q qs rfl
        have hix : ∃ a as, mix = a :: as := by
          cases mix with
          | nil => exact absurd rfl hr.ne_nil
          | cons a as => exact ⟨a, as, rfl⟩
        obtain ⟨a, as, rfl⟩ := hix
        exact round_mem cfg fuel ih hq hr hqs e
    · exact round_mem cfg fuel ih hsee hre g2 e

/-- hdb/remove.go:86-94, 106-160 -/
theorem remove_mem {ops : ItemOps T B} (cfg : Cfg B) {t t' : Hdb.Tree T B} {m : Tree T B} {fp : List Nat} (hs : Store m.heap t.data fp)
    (h1 : m.maxE = t.maxE) (h2 : m.minE = t.minE) (item : T) (fuel : Nat) (e : Hdb.remove ops t item fuel = .ok t') :
    ∃ m' fp', remove ops cfg m item fuel = .ok m' ∧ Store m'.heap t'.data fp' ∧ m'.maxE = t'.maxE ∧ m'.minE = t'.minE := by
  obtain ⟨c, c0, hr⟩ := hs.cell
  have hc : load m.heap root = .ok c := load_eq.2 (by simp [root, c0])
  obtain ⟨r, e1, e2⟩ := Res.bind_eq_ok.1 e
  have := removeLoop_mem cfg fuel { nd := some root, parent := none, path := [], indexes := [], i := 0, goingUp := false } _ r
    ⟨Or.inr ⟨root, t.data, rfl, rfl, ⟨c, fp, hc, hr⟩, rfl, rfl⟩, List.Forall₂.nil, (by intro p ps hp; cases hp), rfl, rfl, rfl, rfl, rfl⟩ e1
  unfold remove
  cases r with
  | none =>
    cases e2
    have h3 : removeLoop ops cfg m.heap (ops.id item) (ops.mbr item) fuel _ = .ok m.heap := this
    rw [h3]
    exact ⟨m, fp, rfl, hs, h1, h2⟩
  | some r =>
    obtain ⟨is, idx⟩ := r
    obtain ⟨q, qs, cq, hd, hq, hidx, h3⟩ := this
    cases e2
    have hn0 : root.arr < m.heap.next := by have := hs.next; show 0 < _; omega
    have hp0 : root.arr ∉ fp := fun hm => by have := hs.own.gt _ hm; simp [root] at this
    obtain ⟨h', c1, f1, e3, u, r1, o1, w1⟩ := remove_path cfg idx q cq is m.heap root c t.data fp qs hc hr hs.own hn0 hp0 hd hq hidx []
    have hra := removeAt_kids is idx _ _ _ _ _ _ hc hr hd
    have hl1 : load h' root = .ok c1 := u.load_eq hc
    have hnx : 1 < h'.next := Nat.lt_of_lt_of_le hs.next u.frame.next
    have hlen1 : (removeKids is idx t.data).children.length = c1.children.len := r1.children_len
    have hchild : (removeAt is idx t.data).children = (removeKids is idx t.data).children := by rw [hra]; rfl
    rw [h3, e3]
    simp only [condense, condenseStep, hl1, Res.ok_bind, List.head?_nil]
    by_cases hz : c1.children.len = 0
    · have hz' : (removeAt is idx t.data).children = [] := by rw [hchild]; exact List.eq_nil_of_length_eq_zero (by omega)
      rw [if_pos hz]
      refine ⟨{ m with heap := clearHeap h' }, [h'.next], rfl, ?_, h1, h2⟩
      simp only [hz', if_true]
      exact clearHeap_mem hnx
    · have hz' : (removeAt is idx t.data).children ≠ [] := by
        rw [hchild]; intro e; rw [e] at hlen1; exact hz hlen1.symm
      rw [if_neg hz]
      obtain ⟨h4, e4, u4⟩ := calcBBox_spec hl1
      rw [e4]
      refine ⟨{ m with heap := h4 }, f1, rfl, ?_, h1, h2⟩
      simp only [if_neg hz']
      obtain ⟨l1, kk, hn1, hf1⟩ := r1.inv
      have hsame : ∀ a ∈ f1, h4.arrays a = h'.arrays a := fun a ha => u4.frame.same a (o1.lt a ha) (by
          intro hm; simp only [List.mem_cons, List.not_mem_nil, or_false] at hm
          have := o1.gt a ha; simp [root] at hm; omega)
      refine ⟨⟨{ c1 with bbox := boxOf h' c1.children }, ?_, ?_⟩, o1.mono u4.frame.next, Nat.lt_of_lt_of_le hnx u4.frame.next⟩
      · have := u4.arr
        simp only [root] at this
        rw [this]
        have := u.arr
        simp only [root] at this
        rw [this, c0]
        rfl
      · rw [hf1] at hsame
        have kk2 := kk.frame (hsame _ List.mem_cons_self) (fun a ha => hsame a (List.mem_cons_of_mem _ ha))
        have := Rep.of_kids (c := { c1 with bbox := boxOf h' c1.children }) kk2
        rw [hra, hn1, hf1]
        have hne' : (l1.map (·.2.1)) ≠ [] := by
          have := hz'; rw [hchild, hn1] at this; exact this
        rw [rebox_mk hne', ← kk.boxOf]
        exact this

end Verif.Hdb.Mem
