import Verif.Lemmas.HdbMemInsert
import Verif.Lemmas.HdbBuild
import Verif.Spec.HdbMem

/-! Bulk loading in memory is loading the tree of values. -/

set_option linter.unusedSectionVars false

namespace Verif.Hdb.Mem

variable {T B : Type} [LinearOrder B] [BoundedOrder B]

theorem MLegal.legal {H : MHeur T B} {M : Nat} (h : MLegal H M) : Legal H.toHeur M :=
  ⟨h.choose, fun l => filterMap_range_perm l (by simpa using h.perm (l.map DbNode.bbox)), h.splitIdx, h.select, h.height⟩

theorem MLegal.at {H : MHeur T B} {M : Nat} (h : MLegal H M) (bs : List (Box B)) (hb : bs.length = M + 1) : H.splitIdx bs ≤ M + 1 :=
  Nat.le_succ_of_le (h.splitIdx bs hb).2

theorem Store.frame {h h' : Heap T B} {n : DbNode T B} {fp : List Nat} (hs : Store h n fp) (hf : Frame h h' []) : Store h' n fp := by
  obtain ⟨c, h0, hr⟩ := hs.cell
  refine ⟨⟨c, ?_, hr.frame (fun a ha => hf.same a (hs.own.lt a ha) (by simp))⟩, hs.own.mono hf.next, Nat.lt_of_lt_of_le hs.next hf.next⟩
  rw [hf.same 0 (by have := hs.next; omega) (by simp), h0]

/-- a new empty slice -/
theorem kids_nil (A : Nat → List (Cell T B)) (a : Nat) : Kids A ⟨a, 0⟩ [] := ⟨by simp, by simp, rfl⟩

theorem newLeafNode_mem (ops : ItemOps T B) (h : Heap T B) (t : T) :
    Rep (newLeafNode ops h t).1.arrays (newLeafNode ops h t).2 (Hdb.newLeafNode ops t) [h.next] :=
  Rep.of_kids (c := (newLeafNode ops h t).2) (kids_nil _ h.next)

theorem newLeafNode_frame (ops : ItemOps T B) (h : Heap T B) (t : T) : Frame h (newLeafNode ops h t).1 [] := Frame.alloc _ _

theorem own_fresh {h : Heap T B} {fp : List Nat} (ho : Own h fp) (hn : 1 < h.next) : ∀ (l : List (Cell T B)), Own (alloc h l).1 (fp ++ [h.next]) := by
  intro l
  refine ⟨List.nodup_append.2 ⟨ho.nodup, by simp, ?_⟩, ?_, ?_⟩
  · intro a ha b hb e
    have := ho.lt a ha
    simp at hb; omega
  · intro a ha
    rcases List.mem_append.1 ha with ha | ha
    · have := ho.lt a ha; simp; omega
    · simp at ha; simp [ha]
  · intro a ha
    rcases List.mem_append.1 ha with ha | ha
    · exact ho.gt a ha
    · simp at ha; omega

theorem ready_root {ops : ItemOps T B} {M : Nat} {n : DbNode T B} (hw : RootWF ops M n) : Ready M (n.height - 1) n := by
  rcases hw with rfl | ⟨k, hk⟩
  · exact ⟨rfl, by simp⟩
  · have : n.height = k + 1 := hk.2.1
    rw [this]; exact WF.ready k k n (Nat.le_refl _) hk

theorem insertItem_mem {ops : ItemOps T B} (cfg : Cfg B) {H : MHeur T B} {M : Nat} (hH : MLegal H M) {h : Heap T B} {n n' : DbNode T B} {fp : List Nat} {t : T}
    (hs : Store h n fp) (hw : RootWF ops M n) (e : Hdb.insertItem ops H.toHeur M n t = .ok n') :
    ∃ h' fp', insertItem ops cfg H M h t = .ok h' ∧ Store h' n' fp' := by
  obtain ⟨c, h0, hr⟩ := hs.cell
  have hl : load h root = .ok c := load_eq.2 (by simp [root, h0])
  rw [insertItem, hl, Res.ok_bind, ← hr.height]
  exact insertNode_mem cfg H hH.perm M hH.at (new := ((newLeafNode ops h t).2, Hdb.newLeafNode ops t, [h.next])) (hs.frame (newLeafNode_frame ops h t))
    (newLeafNode_mem ops h t) (own_fresh hs.own hs.next []) (ready_root hw) e

theorem insertItems_mem {ops : ItemOps T B} (cfg : Cfg B) {H : MHeur T B} {M : Nat} (hM : 2 ≤ M) (hH : MLegal H M) (ts : List T) :
    ∀ {h : Heap T B} {n n' : DbNode T B} {fp : List Nat}, Store h n fp → RootWF ops M n → Hdb.insertItems ops H.toHeur M n ts = .ok n' →
      ∃ h' fp', insertItems ops cfg H M h ts = .ok h' ∧ Store h' n' fp' := by
  induction ts with
  | nil => intro h n n' fp hs _ e; cases e; exact ⟨h, fp, rfl, hs⟩
  | cons t ts ih =>
    intro h n n' fp hs hw e
    obtain ⟨n1, e1, e2⟩ := Res.bind_eq_ok.1 e
    obtain ⟨h1, f1, m1, s1⟩ := insertItem_mem cfg hH hs hw e1
    obtain ⟨r, k, q1, q2, _⟩ := insertItem_spec hM hH.legal (t := t) hw
    rw [e1] at q1; cases q1
    obtain ⟨h2, f2, m2, s2⟩ := ih s1 (Or.inr ⟨_, q2⟩) e2
    exact ⟨h2, f2, by rw [insertItems, m1, Res.ok_bind, m2], s2⟩

/-- appending a child that was made after the slice -/
theorem append_new (cfg : Cfg B) {h h1 : Heap T B} {s : Slice} {l : List (Kid T B)} {x : Kid T B} (hk : Kids h.arrays s l) (ho : Own h (s.arr :: foot l))
    (hf : Frame h h1 []) (hx : Rep h1.arrays x.1 x.2.1 x.2.2) (hox : Own h1 x.2.2) (hxn : ∀ a ∈ x.2.2, h.next ≤ a) :
    ∃ h' s', append cfg h1 s [x.1] = (h', s') ∧ Kids h'.arrays s' (l ++ [x]) ∧ Own h' (s'.arr :: foot (l ++ [x])) ∧
      Frame h h' [s.arr] ∧ (s'.arr = s.arr ∨ h.next ≤ s'.arr) := by
  have hk1 : Kids h1.arrays s l := hk.frame (hf.same _ (ho.lt _ List.mem_cons_self) (by simp))
    (fun a ha => hf.same _ (ho.lt _ (List.mem_cons_of_mem _ ha)) (by simp))
  have ho1 : Own h1 (s.arr :: (foot l ++ x.2.2)) := by
    rw [← List.cons_append]
    refine ⟨List.nodup_append.2 ⟨ho.nodup, hox.nodup, fun a ha b hb e => ?_⟩, ?_, ?_⟩
    · have := ho.lt a ha; have := hxn b hb; omega
    · intro a ha
      rcases List.mem_append.1 ha with ha | ha
      · exact Nat.lt_of_lt_of_le (ho.lt a ha) hf.next
      · exact hox.lt a ha
    · intro a ha
      rcases List.mem_append.1 ha with ha | ha
      · exact ho.gt a ha
      · exact hox.gt a ha
  obtain ⟨h', s', e, k', o', f', a'⟩ := append_spec cfg hk1 hx ho1
  refine ⟨h', s', e, k', o', (hf.mono (by simp)).trans f' (fun x hx => Or.inl hx), ?_⟩
  rcases a' with a' | a'
  · exact Or.inl a'
  · exact Or.inr (Nat.le_trans hf.next a')

theorem makeLoop_mem (ops : ItemOps T B) (cfg : Cfg B) (ts : List T) : ∀ {h : Heap T B} {s : Slice} {l : List (Kid T B)}, Kids h.arrays s l →
    Own h (s.arr :: foot l) →
    ∃ h' s' l', makeLoop ops cfg h s ts = (h', s') ∧ Kids h'.arrays s' l' ∧ l'.map (·.2.1) = l.map (·.2.1) ++ ts.map (Hdb.newLeafNode ops) ∧
      Own h' (s'.arr :: foot l') ∧ Frame h h' [s.arr] ∧ (s'.arr = s.arr ∨ h.next ≤ s'.arr) ∧ (∀ a ∈ foot l', a ∈ foot l ∨ h.next ≤ a) := by
  induction ts with
  | nil => intro h s l hk ho; exact ⟨h, s, l, rfl, hk, by simp, ho, Frame.refl _ _, Or.inl rfl, fun a ha => Or.inl ha⟩
  | cons t ts ih =>
    intro h s l hk ho
    have hn : 1 < h.next := by have := ho.lt _ List.mem_cons_self; have := ho.gt _ List.mem_cons_self; omega
    obtain ⟨h1, s1, e1, k1, o1, f1, a1⟩ := append_new cfg (x := ((newLeafNode ops h t).2, Hdb.newLeafNode ops t, [h.next])) hk ho (newLeafNode_frame ops h t)
      (newLeafNode_mem ops h t) (by
        refine ⟨by simp, ?_, ?_⟩
        · intro a ha; simp at ha; subst ha; show _ < h.next + 1; omega
        · intro a ha; simp at ha; omega) (by intro a ha; simp at ha; omega)
    obtain ⟨h2, s2, l2, e2, k2, m2, o2, f2, a2, w2⟩ := ih k1 o1
    refine ⟨h2, s2, l2, ?_, k2, ?_, o2, ?_, ?_, ?_⟩
    · rw [makeLoop]; simp only [e1]; exact e2
    · rw [m2]; simp
    · refine f1.trans f2 (fun x hx => ?_)
      simp only [List.mem_singleton] at hx ⊢
      subst hx; exact a1
    · rcases a2 with a2 | a2
      · rw [a2]; exact a1
      · exact Or.inr (Nat.le_trans f1.next a2)
    · intro a ha
      rcases w2 a ha with w | w
      · simp only [foot_append, foot_cons, foot_nil, List.append_nil, List.mem_append, List.mem_singleton] at w
        rcases w with w | w
        · exact Or.inl w
        · exact Or.inr (by omega)
      · exact Or.inr (Nat.le_trans f1.next w)

/-- a tree made from `h` on: it owns only new arrays -/
def Made (h : Heap T B) (res : Res (Heap T B × Cell T B)) (n : DbNode T B) : Prop :=
  ∃ h' c fp, res = .ok (h', c) ∧ Rep h'.arrays c n fp ∧ Own h' fp ∧ Frame h h' [] ∧ ∀ a ∈ fp, h.next ≤ a

theorem packLoop_mem (cfg : Cfg B) {f : Heap T B → List T → Res (Heap T B × Cell T B)} {g : List T → Res (DbNode T B)}
    (hfg : ∀ (h : Heap T B) tile n, 1 < h.next → g tile = .ok n → Made h (f h tile) n) (tiles : List (List T)) :
    ∀ {h : Heap T B} {s : Slice} {l : List (Kid T B)} {ns : List (DbNode T B)}, Kids h.arrays s l → Own h (s.arr :: foot l) → mapRes g tiles = .ok ns →
    ∃ h' s' l', packLoop cfg f h s tiles = .ok (h', s') ∧ Kids h'.arrays s' l' ∧ l'.map (·.2.1) = l.map (·.2.1) ++ ns ∧
      Own h' (s'.arr :: foot l') ∧ Frame h h' [s.arr] ∧ (s'.arr = s.arr ∨ h.next ≤ s'.arr) ∧ (∀ a ∈ foot l', a ∈ foot l ∨ h.next ≤ a) := by
  induction tiles with
  | nil =>
    intro h s l ns hk ho e
    cases e
    exact ⟨h, s, l, rfl, hk, by simp, ho, Frame.refl _ _, Or.inl rfl, fun a ha => Or.inl ha⟩
  | cons t ts ih =>
    intro h s l ns hk ho e
    have hn : 1 < h.next := by have := ho.lt _ List.mem_cons_self; have := ho.gt _ List.mem_cons_self; omega
    simp only [mapRes, Res.bind_eq_ok, Res.pure_eq] at e
    obtain ⟨n1, en, ns', ens, e⟩ := e
    cases e
    obtain ⟨h0, c0, fp0, q1, q2, q3, q4, q5⟩ := hfg h t n1 hn en
    obtain ⟨h1, s1, e1, k1, o1, f1, a1⟩ := append_new cfg (x := (c0, n1, fp0)) hk ho q4 q2 q3 q5
    obtain ⟨h2, s2, l2, e2, k2, m2, o2, f2, a2, w2⟩ := ih k1 o1 ens
    refine ⟨h2, s2, l2, ?_, k2, ?_, o2, ?_, ?_, ?_⟩
    · rw [packLoop, q1, Res.ok_bind]; simp only [e1]; exact e2
    · rw [m2]; simp
    · refine f1.trans f2 (fun x hx => ?_)
      simp only [List.mem_singleton] at hx ⊢
      subst hx; exact a1
    · rcases a2 with a2 | a2
      · rw [a2]; exact a1
      · exact Or.inr (Nat.le_trans f1.next a2)
    · intro a ha
      rcases w2 a ha with w | w
      · simp only [foot_append, foot_cons, foot_nil, List.append_nil, List.mem_append] at w
        rcases w with w | w
        · exact Or.inl w
        · exact Or.inr (q5 a w)
      · exact Or.inr (Nat.le_trans f1.next w)

theorem own_alloc {h : Heap T B} (hn : 1 < h.next) (l : List (Cell T B)) : Own (alloc h l).1 [h.next] := by
  refine ⟨by simp, ?_, ?_⟩
  · intro a ha; simp at ha; subst ha; simp
  · intro a ha; simp at ha; omega

/-- closing a node whose child slice was made from `h` on -/
theorem made_node {h h' : Heap T B} {s' : Slice} {l' : List (Kid T B)} (height : Nat) (leaf : Bool) (hk : Kids h'.arrays s' l') (ho : Own h' (s'.arr :: foot l'))
    {xs : List (Cell T B)} (hf : Frame (alloc h xs).1 h' [h.next]) (ha : s'.arr = h.next ∨ (alloc h xs).1.next ≤ s'.arr)
    (hw : ∀ a ∈ foot l', a ∈ foot ([] : List (Kid T B)) ∨ (alloc h xs).1.next ≤ a) :
    Made h (.ok (h', { children := s', item := none, height := height, leaf := leaf, bbox := boxOf h' s' }))
      (.mk (l'.map (·.2.1)) none height leaf (Hdb.calcBBox (l'.map (·.2.1)))) := by
  refine ⟨h', _, _, rfl, ?_, ho, ?_, ?_⟩
  · have := Rep.of_kids (c := ({ children := s', item := none, height := height, leaf := leaf, bbox := boxOf h' s' } : Cell T B)) hk
    rw [hk.boxOf] at this ⊢
    exact this
  · exact (Frame.alloc h xs).trans hf (fun x hx => Or.inr (by simp at hx; omega))
  · intro a haa
    rcases List.mem_cons.1 haa with rfl | haa
    · rcases ha with ha | ha
      · omega
      · simp at ha; omega
    · rcases hw a haa with w | w
      · simp at w
      · simp at w; omega

theorem buildTree_mem (ops : ItemOps T B) (cfg : Cfg B) (H : MHeur T B) (M : Nat) : ∀ (fuel : Nat) (h : Heap T B) (items : List T) (height : Nat) (n : DbNode T B),
    1 < h.next → Hdb.buildTree ops H.toHeur M fuel items height = .ok n → Made h (buildTree ops cfg H M fuel h items height) n := by
  intro fuel
  induction fuel with
  | zero => intro h items height n _ e; simp [Hdb.buildTree] at e
  | succ fuel ih =>
    intro h items height n hn e
    rw [Hdb.buildTree] at e
    rw [buildTree]
    simp only at e ⊢
    by_cases hle : items.length ≤ M
    · rw [if_pos hle] at e ⊢
      cases e
      obtain ⟨h2, s2, l2, e2, k2, m2, o2, f2, a2, w2⟩ := makeLoop_mem ops cfg items
        (kids_nil (alloc h (List.replicate items.length (zeroCell cfg))).1.arrays h.next) (by simpa using own_alloc hn _)
      simp only [alloc_id, e2]
      have := made_node 1 true k2 o2 f2 a2 w2
      rw [m2] at this
      exact this
    · rw [if_neg hle] at e ⊢
      obtain ⟨ns, e1, e2⟩ := Res.bind_eq_ok.1 e
      cases e2
      obtain ⟨h2, s2, l2, e2, k2, m2, o2, f2, a2, w2⟩ := packLoop_mem cfg (fun h' tile n' hn' e' => ih h' tile _ n' hn' e') _
        (kids_nil (alloc h []).1.arrays h.next) (by simpa using own_alloc hn _) e1
      have hsel : H.toHeur.select = H.select := rfl
      have hhe : H.toHeur.height = H.height := rfl
      rw [hsel, hhe] at e2
      simp only [alloc_id, e2, Res.ok_bind, Res.pure_eq]
      have := made_node (if height = 0 then H.height items.length else height) false k2 o2 f2 a2 w2
      rw [m2] at this
      exact this

theorem clearHeap_mem {h : Heap T B} (hn : 1 < h.next) : Store (clearHeap h) (emptyRoot : DbNode T B) [h.next] := by
  refine ⟨⟨_, setArr_same _ _ _, ?_⟩, ?_, by simp [clearHeap]; omega⟩
  · exact Rep.of_kids (c := ({ children := ⟨h.next, 0⟩, item := none, height := 1, leaf := true, bbox := .empty } : Cell T B)) (kids_nil _ _)
  exact ⟨by simp, by intro a ha; simp at ha; subst ha; simp [clearHeap], by intro a ha; simp at ha; omega⟩

theorem newHdb_mem (cfg : Cfg B) (cap : Nat) : ∃ fp, Store (newHdb cfg cap : Tree T B).heap (Hdb.newHdb cap : Hdb.Tree T B).data fp :=
  ⟨_, clearHeap_mem (by simp [initHeap])⟩

/-- assignment to `tree.data` -/
theorem store_root {h : Heap T B} {c : Cell T B} {n : DbNode T B} {fp : List Nat} (hr : Rep h.arrays c n fp) (ho : Own h fp) (hn : 1 < h.next) :
    Store (setArr h 0 [c]) n fp :=
  ⟨⟨c, setArr_same _ _ _, hr.frame (fun a ha => setArr_ne _ _ (by have := ho.gt a ha; omega))⟩, ⟨ho.nodup, ho.lt, ho.gt⟩, hn⟩

theorem Rep.children_len {A : Nat → List (Cell T B)} {c : Cell T B} {n : DbNode T B} {fp : List Nat} (h : Rep A c n fp) :
    n.children.length = c.children.len := by
  obtain ⟨l, hk, rfl, _⟩ := h.inv
  simp [hk.len]

/-- hdb/load.go:19-53 -/
theorem load_mem {ops : ItemOps T B} (cfg : Cfg B) {H : MHeur T B} {t t' : Hdb.Tree T B} {m : Tree T B} {fp : List Nat} (hw : TreeWF ops t)
    (hH : MLegal H t.maxE) (hs : Store m.heap t.data fp) (h1 : m.maxE = t.maxE) (h2 : m.minE = t.minE) (items : List T) (fuel : Nat)
    (hf : loadFuel H.toHeur items.length ≤ fuel) (e : Hdb.load ops H.toHeur t items fuel = .ok t') :
    ∃ m' fp', loadItems ops cfg H m items fuel = .ok m' ∧ Store m'.heap t'.data fp' ∧ m'.maxE = t'.maxE ∧ m'.minE = t'.minE := by
  have hcap := hw.cap
  rw [Hdb.load] at e
  rw [loadItems]
  simp only [h1, h2] at e ⊢
  by_cases hn : items.length < t.minE
  · rw [if_pos hn] at e ⊢
    obtain ⟨r, e1, e2⟩ := Res.bind_eq_ok.1 e
    cases e2
    obtain ⟨h', fp', e3, s3⟩ := insertItems_mem cfg (by omega) hH items hs hw.root e1
    exact ⟨{ heap := h', maxE := t.maxE, minE := t.minE }, fp', by rw [e3]; rfl, s3, rfl, rfl⟩
  · rw [if_neg hn] at e ⊢
    obtain ⟨nd, e1, e2⟩ := Res.bind_eq_ok.1 e
    obtain ⟨h', c, f, b1, b2, b3, b4, b5⟩ := buildTree_mem ops cfg H t.maxE fuel m.heap items 0 nd hs.next e1
    have hs' := hs.frame b4
    obtain ⟨cd, c0, hcd⟩ := hs'.cell
    have hl : load h' root = .ok cd := load_eq.2 (by simp [root, c0])
    have hlen := hcd.children_len
    have hh1 := hcd.height
    have hh2 := b2.height
    have hne : items ≠ [] := by rintro rfl; have := hw.fill; simp at hn; omega
    obtain ⟨nd', k, q1, q2, _⟩ := build_root_spec (ops := ops) hcap hH.legal items hne fuel hf
    rw [e1] at q1; cases q1
    have hown : Own h' (fp ++ f) := by
      refine ⟨List.nodup_append.2 ⟨hs'.own.nodup, b3.nodup, fun a ha b hb e => ?_⟩, ?_, ?_⟩
      · have := hs.own.lt a ha; have := b5 b hb; omega
      · intro a ha
        rcases List.mem_append.1 ha with ha | ha
        · exact hs'.own.lt a ha
        · exact b3.lt a ha
      · intro a ha
        rcases List.mem_append.1 ha with ha | ha
        · exact hs'.own.gt a ha
        · exact b3.gt a ha
    rw [b1, Res.ok_bind]
    simp only [hl, Res.ok_bind]
    rw [← hlen, ← hh1, ← hh2]
    by_cases hz : t.data.children.length = 0
    · rw [if_pos hz] at e2 ⊢
      cases e2
      exact ⟨_, f, rfl, store_root b2 b3 hs'.next, rfl, rfl⟩
    · rw [if_neg hz] at e2 ⊢
      have hdw : ∃ k', WF ops t.maxE (k' + 1) t.data := by
        rcases hw.root with hr | hr
        · rw [hr] at hz; simp at hz
        · exact hr
      obtain ⟨k', hk'⟩ := hdw
      have hkh : t.data.height = k' + 1 := hk'.2.1
      have hnh : nd.height = k + 1 := q2.2.1
      by_cases heq : t.data.height = nd.height
      · rw [if_pos heq] at e2 ⊢
        cases e2
        obtain ⟨h2', fp2, e3, s3⟩ := splitRoot_spec' (a := (cd, t.data, fp)) (b := (c, nd, f)) hcd b2 hown hs'.next
        exact ⟨{ heap := h2', maxE := t.maxE, minE := t.minE }, fp2, by rw [e3]; rfl, s3, rfl, rfl⟩
      · rw [if_neg heq] at e2 ⊢
        by_cases hlt : t.data.height < nd.height
        · simp only [if_pos hlt] at e2 ⊢
          obtain ⟨r, e3, e4⟩ := Res.bind_eq_ok.1 e2
          cases e4
          have hst := store_root b2 b3 hs'.next
          have hcd' : Rep (setArr h' 0 [c]).arrays cd t.data fp := hcd.frame (fun a ha => setArr_ne _ _ (by have := hs'.own.gt a ha; omega))
          obtain ⟨h3, f3, e5, s5⟩ := insertNode_mem cfg H hH.perm t.maxE hH.at (new := (cd, t.data, fp)) hst hcd'
            (show Own (setArr h' 0 [c]) _ from let o := hown.of_perm List.perm_append_comm; ⟨o.nodup, o.lt, o.gt⟩)
            (WF.ready _ k nd (by omega) q2) e3
          exact ⟨{ heap := h3, maxE := t.maxE, minE := t.minE }, f3, by rw [e5]; rfl, s5, rfl, rfl⟩
        · simp only [if_neg hlt] at e2 ⊢
          obtain ⟨r, e3, e4⟩ := Res.bind_eq_ok.1 e2
          cases e4
          obtain ⟨h3, f3, e5, s5⟩ := insertNode_mem cfg H hH.perm t.maxE hH.at (new := (c, nd, f)) hs' b2 hown
            (WF.ready _ k' t.data (by omega) hk') e3
          exact ⟨{ heap := h3, maxE := t.maxE, minE := t.minE }, f3, by rw [e5]; rfl, s5, rfl, rfl⟩

end Verif.Hdb.Mem
