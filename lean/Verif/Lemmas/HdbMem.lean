import Verif.Model.HdbMem
import Verif.Spec.Hdb
import Mathlib.Data.List.Basic
import Mathlib.Data.List.Nodup

/-! The memory of the index represents a tree of values; what the memory operations do to it. -/

set_option linter.unusedSectionVars false

namespace Verif.Hdb.Mem

variable {T B : Type} [LinearOrder B] [BoundedOrder B]

/-- a stored child: its cell, the tree it stands for, the arrays it owns -/
abbrev Kid (T B : Type) := Cell T B × DbNode T B × List Nat

/-- the arrays of the children -/
def foot (l : List (Kid T B)) : List Nat := (l.map (·.2.2)).flatten

/-- in the arrays `A` the cell stands for the tree, and owns the arrays of the list -/
inductive Rep (A : Nat → List (Cell T B)) : Cell T B → DbNode T B → List Nat → Prop
  | mk (c : Cell T B) (l : List (Kid T B)) : (∀ x ∈ l, Rep A x.1 x.2.1 x.2.2) → (A c.children.arr).take c.children.len = l.map (·.1) →
      l.length = c.children.len →
      Rep A c (.mk (l.map (·.2.1)) c.item c.height c.leaf c.bbox) (c.children.arr :: foot l)

/-- the elements of a slice stand for the listed children -/
structure Kids (A : Nat → List (Cell T B)) (s : Slice) (l : List (Kid T B)) : Prop where
  rep : ∀ x ∈ l, Rep A x.1 x.2.1 x.2.2
  take : (A s.arr).take s.len = l.map (·.1)
  len : l.length = s.len

theorem Rep.of_kids {A : Nat → List (Cell T B)} {c : Cell T B} {l : List (Kid T B)} (h : Kids A c.children l) :
    Rep A c (.mk (l.map (·.2.1)) c.item c.height c.leaf c.bbox) (c.children.arr :: foot l) := .mk c l h.rep h.take h.len

theorem Rep.inv {A : Nat → List (Cell T B)} {c : Cell T B} {n : DbNode T B} {fp : List Nat} (h : Rep A c n fp) :
    ∃ l, Kids A c.children l ∧ n = .mk (l.map (·.2.1)) c.item c.height c.leaf c.bbox ∧ fp = c.children.arr :: foot l := by
  cases h with
  | mk _ l h1 h2 h3 => exact ⟨l, ⟨h1, h2, h3⟩, rfl, rfl⟩

theorem mem_foot {l : List (Kid T B)} {a : Nat} : a ∈ foot l ↔ ∃ x ∈ l, a ∈ x.2.2 := by
  simp only [foot, List.mem_flatten, List.mem_map]
  constructor
  · rintro ⟨_, ⟨x, hx, rfl⟩, h⟩; exact ⟨x, hx, h⟩
  · rintro ⟨x, hx, h⟩; exact ⟨_, ⟨x, hx, rfl⟩, h⟩

@[simp] theorem foot_nil : foot ([] : List (Kid T B)) = [] := rfl
@[simp] theorem foot_cons (x : Kid T B) (l : List (Kid T B)) : foot (x :: l) = x.2.2 ++ foot l := rfl
@[simp] theorem foot_append (l m : List (Kid T B)) : foot (l ++ m) = foot l ++ foot m := by simp [foot]

theorem foot_perm {l m : List (Kid T B)} (h : l.Perm m) : (foot l).Perm (foot m) := by
  rw [foot, foot]; exact (h.map _).flatten

/-- only owned arrays matter -/
theorem Rep.frame {A A' : Nat → List (Cell T B)} {c : Cell T B} {n : DbNode T B} {fp : List Nat} (h : Rep A c n fp)
    (hA : ∀ a ∈ fp, A' a = A a) : Rep A' c n fp := by
  induction h with
  | mk c l h1 h2 h3 ih =>
    refine .mk c l (fun x hx => ih x hx (fun a ha => hA a (List.mem_cons_of_mem _ (mem_foot.2 ⟨x, hx, ha⟩)))) ?_ h3
    rw [hA _ List.mem_cons_self]; exact h2

theorem Kids.frame {A A' : Nat → List (Cell T B)} {s : Slice} {l : List (Kid T B)} (h : Kids A s l) (h1 : A' s.arr = A s.arr)
    (h2 : ∀ a ∈ foot l, A' a = A a) : Kids A' s l :=
  ⟨fun x hx => (h.rep x hx).frame (fun a ha => h2 a (mem_foot.2 ⟨x, hx, ha⟩)), by rw [h1]; exact h.take, h.len⟩

theorem Rep.bbox {A : Nat → List (Cell T B)} {c : Cell T B} {n : DbNode T B} {fp : List Nat} (h : Rep A c n fp) : n.bbox = c.bbox := by
  cases h; rfl

theorem Rep.height {A : Nat → List (Cell T B)} {c : Cell T B} {n : DbNode T B} {fp : List Nat} (h : Rep A c n fp) : n.height = c.height := by
  cases h; rfl

theorem Kids.boxes {h : Heap T B} {s : Slice} {l : List (Kid T B)} (hk : Kids h.arrays s l) :
    (cells h s).map Cell.bbox = (l.map (·.2.1)).map DbNode.bbox := by
  rw [cells, hk.take, List.map_map, List.map_map]
  exact List.map_congr_left (fun x hx => ((hk.rep x hx).bbox).symm)

theorem Kids.boxOf {h : Heap T B} {s : Slice} {l : List (Kid T B)} (hk : Kids h.arrays s l) :
    boxOf h s = Hdb.calcBBox (l.map (·.2.1)) := by
  rw [Mem.boxOf, hk.boxes, Hdb.calcBBox]

theorem Kids.le {A : Nat → List (Cell T B)} {s : Slice} {l : List (Kid T B)} (hk : Kids A s l) : s.len ≤ (A s.arr).length := by
  have := congrArg List.length hk.take
  rw [List.length_take, List.length_map, hk.len] at this
  omega

theorem Kids.get {A : Nat → List (Cell T B)} {s : Slice} {l : List (Kid T B)} (hk : Kids A s l) {i : Nat} (hi : i < s.len) :
    (A s.arr)[i]? = (l[i]?).map (·.1) := by
  have := congrArg (fun m => m[i]?) hk.take
  simpa [List.getElem?_take, hi] using this

/-- the listed arrays are distinct, allocated, and not the reserved ones -/
structure Own (h : Heap T B) (fp : List Nat) : Prop where
  nodup : fp.Nodup
  lt : ∀ a ∈ fp, a < h.next
  gt : ∀ a ∈ fp, 1 < a

/-- from `h` to `h'` only the listed arrays changed and new ones appeared -/
structure Frame (h h' : Heap T B) (F : List Nat) : Prop where
  next : h.next ≤ h'.next
  same : ∀ a, a < h.next → a ∉ F → h'.arrays a = h.arrays a

theorem Frame.refl (h : Heap T B) (F : List Nat) : Frame h h F := ⟨Nat.le_refl _, fun _ _ _ => rfl⟩

theorem Frame.mono {h h' : Heap T B} {F F' : List Nat} (hf : Frame h h' F) (hs : ∀ a ∈ F, a ∈ F') : Frame h h' F' :=
  ⟨hf.next, fun a ha hn => hf.same a ha (fun hm => hn (hs a hm))⟩

theorem Frame.trans {h h1 h2 : Heap T B} {F F' : List Nat} (a : Frame h h1 F) (b : Frame h1 h2 F') (hs : ∀ x ∈ F', x ∈ F ∨ h.next ≤ x) :
    Frame h h2 F :=
  ⟨Nat.le_trans a.next b.next, fun x hx hn => by
    rw [b.same x (Nat.lt_of_lt_of_le hx a.next), a.same x hx hn]
    intro hm
    rcases hs x hm with h | h
    · exact hn h
    · omega⟩

theorem Own.of_perm {h : Heap T B} {f g : List Nat} (ho : Own h f) (hp : f.Perm g) : Own h g :=
  ⟨hp.nodup_iff.1 ho.nodup, fun a ha => ho.lt a (hp.mem_iff.2 ha), fun a ha => ho.gt a (hp.mem_iff.2 ha)⟩

theorem Own.of_sublist {h : Heap T B} {f g : List Nat} (ho : Own h f) (hp : g.Sublist f) : Own h g :=
  ⟨ho.nodup.sublist hp, fun a ha => ho.lt a (hp.subset ha), fun a ha => ho.gt a (hp.subset ha)⟩

theorem Own.mono {h h' : Heap T B} {f : List Nat} (ho : Own h f) (hn : h.next ≤ h'.next) : Own h' f :=
  ⟨ho.nodup, fun a ha => Nat.lt_of_lt_of_le (ho.lt a ha) hn, ho.gt⟩

@[simp] theorem setArr_same (h : Heap T B) (a : Nat) (l : List (Cell T B)) : (setArr h a l).arrays a = l := by simp [setArr]
theorem setArr_ne (h : Heap T B) {a b : Nat} (l : List (Cell T B)) (hb : b ≠ a) : (setArr h a l).arrays b = h.arrays b := by simp [setArr, hb]
@[simp] theorem setArr_next (h : Heap T B) (a : Nat) (l : List (Cell T B)) : (setArr h a l).next = h.next := rfl
@[simp] theorem modify_next (h : Heap T B) (p : Ptr) (f : Cell T B → Cell T B) : (modify h p f).next = h.next := rfl
theorem modify_same (h : Heap T B) (p : Ptr) (f : Cell T B → Cell T B) : (modify h p f).arrays p.arr = (h.arrays p.arr).modify p.idx f := by simp [modify]
theorem modify_ne (h : Heap T B) (p : Ptr) (f : Cell T B → Cell T B) {b : Nat} (hb : b ≠ p.arr) : (modify h p f).arrays b = h.arrays b := by
  simp [modify, setArr, hb]
@[simp] theorem alloc_next (h : Heap T B) (l : List (Cell T B)) : (alloc h l).1.next = h.next + 1 := rfl
@[simp] theorem alloc_id (h : Heap T B) (l : List (Cell T B)) : (alloc h l).2 = h.next := rfl
@[simp] theorem alloc_same (h : Heap T B) (l : List (Cell T B)) : (alloc h l).1.arrays h.next = l := by simp [alloc]
theorem alloc_ne (h : Heap T B) (l : List (Cell T B)) {b : Nat} (hb : b ≠ h.next) : (alloc h l).1.arrays b = h.arrays b := by
  simp [alloc, setArr, hb]

theorem Frame.setArr (h : Heap T B) (a : Nat) (l : List (Cell T B)) : Frame h (setArr h a l) [a] :=
  ⟨Nat.le_refl _, fun b _ hb => setArr_ne h l (by simpa using hb)⟩

theorem Frame.modify (h : Heap T B) (p : Ptr) (f : Cell T B → Cell T B) : Frame h (modify h p f) [p.arr] :=
  ⟨Nat.le_refl _, fun b _ hb => modify_ne h p f (by simpa using hb)⟩

theorem Frame.alloc (h : Heap T B) (l : List (Cell T B)) : Frame h (alloc h l).1 [] :=
  ⟨Nat.le_succ _, fun b hb _ => alloc_ne h l (by omega)⟩

theorem load_eq {h : Heap T B} {p : Ptr} {c : Cell T B} : load h p = .ok c ↔ (h.arrays p.arr)[p.idx]? = some c := by
  unfold load
  cases (h.arrays p.arr)[p.idx]? <;> simp

/-- changing a cell in place -/
theorem load_modify {h : Heap T B} {p : Ptr} {c : Cell T B} (hc : load h p = .ok c) (f : Cell T B → Cell T B) :
    load (modify h p f) p = .ok (f c) := by
  rw [load_eq] at hc ⊢
  rw [modify_same, List.getElem?_modify_eq, hc]; rfl

theorem modify_eq_set {h : Heap T B} {p : Ptr} {c : Cell T B} (hc : load h p = .ok c) (f : Cell T B → Cell T B) :
    (modify h p f).arrays p.arr = (h.arrays p.arr).set p.idx (f c) := by
  rw [load_eq] at hc
  rw [modify_same]
  apply List.ext_getElem?
  intro i
  by_cases hi : p.idx = i
  · subst hi
    obtain ⟨hlt, rfl⟩ := List.getElem?_eq_some_iff.1 hc
    rw [List.getElem?_modify_eq, List.getElem?_set_self hlt, hc]; rfl
  · simp [List.getElem?_set_ne hi, hi]

/-- `append` of one child -/
theorem append_spec (cfg : Cfg B) {h : Heap T B} {s : Slice} {l : List (Kid T B)} {x : Kid T B} (hk : Kids h.arrays s l)
    (hx : Rep h.arrays x.1 x.2.1 x.2.2) (ho : Own h (s.arr :: (foot l ++ x.2.2))) :
    ∃ h' s', append cfg h s [x.1] = (h', s') ∧ Kids h'.arrays s' (l ++ [x]) ∧ Own h' (s'.arr :: foot (l ++ [x])) ∧
      Frame h h' [s.arr] ∧ (s'.arr = s.arr ∨ h.next ≤ s'.arr) := by
  have hle := hk.le
  have hn := List.nodup_cons.1 ho.nodup
  have hne : ∀ a ∈ foot l ++ x.2.2, a ≠ s.arr := fun a ha e => hn.1 (e ▸ ha)
  unfold append
  by_cases hcap : s.len + [x.1].length ≤ (h.arrays s.arr).length
  · simp only [if_pos hcap]
    refine ⟨_, _, rfl, ⟨?_, ?_, by simp [hk.len]⟩, ?_, Frame.setArr _ _ _, Or.inl rfl⟩
    · intro y hy
      rcases List.mem_append.1 hy with hy | hy
      · exact (hk.rep y hy).frame (fun a ha => setArr_ne _ _ (hne a (List.mem_append_left _ (mem_foot.2 ⟨y, hy, ha⟩))))
      · rw [List.mem_singleton] at hy; subst hy
        exact hx.frame (fun a ha => setArr_ne _ _ (hne a (List.mem_append_right _ ha)))
    · simp only [setArr_same, List.map_append, List.map_cons, List.map_nil, ← hk.take]
      rw [List.take_append_of_le_length (by simp; omega), List.take_of_length_le (by simp)]
    · simpa using (show Own (Mem.setArr h s.arr _) _ from ⟨ho.nodup, ho.lt, ho.gt⟩)
  · simp only [if_neg hcap]
    have hnx : ∀ a ∈ s.arr :: (foot l ++ x.2.2), a ≠ h.next := fun a ha => Nat.ne_of_lt (ho.lt a ha)
    refine ⟨_, _, rfl, ⟨?_, ?_, by simp [hk.len]⟩, ?_, (Frame.alloc _ _).mono (by simp), Or.inr (Nat.le_refl _)⟩
    · intro y hy
      rcases List.mem_append.1 hy with hy | hy
      · exact (hk.rep y hy).frame (fun a ha => alloc_ne _ _ (hnx a (List.mem_cons_of_mem _ (List.mem_append_left _ (mem_foot.2 ⟨y, hy, ha⟩)))))
      · rw [List.mem_singleton] at hy; subst hy
        exact hx.frame (fun a ha => alloc_ne _ _ (hnx a (List.mem_cons_of_mem _ (List.mem_append_right _ ha))))
    · simp only [alloc_id, alloc_same, List.map_append, List.map_cons, List.map_nil, ← hk.take]
      rw [List.take_append_of_le_length (by simp; omega), List.take_of_length_le (by simp)]
    · simp only [alloc_id, foot_append, foot_cons, foot_nil, List.append_nil]
      refine ⟨List.nodup_cons.2 ⟨fun hm => hnx _ (List.mem_cons_of_mem _ hm) rfl, hn.2⟩, ?_, ?_⟩
      · intro a ha
        rcases List.mem_cons.1 ha with rfl | ha
        · simp
        · have := ho.lt a (List.mem_cons_of_mem _ ha); simp; omega
      · intro a ha
        rcases List.mem_cons.1 ha with rfl | ha
        · have := ho.lt s.arr List.mem_cons_self
          have := ho.gt s.arr List.mem_cons_self
          omega
        · exact ho.gt a (List.mem_cons_of_mem _ ha)

/-- between `h` and `h'` the cell at `p` became `c`, and otherwise only the listed arrays changed -/
structure Upd (h h' : Heap T B) (p : Ptr) (F : List Nat) (c : Cell T B) : Prop where
  frame : Frame h h' (p.arr :: F)
  arr : h'.arrays p.arr = (h.arrays p.arr).set p.idx c

theorem Upd.load_eq {h h' : Heap T B} {p : Ptr} {F : List Nat} {c c0 : Cell T B} (hu : Upd h h' p F c) (h0 : load h p = .ok c0) :
    load h' p = .ok c := by
  rw [Mem.load_eq] at h0 ⊢
  rw [hu.arr, List.getElem?_set_self (List.getElem?_eq_some_iff.1 h0).1]

theorem Upd.trans {h h1 h2 : Heap T B} {p : Ptr} {F F' : List Nat} {c c' : Cell T B} (a : Upd h h1 p F c) (b : Upd h1 h2 p F' c')
    (hs : ∀ x ∈ F', x ∈ F ∨ h.next ≤ x) : Upd h h2 p F c' :=
  ⟨a.frame.trans b.frame (fun x hx => by
      rcases List.mem_cons.1 hx with rfl | hx
      · exact Or.inl List.mem_cons_self
      · rcases hs x hx with h | h
        · exact Or.inl (List.mem_cons_of_mem _ h)
        · exact Or.inr h),
    by rw [b.arr, a.arr, List.set_set]⟩

theorem Upd.of_modify {h : Heap T B} {p : Ptr} {c : Cell T B} (hc : load h p = .ok c) (f : Cell T B → Cell T B) : Upd h (modify h p f) p [] (f c) :=
  ⟨Frame.modify _ _ _, modify_eq_set hc f⟩

theorem Upd.mono {h h' : Heap T B} {p : Ptr} {F F' : List Nat} {c : Cell T B} (hu : Upd h h' p F c) (hs : ∀ a ∈ F, a ∈ F') : Upd h h' p F' c :=
  ⟨hu.frame.mono (by simp only [List.mem_cons]; rintro a (h | h); exacts [Or.inl h, Or.inr (hs a h)]), hu.arr⟩

/-- a change elsewhere, followed by a change of the cell -/
theorem Frame.upd {h h1 h2 : Heap T B} {p : Ptr} {F F' : List Nat} {c : Cell T B} (hf : Frame h h1 F) (hp : p.arr < h.next) (hp' : p.arr ∉ F)
    (hu : Upd h1 h2 p F' c) (hs : ∀ x ∈ F', x ∈ F ∨ h.next ≤ x) : Upd h h2 p F c :=
  ⟨(hf.mono (fun _ => List.mem_cons_of_mem _)).trans hu.frame (fun x hx => by
      rcases List.mem_cons.1 hx with rfl | hx
      · exact Or.inl List.mem_cons_self
      · rcases hs x hx with h | h
        · exact Or.inl (List.mem_cons_of_mem _ h)
        · exact Or.inr h),
    by rw [hu.arr, hf.same _ hp hp']⟩

theorem load_frame {h h1 : Heap T B} {F : List Nat} (hf : Frame h h1 F) {p : Ptr} (hp : p.arr < h.next) (hp' : p.arr ∉ F) : load h1 p = load h p := by
  unfold load; rw [hf.same _ hp hp']

theorem addChild_spec (cfg : Cfg B) {h : Heap T B} {p : Ptr} {c : Cell T B} {l : List (Kid T B)} {x : Kid T B} (hc : load h p = .ok c)
    (hk : Kids h.arrays c.children l) (hx : Rep h.arrays x.1 x.2.1 x.2.2) (ho : Own h (c.children.arr :: (foot l ++ x.2.2)))
    (hp : p.arr < h.next) (hp' : p.arr ∉ c.children.arr :: (foot l ++ x.2.2)) :
    ∃ h' s', addChild cfg h p x.1 = .ok h' ∧ Upd h h' p [c.children.arr] { c with children := s' } ∧ Kids h'.arrays s' (l ++ [x]) ∧
      Own h' (s'.arr :: foot (l ++ [x])) ∧ p.arr ∉ s'.arr :: foot (l ++ [x]) ∧ (s'.arr = c.children.arr ∨ h.next ≤ s'.arr) := by
  obtain ⟨h', s', e, k', o', f', a'⟩ := append_spec cfg hk hx ho
  have hpn : p.arr ∉ [c.children.arr] := fun hm => hp' (by simp at hm; simp [hm])
  have hl : load h' p = .ok c := by rw [load_frame f' hp hpn, hc]
  have hps : p.arr ∉ s'.arr :: foot (l ++ [x]) := by
    intro hm
    rcases List.mem_cons.1 hm with hm | hm
    · rcases a' with a' | a'
      · exact hp' (by rw [hm, a']; exact List.mem_cons_self)
      · omega
    · exact hp' (List.mem_cons_of_mem _ (by simpa using hm))
  have hu := Upd.of_modify hl (fun c => { c with children := s' })
  refine ⟨_, s', by rw [addChild, hc, Res.ok_bind, e]; rfl, f'.upd hp hpn hu (by simp), ?_, ⟨o'.nodup, o'.lt, o'.gt⟩, hps, a'⟩
  have hne : ∀ a ∈ s'.arr :: foot (l ++ [x]), a ≠ p.arr := fun a ha e => hps (e ▸ ha)
  exact k'.frame (modify_ne _ _ _ (hne _ List.mem_cons_self)) (fun a ha => modify_ne _ _ _ (hne _ (List.mem_cons_of_mem _ ha)))

theorem calcBBox_spec {h : Heap T B} {p : Ptr} {c : Cell T B} (hc : load h p = .ok c) :
    ∃ h', calcBBox h p = .ok h' ∧ Upd h h' p [] { c with bbox := boxOf h c.children } :=
  ⟨_, by rw [calcBBox, hc]; rfl, Upd.of_modify hc _⟩

/-- `append` of one cell, whatever it stands for -/
theorem append_cell (cfg : Cfg B) (h : Heap T B) (s : Slice) (c : Cell T B) (hs : s.len ≤ (h.arrays s.arr).length) (hn : s.arr < h.next) :
    ∃ h' s', append cfg h s [c] = (h', s') ∧ cells h' s' = cells h s ++ [c] ∧ s'.len = s.len + 1 ∧ s'.len ≤ (h'.arrays s'.arr).length ∧
      Frame h h' [s.arr] ∧ (s'.arr = s.arr ∨ s'.arr = h.next) ∧ s'.arr < h'.next := by
  unfold append
  by_cases hcap : s.len + [c].length ≤ (h.arrays s.arr).length
  · simp only [if_pos hcap]
    refine ⟨_, _, rfl, ?_, rfl, ?_, Frame.setArr _ _ _, Or.inl rfl, hn⟩
    · simp only [cells, setArr_same]
      rw [List.take_append_of_le_length (by simp; omega), List.take_of_length_le (by simp)]
    · simp only [setArr_same]; simp at hcap ⊢; omega
  · simp only [if_neg hcap]
    refine ⟨_, _, rfl, ?_, rfl, ?_, (Frame.alloc _ _).mono (by simp), Or.inr rfl, by simp⟩
    · simp only [cells, alloc_id, alloc_same]
      rw [List.take_append_of_le_length (by simp; omega), List.take_of_length_le (by simp)]
    · simp; omega

/-- the loop of `splitAtIndex` moves `k` elements and keeps those before -/
theorem splitAtLoop_spec (cfg : Cfg B) : ∀ (k : Nat) (h : Heap T B) (nodes ext : Slice) (i : Nat), i + k ≤ (h.arrays nodes.arr).length →
    ext.len ≤ (h.arrays ext.arr).length → ext.arr < h.next → nodes.arr < h.next → ext.arr ≠ nodes.arr →
    ∃ h' ext', splitAtLoop cfg k h nodes ext i = .ok (h', ext') ∧ cells h' ext' = cells h ext ++ ((h.arrays nodes.arr).drop i).take k ∧
      ext'.len = ext.len + k ∧ (h'.arrays nodes.arr).take i = (h.arrays nodes.arr).take i ∧ Frame h h' [nodes.arr, ext.arr] ∧
      (ext'.arr = ext.arr ∨ h.next ≤ ext'.arr) ∧ ext'.arr < h'.next := by
  intro k
  induction k with
  | zero => intro h nodes ext i _ _ he _ _; exact ⟨h, ext, rfl, by simp, rfl, rfl, Frame.refl _ _, Or.inl rfl, he⟩
  | succ k ih =>
    intro h nodes ext i hi hcap he hn hne
    have hlt : i < (h.arrays nodes.arr).length := by omega
    have hld : load h ⟨nodes.arr, i⟩ = .ok (h.arrays nodes.arr)[i] := load_eq.2 (List.getElem?_eq_getElem hlt)
    obtain ⟨h1, e1, q1, q2, q3, q4, q5, q6, q7⟩ := append_cell cfg h ext (h.arrays nodes.arr)[i] hcap he
    have hne1 : e1.arr ≠ nodes.arr := by rcases q6 with q6 | q6 <;> omega
    have ha1 : h1.arrays nodes.arr = h.arrays nodes.arr := q5.same _ hn (by simpa using hne.symm)
    have hld1 : load h1 ⟨nodes.arr, i⟩ = .ok (h.arrays nodes.arr)[i] := load_eq.2 (by simp only [ha1]; exact List.getElem?_eq_getElem hlt)
    have hm := modify_eq_set hld1 (fun _ => zeroCell cfg)
    have hme : (modify h1 ⟨nodes.arr, i⟩ (fun _ => zeroCell cfg)).arrays e1.arr = h1.arrays e1.arr := modify_ne _ _ _ hne1
    simp only [ha1] at hm
    obtain ⟨h2, e2, r1, r2, r3, r4, r5, r6, r7⟩ := ih (modify h1 ⟨nodes.arr, i⟩ (fun _ => zeroCell cfg)) nodes e1 (i + 1)
      (by rw [hm, List.length_set]; omega) (by rw [hme]; exact q4) q7 (Nat.lt_of_lt_of_le hn q5.next) hne1
    have hnx : h.next ≤ h1.next := q5.next
    refine ⟨h2, e2, ?_, ?_, by omega, ?_, ?_, ?_, r7⟩
    · rw [splitAtLoop, hld, Res.ok_bind, q1]; exact r1
    · have : cells (modify h1 ⟨nodes.arr, i⟩ (fun _ => zeroCell cfg)) e1 = cells h1 e1 := by rw [cells, hme, cells]
      rw [r2, this, q2, hm, List.append_assoc, List.drop_set_of_lt (by omega)]
      congr 1
      rw [List.drop_eq_getElem_cons hlt, List.take_succ_cons]; rfl
    · have := congrArg (List.take i) r4
      rw [List.take_take, List.take_take, Nat.min_eq_left (by omega)] at this
      rw [this, hm, List.take_set_of_le (by omega)]
    · refine Frame.trans (q5.mono (by simp)) (Frame.trans ((Frame.modify _ _ _).mono (F' := [nodes.arr, e1.arr]) (by simp)) r5 (fun x hx => Or.inl hx)) ?_
      intro x hx
      simp only [List.mem_cons, List.not_mem_nil, or_false] at hx ⊢
      rcases hx with rfl | rfl
      · exact Or.inl (Or.inl rfl)
      · rcases q6 with q6 | q6
        · exact Or.inl (Or.inr q6)
        · exact Or.inr (Nat.le_of_eq q6.symm)
    · have hmx : (modify h1 ⟨nodes.arr, i⟩ (fun _ => zeroCell cfg)).next = h1.next := rfl
      rcases r6 with r6 | r6
      · rcases q6 with q6 | q6
        · exact Or.inl (r6.trans q6)
        · right; omega
      · right; omega

theorem filterMap_getElem_map {α β : Type} (f : α → β) (l : List α) (is : List Nat) :
    is.filterMap (fun i => (l.map f)[i]?) = (is.filterMap (fun i => l[i]?)).map f := by
  induction is with
  | nil => rfl
  | cons i is ih =>
    rw [List.filterMap_cons, List.filterMap_cons, ih, List.getElem?_map]
    cases l[i]? <;> rfl

theorem filterMap_range_perm {α : Type} (l : List α) {is : List Nat} (h : is.Perm (List.range l.length)) :
    (is.filterMap (fun i => l[i]?)).Perm l := by
  refine (h.filterMap _).trans ?_
  have : (List.range l.length).filterMap (fun i => l[i]?) = l := by
    clear h
    induction l with
    | nil => rfl
    | cons a l ih =>
      rw [List.length_cons, List.range_succ_eq_map, List.filterMap_cons]
      simp [List.filterMap_map, ih]
  rw [this]

/-- hdb/split.go: splitting a node in memory is splitting its value -/
theorem splitNode_spec (cfg : Cfg B) (H : MHeur T B) (hperm : ∀ bs, (H.perm bs).Perm (List.range bs.length)) {h : Heap T B} {p : Ptr} {c : Cell T B}
    {l : List (Kid T B)} (hc : load h p = .ok c) (hk : Kids h.arrays c.children l) (ho : Own h (c.children.arr :: foot l))
    (hp : p.arr < h.next) (hp' : p.arr ∉ c.children.arr :: foot l) (hit : c.item = none)
    (hat : ∀ bs : List (Box B), bs.length = l.length → H.splitIdx bs ≤ l.length) :
    ∃ h' sib c' fa fb, splitNode cfg H h p = .ok (h', sib) ∧ Upd h h' p (c.children.arr :: foot l) c' ∧
      Rep h'.arrays c' (Hdb.splitNode H.toHeur (l.map (·.2.1)) c.height c.leaf).1 fa ∧
      Rep h'.arrays sib (Hdb.splitNode H.toHeur (l.map (·.2.1)) c.height c.leaf).2 fb ∧
      Own h' (fa ++ fb) ∧ p.arr ∉ fa ++ fb ∧ (∀ a ∈ fa ++ fb, a ∈ c.children.arr :: foot l ∨ h.next ≤ a) := by
  obtain ⟨hn1, hn2⟩ := List.nodup_cons.1 ho.nodup
  have harr : c.children.arr < h.next := ho.lt _ List.mem_cons_self
  have hp1 : p.arr ≠ c.children.arr := fun e => hp' (by rw [e]; exact List.mem_cons_self)
  -- the sorted children
  let bs := (l.map (·.2.1)).map DbNode.bbox
  let l' := (H.perm bs).filterMap (fun i => l[i]?)
  have hl' : l'.Perm l := filterMap_range_perm l (by simpa [bs] using hperm bs)
  have hll : l'.length = l.length := hl'.length_eq
  have e1 : (H.perm ((cells h c.children).map Cell.bbox)).filterMap (fun i => (cells h c.children)[i]?) = l'.map (·.1) := by
    rw [hk.boxes, cells, hk.take, filterMap_getElem_map]
  let h1 := sortChildren H h c.children
  have hs1 : h1.arrays c.children.arr = l'.map (·.1) ++ (h.arrays c.children.arr).drop c.children.len := by
    simp only [h1, sortChildren, setArr_same, e1]
  have f1 : Frame h h1 [c.children.arr] := Frame.setArr _ _ _
  have k1 : Kids h1.arrays c.children l' := by
    refine ⟨fun x hx => (hk.rep x (hl'.mem_iff.1 hx)).frame (fun a ha => setArr_ne _ _ ?_), ?_, by rw [hll, hk.len]⟩
    · intro e; exact hn1 (e ▸ mem_foot.2 ⟨x, hl'.mem_iff.1 hx, ha⟩)
    · rw [hs1, List.take_append_of_le_length (by simp [hll, hk.len]), List.take_of_length_le (by simp [hll, hk.len])]
  have hfl : (foot l').Perm (foot l) := foot_perm hl'
  -- the position
  let at_ := H.splitIdx ((cells h1 c.children).map Cell.bbox)
  have hatE : at_ = H.splitIdx ((l'.map (·.2.1)).map DbNode.bbox) := by simp only [at_]; rw [k1.boxes]
  have hatL : at_ ≤ l.length := by rw [hatE]; exact hat _ (by simp [hll])
  have hlen := hk.len
  -- splitAtIndex
  let r := alloc h1 (List.replicate (c.children.len - at_) (zeroCell cfg))
  have hr0 : r.1.arrays c.children.arr = h1.arrays c.children.arr := alloc_ne _ _ (by have : h1.next = h.next := rfl; omega)
  have hcap := k1.le
  obtain ⟨h2, ext, q1, q2, q3, q4, q5, q6, q7⟩ := splitAtLoop_spec cfg (c.children.len - at_) r.1 c.children ⟨r.2, 0⟩ at_
    (by rw [hr0]; omega) (by simp) (by simp [r]) (by show _ < h1.next + 1; have : h1.next = h.next := rfl; omega)
    (by show h1.next ≠ _; have : h1.next = h.next := rfl; omega)
  have f2 : Frame h h2 [c.children.arr] := by
    refine Frame.trans (Frame.trans f1 (Frame.alloc _ _) (by simp)) q5 (fun x hx => ?_)
    simp only [List.mem_cons, List.not_mem_nil, or_false] at hx ⊢
    rcases hx with rfl | rfl
    · exact Or.inl rfl
    · exact Or.inr (Nat.le_refl h.next)
  have hext : h.next ≤ ext.arr := by
    rcases q6 with q6 | q6
    · rw [q6]; exact Nat.le_refl h.next
    · exact Nat.le_trans (Nat.le_succ _) q6
  have hrep2 : ∀ x ∈ l', Rep h2.arrays x.1 x.2.1 x.2.2 := fun x hx => (hk.rep x (hl'.mem_iff.1 hx)).frame (fun a ha => by
    have ham : a ∈ foot l := mem_foot.2 ⟨x, hl'.mem_iff.1 hx, ha⟩
    exact f2.same a (ho.lt a (List.mem_cons_of_mem _ ham)) (by intro e; rw [List.mem_singleton] at e; exact hn1 (e ▸ ham)))
  have kL : Kids h2.arrays ⟨c.children.arr, at_⟩ (l'.take at_) := by
    refine ⟨fun x hx => hrep2 x (List.mem_of_mem_take hx), ?_, by simp; omega⟩
    show (h2.arrays c.children.arr).take at_ = _
    rw [q4, hr0, hs1, List.take_append_of_le_length (by simp; omega), List.map_take]
  have kR : Kids h2.arrays ext (l'.drop at_) := by
    refine ⟨fun x hx => hrep2 x (List.mem_of_mem_drop hx), ?_, ?_⟩
    · show cells h2 ext = _
      rw [q2, hr0, hs1]
      have : cells r.1 ⟨r.2, 0⟩ = [] := by simp [cells]
      rw [this, List.nil_append, List.drop_append_of_le_length (by simp; omega), List.take_append_of_le_length (by simp; omega),
        List.take_of_length_le (by simp; omega), List.map_drop]
    · rw [q3]; simp; omega
  -- the two headers
  have hpn : p.arr ∉ [c.children.arr] := by simpa using hp1
  have hl2 : load h2 p = .ok c := by rw [load_frame f2 hp hpn, hc]
  have u3 := Upd.of_modify hl2 (fun d => { d with children := ⟨c.children.arr, at_⟩ })
  have hl3 := load_modify hl2 (fun d => { d with children := ⟨c.children.arr, at_⟩ })
  obtain ⟨h4, e4, u4⟩ := calcBBox_spec hl3
  have u34 := f2.upd hp hpn (u3.trans u4 (by simp)) (by simp)
  have u := u34.mono (F' := c.children.arr :: foot l) (by simp)
  have hpx : p.arr ∉ (c.children.arr :: foot (l'.take at_)) ++ (ext.arr :: foot (l'.drop at_)) := by
    intro hm
    rcases List.mem_append.1 hm with hm | hm
    · rcases List.mem_cons.1 hm with hm | hm
      · exact hp1 hm
      · obtain ⟨x, hx, hx'⟩ := mem_foot.1 hm
        exact hp' (List.mem_cons_of_mem _ (mem_foot.2 ⟨x, hl'.mem_iff.1 (List.mem_of_mem_take hx), hx'⟩))
    · rcases List.mem_cons.1 hm with hm | hm
      · omega
      · obtain ⟨x, hx, hx'⟩ := mem_foot.1 hm
        exact hp' (List.mem_cons_of_mem _ (mem_foot.2 ⟨x, hl'.mem_iff.1 (List.mem_of_mem_drop hx), hx'⟩))
  have hsame : ∀ a, a ≠ p.arr → a < h2.next → h4.arrays a = h2.arrays a := fun a ha hlt => by
    rw [u4.frame.same a hlt (by simpa using ha), modify_ne _ _ _ ha]
  have hsub : ∀ a ∈ foot l', a < h2.next := fun a ha => Nat.lt_of_lt_of_le (ho.lt a (List.mem_cons_of_mem _ (hfl.mem_iff.1 ha))) f2.next
  have hft : ∀ a ∈ foot (l'.take at_), a ∈ foot l' := fun a ha => by
    obtain ⟨x, hx, hx'⟩ := mem_foot.1 ha; exact mem_foot.2 ⟨x, List.mem_of_mem_take hx, hx'⟩
  have hfd : ∀ a ∈ foot (l'.drop at_), a ∈ foot l' := fun a ha => by
    obtain ⟨x, hx, hx'⟩ := mem_foot.1 ha; exact mem_foot.2 ⟨x, List.mem_of_mem_drop hx, hx'⟩
  have kL4 : Kids h4.arrays ⟨c.children.arr, at_⟩ (l'.take at_) :=
    kL.frame (hsame _ (fun e => hp1 e.symm) (Nat.lt_of_lt_of_le harr f2.next))
      (fun a ha => hsame a (fun e => hpx (e ▸ List.mem_append_left _ (List.mem_cons_of_mem _ ha))) (hsub a (hft a ha)))
  have kR4 : Kids h4.arrays ext (l'.drop at_) :=
    kR.frame (hsame _ (fun e => by omega) q7)
      (fun a ha => hsame a (fun e => hpx (e ▸ List.mem_append_right _ (List.mem_cons_of_mem _ ha))) (hsub a (hfd a ha)))
  have kL3 : Kids (modify h2 p (fun d => { d with children := ⟨c.children.arr, at_⟩ })).arrays ⟨c.children.arr, at_⟩ (l'.take at_) :=
    kL.frame (modify_ne _ _ _ (fun e => hp1 e.symm))
      (fun a ha => modify_ne _ _ _ (fun e => hpx (e ▸ List.mem_append_left _ (List.mem_cons_of_mem _ ha))))
  have hbL := kL3.boxOf
  have hbR := kR4.boxOf
  have hnx4 : h2.next ≤ h4.next := u4.frame.next
  refine ⟨h4, { children := ext, item := none, height := c.height, leaf := c.leaf, bbox := boxOf h4 ext }, _,
    c.children.arr :: foot (l'.take at_), ext.arr :: foot (l'.drop at_), ?_, u, ?_, ?_, ?_, hpx, ?_⟩
  · unfold splitNode
    rw [hc]
    simp only [Res.ok_bind]
    unfold splitAtIndex
    rw [if_neg (by simp only [at_, h1] at hatL; omega)]
    simp only [r, h1, at_] at q1
    simp only [q1, Res.ok_bind, Res.pure_eq]
    simp only [at_, h1] at e4
    rw [e4]; rfl
  · have := Rep.of_kids (c := { c with children := ⟨c.children.arr, at_⟩, bbox := boxOf (modify h2 p (fun d => { d with children := ⟨c.children.arr, at_⟩ })) ⟨c.children.arr, at_⟩ }) kL4
    rw [hbL] at this ⊢
    convert this using 1
    simp only [Hdb.splitNode, MHeur.toHeur, hit]
    rw [filterMap_getElem_map, ← List.map_take, ← hatE]
  · have := Rep.of_kids (c := ({ children := ext, item := none, height := c.height, leaf := c.leaf, bbox := boxOf h4 ext } : Cell T B)) kR4
    rw [hbR] at this ⊢
    convert this using 1
    simp only [Hdb.splitNode, MHeur.toHeur]
    rw [filterMap_getElem_map, ← List.map_drop, ← hatE]
  · have hpm : ((c.children.arr :: foot (l'.take at_)) ++ (ext.arr :: foot (l'.drop at_))).Perm (ext.arr :: c.children.arr :: foot l) := by
      have h1 : foot (l'.take at_) ++ foot (l'.drop at_) = foot l' := by rw [← foot_append, List.take_append_drop]
      refine List.perm_middle.trans (List.Perm.cons _ ?_)
      rw [List.cons_append, h1]
      exact List.Perm.cons _ hfl
    refine Own.of_perm ?_ hpm.symm
    refine ⟨List.nodup_cons.2 ⟨fun hm => ?_, ho.nodup⟩, ?_, ?_⟩
    · have := ho.lt _ hm; omega
    · intro a ha
      rcases List.mem_cons.1 ha with rfl | ha
      · omega
      · have := ho.lt _ ha; have := f2.next; omega
    · intro a ha
      rcases List.mem_cons.1 ha with rfl | ha
      · have := ho.gt _ (List.mem_cons_self (a := c.children.arr) (l := foot l)); omega
      · exact ho.gt _ ha
  · intro a ha
    rcases List.mem_append.1 ha with ha | ha
    · left
      rcases List.mem_cons.1 ha with rfl | ha
      · exact List.mem_cons_self
      · exact List.mem_cons_of_mem _ (hfl.mem_iff.1 (hft a ha))
    · rcases List.mem_cons.1 ha with rfl | ha
      · exact Or.inr hext
      · exact Or.inl (List.mem_cons_of_mem _ (hfl.mem_iff.1 (hfd a ha)))

end Verif.Hdb.Mem
