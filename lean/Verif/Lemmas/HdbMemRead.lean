import Verif.Lemmas.HdbMemRemove
import Verif.Lemmas.HdbSearch

/-! Reading the index in memory is reading the tree of values. -/

set_option linter.unusedSectionVars false

namespace Verif.Hdb.Mem

variable {T B : Type} [LinearOrder B] [BoundedOrder B]

theorem childPtrs_sees {h : Heap T B} {c : Cell T B} {l : List (Kid T B)} (hk : Kids h.arrays c.children l) :
    List.Forall₂ (Sees h) (childPtrs c.children) (l.map (·.2.1)) := by
  rw [List.forall₂_iff_get]
  refine ⟨by simp [childPtrs, hk.len], fun i h1 h2 => ?_⟩
  have hi : i < c.children.len := by simpa [childPtrs] using h1
  rcases sees_child hk i with ⟨a, _⟩ | ⟨_, n, a, b⟩
  · omega
  · obtain ⟨_, e⟩ := List.getElem?_eq_some_iff.1 a
    simp only [childPtrs, List.get_eq_getElem, List.getElem_map, List.getElem_range] at e ⊢
    rw [e]; exact b

theorem Rep.cells_item {h : Heap T B} {c : Cell T B} {l : List (Kid T B)} (hk : Kids h.arrays c.children l) :
    (cells h c.children).map Cell.item = (l.map (·.2.1)).map DbNode.item := by
  rw [cells, hk.take, List.map_map, List.map_map]
  refine List.map_congr_left (fun x hx => ?_)
  obtain ⟨_, _, e, _⟩ := (hk.rep x hx).inv
  simp only [Function.comp, e]; rfl

/-- what a pointer shows of a node -/
theorem Sees.inv {h : Heap T B} {p : Ptr} {n : DbNode T B} (hs : Sees h p n) :
    ∃ c, load h p = .ok c ∧ c.leaf = n.leaf ∧ c.bbox = n.bbox ∧ c.item = n.item ∧ (cells h c.children).map Cell.item = n.children.map DbNode.item ∧
      List.Forall₂ (Sees h) (childPtrs c.children) n.children := by
  obtain ⟨c, fp, hc, hr⟩ := hs
  obtain ⟨l, hk, rfl, rfl⟩ := hr.inv
  exact ⟨c, hc, rfl, rfl, rfl, Rep.cells_item hk, childPtrs_sees hk⟩

theorem allLoop_mem {h : Heap T B} : ∀ (fuel : Nat) (p : Ptr) (n : DbNode T B) (st : List Ptr) (st' : List (DbNode T B)) (result : List (Option T)),
    Sees h p n → List.Forall₂ (Sees h) st st' → allLoop h fuel p st result = Hdb.allLoop fuel n st' result := by
  intro fuel
  induction fuel with
  | zero => intros; rfl
  | succ fuel ih =>
    intro p n st st' result hs hst
    obtain ⟨c, hc, hlf, _, _, hit, hch⟩ := hs.inv
    rw [allLoop, hc, Res.ok_bind, Hdb.allLoop, hit, hlf]
    have hst2 : List.Forall₂ (Sees h) (if n.leaf then st else (childPtrs c.children).reverse ++ st) (if n.leaf then st' else n.children.reverse ++ st') := by
      split
      · exact hst
      · exact List.rel_append (List.rel_reverse hch) hst
    revert hst2
    generalize (if n.leaf then st else (childPtrs c.children).reverse ++ st) = s1
    generalize (if n.leaf then st' else n.children.reverse ++ st') = s2
    intro hst2
    cases hst2 with
    | nil => rfl
    | cons hq hqs => exact ih _ _ _ _ _ hq hqs

/-- the result of the inner loop of `Search`, in memory and in values -/
def SameSearch (h : Heap T B) (a : Res (List Ptr × List (Option T))) (b : Res (List (DbNode T B) × List (Option T))) : Prop :=
  match a, b with
  | .ok x, .ok y => List.Forall₂ (Sees h) x.1 y.1 ∧ x.2 = y.2
  | .timeout, .timeout => True
  | .panic, .panic => True
  | _, _ => False

theorem searchChildren_mem {h : Heap T B} (fuel : Nat) (q : Box B) (leaf : Bool) : ∀ (ps : List Ptr) (ns : List (DbNode T B)) (st : List Ptr) (st' : List (DbNode T B))
    (result : List (Option T)), List.Forall₂ (Sees h) ps ns → List.Forall₂ (Sees h) st st' →
    SameSearch h (searchChildren h fuel q leaf ps st result) (Hdb.searchChildren fuel q leaf ns st' result) := by
  intro ps
  induction ps with
  | nil => intro ns st st' result hp hst; cases hp; exact ⟨hst, rfl⟩
  | cons p ps ih =>
    intro ns st st' result hp hst
    cases hp with
    | @cons _ n _ ns hs hps =>
      obtain ⟨c, hc, _, hbb, hit, _, _⟩ := hs.inv
      rw [searchChildren, hc, Res.ok_bind, Hdb.searchChildren, hbb, hit]
      split_ifs
      · exact ih _ _ _ _ hps hst
      · rw [allLoop_mem fuel p n [] [] result hs List.Forall₂.nil]
        cases Hdb.allLoop fuel n [] result with
        | ok r => exact ih _ _ _ _ hps hst
        | timeout => trivial
        | panic => trivial
      · exact ih _ _ _ _ hps (List.Forall₂.cons hs hst)
      · exact ih _ _ _ _ hps hst

theorem searchLoop_mem {h : Heap T B} (q : Box B) : ∀ (fuel : Nat) (p : Ptr) (n : DbNode T B) (st : List Ptr) (st' : List (DbNode T B)) (result : List (Option T)),
    Sees h p n → List.Forall₂ (Sees h) st st' → searchLoop h q fuel p st result = Hdb.searchLoop q fuel n st' result := by
  intro fuel
  induction fuel with
  | zero => intros; rfl
  | succ fuel ih =>
    intro p n st st' result hs hst
    obtain ⟨c, hc, hlf, _, _, _, hch⟩ := hs.inv
    rw [searchLoop, hc, Res.ok_bind, Hdb.searchLoop, hlf]
    have := searchChildren_mem fuel q n.leaf _ _ _ _ result hch hst
    revert this
    generalize searchChildren h fuel q n.leaf (childPtrs c.children) st result = a
    generalize Hdb.searchChildren fuel q n.leaf n.children st' result = b
    intro hab
    cases a with
    | ok x =>
      cases b with
      | ok y =>
        obtain ⟨x1, x2⟩ := x
        obtain ⟨y1, y2⟩ := y
        obtain ⟨h1, h2⟩ := hab
        simp only at h1 h2
        subst h2
        cases h1 with
        | nil => rfl
        | cons hq hqs => exact ih _ _ _ _ _ hq hqs
      | timeout => exact hab.elim
      | panic => exact hab.elim
    | timeout => cases b <;> first | rfl | exact hab.elim
    | panic => cases b <;> first | rfl | exact hab.elim

theorem collidesChildren_mem {h : Heap T B} (q : Box B) (leaf : Bool) : ∀ (ps : List Ptr) (ns : List (DbNode T B)) (st : List Ptr) (st' : List (DbNode T B)),
    List.Forall₂ (Sees h) ps ns → List.Forall₂ (Sees h) st st' →
    ∃ st2, collidesChildren h q leaf ps st = .ok ((Hdb.collidesChildren q leaf ns st').1, st2) ∧ List.Forall₂ (Sees h) st2 (Hdb.collidesChildren q leaf ns st').2 := by
  intro ps
  induction ps with
  | nil => intro ns st st' hp hst; cases hp; exact ⟨st, rfl, hst⟩
  | cons p ps ih =>
    intro ns st st' hp hst
    cases hp with
    | @cons _ n _ ns hs hps =>
      obtain ⟨c, hc, _, hbb, _⟩ := hs.inv
      rw [collidesChildren, hc, Res.ok_bind, Hdb.collidesChildren, hbb]
      split_ifs
      · exact ⟨_, rfl, List.Forall₂.cons hs hst⟩
      · exact ih _ _ _ hps (List.Forall₂.cons hs hst)
      · exact ih _ _ _ hps hst

theorem collidesLoop_mem {h : Heap T B} (q : Box B) : ∀ (fuel : Nat) (p : Ptr) (n : DbNode T B) (st : List Ptr) (st' : List (DbNode T B)),
    Sees h p n → List.Forall₂ (Sees h) st st' → collidesLoop h q fuel p st = Hdb.collidesLoop q fuel n st' := by
  intro fuel
  induction fuel with
  | zero => intros; rfl
  | succ fuel ih =>
    intro p n st st' hs hst
    obtain ⟨c, hc, hlf, _, _, _, hch⟩ := hs.inv
    rw [collidesLoop, hc, Res.ok_bind, Hdb.collidesLoop, hlf]
    obtain ⟨st2, e, hf⟩ := collidesChildren_mem q n.leaf _ _ _ _ hch hst
    rw [e, Res.ok_bind]
    revert hf
    generalize Hdb.collidesChildren q n.leaf n.children st' = b
    obtain ⟨b1, b2⟩ := b
    intro hf
    cases b1 with
    | true => rfl
    | false =>
      cases hf with
      | nil => rfl
      | cons hq hqs => exact ih _ _ _ _ hq hqs

theorem Store.sees {h : Heap T B} {n : DbNode T B} {fp : List Nat} (hs : Store h n fp) : Sees h root n := by
  obtain ⟨c, c0, hr⟩ := hs.cell
  exact ⟨c, fp, load_eq.2 (by simp [root, c0]), hr⟩

theorem all_mem {m : Tree T B} {t : Hdb.Tree T B} {fp : List Nat} (hs : Store m.heap t.data fp) (fuel : Nat) : all m fuel = Hdb.all t fuel := by
  rw [all, Hdb.all, allLoop_mem fuel root t.data [] [] [] hs.sees List.Forall₂.nil]

theorem search_mem {m : Tree T B} {t : Hdb.Tree T B} {fp : List Nat} (hs : Store m.heap t.data fp) (q : Box B) (fuel : Nat) :
    search m q fuel = Hdb.search t q fuel := by
  obtain ⟨c, hc, _, hbb, _⟩ := hs.sees.inv
  rw [search, Hdb.search, hc, Res.ok_bind, hbb, searchLoop_mem q fuel root t.data [] [] [] hs.sees List.Forall₂.nil]

theorem collides_mem {m : Tree T B} {t : Hdb.Tree T B} {fp : List Nat} (hs : Store m.heap t.data fp) (q : Box B) (fuel : Nat) :
    collides m q fuel = Hdb.collides t q fuel := by
  obtain ⟨c, hc, _, hbb, _⟩ := hs.sees.inv
  rw [collides, Hdb.collides, hc, Res.ok_bind, hbb, collidesLoop_mem q fuel root t.data [] [] hs.sees List.Forall₂.nil]

/-- reading the memory gives back the tree -/
theorem decode_rep {ops : ItemOps T B} {M : Nat} {h : Heap T B} : ∀ (hgt : Nat) {n : DbNode T B} {c : Cell T B} {fp : List Nat}, WF ops M hgt n → Rep h.arrays c n fp →
    ∀ d, hgt < d → decode h d c = n := by
  intro hgt
  induction hgt with
  | zero =>
    intro n c fp hw hr d hd
    obtain ⟨t, rfl⟩ := hw
    obtain ⟨l, hk, e, _⟩ := hr.inv
    obtain ⟨d, rfl⟩ := Nat.exists_eq_add_of_le' hd
    have hl : l = [] := by
      have := congrArg DbNode.children e
      simp [Hdb.newLeafNode] at this
      exact this
    subst hl
    rw [e]
    simp only [decode, cells, hk.take, List.map_nil]
  | succ hgt ih =>
    intro n c fp hw hr d hd
    obtain ⟨l, hk, rfl, _⟩ := hr.inv
    obtain ⟨d, rfl⟩ : ∃ k, d = k + 1 := ⟨d - 1, by omega⟩
    simp only [decode, cells, hk.take, List.map_map]
    congr 1
    refine List.map_congr_left (fun x hx => ?_)
    exact ih (hw.child (List.mem_map.2 ⟨x, hx, rfl⟩)) (hk.rep x hx) d (by omega)

theorem decode_store {ops : ItemOps T B} {M : Nat} {h : Heap T B} {n : DbNode T B} {fp : List Nat} (hw : RootWF ops M n) (hs : Store h n fp) :
    ∀ d, n.height < d → ∃ c, load h root = .ok c ∧ decode h d c = n := by
  intro d hd
  obtain ⟨c, c0, hr⟩ := hs.cell
  refine ⟨c, load_eq.2 (by simp [root, c0]), ?_⟩
  rcases hw with rfl | ⟨k, hk⟩
  · obtain ⟨l, hkd, e, _⟩ := hr.inv
    obtain ⟨d, rfl⟩ : ∃ k, d = k + 1 := ⟨d - 1, by omega⟩
    have hl : l = [] := by
      have := congrArg DbNode.children e
      simp at this
      exact this
    subst hl
    rw [e]
    simp only [decode, cells, hkd.take, List.map_nil]
  · exact decode_rep _ hk hr d (by rw [← hk.2.1]; exact hd)

end Verif.Hdb.Mem
