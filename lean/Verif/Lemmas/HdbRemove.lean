import Verif.Lemmas.HdbSearch

/-! `Remove` against the contents. -/

namespace Verif
namespace Hdb

variable {T B : Type} [LinearOrder B] [BoundedOrder B]

/-- over the children from index `j` on -/
def findGo (f : DbNode T B → Option (List Nat × Nat)) (j : Nat) : List (DbNode T B) → Option (List Nat × Nat)
  | [] => none
  | c :: cs => match f c with
    | some (is, idx) => some (j :: is, idx)
    | none => findGo f (j + 1) cs

/-- the recursive search that the iterative traversal performs, on a node of height `h + 1` -/
def find (ops : ItemOps T B) (id : Int) (bbox : Box B) : Nat → DbNode T B → Option (List Nat × Nat)
  | 0, nd => (indexOfId ops id nd.children).map (fun idx => ([], idx))
  | h + 1, nd => if nd.bbox.contains bbox then findGo (find ops id bbox h) 0 nd.children else none

/-- where the traversal continues once a subtree is exhausted -/
def cont (ops : ItemOps T B) (id : Int) (bbox : Box B) (fuel : Nat) (path : List (DbNode T B)) (indexes : List Nat) (i : Nat) :
    Res (Option (List Nat × Nat)) :=
  match path with
  | [] => .ok none
  | p :: _ => removeLoop ops id bbox fuel
      { nd := p.children[i + 1]?, parent := some p, path := path, indexes := indexes, i := i + 1, goingUp := false }

/-- outcome of visiting a subtree -/
def visited (ops : ItemOps T B) (id : Int) (bbox : Box B) (fuel : Nat) (path : List (DbNode T B)) (indexes : List Nat) (i : Nat) :
    Option (List Nat × Nat) → Res (Option (List Nat × Nat))
  | some (is, idx) => .ok (some (((i :: indexes).reverse ++ is).tail, idx))
  | none => cont ops id bbox fuel path indexes i

omit [BoundedOrder B] in
theorem step_right (ops : ItemOps T B) (id : Int) (bbox : Box B) (path : List (DbNode T B)) (indexes : List Nat) (i : Nat)
    (g : Bool) : ∃ k, ∀ fuel,
    (match path.head? with
      | some p => removeLoop ops id bbox (fuel + k) { nd := p.children[i + 1]?, parent := path.head?, path := path, indexes := indexes, i := i + 1, goingUp := false }
      | none => removeLoop ops id bbox (fuel + k) { nd := none, parent := path.head?, path := path, indexes := indexes, i := i, goingUp := g }) =
    cont ops id bbox fuel path indexes i := by
  cases path with
  | nil => exact ⟨1, fun fuel => by simp [cont, removeLoop]⟩
  | cons p ps => exact ⟨0, fun fuel => by simp [cont]⟩

theorem visit_spec {ops : ItemOps T B} {M : Nat} (id : Int) (bbox : Box B) : ∀ (h : Nat) (x : DbNode T B), WF ops M (h + 1) x →
    ∀ (path : List (DbNode T B)) (indexes : List Nat) (i : Nat), ∃ k, ∀ fuel,
      removeLoop ops id bbox (fuel + k) { nd := some x, parent := path.head?, path := path, indexes := indexes, i := i, goingUp := false } =
        visited ops id bbox fuel path indexes i (find ops id bbox h x) := by
  intro h
  induction h with
  | zero =>
    intro x hw path indexes i
    have hl : x.leaf = true := by simpa using hw.2.2.1
    obtain ⟨k, hk⟩ := step_right ops id bbox path indexes i false
    refine ⟨k + 1, fun fuel => ?_⟩
    rw [← Nat.add_assoc]
    simp only [removeLoop, hl, if_true, find]
    cases hi : indexOfId ops id x.children with
    | some idx => simp [visited]
    | none =>
      simp only [Option.map_none, visited, Bool.not_true, Bool.and_false, Bool.false_and, Bool.false_eq_true, if_false]
      rw [← hk fuel]
      cases path.head? <;> rfl
  | succ h ih =>
    intro x hw path indexes i
    have hl : x.leaf = false := by simpa using hw.2.2.1
    have hne : x.children ≠ [] := hw.2.2.2.1
    -- the loop over the children
    have loop : ∀ (cs pre : List (DbNode T B)), x.children = pre ++ cs → ∃ k, ∀ fuel,
        removeLoop ops id bbox (fuel + k) { nd := cs[0]?, parent := some x, path := x :: path, indexes := i :: indexes, i := pre.length, goingUp := false } =
          visited ops id bbox fuel path indexes i (findGo (find ops id bbox h) pre.length cs) := by
      intro cs
      induction cs with
      | nil =>
        intro pre _
        obtain ⟨k, hk⟩ := step_right ops id bbox path indexes i true
        refine ⟨k + 1, fun fuel => ?_⟩
        rw [← Nat.add_assoc]
        simp only [removeLoop, List.getElem?_nil, hl, Bool.false_eq_true, if_false, Bool.not_true, Bool.false_and, findGo, visited,
          List.tail_cons, List.head?_cons, Option.getD_some]
        rw [← hk fuel]
        cases path.head? <;> rfl
      | cons c cs ihc =>
        intro pre hpre
        have hc : WF ops M (h + 1) c := hw.child (by rw [hpre]; simp)
        obtain ⟨k1, hk1⟩ := ih c hc (x :: path) (i :: indexes) pre.length
        obtain ⟨k2, hk2⟩ := ihc (pre ++ [c]) (by simp [hpre])
        refine ⟨k2 + k1, fun fuel => ?_⟩
        have := hk1 (fuel + k2)
        simp only [List.getElem?_cons_zero, ← Nat.add_assoc]
        rw [List.head?_cons] at this
        rw [this]
        simp only [findGo]
        cases hf : find ops id bbox h c with
        | some r => obtain ⟨is, idx⟩ := r; simp [visited]
        | none =>
          simp only [visited, cont]
          have e : x.children[pre.length + 1]? = cs[0]? := by
            rw [hpre, List.getElem?_append_right (by omega)]; simp
          rw [e]
          have := hk2 fuel
          simp only [List.length_append, List.length_cons, List.length_nil, Nat.zero_add] at this
          rw [this]; rfl
    by_cases hb : x.bbox.contains bbox = true
    · obtain ⟨k, hk⟩ := loop x.children [] rfl
      refine ⟨k + 1, fun fuel => ?_⟩
      rw [← Nat.add_assoc]
      have hx0 : ∃ c, x.children[0]? = some c := by
        cases hx : x.children with
        | nil => exact absurd hx hne
        | cons c cs => exact ⟨c, rfl⟩
      obtain ⟨c, hc⟩ := hx0
      have := hk fuel
      rw [hc] at this
      simp only [removeLoop, hl, Bool.false_eq_true, if_false, Bool.not_false, Bool.true_and, hb, if_true, find, hc]
      simpa using this
    · obtain ⟨k, hk⟩ := step_right ops id bbox path indexes i false
      refine ⟨k + 1, fun fuel => ?_⟩
      rw [← Nat.add_assoc]
      simp only [removeLoop, hl, Bool.false_eq_true, if_false, Bool.not_false, Bool.true_and, hb, find, visited]
      rw [← hk fuel]
      cases path.head? <;> rfl

/-! ### the recursive search -/

/-- the entry reached by child indices `is`, then `idx`, holds item `t` -/
def At : List Nat → Nat → DbNode T B → T → Prop
  | [], idx, nd, t => ∃ e, nd.children[idx]? = some e ∧ e.item = some t
  | i :: is, idx, nd, t => ∃ c, nd.children[i]? = some c ∧ At is idx c t

omit [LinearOrder B] [BoundedOrder B] in
theorem indexOfId_some {ops : ItemOps T B} {id : Int} : ∀ {cs : List (DbNode T B)} {idx : Nat}, indexOfId ops id cs = some idx →
    ∃ e t, cs[idx]? = some e ∧ e.item = some t ∧ ops.id t = id := by
  intro cs
  induction cs with
  | nil => intro idx h; cases h
  | cons c cs ih =>
    intro idx h
    simp only [indexOfId] at h
    split at h
    · next hc =>
      cases h
      cases hi : c.item with
      | none => rw [hi] at hc; cases hc
      | some t => rw [hi] at hc; exact ⟨c, t, rfl, hi, by simpa using hc⟩
    · obtain ⟨i, hi, rfl⟩ := Option.map_eq_some_iff.1 h
      obtain ⟨e, t, h1, h2, h3⟩ := ih hi
      exact ⟨e, t, by simpa using h1, h2, h3⟩

omit [LinearOrder B] [BoundedOrder B] in
theorem indexOfId_none {ops : ItemOps T B} {id : Int} : ∀ {cs : List (DbNode T B)}, indexOfId ops id cs = none →
    ∀ e ∈ cs, e.item.map ops.id ≠ some id := by
  intro cs
  induction cs with
  | nil => intro _ e he; cases he
  | cons c cs ih =>
    intro h e he
    simp only [indexOfId] at h
    split at h
    · cases h
    · next hc =>
      rcases List.mem_cons.1 he with rfl | he
      · exact hc
      · exact ih (Option.map_eq_none_iff.1 h) e he

omit [BoundedOrder B] in
theorem find_some {ops : ItemOps T B} {id : Int} {bbox : Box B} : ∀ (h : Nat) (x : DbNode T B) (is : List Nat) (idx : Nat),
    find ops id bbox h x = some (is, idx) → is.length = h ∧ ∃ t, At is idx x t ∧ ops.id t = id := by
  intro h
  induction h with
  | zero =>
    intro x is idx hf
    simp only [find, Option.map_eq_some_iff] at hf
    obtain ⟨a, ha, he⟩ := hf
    cases he
    obtain ⟨e, t, h1, h2, h3⟩ := indexOfId_some ha
    exact ⟨rfl, t, ⟨e, h1, h2⟩, h3⟩
  | succ h ih =>
    intro x is idx hf
    simp only [find] at hf
    split at hf
    · have : ∀ (cs pre : List (DbNode T B)), x.children = pre ++ cs → findGo (find ops id bbox h) pre.length cs = some (is, idx) →
          is.length = h + 1 ∧ ∃ t, At is idx x t ∧ ops.id t = id := by
        intro cs
        induction cs with
        | nil => intro pre _ hg; cases hg
        | cons c cs ihc =>
          intro pre hpre hg
          simp only [findGo] at hg
          cases hc : find ops id bbox h c with
          | some r =>
            obtain ⟨is', idx'⟩ := r
            rw [hc] at hg
            cases hg
            obtain ⟨h1, t, h2, h3⟩ := ih c is' idx hc
            exact ⟨by simp [h1], t, ⟨c, by rw [hpre]; simp, h2⟩, h3⟩
          | none =>
            rw [hc] at hg
            exact ihc (pre ++ [c]) (by simp [hpre]) (by simpa using hg)
      exact this x.children [] rfl hf
    · cases hf

theorem find_complete {ops : ItemOps T B} {M : Nat} {id : Int} {bbox : Box B} : ∀ (h : Nat) (x : DbNode T B), WF ops M (h + 1) x →
    (∃ t ∈ flat (h + 1) x, ops.id t = id ∧ ops.mbr t = bbox) → find ops id bbox h x ≠ none := by
  intro h
  induction h with
  | zero =>
    rintro x hw ⟨t, ht, hid, -⟩ hn
    simp only [find, Option.map_eq_none_iff] at hn
    simp only [flat, List.mem_flatMap] at ht
    obtain ⟨e, he, het⟩ := ht
    have := indexOfId_none hn e he
    obtain ⟨t', rfl⟩ := hw.child he
    simp [newLeafNode] at het
    subst het
    simp [newLeafNode, hid] at this
  | succ h ih =>
    rintro x hw ⟨t, ht, hid, hbb⟩ hn
    have hle : x.bbox.contains bbox = true := by
      rw [Box.contains_iff, ← hbb]; exact hw.le_bbox t ht
    simp only [find, hle, if_true] at hn
    rw [flat, List.mem_flatMap] at ht
    obtain ⟨c, hc, htc⟩ := ht
    have hcn := ih c (hw.child hc) ⟨t, htc, hid, hbb⟩
    have : ∀ (cs : List (DbNode T B)) (j : Nat), c ∈ cs → findGo (find ops id bbox h) j cs = none → False := by
      intro cs
      induction cs with
      | nil => intro j h; cases h
      | cons d cs ihc =>
        intro j hm hg
        simp only [findGo] at hg
        cases hd : find ops id bbox h d with
        | some r => rw [hd] at hg; cases hg
        | none =>
          rw [hd] at hg
          rcases List.mem_cons.1 hm with rfl | hm
          · exact hcn hd
          · exact ihc _ hm hg
    exact this x.children 0 hc hn

/-! ### removal of the entry found -/

omit [LinearOrder B] [BoundedOrder B] in
theorem flatMap_eraseIdx {α β : Type} (f : α → List β) : ∀ (cs : List α) (i : Nat) (c : α), cs[i]? = some c →
    (cs.flatMap f).Perm (f c ++ (cs.eraseIdx i).flatMap f) := by
  intro cs
  induction cs with
  | nil => intro i c h; simp at h
  | cons d cs ih =>
    intro i c h
    cases i with
    | zero => simp at h; subst h; simp
    | succ i =>
      simp only [List.getElem?_cons_succ] at h
      simp only [List.flatMap_cons, List.eraseIdx_cons_succ]
      refine ((ih i c h).append_left (f d)).trans ?_
      rw [← List.append_assoc, ← List.append_assoc]
      exact List.perm_append_comm.append_right _

omit [LinearOrder B] [BoundedOrder B] in
theorem flatMap_set {α β : Type} (f : α → List β) : ∀ (cs : List α) (i : Nat) (c c' : α) (d : List β), cs[i]? = some c →
    (f c).Perm (d ++ f c') → (cs.flatMap f).Perm (d ++ (cs.set i c').flatMap f) := by
  intro cs
  induction cs with
  | nil => intro i c c' d h; simp at h
  | cons x cs ih =>
    intro i c c' d h hp
    cases i with
    | zero =>
      simp at h; subst h
      simp only [List.set_cons_zero, List.flatMap_cons, ← List.append_assoc]
      exact hp.append_right _
    | succ i =>
      simp only [List.getElem?_cons_succ] at h
      simp only [List.flatMap_cons, List.set_cons_succ]
      refine ((ih i c c' d h hp).append_left (f x)).trans ?_
      rw [← List.append_assoc, ← List.append_assoc]
      exact List.perm_append_comm.append_right _

theorem removeAt_spec {ops : ItemOps T B} {M : Nat} : ∀ (h : Nat) (x : DbNode T B) (is : List Nat) (idx : Nat) (t : T),
    WF ops M (h + 1) x → is.length = h → At is idx x t →
    (flat (h + 1) x).Perm (t :: flat (h + 1) (removeAt is idx x)) ∧
    ((removeAt is idx x).children = [] ∨ WF ops M (h + 1) (removeAt is idx x)) := by
  intro h
  induction h with
  | zero =>
    intro x is idx t hw hl hat
    obtain rfl : is = [] := List.eq_nil_of_length_eq_zero hl
    obtain ⟨e, he, het⟩ := hat
    cases x with
    | mk cs it hh lf bb =>
      obtain ⟨w1, w2, w3, w4, w5, w6, w7⟩ := hw
      simp only [DbNode.children_mk] at he w4 w5 w6 w7
      constructor
      · simp only [flat, removeAt, DbNode.children_mk]
        have := flatMap_eraseIdx (flat 0) cs idx e he
        simpa [flat, het] using this
      · simp only [removeAt]
        by_cases hz : cs.eraseIdx idx = []
        · left; simp [hz]
        · right
          refine ⟨w1, w2, w3, hz, ?_, ?_, fun c hc => w7 c (List.mem_of_mem_eraseIdx hc)⟩
          · have := List.length_eraseIdx_le cs idx
            simp only [DbNode.children_mk]; omega
          · simp only [DbNode.bbox_mk, if_neg hz, DbNode.children_mk]; rfl
  | succ h ih =>
    intro x is idx t hw hl hat
    cases is with
    | nil => cases hl
    | cons i is =>
      obtain ⟨c, hc, hct⟩ := hat
      cases x with
      | mk cs it hh lf bb =>
        obtain ⟨w1, w2, w3, w4, w5, w6, w7⟩ := hw
        simp only [DbNode.children_mk] at hc w4 w5 w6 w7
        have hcm : c ∈ cs := List.mem_of_getElem? hc
        obtain ⟨p, q⟩ := ih c is idx t (w7 c hcm) (by simpa using hl) hct
        simp only [removeAt, hc]
        by_cases hz : (removeAt is idx c).children = []
        · simp only [hz, if_true]
          constructor
          · rw [flat, flat]
            simp only [DbNode.children_mk]
            have hn : flat (h + 1) (removeAt is idx c) = [] := by rw [flat, hz]; rfl
            rw [hn] at p
            refine (flatMap_eraseIdx (flat (h + 1)) cs i c hc).trans ?_
            exact p.append_right _
          · by_cases hz2 : cs.eraseIdx i = []
            · left; simp [hz2]
            · right
              refine ⟨w1, w2, w3, hz2, ?_, ?_, fun c hc => w7 c (List.mem_of_mem_eraseIdx hc)⟩
              · have := List.length_eraseIdx_le cs i
                simp only [DbNode.children_mk]; omega
              · simp only [DbNode.bbox_mk, if_neg hz2, DbNode.children_mk]; rfl
        · simp only [hz, if_false]
          constructor
          · rw [flat, flat]
            simp only [DbNode.children_mk]
            exact flatMap_set (flat (h + 1)) cs i c _ [t] hc (by simpa using p)
          · right
            have hs : cs.set i (removeAt is idx c) ≠ [] := by simpa using w4
            refine ⟨w1, w2, w3, hs, by simpa using w5, ?_, ?_⟩
            · simp only [DbNode.bbox_mk, if_neg hs, DbNode.children_mk]; rfl
            · intro d hd
              rcases List.mem_or_eq_of_mem_set hd with hd | rfl
              · exact w7 d hd
              · exact q.resolve_left hz

/-- `Remove`: terminates, keeps the invariant, and either removes exactly one item carrying the identifier, or changes nothing -/
theorem remove_spec {ops : ItemOps T B} {t : Tree T B} (hw : TreeWF ops t) (item : T) :
    ∃ (t' : Tree T B) (N : Nat), (∀ fuel ≥ N, remove ops t item fuel = .ok t') ∧ TreeWF ops t' ∧ t'.maxE = t.maxE ∧ t'.minE = t.minE ∧
      ((∃ x, ops.id x = ops.id item ∧ (contents t).Perm (x :: contents t')) ∨
       (t' = t ∧ ¬ ∃ x ∈ contents t, ops.id x = ops.id item ∧ ops.mbr x = ops.mbr item)) := by
  obtain ⟨cap, fill, root⟩ := hw
  rcases root with hr | ⟨h, hr⟩
  · -- empty tree
    refine ⟨t, 2, ?_, ⟨cap, fill, Or.inl hr⟩, rfl, rfl, Or.inr ⟨rfl, ?_⟩⟩
    · intro fuel hf
      obtain ⟨f, rfl⟩ := Nat.exists_eq_add_of_le' hf
      simp [remove, removeLoop, hr, indexOfId]
    · rintro ⟨x, hx, -⟩
      simp [contents, hr, flat] at hx
  · obtain ⟨k, hk⟩ := visit_spec (ops := ops) (M := t.maxE) (ops.id item) (ops.mbr item) h t.data hr [] [] 0
    have hh := hr.2.1
    cases hf : find ops (ops.id item) (ops.mbr item) h t.data with
    | none =>
      refine ⟨t, k, ?_, ⟨cap, fill, Or.inr ⟨h, hr⟩⟩, rfl, rfl, Or.inr ⟨rfl, ?_⟩⟩
      · intro fuel hfu
        obtain ⟨f, rfl⟩ := Nat.exists_eq_add_of_le' hfu
        have := hk f
        rw [hf] at this
        simp only [visited, cont, List.head?_nil] at this
        simp [remove, this]
      · rintro ⟨x, hx, h1, h2⟩
        rw [contents, hh] at hx
        exact find_complete h t.data hr ⟨x, hx, h1, h2⟩ hf
    | some r =>
      obtain ⟨is, idx⟩ := r
      obtain ⟨l1, x, l2, l3⟩ := find_some h t.data is idx hf
      obtain ⟨p, q⟩ := removeAt_spec h t.data is idx x hr l1 l2
      refine ⟨{ t with data := if (removeAt is idx t.data).children = [] then emptyRoot else removeAt is idx t.data }, k, ?_, ?_, rfl, rfl, Or.inl ⟨x, l3, ?_⟩⟩
      · intro fuel hfu
        obtain ⟨f, rfl⟩ := Nat.exists_eq_add_of_le' hfu
        have := hk f
        rw [hf] at this
        simp only [visited, List.head?_nil, List.reverse_cons, List.reverse_nil, List.nil_append, List.singleton_append, List.tail_cons] at this
        simp [remove, this]
      · refine ⟨cap, fill, ?_⟩
        simp only
        split
        · exact Or.inl rfl
        · next hz => exact Or.inr ⟨h, q.resolve_left hz⟩
      · simp only [contents]
        rw [hh]
        refine p.trans (List.Perm.cons _ ?_)
        split
        · next hz =>
          rw [flat, hz]; simp [emptyRoot, flat]
        · next hz => rw [(q.resolve_left hz).2.1]

end Hdb
end Verif
