import Verif.Spec.Chain

/-! C01: splitting an index range loses and repeats nothing. -/

namespace Verif

theorem mem_sortedIntsSet {l : List Int} {x : Int} : x ∈ sortedIntsSet l ↔ x ∈ l := by
  simp [sortedIntsSet]

theorem sortedIntsSet_pairwise_le (l : List Int) : (sortedIntsSet l).Pairwise (· ≤ ·) :=
  List.pairwise_insertionSort _ _

theorem sortedIntsSet_nodup (l : List Int) : (sortedIntsSet l).Nodup :=
  (List.perm_insertionSort _ _).nodup_iff.2 (List.nodup_dedup l)

theorem sortedIntsSet_sorted (l : List Int) : (sortedIntsSet l).Pairwise (· < ·) := by
  have h1 := sortedIntsSet_pairwise_le l
  have h2 := sortedIntsSet_nodup l
  exact (h1.and h2).imp (fun {a b} h => by obtain ⟨h, h'⟩ := h; omega)

/-- loop invariant of the split loop -/
private theorem split_fold (I J : Int) (l : List Int) (hl : l.Pairwise (· < ·)) :
    ∀ (sub : List Rng) (e : Int), Chain I e sub → (e < J ∨ sub = []) → (∀ x ∈ l, I < x → x < J → e < x) → 
      (∀ r, sub.getLast? = some r → r.J = e) →
      ∃ e', Chain I e' (l.foldl (Rng.splitStep I J) sub) ∧
        (∀ r, (l.foldl (Rng.splitStep I J) sub).getLast? = some r → r.J = e') ∧
        (e' < J ∨ l.foldl (Rng.splitStep I J) sub = []) ∧
        (∀ x, x ∈ (l.foldl (Rng.splitStep I J) sub).map Rng.J ↔ x ∈ sub.map Rng.J ∨ (x ∈ l ∧ I < x ∧ x < J)) := by
  induction l with
  | nil => intro sub e h1 h2 _ h4; exact ⟨e, h1, h4, h2, by simp⟩
  | cons y l ih =>
    intro sub e h1 h2 h3 h4
    have hl' := List.pairwise_cons.1 hl
    simp only [List.foldl_cons]
    by_cases hy : I < y ∧ y < J
    · have hs : Rng.splitStep I J sub y = sub ++ [⟨e, y⟩] := by
        unfold Rng.splitStep
        rw [if_pos hy]
        cases hg : sub.getLast? with
        | none =>
          have : sub = [] := List.getLast?_eq_none_iff.1 hg
          subst this
          cases h1; rfl
        | some r => simp [h4 r hg]
      have hey : e < y := h3 y (by simp) hy.1 hy.2
      rw [hs]
      obtain ⟨e', a1, a2, a3, a4⟩ := ih hl'.2 (sub ++ [⟨e, y⟩]) y (h1.append (Chain.singleton hey)) (Or.inl hy.2)
        (fun x hx _ _ => hl'.1 x hx) (by intro r hr; simp at hr; exact hr ▸ rfl)
      refine ⟨e', a1, a2, a3, ?_⟩
      intro x
      rw [a4]
      simp only [List.map_append, List.mem_append, List.map_cons, List.map_nil, List.mem_cons]
      constructor
      · rintro ((h | h) | h)
        · exact Or.inl h
        · rcases h with rfl | h
          · exact Or.inr ⟨Or.inl rfl, hy⟩
          · cases h
        · exact Or.inr ⟨Or.inr h.1, h.2⟩
      · rintro (h | ⟨rfl | h, h'⟩)
        · exact Or.inl (Or.inl h)
        · exact Or.inl (Or.inr (Or.inl rfl))
        · exact Or.inr ⟨h, h'⟩
    · have hs : Rng.splitStep I J sub y = sub := by
        unfold Rng.splitStep
        rw [if_neg hy]
      rw [hs]
      obtain ⟨e', a1, a2, a3, a4⟩ := ih hl'.2 sub e h1 h2 (fun x hx => h3 x (by simp [hx])) h4
      refine ⟨e', a1, a2, a3, ?_⟩
      intro x
      rw [a4]
      simp only [List.mem_cons]
      constructor
      · rintro (h | h)
        · exact Or.inl h
        · exact Or.inr ⟨Or.inr h.1, h.2⟩
      · rintro (h | ⟨rfl | h, h'⟩)
        · exact Or.inl h
        · exact absurd h' hy
        · exact Or.inr ⟨h, h'⟩

/-- C01.  If some requested index lies strictly inside `[I,J]`, the pieces returned by `Split` chain from `I` to `J`, and the
piece ends other than `J` are exactly the requested interior indices. -/
theorem C01_split_cover (o : Rng) (idxs : List Int) (h : ∃ v ∈ idxs, o.I < v ∧ v < o.J) :
    Chain o.I o.J (o.split idxs) ∧
    ∀ x, x ≠ o.J → (x ∈ (o.split idxs).map Rng.J ↔ x ∈ idxs ∧ o.I < x ∧ x < o.J) := by
  obtain ⟨v, hv, hv1, hv2⟩ := h
  obtain ⟨e', a1, a2, a3, a4⟩ := split_fold o.I o.J (sortedIntsSet idxs) (sortedIntsSet_sorted idxs) [] o.I rfl (Or.inr rfl)
    (fun x _ h _ => h) (by simp)
  simp only [mem_sortedIntsSet] at a4
  have hne : (sortedIntsSet idxs).foldl (Rng.splitStep o.I o.J) [] ≠ [] := by
    intro hc
    have := (a4 v).2 (Or.inr ⟨hv, hv1, hv2⟩)
    rw [hc] at this; simp at this
  have he' : e' < o.J := by
    rcases a3 with h | h
    · exact h
    · exact absurd h hne
  unfold Rng.split Rng.splitClose
  generalize hsub : (sortedIntsSet idxs).foldl (Rng.splitStep o.I o.J) [] = sub at *
  cases hg : sub.getLast? with
  | none => exact absurd (List.getLast?_eq_none_iff.1 hg) hne
  | some r =>
    have hr := a2 r hg
    simp only [hr, he', if_true]
    refine ⟨a1.append (Chain.singleton he'), ?_⟩
    intro x hx
    simp only [List.map_append, List.map_cons, List.map_nil, List.mem_append, List.mem_singleton, hx, or_false]
    rw [a4]; simp

/-- C01.  If no requested index lies strictly inside `[I,J]`, `Split` returns nothing. -/
theorem C01_split_empty (o : Rng) (idxs : List Int) (h : ∀ v ∈ idxs, ¬ (o.I < v ∧ v < o.J)) : o.split idxs = [] := by
  obtain ⟨e', a1, a2, a3, a4⟩ := split_fold o.I o.J (sortedIntsSet idxs) (sortedIntsSet_sorted idxs) [] o.I rfl (Or.inr rfl)
    (fun x _ h _ => h) (by simp)
  simp only [mem_sortedIntsSet] at a4
  unfold Rng.split Rng.splitClose
  generalize hsub : (sortedIntsSet idxs).foldl (Rng.splitStep o.I o.J) [] = sub at *
  cases hg : sub.getLast? with
  | none => simpa using hg
  | some r =>
    have : r.J ∈ sub.map Rng.J := List.mem_map_of_mem (List.mem_of_getLast? hg)
    rcases (a4 _).1 this with h' | h'
    · simp at h'
    · exact absurd h'.2 (h _ h'.1)

/-- a non-trivial case: unsorted, repeated and out-of-range requests -/
example : (⟨3, 10⟩ : Rng).split [8, 3, 5, 5, 42, -1, 10] = [⟨3, 5⟩, ⟨5, 8⟩, ⟨8, 10⟩] := by decide

example : ∃ v ∈ [8, 3, 5, 5, 42, -1, 10], (3 : Int) < v ∧ v < 10 := ⟨8, by decide⟩

example : ∀ v ∈ [3, 42, -1, 10], ¬ ((3 : Int) < v ∧ v < 10) := by decide

end Verif
