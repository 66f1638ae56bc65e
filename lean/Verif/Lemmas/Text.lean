import Verif.Model.Text
import Mathlib.Data.List.TakeWhile

/-! Auxiliary facts about text handling. -/

namespace Verif.Text

/-! ### trimming -/

theorem trim_eq_nil_iff (s : Str) : trim s = [] ↔ ∀ c ∈ s, isSpace c = true := by
  unfold trim
  rw [List.reverse_eq_nil_iff, List.dropWhile_eq_nil_iff]
  constructor
  · intro h c hc
    by_contra hn
    have h2 : s.dropWhile isSpace ≠ [] := by
      intro h3; rw [List.dropWhile_eq_nil_iff] at h3; exact hn (h3 c hc)
    have h3 := List.head_dropWhile_not isSpace h2
    have h4 := h _ (List.mem_reverse.2 (List.head_mem h2))
    rw [h3] at h4; cases h4
  · intro h c hc
    exact h c (List.dropWhile_subset isSpace (List.mem_reverse.1 hc))

theorem trim_decomp (s : Str) : ∃ a b, s = a ++ trim s ++ b ∧ (∀ c ∈ a, isSpace c = true) ∧ (∀ c ∈ b, isSpace c = true) := by
  refine ⟨s.takeWhile isSpace, (((s.dropWhile isSpace).reverse.takeWhile isSpace)).reverse, ?_, ?_, ?_⟩
  · unfold trim
    rw [List.append_assoc, ← List.reverse_append, List.takeWhile_append_dropWhile, List.reverse_reverse, List.takeWhile_append_dropWhile]
  · intro c hc; exact List.mem_takeWhile_imp hc
  · intro c hc; exact List.mem_takeWhile_imp (List.mem_reverse.1 hc)

theorem trim_getLast (s : Str) (h : trim s ≠ []) : isSpace ((trim s).getLast h) = false := by
  unfold trim at h ⊢
  rw [List.getLast_reverse]
  exact List.head_dropWhile_not isSpace _

theorem dropWhile_append_all {p : Char → Bool} (a b : Str) (h : ∀ c ∈ a, p c = true) : (a ++ b).dropWhile p = b.dropWhile p := by
  induction a with
  | nil => rfl
  | cons x a ih =>
    rw [List.cons_append, List.dropWhile_cons, h x (List.mem_cons_self ..), if_pos rfl]
    exact ih (fun c hc => h c (List.mem_cons_of_mem _ hc))

theorem dropWhile_append_not {p : Char → Bool} (t b : Str) (ht : t ≠ []) (h : p (t.head ht) = false) : (t ++ b).dropWhile p = t ++ b := by
  cases t with
  | nil => exact absurd rfl ht
  | cons x t => simp only [List.head_cons] at h; rw [List.cons_append, List.dropWhile_cons, h]; rfl

/-- trimming is determined by its defining property -/
theorem trim_unique (a t b : Str) (ha : ∀ c ∈ a, isSpace c = true) (hb : ∀ c ∈ b, isSpace c = true) (ht : t ≠ [])
    (h1 : isSpace (t.head ht) = false) (h2 : isSpace (t.getLast ht) = false) : trim (a ++ t ++ b) = t := by
  unfold trim
  rw [List.append_assoc, dropWhile_append_all _ _ ha, dropWhile_append_not _ _ ht h1, List.reverse_append,
    dropWhile_append_all _ _ (fun c hc => hb c (List.mem_reverse.1 hc))]
  have h3 : t.reverse ≠ [] := by simpa using ht
  have h4 : isSpace (t.reverse.head h3) = false := by rw [List.head_reverse]; exact h2
  have h5 := dropWhile_append_not t.reverse [] h3 h4
  rw [List.append_nil] at h5
  rw [h5, List.reverse_reverse]

theorem trim_head (s : Str) (h : trim s ≠ []) : isSpace ((trim s).head h) = false := by
  have h2 : s.dropWhile isSpace ≠ [] := by
    intro h3; apply h; unfold trim; rw [h3]; rfl
  have h1 := List.head_dropWhile_not isSpace h2
  obtain ⟨x, l, hx⟩ : ∃ x l, s.dropWhile isSpace = x :: l := by
    cases hh : s.dropWhile isSpace with
    | nil => exact absurd hh h2
    | cons x l => exact ⟨x, l, rfl⟩
  have hx1 : isSpace x = false := by simp only [hx, List.head_cons] at h1; exact h1
  have h6 : trim s = x :: (l.reverse.dropWhile isSpace).reverse := by
    unfold trim
    rw [hx, List.reverse_cons]
    have : ∀ (l : Str), (l ++ [x]).dropWhile isSpace = l.dropWhile isSpace ++ [x] := by
      intro l
      induction l with
      | nil => simp [hx1]
      | cons y l ih => simp only [List.cons_append, List.dropWhile_cons]; split <;> simp_all
    rw [this]; simp
  simp only [h6, List.head_cons]; exact hx1

theorem trim_append_spaces (s b : Str) (hb : ∀ c ∈ b, isSpace c = true) : trim (s ++ b) = trim s := by
  by_cases h : trim s = []
  · rw [h, trim_eq_nil_iff]
    intro c hc
    rcases List.mem_append.1 hc with hc | hc
    · exact (trim_eq_nil_iff s).1 h c hc
    · exact hb c hc
  · obtain ⟨a, d, hs, ha, hd⟩ := trim_decomp s
    have : s ++ b = a ++ trim s ++ (d ++ b) := by
      rw [← List.append_assoc, ← hs]
    rw [this]
    refine trim_unique a (trim s) (d ++ b) ha ?_ h (trim_head s h) (trim_getLast s h)
    intro c hc; rcases List.mem_append.1 hc with hc | hc
    · exact hd c hc
    · exact hb c hc

theorem trim_spaces_append (a s : Str) (ha : ∀ c ∈ a, isSpace c = true) : trim (a ++ s) = trim s := by
  unfold trim; rw [dropWhile_append_all _ _ ha]

theorem trim_trim (s : Str) : trim (trim s) = trim s := by
  by_cases h : trim s = []
  · rw [h]; rfl
  · have := trim_unique [] (trim s) [] (by simp) (by simp) h (trim_head s h) (trim_getLast s h)
    simpa using this

theorem trim_id (s : Str) (h : ∀ c ∈ s, isSpace c = false) : trim s = s := by
  by_cases hs : s = []
  · subst hs; rfl
  · have := trim_unique [] s [] (by simp) (by simp) hs (h _ (List.head_mem hs)) (h _ (List.getLast_mem hs))
    simpa using this

/-! ### lines -/

theorem splitNl_ne_nil (s : Str) : splitNl s ≠ [] := by
  cases s with
  | nil => simp [splitNl]
  | cons c cs =>
    unfold splitNl; split
    · simp
    · split <;> simp

theorem splitNl_line (l : Str) (h : '\n' ∉ l) : splitNl l = [l] := by
  induction l with
  | nil => rfl
  | cons c l ih =>
    unfold splitNl
    rw [if_neg (fun he => h (by rw [he]; exact List.mem_cons_self ..)), ih (fun hh => h (List.mem_cons_of_mem _ hh))]

theorem splitNl_cons (l s : Str) (h : '\n' ∉ l) : splitNl (l ++ '\n' :: s) = l :: splitNl s := by
  induction l with
  | nil => simp [splitNl]
  | cons c l ih =>
    rw [List.cons_append, splitNl, if_neg (fun he => h (by rw [he]; exact List.mem_cons_self ..)), ih (fun hh => h (List.mem_cons_of_mem _ hh))]

theorem keepLines_append (a b : List Str) : keepLines (a ++ b) = keepLines a ++ keepLines b := by
  induction a with
  | nil => rfl
  | cons x a ih => simp only [List.cons_append, keepLines]; split <;> simp [ih]

theorem keepLines_blank (a : List Str) (h : ∀ l ∈ a, trim l = []) : keepLines a = [] := by
  induction a with
  | nil => rfl
  | cons x a ih => rw [keepLines, if_pos (h x (List.mem_cons_self ..))]; exact ih (fun l hl => h l (List.mem_cons_of_mem _ hl))

theorem mem_of_mem_splitNl (s : Str) : ∀ l ∈ splitNl s, ∀ c ∈ l, c ∈ s := by
  induction s with
  | nil => intro l hl c hc; simp [splitNl] at hl; subst hl; exact hc
  | cons x s ih =>
    intro l hl c hc
    unfold splitNl at hl
    split at hl
    · rcases List.mem_cons.1 hl with rfl | hl
      · cases hc
      · exact List.mem_cons_of_mem _ (ih l hl c hc)
    · split at hl
      · simp only [List.mem_singleton] at hl; subst hl; simp only [List.mem_singleton] at hc; subst hc; exact List.mem_cons_self ..
      · next l' ls heq =>
        rcases List.mem_cons.1 hl with rfl | hl
        · rcases List.mem_cons.1 hc with rfl | hc
          · exact List.mem_cons_self ..
          · exact List.mem_cons_of_mem _ (ih l' (by rw [heq]; exact List.mem_cons_self ..) c hc)
        · exact List.mem_cons_of_mem _ (ih l (by rw [heq]; exact List.mem_cons_of_mem _ hl) c hc)

/-- leading blanks do not change the lines that are kept -/
theorem keepLines_lead (a s : Str) (ha : ∀ c ∈ a, isSpace c = true) : keepLines (splitNl (a ++ s)) = keepLines (splitNl s) := by
  induction a with
  | nil => rfl
  | cons x a ih =>
    have ih := ih (fun c hc => ha c (List.mem_cons_of_mem _ hc))
    have hx := ha x (List.mem_cons_self ..)
    rw [List.cons_append, splitNl]
    split
    · rw [keepLines, if_pos (by rfl), ih]
    · cases h : splitNl (a ++ s) with
      | nil => exact absurd h (splitNl_ne_nil _)
      | cons l ls =>
        rw [← ih, h]
        have h1 : trim (x :: l) = trim l := trim_spaces_append [x] l (by intro c hc; simp only [List.mem_singleton] at hc; rw [hc]; exact hx)
        simp only [keepLines, h1]

/-- trailing blanks do not change the lines that are kept -/
theorem keepLines_trail (s b : Str) (hb : ∀ c ∈ b, isSpace c = true) : keepLines (splitNl (s ++ b)) = keepLines (splitNl s) := by
  induction s with
  | nil =>
    rw [List.nil_append]
    rw [keepLines_blank (splitNl b) (fun l hl => (trim_eq_nil_iff l).2 (fun c hc => hb c (mem_of_mem_splitNl b l hl c hc)))]
    rfl
  | cons x s ih =>
    rw [List.cons_append, splitNl, splitNl]
    split
    · rw [keepLines, keepLines, ih]
    · clear ih
      -- the first lines agree up to trailing blanks, the others are kept alike
      have key : ∀ s : Str, ∃ l l' ls ls', splitNl (s ++ b) = l :: ls ∧ splitNl s = l' :: ls' ∧
          (∃ d, l = l' ++ d ∧ ∀ c ∈ d, isSpace c = true) ∧ keepLines ls = keepLines ls' := by
        intro s
        induction s with
        | nil =>
          cases h : splitNl b with
          | nil => exact absurd h (splitNl_ne_nil _)
          | cons l ls =>
            refine ⟨l, [], ls, [], h, rfl, ⟨l, rfl, fun c hc => hb c (mem_of_mem_splitNl b l (by rw [h]; exact List.mem_cons_self ..) c hc)⟩, ?_⟩
            exact keepLines_blank ls (fun l2 hl => (trim_eq_nil_iff l2).2 (fun c hc =>
              hb c (mem_of_mem_splitNl b l2 (by rw [h]; exact List.mem_cons_of_mem _ hl) c hc)))
        | cons y s ih =>
          obtain ⟨l, l', ls, ls', h1, h2, ⟨d, hd, hs⟩, h3⟩ := ih
          rw [List.cons_append, splitNl, splitNl]
          by_cases hy : y = '\n'
          · rw [if_pos hy, if_pos hy, h1, h2]
            refine ⟨[], [], l :: ls, l' :: ls', rfl, rfl, ⟨[], rfl, by simp⟩, ?_⟩
            simp only [keepLines, hd, trim_append_spaces l' d hs, h3]
          · rw [if_neg hy, if_neg hy, h1, h2]
            exact ⟨y :: l, y :: l', ls, ls', rfl, rfl, ⟨d, by rw [hd]; rfl, hs⟩, h3⟩
      obtain ⟨l, l', ls, ls', h1, h2, ⟨d, hd, hs⟩, h3⟩ := key s
      rw [h1, h2]
      have h4 : trim (x :: l) = trim (x :: l') := by rw [hd, ← List.cons_append]; exact trim_append_spaces _ d hs
      simp only [keepLines, h4, h3]

theorem readJsonFile_eq (data : Str) : readJsonFile data = keepLines (splitNl data) := by
  obtain ⟨a, b, h, ha, hb⟩ := trim_decomp data
  have h2 : keepLines (splitNl data) = keepLines (splitNl (a ++ trim data ++ b)) := by rw [← h]
  rw [h2, keepLines_trail _ _ hb, keepLines_lead _ _ ha]
  rfl

theorem keepLines_eq (ls : List Str) : keepLines ls = (ls.map trim).filter (fun v => v ≠ []) := by
  induction ls with
  | nil => rfl
  | cons l ls ih =>
    rw [keepLines, List.map_cons, List.filter_cons]
    by_cases h : trim l = []
    · simp [h, ih]
    · simp [h, ih]

/-! ### the line reader -/

theorem readlines_append {Err : Type} (e : Err) (l : Str) (h : '\n' ∉ l) : ∀ (line s : Str),
    readlines e line (l ++ s) = readlines e (line ++ l) s := by
  induction l with
  | nil => intro line s; simp
  | cons c l ih =>
    intro line s
    rw [List.cons_append, readlines, if_neg (fun he => h (by rw [he]; exact List.mem_cons_self ..)), ih (fun hh => h (List.mem_cons_of_mem _ hh))]
    simp

theorem readlines_err {Err : Type} (e : Err) : ∀ (s line : Str), (readlines e line s).2 = some e := by
  intro s
  induction s with
  | nil => intro line; rfl
  | cons c s ih =>
    intro line
    rw [readlines]
    split
    · simp only []
      split
      · exact ih []
      · exact ih []
    · exact ih _

end Verif.Text
