import Verif.Spec.Chain

/-! C02: contiguity and merging of ranges agree. -/

namespace Verif

/-- C02.  For proper ranges contiguity means: one ends where the other starts. -/
theorem C02_contiguous_iff (a b : Rng) (ha : a.I < a.J) (hb : b.I < b.J) :
    a.contiguous b = true ↔ a.J = b.I ∨ b.J = a.I := by
  simp only [Rng.contiguous, Bool.or_eq_true, Bool.and_eq_true, decide_eq_true_eq]
  constructor
  · rintro (h | h)
    · exact Or.inl h.2
    · exact Or.inr h.2
  · rintro (h | h)
    · left; omega
    · right; omega

/-- C02.  Contiguity is symmetric, for all ranges. -/
theorem C02_contiguous_comm (a b : Rng) : a.contiguous b = b.contiguous a := by
  unfold Rng.contiguous
  rw [Bool.or_comm]

private theorem mergeRange_eq (ra rb : Rng) :
    mergeRange ra rb = ⟨min (min ra.I ra.J) (min rb.I rb.J), max (max ra.I ra.J) (max rb.I rb.J)⟩ := by
  simp only [mergeRange, sortInts, Rng.asSlice, List.cons_append, List.nil_append, List.insertionSort_cons,
    List.insertionSort_nil, List.orderedInsert_nil, List.orderedInsert_cons]
  split_ifs <;> simp <;> (try split_ifs) <;> simp <;> (try split_ifs) <;> simp <;> omega

/-- C02.  The merged range of two proper contiguous ranges is their union: for the two ranges in order it chains from the first
start to the last end, the sizes add up, and the order of the arguments is irrelevant. -/
theorem C02_merge_union (a b : Rng) (ha : a.I < a.J) (hb : b.I < b.J) (h : a.J = b.I) :
    (mergeRange a b).I = a.I ∧ (mergeRange a b).J = b.J ∧ mergeRange b a = mergeRange a b ∧
    Chain (mergeRange a b).I (mergeRange a b).J [a, b] ∧ (mergeRange a b).size = a.size + b.size := by
  simp only [mergeRange_eq, Rng.size, Chain]
  simp only [Rng.mk.injEq]
  refine ⟨?_, ?_, ⟨?_, ?_⟩, ⟨?_, ?_, ?_, ?_, ?_⟩, ?_⟩ <;> omega

/-- C02.  A vertex index is in the merged range exactly when it is in one of the two (contiguous, proper) ranges. -/
theorem C02_merge_mem (a b : Rng) (ha : a.I < a.J) (hb : b.I < b.J) (h : a.contiguous b = true) (x : Int) :
    ((mergeRange a b).I ≤ x ∧ x ≤ (mergeRange a b).J) ↔ ((a.I ≤ x ∧ x ≤ a.J) ∨ (b.I ≤ x ∧ x ≤ b.J)) := by
  rw [C02_contiguous_iff a b ha hb] at h
  simp only [mergeRange_eq]
  omega

/-- `Equals` decides equality of both ends -/
theorem C02_equals_iff (a b : Rng) : a.equals b = true ↔ ∀ x : Int, (x = a.I ↔ x = b.I) ∧ (x = a.J ↔ x = b.J) := by
  unfold Rng.equals
  rw [Bool.and_eq_true, beq_iff_eq, beq_iff_eq]
  constructor
  · rintro ⟨h1, h2⟩ x; rw [h1, h2]; exact ⟨Iff.rfl, Iff.rfl⟩
  · intro h; exact ⟨(h a.I).1.1 rfl, (h a.J).2.1 rfl⟩

example : (⟨2, 5⟩ : Rng).equals ⟨2, 6⟩ = false := by decide

/-- the side condition is needed: for an improper range the equivalence of `C02_contiguous_iff` fails -/
theorem C02_contiguous_degenerate : ∃ a b : Rng, a.J = b.I ∧ a.contiguous b = false := ⟨⟨5, 3⟩, ⟨3, 3⟩, rfl, by decide⟩

example : (⟨0, 3⟩ : Rng).contiguous ⟨3, 4⟩ = true ∧ mergeRange ⟨3, 4⟩ ⟨0, 3⟩ = ⟨0, 4⟩ := by decide

end Verif
