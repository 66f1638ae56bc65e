import Verif.Model.Box

/-! Boxes form a join semilattice: `expand` is the join, `empty` the least element, `contains b a` the order. -/

namespace Verif
namespace Box

variable {B : Type} [LinearOrder B]

/-- specification: `a` lies inside `b` -/
instance : LE (Box B) := ⟨fun a b => b.minX ≤ a.minX ∧ b.minY ≤ a.minY ∧ a.maxX ≤ b.maxX ∧ a.maxY ≤ b.maxY⟩

theorem le_def {a b : Box B} : a ≤ b ↔ b.minX ≤ a.minX ∧ b.minY ≤ a.minY ∧ a.maxX ≤ b.maxX ∧ a.maxY ≤ b.maxY := Iff.rfl

theorem le_refl' (a : Box B) : a ≤ a := ⟨le_refl _, le_refl _, le_refl _, le_refl _⟩

theorem le_trans' {a b c : Box B} (h1 : a ≤ b) (h2 : b ≤ c) : a ≤ c :=
  ⟨le_trans h2.1 h1.1, le_trans h2.2.1 h1.2.1, le_trans h1.2.2.1 h2.2.2.1, le_trans h1.2.2.2 h2.2.2.2⟩

theorem contains_iff {a b : Box B} : contains a b = true ↔ b ≤ a := by
  simp only [contains, Bool.and_eq_true, decide_eq_true_eq, le_def, ge_iff_le]; tauto

theorem intersects_iff {a b : Box B} :
    intersects a b = true ↔ b.minX ≤ a.maxX ∧ a.minX ≤ b.maxX ∧ b.minY ≤ a.maxY ∧ a.minY ≤ b.maxY := by
  simp only [intersects, Bool.not_eq_true', Bool.or_eq_false_iff, decide_eq_false_iff_not, not_lt, gt_iff_lt]; tauto

/-- a box that some point lies in -/
def Valid (a : Box B) : Prop := a.minX ≤ a.maxX ∧ a.minY ≤ a.maxY

theorem intersects_mono {q a b : Box B} (h : a ≤ b) (hi : intersects q a = true) : intersects q b = true := by
  rw [intersects_iff] at *
  obtain ⟨h1, h2, h3, h4⟩ := h
  exact ⟨le_trans h1 hi.1, le_trans hi.2.1 h3, le_trans h2 hi.2.2.1, le_trans hi.2.2.2 h4⟩

theorem intersects_of_le {q a : Box B} (h : a ≤ q) (hv : a.Valid) : intersects q a = true := by
  rw [intersects_iff]
  obtain ⟨h1, h2, h3, h4⟩ := h
  exact ⟨le_trans hv.1 h3, le_trans h1 hv.1, le_trans hv.2 h4, le_trans h2 hv.2⟩

theorem expand_assoc (a b c : Box B) : expand (expand a b) c = expand a (expand b c) := by
  simp [expand, min_assoc, max_assoc]

theorem expand_comm (a b : Box B) : expand a b = expand b a := by
  simp [expand, min_comm, max_comm]

theorem expand_self (a : Box B) : expand a a = a := by simp [expand]

theorem le_expand_left (a b : Box B) : a ≤ expand a b := by
  simp [le_def, expand]

theorem le_expand_right (a b : Box B) : b ≤ expand a b := by
  simp [le_def, expand]

theorem expand_le {a b c : Box B} (h1 : a ≤ c) (h2 : b ≤ c) : expand a b ≤ c := by
  obtain ⟨x1, x2, x3, x4⟩ := h1
  obtain ⟨y1, y2, y3, y4⟩ := h2
  exact ⟨le_min x1 y1, le_min x2 y2, max_le x3 y3, max_le x4 y4⟩

variable [BoundedOrder B]

@[simp] theorem empty_expand (a : Box B) : expand empty a = a := by simp [expand, empty]
@[simp] theorem expand_empty (a : Box B) : expand a empty = a := by simp [expand, empty]

theorem foldl_expand (bs : List (Box B)) (a : Box B) : bs.foldl expand a = expand a (unionAll bs) := by
  unfold unionAll
  induction bs generalizing a with
  | nil => simp
  | cons b bs ih => rw [List.foldl_cons, ih, List.foldl_cons, empty_expand, ih b, expand_assoc]

@[simp] theorem unionAll_nil : unionAll ([] : List (Box B)) = empty := rfl

theorem unionAll_cons (b : Box B) (bs : List (Box B)) : unionAll (b :: bs) = expand b (unionAll bs) := by
  rw [unionAll, List.foldl_cons, empty_expand, foldl_expand]

theorem unionAll_append (xs ys : List (Box B)) : unionAll (xs ++ ys) = expand (unionAll xs) (unionAll ys) := by
  rw [unionAll, List.foldl_append, foldl_expand]; rfl

theorem unionAll_singleton (b : Box B) : unionAll [b] = b := by rw [unionAll_cons, unionAll_nil, expand_empty]

theorem unionAll_perm {xs ys : List (Box B)} (h : xs.Perm ys) : unionAll xs = unionAll ys := by
  induction h with
  | nil => rfl
  | cons x _ ih => rw [unionAll_cons, unionAll_cons, ih]
  | swap x y l => rw [unionAll_cons, unionAll_cons, unionAll_cons, unionAll_cons, ← expand_assoc, ← expand_assoc, expand_comm y x]
  | trans _ _ ih1 ih2 => exact ih1.trans ih2

theorem le_unionAll {b : Box B} {bs : List (Box B)} (h : b ∈ bs) : b ≤ unionAll bs := by
  induction bs with
  | nil => cases h
  | cons x bs ih =>
    rw [unionAll_cons]
    rcases List.mem_cons.1 h with rfl | h
    · exact le_expand_left _ _
    · exact le_trans' (ih h) (le_expand_right _ _)

theorem unionAll_le {bs : List (Box B)} {c : Box B} (h : ∀ b ∈ bs, b ≤ c) : unionAll bs ≤ c := by
  induction bs with
  | nil => simp [le_def, empty]
  | cons x bs ih =>
    rw [unionAll_cons]
    exact expand_le (h x (by simp)) (ih (fun b hb => h b (by simp [hb])))

end Box
end Verif
