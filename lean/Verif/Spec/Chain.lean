import Verif.Model.Rng

/-! Specification vocabulary: consecutive proper ranges covering an interval of vertex indices. -/

namespace Verif

/-- `Chain a b rs`: the ranges `rs`, in this order, are proper (`I < J`), the first starts at `a`, each starts where the
previous ends, and the last ends at `b` (the empty list covers only `a = b`). -/
def Chain (a b : Int) : List Rng → Prop
  | [] => a = b
  | r :: rs => r.I = a ∧ r.I < r.J ∧ Chain r.J b rs

namespace Chain

theorem le {a b : Int} {rs : List Rng} (h : Chain a b rs) : a ≤ b := by
  induction rs generalizing a with
  | nil => exact h ▸ Int.le_refl _
  | cons r rs ih => obtain ⟨h1, h2, h3⟩ := h; have := ih h3; omega

theorem append {a b c : Int} {xs ys : List Rng} (h1 : Chain a b xs) (h2 : Chain b c ys) : Chain a c (xs ++ ys) := by
  induction xs generalizing a with
  | nil => cases h1; simpa using h2
  | cons r rs ih => obtain ⟨h3, h4, h5⟩ := h1; exact ⟨h3, h4, ih h5⟩

theorem append_iff {a c : Int} {xs ys : List Rng} : Chain a c (xs ++ ys) ↔ ∃ b, Chain a b xs ∧ Chain b c ys := by
  constructor
  · intro h
    induction xs generalizing a with
    | nil => exact ⟨a, rfl, h⟩
    | cons r rs ih =>
      obtain ⟨h3, h4, h5⟩ := h
      obtain ⟨b, hb1, hb2⟩ := ih h5
      exact ⟨b, ⟨h3, h4, hb1⟩, hb2⟩
  · rintro ⟨b, h1, h2⟩; exact h1.append h2

theorem singleton {a b : Int} (h : a < b) : Chain a b [⟨a, b⟩] := ⟨rfl, h, rfl⟩

/-- every member lies inside the covered interval and is proper -/
theorem mem {a b : Int} {rs : List Rng} (h : Chain a b rs) {r : Rng} (hr : r ∈ rs) : a ≤ r.I ∧ r.I < r.J ∧ r.J ≤ b := by
  induction rs generalizing a with
  | nil => cases hr
  | cons x rs ih =>
    obtain ⟨h1, h2, h3⟩ := h
    rcases List.mem_cons.1 hr with rfl | hr
    · have := h3.le; omega
    · have := ih h3 hr; omega

/-- starts are strictly increasing -/
theorem pairwise {a b : Int} {rs : List Rng} (h : Chain a b rs) : rs.Pairwise (fun x y => x.J ≤ y.I) := by
  induction rs generalizing a with
  | nil => exact List.Pairwise.nil
  | cons x rs ih =>
    obtain ⟨h1, h2, h3⟩ := h
    refine List.Pairwise.cons ?_ (ih h3)
    intro y hy
    have := h3.mem hy; omega

end Chain

end Verif
