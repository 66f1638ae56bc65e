import Verif.Model.Geom

/-! Facts about index lists and coordinates. -/

namespace Verif

theorem length_rangeInts (i j : Int) : (rangeInts i j).length = (j + 1 - i).toNat := by simp [rangeInts]

theorem getElem?_rangeInts {i j : Int} {t : Nat} (h : i + t ≤ j) : (rangeInts i j)[t]? = some (i + t) := by
  simp only [rangeInts, List.getElem?_map]
  rw [List.getElem?_range (by omega)]; rfl

theorem getElem?_rangeInts_none {i j : Int} {t : Nat} (h : j < i + t) : (rangeInts i j)[t]? = none := by
  rw [List.getElem?_eq_none_iff, length_rangeInts]; omega

theorem mem_rangeInts {i j x : Int} : x ∈ rangeInts i j ↔ i ≤ x ∧ x ≤ j := by
  simp only [rangeInts, List.mem_map, List.mem_range]
  constructor
  · rintro ⟨t, ht, rfl⟩; omega
  · rintro ⟨h1, h2⟩; exact ⟨(x - i).toNat, by omega, by omega⟩

theorem drop_take_rangeInts {i j : Int} {a b : Nat} (h : i + a + b ≤ j + 1) :
    ((rangeInts i j).drop a).take b = rangeInts (i + a) (i + a + b - 1) := by
  apply List.ext_getElem?
  intro t
  by_cases ht : t < b
  · rw [List.getElem?_take_of_lt ht, List.getElem?_drop, getElem?_rangeInts (by omega), getElem?_rangeInts (by omega)]
    simp; omega
  · rw [getElem?_rangeInts_none (by omega), List.getElem?_eq_none_iff]
    simp [length_rangeInts]; omega

theorem dropLast_append_rangeInts {i k j : Int} (h1 : i ≤ k) (h2 : k ≤ j) :
    (rangeInts i k).dropLast ++ rangeInts k j = rangeInts i j := by
  have hd : (rangeInts i k).dropLast = rangeInts i (k - 1) := by
    rw [List.dropLast_eq_take, length_rangeInts]
    have := drop_take_rangeInts (i := i) (j := k) (a := 0) (b := ((k + 1 - i).toNat - 1)) (by omega)
    simp only [List.drop_zero] at this
    rw [this]; congr 1 <;> omega
  rw [hd]
  apply List.ext_getElem?
  intro t
  by_cases ht : i + t ≤ k - 1
  · rw [List.getElem?_append_left (by rw [length_rangeInts]; omega), getElem?_rangeInts ht, getElem?_rangeInts (by omega)]
  · rw [List.getElem?_append_right (by rw [length_rangeInts]; omega), length_rangeInts]
    by_cases ht2 : i + t ≤ j
    · rw [getElem?_rangeInts ht2, getElem?_rangeInts (by omega)]; simp; omega
    · rw [getElem?_rangeInts_none (by omega), getElem?_rangeInts_none (by omega)]

namespace Coords
variable {P : Type}

theorem len_sub (pts : List P) (i j : Int) (h : i ≤ j + 1) : (Coords.sub pts i j).len = j + 1 - i := by
  simp only [len, sub, length_rangeInts]; omega

theorem pt_sub {pts : List P} {i j k : Int} (hk : 0 ≤ k) (hk2 : i + k ≤ j) (hi : 0 ≤ i) :
    (Coords.sub pts i j).pt k = .ofOption pts[(i + k).toNat]? := by
  have h0 : ¬ k < 0 := by omega
  have h1 : ¬ (i + k < 0) := by omega
  have := getElem?_rangeInts (i := i) (j := j) (t := k.toNat) (by omega)
  have e : i + (k.toNat : Int) = i + k := by omega
  rw [e] at this
  simp only [pt, sub, h0, if_false, this, h1]

theorem pt_sub_ok {pts : List P} {i j k : Int} (hk : 0 ≤ k) (hk2 : i + k ≤ j) (hi : 0 ≤ i) (hj : j < pts.length) :
    ∃ p, (Coords.sub pts i j).pt k = .ok p ∧ pts[(i + k).toNat]? = some p := by
  have hlt : (i + k).toNat < pts.length := by omega
  refine ⟨pts[(i + k).toNat], ?_, List.getElem?_eq_getElem hlt⟩
  rw [pt_sub hk hk2 hi, List.getElem?_eq_getElem hlt]; rfl

theorem slice_sub {pts : List P} {i j a b : Int} (h0 : 0 ≤ a) (h1 : a ≤ b) (h2 : i + b ≤ j + 1) :
    (Coords.sub pts i j).slice a b = .ok (Coords.sub pts (i + a) (i + b - 1)) := by
  have hl : b ≤ (Coords.sub pts i j).len := by rw [len_sub _ _ _ (by omega)]; omega
  unfold slice
  rw [if_pos ⟨h0, h1, hl⟩]
  have := drop_take_rangeInts (i := i) (j := j) (a := a.toNat) (b := (b - a).toNat) (by omega)
  simp only [sub] at this ⊢
  rw [this]
  congr 3 <;> omega

end Coords

end Verif
