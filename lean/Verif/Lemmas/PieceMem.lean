import Verif.Model.PieceMem
import Mathlib.Data.List.Basic

/-! Arrays of pieces: what appending, clearing and loading change, and what they leave. -/

set_option linter.unusedSectionVars false

namespace Verif.Piece

variable {α : Type}

/-- Memory and values agree: the slices in use read as their lists, no two of them share an array, and what was loaded lies in arrays no slice in use reaches. -/
structure OK (h : Heap α) (val : Slot → Option (Slice × List α)) (seen : Option Nat → List (Ptr × α)) : Prop where
  fits : ∀ x s g, val x = some (s, g) → s.arr < h.next ∧ s.len = g.length ∧ s.len ≤ s.cap
  reads : ∀ x s g, val x = some (s, g) → ∀ k < s.len, h.cell s.arr k = g[k]?
  apart : ∀ x y s g s' g', x ≠ y → val x = some (s, g) → val y = some (s', g') → s.arr ≠ s'.arr
  old : ∀ t p v, (p, v) ∈ seen t → p.arr < h.next
  kept : ∀ t p v, (p, v) ∈ seen t → h.load p = some v
  away : ∀ t p v, (p, v) ∈ seen t → ∀ x s g, val x = some (s, g) → s.arr ≠ p.arr

section
variable {h : Heap α} {val : Slot → Option (Slice × List α)} {seen : Option Nat → List (Ptr × α)}

/-- the update of one slot -/
def upd (val : Slot → Option (Slice × List α)) (x : Slot) (o : Option (Slice × List α)) : Slot → Option (Slice × List α) := fun y => if y = x then o else val y

/-- a slice with cells of its own -/
theorem OK.put (ok : OK h val seen) {x : Slot} {s : Slice} {g : List α} {h' : Heap α} (hn : h.next ≤ h'.next) (ha : s.arr < h'.next)
    (hl : s.len = g.length) (hc : s.len ≤ s.cap) (hr : ∀ k < s.len, h'.cell s.arr k = g[k]?)
    (hcell : ∀ a, a ≠ s.arr → a < h.next → ∀ i, h'.cell a i = h.cell a i)
    (hown : h.next ≤ s.arr ∨ ∃ s' g', val x = some (s', g') ∧ s'.arr = s.arr) : OK h' (upd val x (some (s, g))) seen := by
  have hother : ∀ y s' g', y ≠ x → val y = some (s', g') → s'.arr ≠ s.arr := by
    intro y s' g' hy hv
    rcases hown with ho | ⟨s'', g'', h1, h2⟩
    · have := (ok.fits y s' g' hv).1; omega
    · rw [← h2]; exact ok.apart _ _ _ _ _ _ hy hv h1
  have hseen : ∀ t p v, (p, v) ∈ seen t → p.arr ≠ s.arr := by
    intro t p v hp
    rcases hown with ho | ⟨s'', g'', h1, h2⟩
    · have := ok.old t p v hp; omega
    · rw [← h2]; exact (ok.away t p v hp _ _ _ h1).symm
  constructor
  · intro y s' g' hv
    by_cases hy : y = x
    · rw [upd, if_pos hy] at hv; cases hv; exact ⟨ha, hl, hc⟩
    · rw [upd, if_neg hy] at hv
      obtain ⟨h1, h2, h3⟩ := ok.fits y s' g' hv
      exact ⟨by omega, h2, h3⟩
  · intro y s' g' hv k hk
    by_cases hy : y = x
    · rw [upd, if_pos hy] at hv; cases hv; exact hr k hk
    · rw [upd, if_neg hy] at hv
      rw [hcell _ (hother y s' g' hy hv) (ok.fits y s' g' hv).1]
      exact ok.reads y s' g' hv k hk
  · intro y z s1 g1 s2 g2 hyz h1 h2
    by_cases hy : y = x <;> by_cases hz : z = x
    · exact absurd (hy.trans hz.symm) hyz
    · rw [upd, if_pos hy] at h1; cases h1
      rw [upd, if_neg hz] at h2
      exact (hother z s2 g2 hz h2).symm
    · rw [upd, if_pos hz] at h2; cases h2
      rw [upd, if_neg hy] at h1
      exact hother y s1 g1 hy h1
    · rw [upd, if_neg hy] at h1
      rw [upd, if_neg hz] at h2
      exact ok.apart _ _ _ _ _ _ hyz h1 h2
  · intro t p v hp
    have := ok.old t p v hp; omega
  · intro t p v hp
    rw [Heap.load, hcell _ (hseen t p v hp) (ok.old t p v hp)]
    exact ok.kept t p v hp
  · intro t p v hp y s' g' hv
    by_cases hy : y = x
    · rw [upd, if_pos hy] at hv; cases hv; exact (hseen t p v hp).symm
    · rw [upd, if_neg hy] at hv; exact ok.away t p v hp y s' g' hv

/-- some slots are forgotten -/
theorem OK.drop (ok : OK h val seen) {val' : Slot → Option (Slice × List α)} (hv : ∀ x s g, val' x = some (s, g) → val x = some (s, g)) : OK h val' seen :=
  ⟨fun x s g e => ok.fits x s g (hv x s g e), fun x s g e => ok.reads x s g (hv x s g e), fun x y s g s' g' n e e' => ok.apart x y s g s' g' n (hv _ _ _ e) (hv _ _ _ e'),
    ok.old, ok.kept, fun t p v hp x s g e => ok.away t p v hp x s g (hv _ _ _ e)⟩

theorem OK.make (ok : OK h val seen) (x : Slot) (cap : Nat) : OK (h.make cap).1 (upd val x (some ((h.make cap).2, []))) seen := by
  refine ok.put (by simp [Heap.make]) (by simp [Heap.make]) rfl (by simp [Heap.make]) (by simp [Heap.make]) (fun a ha _ i => ?_) (.inl (by simp [Heap.make]))
  simp only [Heap.make] at ha ⊢
  rw [if_neg ha]

theorem OK.append (ok : OK h val seen) (grow : Nat → Nat) {x : Slot} {s : Slice} {g : List α} (hx : val x = some (s, g)) {v : Option α} {w : α} (hv : v = some w) :
    OK (h.append grow s v).1 (upd val x (some ((h.append grow s v).2, g ++ [w]))) seen := by
  obtain ⟨f1, f2, f3⟩ := ok.fits x s g hx
  have hr := ok.reads x s g hx
  subst hv
  unfold Heap.append
  by_cases hc : s.len < s.cap
  · rw [if_pos hc]
    refine ok.put (Nat.le_refl _) f1 (by simp [f2]) (Nat.succ_le_of_lt hc) (fun k hk => ?_) (fun a ha _ i => ?_) (.inr ⟨s, g, hx, rfl⟩)
    · simp only at hk ⊢
      by_cases hks : k = s.len
      · subst hks; simp [f2]
      · simp only [hks, and_false, if_false]
        rw [hr k (by omega), List.getElem?_append_left (by omega)]
    · simp only at ha ⊢
      simp [ha]
  · rw [if_neg hc]
    refine ok.put (by simp) (by simp) (by simp [f2]) (Nat.le_max_left _ _) (fun k hk => ?_) (fun a ha _ i => ?_) (.inl (by simp))
    · simp only [if_true] at hk ⊢
      by_cases hks : k < s.len
      · rw [if_pos hks, hr k hks, List.getElem?_append_left (by omega)]
      · have : k = g.length := by omega
        subst this
        simp [f2]
    · simp only at ha ⊢
      simp [ha]

theorem OK.clear (ok : OK h val seen) {x : Slot} {s : Slice} {g : List α} (hx : val x = some (s, g)) : OK h (upd val x (some (s.clear, []))) seen := by
  obtain ⟨f1, f2, f3⟩ := ok.fits x s g hx
  exact ok.put (Nat.le_refl _) f1 rfl (by simp [Slice.clear]) (by simp [Slice.clear]) (fun _ _ _ _ => rfl) (.inr ⟨s, g, hx, rfl⟩)

theorem mem_addrs_zip {s : Slice} {g : List α} {p : Ptr} {v : α} (hp : (p, v) ∈ s.addrs.zip g) :
    p.arr = s.arr ∧ p.idx < s.len ∧ g[p.idx]? = some v := by
  obtain ⟨k, hk⟩ := List.mem_iff_getElem?.1 hp
  rw [List.getElem?_zip_eq_some] at hk
  obtain ⟨h1, h2⟩ := hk
  rw [Slice.addrs, List.getElem?_map, Option.map_eq_some_iff] at h1
  obtain ⟨i, h1, rfl⟩ := h1
  obtain ⟨hi, h1⟩ := List.getElem?_eq_some_iff.1 h1
  rw [List.length_range] at hi
  rw [List.getElem_range] at h1
  subst h1
  exact ⟨rfl, hi, h2⟩

theorem addrs_zip_map {s : Slice} {g : List α} (hl : s.len = g.length) : (s.addrs.zip g).map Prod.snd = g := by
  rw [List.map_snd_zip]
  simp [Slice.addrs, hl]

/-- the elements of a slice are loaded into the index of `t`; the slice is not used any more -/
theorem OK.freeze (ok : OK h val seen) {x : Slot} {s : Slice} {g : List α} (hx : val x = some (s, g)) (t : Option Nat) :
    OK h (upd val x none) (setAt seen t (seen t ++ s.addrs.zip g)) := by
  obtain ⟨f1, f2, f3⟩ := ok.fits x s g hx
  have hd := ok.drop (val' := upd val x none) (fun y s' g' hy => by
    by_cases hyx : y = x
    · rw [upd, if_pos hyx] at hy; cases hy
    · rwa [upd, if_neg hyx] at hy)
  have hmem : ∀ u p v, (p, v) ∈ setAt seen t (seen t ++ s.addrs.zip g) u → (p, v) ∈ seen u ∨ (p, v) ∈ s.addrs.zip g := by
    intro u p v hp
    by_cases hu : u = t
    · rw [setAt, if_pos hu] at hp
      rcases List.mem_append.1 hp with hp | hp
      · exact .inl (hu ▸ hp)
      · exact .inr hp
    · rw [setAt, if_neg hu] at hp; exact .inl hp
  refine ⟨hd.fits, hd.reads, hd.apart, fun u p v hp => ?_, fun u p v hp => ?_, fun u p v hp y s' g' hy => ?_⟩
  · rcases hmem u p v hp with hp | hp
    · exact ok.old u p v hp
    · rw [(mem_addrs_zip hp).1]; exact f1
  · rcases hmem u p v hp with hp | hp
    · exact ok.kept u p v hp
    · obtain ⟨h1, h2, h3⟩ := mem_addrs_zip hp
      rw [Heap.load, h1, ok.reads x s g hx _ h2, h3]
  · have hyx : y ≠ x := by
      rintro rfl
      rw [upd, if_pos rfl] at hy; cases hy
    rw [upd, if_neg hyx] at hy
    rcases hmem u p v hp with hp | hp
    · exact ok.away u p v hp y s' g' hy
    · rw [(mem_addrs_zip hp).1]
      exact ok.apart y x s' g' s g hyx hy hx

/-- the elements of a slice in use -/
theorem OK.read (ok : OK h val seen) {x : Slot} {s : Slice} {g : List α} (hx : val x = some (s, g)) : h.read s = g.map some := by
  obtain ⟨f1, f2, f3⟩ := ok.fits x s g hx
  refine List.ext_getElem? (fun k => ?_)
  rw [Heap.read, List.getElem?_map, List.getElem?_map]
  by_cases hk : k < s.len
  · rw [List.getElem?_range hk, Option.map_some, ok.reads x s g hx k hk, List.getElem?_eq_getElem (by omega)]
    rfl
  · rw [List.getElem?_eq_none (by simpa using hk), List.getElem?_eq_none (by omega)]
    rfl

end

end Verif.Piece
