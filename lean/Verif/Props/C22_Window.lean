import Verif.Props.C22_Select
import Verif.Lemmas.SelectMono
import Verif.Lemmas.Window

/-!
C22 on long ranges, with the sampling window of the code.

`selectBox` computes the window from `fleft` and `fright`, which keep the values of the call's arguments while `left` and `right` shrink.  In a later round the
selection on the stale window rearranges items outside the current range, so the partition built by the earlier rounds is lost.
-/

set_option linter.unusedSectionVars false

namespace Verif
namespace Sel

variable {T B : Type} [LinearOrder B]

/-- C22.  The window of hdb/select.go:39-50 (over the reals) is inside the range and smaller, so `selectBox` as written terminates, never indexes outside the slice, and
only rearranges `left..right`. -/
theorem C22_selectBox_window (key : T → B) (a : Arr T) (k left right : Int) (h0 : 0 ≤ left) (hn : right < a.n) (hk1 : left ≤ k) (hk2 : k ≤ right) :
    ∃ a', Yields (fun fuel => selectBox bigRange winReal key fuel a k left right) a' ∧ Rearr a a' left right :=
  C22_selectBox winReal_ok key a k left right h0 hn hk1 hk2

/-- 619 items: position `i` holds `i`, but for 22 positions -/
def badTable : List (Int × Int) :=
  [(4, 44), (5, 34), (6, 21), (7, 45), (8, 56), (11, 57), (15, 33), (16, 47), (18, 15), (21, 7), (23, 8), (33, 11), (34, 46), (44, 6), (45, 5), (46, 52), (47, 23),
   (48, 500), (52, 18), (56, 4), (57, 48), (500, 16)]

def badArr : Arr Int := { n := 619, at_ := fun i => (badTable.lookup i).getD i }

/-- a window that is the code's at `17, 0, 618` (the only place it is asked for in the run below) -/
def badWin (k l r : Int) : Int × Int := if k = 17 ∧ l = 0 ∧ r = 618 then (8, 44) else (l, r)

def badOut (r : Res (Arr Int)) : Bool :=
  match r with
  | .ok a => decide (a.at_ 9 = 17) && decide (a.at_ 17 = 16)
  | _ => false

set_option maxRecDepth 100000 in
private theorem bad_run : badOut (selectBox bigRange badWin (fun x : Int => x) 700 badArr 17 0 618) = true := by decide +kernel

/-- on a short range the window is never consulted -/
theorem selLoop_short (big : Int) (w w' : Int → Int → Int → Int × Int) (key : T → B) (k : Int) : ∀ (n : Nat) (l0 r0 : Int) (a : Arr T) (left right : Int),
    0 ≤ left → right < a.n → right - left ≤ big → (left ≤ k ∧ k ≤ right ∨ right < left) →
    selLoop big w key k n l0 r0 a left right = selLoop big w' key k n l0 r0 a left right
  | 0, _, _, _, _, _, _, _, _, _ => rfl
  | n + 1, l0, r0, a, left, right, h0, hn, hb, hk => by
    rw [selLoop.eq_2, selLoop.eq_2]
    by_cases hlr : right > left
    · rw [if_pos hlr, if_pos hlr]
      have hs : ∀ x, sample big left right a x = .ok a := fun x => by unfold sample; rw [if_neg (by omega)]
      rw [hs, hs]
      simp only [Res.ok_bind]
      obtain ⟨a', j, hp, hr, j1, j2, -⟩ := partRound_spec (k := k) key a h0 hn hlr (by omega)
      have hm : Mono (fun fuel => partRound key fuel a k left right) := fun n => partRound_le key n a k left right
      have hy : Yields (fun fuel => partRound key fuel a k left right) (a', j) := ⟨(right - left).toNat + 1, fun f hf => hp f (by omega)⟩
      rcases hm.eq_of_yields hy n with h | h
      · rw [h]; rfl
      · rw [h]
        simp only [Res.ok_bind]
        apply selLoop_short big w w' key k n
        · split <;> omega
        · rw [hr.1]; split <;> omega
        · split <;> split <;> omega
        · split <;> split <;> omega
    · rw [if_neg hlr, if_neg hlr]

/-- two windows that agree, with a short result, on the arguments of the call -/
theorem selLoop_congr (w w' : Int → Int → Int → Int × Int) (key : T → B) (k l0 r0 : Int) (e : Int × Int) (he : w k l0 r0 = e) (he' : w' k l0 r0 = e)
    (hk1 : e.1 ≤ k) (hk2 : k ≤ e.2) (h0 : 0 ≤ e.1) (hb : e.2 - e.1 ≤ bigRange) (h00 : 0 ≤ l0) (hlw : e.2 ≤ r0) :
    ∀ (n : Nat) (a : Arr T) (left right : Int), l0 ≤ left → right ≤ r0 → r0 < a.n → (left ≤ k ∧ k ≤ right ∨ right < left) →
    selLoop bigRange w key k n l0 r0 a left right = selLoop bigRange w' key k n l0 r0 a left right
  | 0, _, _, _, _, _, _, _ => rfl
  | n + 1, a, left, right, hl, hr, hn, hk => by
    rw [selLoop.eq_2, selLoop.eq_2]
    by_cases hlr : right > left
    · rw [if_pos hlr, if_pos hlr, he, he']
      rw [selLoop_short bigRange w winReal key k n _ _ a _ _ h0 (by omega) hb (Or.inl ⟨hk1, hk2⟩)]
      rw [selLoop_short bigRange w' winReal key k n _ _ a _ _ h0 (by omega) hb (Or.inl ⟨hk1, hk2⟩)]
      have hsn : sample bigRange left right a (selLoop bigRange winReal key k n e.1 e.2 a e.1 e.2) = .timeout ∨
          ∃ b, sample bigRange left right a (selLoop bigRange winReal key k n e.1 e.2 a e.1 e.2) = .ok b ∧ b.n = a.n := by
        unfold sample
        split
        · obtain ⟨b, y, rr, -⟩ := selectBox_spec winReal_ok key a k e.1 e.2 h0 (by omega) hk1 hk2
          rcases (selectBox_le bigRange winReal key a k e.1 e.2).eq_of_yields y n with h | h
          · exact Or.inl h
          · exact Or.inr ⟨b, h, rr.1⟩
        · exact Or.inr ⟨a, rfl, rfl⟩
      rcases hsn with h | ⟨b, h, hbn⟩
      · rw [h]; rfl
      · rw [h]
        simp only [Res.ok_bind]
        obtain ⟨a', j, hp, hre, j1, j2, -⟩ := partRound_spec (k := k) (left := left) (right := right) key b (by omega) (by omega) hlr (by omega)
        have hm : Mono (fun fuel => partRound key fuel b k left right) := fun n => partRound_le key n b k left right
        have hy : Yields (fun fuel => partRound key fuel b k left right) (a', j) := ⟨(right - left).toNat + 1, fun f hf => hp f (by omega)⟩
        rcases hm.eq_of_yields hy n with h | h
        · rw [h]; rfl
        · rw [h]
          simp only [Res.ok_bind]
          apply selLoop_congr w w' key k l0 r0 e he he' hk1 hk2 h0 hb h00 hlw n
          · split <;> omega
          · split <;> omega
          · rw [hre.1, hbn]; exact hn
          · split <;> split <;> omega
    · rw [if_neg hlr, if_neg hlr]

/-- C22 is false on long ranges: on these 619 items `selectBox` with `k = 17`, as written and with exact arithmetic in the window, leaves 17 at position 9 before 16 at
position 17. -/
theorem C22_refuted :
    ∃ a', Yields (fun fuel => selectBox bigRange winReal (fun x : Int => x) fuel badArr 17 0 618) a' ∧ Rearr badArr a' 0 618 ∧
      a'.at_ 17 < a'.at_ 9 ∧ ¬ Placed (fun x : Int => x) a' 0 618 17 := by
  obtain ⟨a', y, r⟩ := C22_selectBox_window (fun x : Int => x) badArr 17 0 618 (by decide) (by decide) (by decide) (by decide)
  have hrun := bad_run
  have e : selectBox bigRange badWin (fun x : Int => x) 700 badArr 17 0 618 = selectBox bigRange winReal (fun x : Int => x) 700 badArr 17 0 618 :=
    selLoop_congr badWin winReal (fun x : Int => x) 17 0 618 (8, 44) (by decide) winReal_sample (by decide) (by decide) (by decide) (by decide) (by decide) (by decide) 700 badArr 0 618
      (by decide) (by decide) (by decide) (by decide)
  rw [e] at hrun
  rcases (selectBox_le bigRange winReal (fun x : Int => x) badArr 17 0 618).eq_of_yields y 700 with h | h
  · rw [h] at hrun; cases hrun
  · rw [h] at hrun
    simp only [badOut, Bool.and_eq_true, decide_eq_true_eq] at hrun
    have hlt : a'.at_ 17 < a'.at_ 9 := by omega
    exact ⟨a', y, r, hlt, fun hp => absurd (hp.1 9 (by decide) (by decide)) (not_le.2 hlt)⟩

end Sel
end Verif
