import Verif.Lemmas.Select
import Verif.Model.HdbHeur
import Verif.Lemmas.HdbBuild
import Mathlib.Data.List.Perm.Basic
import Mathlib.Data.List.Nodup

/-! C22: the in-place selection of the bulk loader. -/

set_option linter.unusedSectionVars false

namespace Verif
namespace Sel

variable {T B : Type} [LinearOrder B]

theorem rearr_perm {a a' : Arr T} {r : Int} (hr : r < a.n) (h : Rearr a a' 0 r) : (Hdb.ofArr a').Perm (Hdb.ofArr a) := by
  obtain ⟨n, σ, s1, s2⟩ := h
  unfold Hdb.ofArr
  rw [n]
  have hp : ((List.range a.n.toNat).map (fun i : Nat => σ (i : Int))).Perm ((List.range a.n.toNat).map (fun i : Nat => (i : Int))) := by
    rw [List.perm_ext_iff_of_nodup]
    · intro x
      simp only [List.mem_map, List.mem_range]
      constructor
      · rintro ⟨i, hi, rfl⟩
        refine ⟨(σ (i : Int)).toNat, ?_, ?_⟩
        · by_cases hir : (i : Int) ≤ r
          · have : ¬ (σ (i : Int) < 0 ∨ r < σ (i : Int)) := by
              intro hc
              have := σ.injective (s2 _ hc)
              omega
            omega
          · rw [s2 _ (by omega)]; omega
        · have : ¬ (σ (i : Int) < 0) := by
            intro hc
            have := σ.injective (s2 _ (Or.inl hc))
            omega
          omega
      · rintro ⟨i, hi, rfl⟩
        have key : ∀ y : Int, 0 ≤ y → y < a.n → 0 ≤ σ.symm y ∧ σ.symm y < a.n := by
          intro y h1 h2
          by_contra hc
          have : σ (σ.symm y) = σ.symm y := s2 _ (by omega)
          rw [Equiv.apply_symm_apply] at this
          omega
        obtain ⟨k1, k2⟩ := key i (by omega) (by omega)
        refine ⟨(σ.symm i).toNat, by omega, ?_⟩
        rw [Int.toNat_of_nonneg k1]; simp
    · exact List.Nodup.map (fun x y hxy => by have := σ.injective hxy; omega) List.nodup_range
    · exact List.Nodup.map (fun x y hxy => by simpa using hxy) List.nodup_range
  have := hp.map a.at_
  simp only [List.map_map] at this
  refine List.Perm.trans (List.Perm.of_eq ?_) this
  apply List.map_congr_left
  intro i _
  exact s1 i

/-- everything about one call of `selectBox` -/
theorem selectBox_spec {win : Int → Int → Int → Int × Int} (hw : WinOK bigRange win) (key : T → B) (a : Arr T) (k left right : Int)
    (h0 : 0 ≤ left) (hn : right < a.n) (hk1 : left ≤ k) (hk2 : k ≤ right) :
    ∃ a', Yields (fun fuel => selectBox bigRange win key fuel a k left right) a' ∧ Rearr a a' left right ∧
      (right - left ≤ bigRange → Placed key a' left right k) ∧
      (right - left ≤ bigRange → k < right → (∀ x, left ≤ x → x ≤ right → key (a.at_ x) ≤ key (a.at_ right)) →
        key (a'.at_ right) = key (a.at_ right)) := by
  obtain ⟨a', y, r, f, l⟩ := selLoop_spec bigRange hw key k _ left right (Nat.le_refl _) h0 _ a left right hn (le_refl _) (le_refl _) (Nat.le_refl _)
    (Or.inl ⟨hk1, hk2⟩) hk1 hk2
  refine ⟨a', y, r, fun h => f h ⟨fun p q _ _ _ _ => by omega, fun p q _ _ _ _ => by omega⟩ (fun h => by omega), l⟩

/-- C22.  `selectBox` on any slice and any valid position: it terminates, never indexes outside the slice (no panic) and only rearranges the
items of `left..right`.  `win` is any sampling window inside the range. -/
theorem C22_selectBox {win : Int → Int → Int → Int × Int} (hw : WinOK bigRange win) (key : T → B) (a : Arr T) (k left right : Int)
    (h0 : 0 ≤ left) (hn : right < a.n) (hk1 : left ≤ k) (hk2 : k ≤ right) :
    ∃ a', Yields (fun fuel => selectBox bigRange win key fuel a k left right) a' ∧ Rearr a a' left right := by
  obtain ⟨a', y, r, -, -⟩ := selectBox_spec hw key a k left right h0 hn hk1 hk2
  exact ⟨a', y, r⟩

/-- C22.  For ranges of at most 600 positions `selectBox` leaves at `k` an item with nothing larger before and nothing smaller after it.
Missing: longer ranges, for which this is false (`C22_refuted`). -/
theorem C22_partition_partial {win : Int → Int → Int → Int × Int} (hw : WinOK bigRange win) (key : T → B) (a : Arr T) (k left right : Int)
    (h0 : 0 ≤ left) (hn : right < a.n) (hk1 : left ≤ k) (hk2 : k ≤ right) (hs : right - left ≤ 600) :
    ∃ a', Yields (fun fuel => selectBox bigRange win key fuel a k left right) a' ∧ Placed key a' left right k := by
  obtain ⟨a', y, r, p, -⟩ := selectBox_spec hw key a k left right h0 hn hk1 hk2
  exact ⟨a', y, p hs⟩

/-- measure of a stack of ranges -/
private def mu : List (Int × Int) → Nat
  | [] => 0
  | (l, r) :: s => max 1 (2 * (r - l) - 1).toNat + mu s

theorem multiLoop_spec {win : Int → Int → Int → Int × Int} (hw : WinOK bigRange win) (key : T → B) (n : Int) (hn0 : 0 < n) (l0 r0 : Int) (h0 : 0 ≤ l0) :
    ∀ (d : Nat) (a : Arr T) (stack : List (Int × Int)), r0 < a.n → (∀ p ∈ stack, l0 ≤ p.1 ∧ p.2 ≤ r0) → mu stack ≤ d →
      ∃ a', Yields (fun fuel => multiLoop bigRange win key n fuel a stack) a' ∧ Rearr a a' l0 r0 := by
  intro d
  induction d with
  | zero =>
    intro a stack hn hs hd
    cases stack with
    | nil => exact ⟨a, Yields.step (g := fun _ => .ok a) (fun n => rfl) (Yields.const a), Rearr.refl _ _ _⟩
    | cons p s => obtain ⟨l, r⟩ := p; simp only [mu] at hd; omega
  | succ d ih =>
    intro a stack hn hs hd
    cases stack with
    | nil => exact ⟨a, Yields.step (g := fun _ => .ok a) (fun n => rfl) (Yields.const a), Rearr.refl _ _ _⟩
    | cons p s =>
      obtain ⟨l, r⟩ := p
      have hb := hs (l, r) (by simp)
      simp only at hb
      simp only [mu] at hd
      have hs' : ∀ p ∈ s, l0 ≤ p.1 ∧ p.2 ≤ r0 := fun p hp => hs p (by simp [hp])
      by_cases hc : r - l ≤ n
      · obtain ⟨a', y, re⟩ := ih a s hn hs' (by omega)
        exact ⟨a', Yields.step (fun m => by simp only [multiLoop]; rw [if_pos hc]) y, re⟩
      · -- the middle lies strictly inside
        let mid := l + ((r - l + 2 * n - 1) / (2 * n)) * n
        have hq1 : (r - l + 2 * n - 1) / (2 * n) * (2 * n) ≤ r - l + 2 * n - 1 := Int.ediv_mul_le _ (by omega)
        have hqpos : 1 ≤ (r - l + 2 * n - 1) / (2 * n) := by
          rw [Int.le_ediv_iff_mul_le (by omega)]; omega
        have hm1 : l < mid := by
          have := Int.mul_le_mul_of_nonneg_right hqpos (by omega : 0 ≤ n)
          simp only [mid]; omega
        have hm2 : mid < r := by
          have h2 : (r - l + 2 * n - 1) / (2 * n) * (2 * n) = 2 * ((r - l + 2 * n - 1) / (2 * n) * n) := by
            rw [← mul_assoc, mul_comm _ (2 : Int), mul_assoc]
          by_cases hq2 : (r - l + 2 * n - 1) / (2 * n) = 1
          · simp only [mid, hq2]; omega
          · have hq3 : 2 ≤ (r - l + 2 * n - 1) / (2 * n) := by omega
            have h3 := Int.mul_le_mul_of_nonneg_right hq3 (by omega : 0 ≤ n)
            simp only [mid]
            rw [h2] at hq1
            omega
        obtain ⟨a1, y1, r1⟩ := C22_selectBox hw key a mid l r (by omega) (by omega) (by omega) (by omega)
        obtain ⟨a2, y2, r2⟩ := ih a1 ((mid, r) :: (l, mid) :: s) (by rw [r1.1]; exact hn)
          (by
            intro p hp
            simp only [List.mem_cons] at hp
            rcases hp with rfl | rfl | hp
            · simp only; omega
            · simp only; omega
            · exact hs' p hp)
          (by simp only [mu]; omega)
        refine ⟨a2, ?_, (r1.mono hb.1 hb.2).trans r2⟩
        refine Yields.step (fun m => by simp only [multiLoop]; rw [if_neg hc]) ?_
        exact Yields.bind y1 y2

/-- C22.  `multiSelect` terminates without panic and only rearranges the items between `left` and `right`. -/
theorem C22_multiSelect {win : Int → Int → Int → Int × Int} (hw : WinOK bigRange win) (key : T → B) (a : Arr T) (left right n : Int) (hn0 : 0 < n)
    (h0 : 0 ≤ left) (hn : right < a.n) :
    ∃ a', Yields (fun fuel => multiSelect bigRange win key fuel a left right n) a' ∧ Rearr a a' left right :=
  multiLoop_spec hw key n hn0 left right h0 _ a [(left, right)] hn (by simp) (Nat.le_refl _)

/-- the hypotheses are met: a window that is always just `k` -/
example : WinOK bigRange (fun k _ _ => (k, k)) := by
  intro k l r h1 h2 h3
  simp only [bigRange] at *
  omega

/-- five items, position 2: the three smallest come first -/
example : ∃ a', selectBox bigRange (fun k _ _ => (k, k)) (fun x : Int => x) 20 { n := 5, at_ := fun i => [4, 1, 3, 0, 2].getD i.toNat 0 } 2 0 4 = .ok a' ∧
    a'.at_ 2 = 2 := ⟨_, rfl, rfl⟩

end Sel

namespace Hdb

variable {T B K : Type} [LinearOrder B] [BoundedOrder B] [LinearOrder K]

theorem ofArr_toArr (t : T) (ts : List T) : ofArr (toArr t ts) = t :: ts := by
  simp only [ofArr, toArr, Int.toNat_natCast]
  apply List.ext_getElem
  · simp
  · intro i h1 h2
    simp [List.getElem?_eq_getElem h2]

/-- the primitives behave: sorts permute, the window is inside the range -/
structure Num.Legal (N : Num T B K) : Prop where
  sortX : ∀ l, (N.sortX l).Perm l
  sortY : ∀ l, (N.sortY l).Perm l
  win : Sel.WinOK Sel.bigRange N.win

theorem selectCode_perm (ops : ItemOps T B) {N : Num T B K} (hN : N.Legal) (byY : Bool) (n : Nat) (hn : 0 < n) (l : List T) :
    (selectCode ops N byY n l).Perm l := by
  cases l with
  | nil => exact List.Perm.refl _
  | cons t ts =>
    obtain ⟨a', y, re⟩ := Sel.C22_multiSelect hN.win (fun x => if byY then (ops.mbr x).minY else (ops.mbr x).minX) (toArr t ts) 0 (ts.length : Int) (n : Int)
      (by omega) (by omega) (by simp only [toArr, List.length_cons]; omega)
    have hex : ∃ a, Yields (fun fuel => Sel.multiSelect Sel.bigRange N.win (fun x => if byY then (ops.mbr x).minY else (ops.mbr x).minX) fuel (toArr t ts) 0 (ts.length : Int) (n : Int)) a := ⟨a', y⟩
    simp only [selectCode]
    rw [dif_pos hex]
    have heq : hex.choose = a' := Yields.unique hex.choose_spec y
    rw [heq, ← ofArr_toArr t ts]
    exact Sel.rearr_perm (by simp only [toArr, List.length_cons]; omega) re

theorem chooseLoop_bound (N : Num T B K) (b : Box B) : ∀ (cs : List (Box B)) (i : Nat) (ma me : Option K) (t : Option Nat),
    (∀ x, t = some x → x < i) → (t = none → me = none ∧ cs ≠ []) →
    ∃ x, chooseLoop N b cs i ma me t = some x ∧ x < i + cs.length := by
  intro cs
  induction cs with
  | nil =>
    intro i ma me t h1 h2
    cases t with
    | none => exact absurd rfl (h2 rfl).2
    | some x => exact ⟨x, rfl, by have := h1 x rfl; simpa using this⟩
  | cons c cs ih =>
    intro i ma me t h1 h2
    simp only [chooseLoop]
    have hlen : i + 1 + cs.length = i + (c :: cs).length := by simp; omega
    rw [← hlen]
    by_cases hl : ltInf (N.area (b.expand c)) me = true
    · rw [if_pos hl]
      exact ih _ _ _ _ (fun x hx => by cases hx; omega) (fun h => by cases h)
    · rw [if_neg hl]
      have ht : t ≠ none := by
        intro h
        have := (h2 h).1
        subst this
        exact hl rfl
      have hold : ∀ x, t = some x → x < i + 1 := fun x hx => by have := h1 x hx; omega
      split
      · split
        · exact ih _ _ _ _ (fun x hx => by cases hx; omega) (fun h => by cases h)
        · exact ih _ _ _ _ hold (fun h => absurd h ht)
      · exact ih _ _ _ _ hold (fun h => absurd h ht)

theorem splitLoop_bound (N : Num T B K) (bs : List (Box B)) : ∀ (left i : Nat) (mo ma : Option K) (index lo : Nat),
    lo ≤ i → (mo = none → 0 < left) → (mo ≠ none → lo ≤ index ∧ index < i) →
    lo ≤ splitLoop N bs left i mo ma index ∧ splitLoop N bs left i mo ma index < i + left := by
  intro left
  induction left with
  | zero =>
    intro i mo ma index lo h0 h1 h2
    have : mo ≠ none := fun h => by have := h1 h; omega
    exact h2 this
  | succ left ih =>
    intro i mo ma index lo h0 h1 h2
    simp only [splitLoop]
    rw [show i + (left + 1) = i + 1 + left by omega]
    by_cases hl : ltInf (intersectionArea N (Box.unionAll (bs.take i)) (Box.unionAll (bs.drop i))) mo = true
    · rw [if_pos hl]
      exact ih _ _ _ _ _ (by omega) (fun h => by cases h) (fun _ => ⟨h0, by omega⟩)
    · rw [if_neg hl]
      have hmo : mo ≠ none := by intro h; subst h; exact hl rfl
      have h3 := h2 hmo
      split
      · split
        · exact ih _ _ _ _ _ (by omega) (fun h => absurd h hmo) (fun _ => ⟨h0, by omega⟩)
        · exact ih _ _ _ _ _ (by omega) (fun h => absurd h hmo) (fun _ => ⟨h3.1, by omega⟩)
      · exact ih _ _ _ _ _ (by omega) (fun h => absurd h hmo) (fun _ => ⟨h3.1, by omega⟩)

theorem minEntries_bounds {M : Nat} (h : 4 ≤ M) : 2 ≤ minEntries M ∧ 2 * minEntries M ≤ M + 1 := by
  unfold minEntries; omega

/-- C20/C22.  The heuristics the code computes satisfy everything the tree algorithms need, for every bucket size the code allows. -/
theorem C22_codeHeur_legal (ops : ItemOps T B) {N : Num T B K} (hN : N.Legal) {M : Nat} (hM : 4 ≤ M) : Legal (codeHeur ops N M) M := by
  obtain ⟨m1, m2⟩ := minEntries_bounds hM
  refine ⟨?_, ?_, ?_, ?_, ?_⟩
  · intro b bs hne
    obtain ⟨x, e, hx⟩ := chooseLoop_bound N b bs 0 none none none (fun x h => by cases h) (fun _ => ⟨rfl, hne⟩)
    exact ⟨x, by simpa using hx, e⟩
  · intro l
    simp only [codeHeur, chooseSplitAxis]
    split
    · exact (hN.sortX _).trans ((hN.sortY _).trans (hN.sortX _))
    · exact (hN.sortY _).trans (hN.sortX _)
  · intro bs hbs
    simp only [codeHeur, chooseSplitIndex, hbs]
    have := splitLoop_bound N bs (M + 1 - minEntries M + 1 - minEntries M) (minEntries M) none none 0 (minEntries M) (Nat.le_refl _)
      (fun _ => by omega) (fun h => absurd rfl h)
    omega
  · intro y n hn l
    exact selectCode_perm ops hN y n hn l
  · intro n hn
    simp only [codeHeur]
    refine ⟨?_, Nat.le_pow_clog (by omega) n⟩
    exact Nat.le_of_lt (Nat.pow_pred_clog_lt_self (by omega) (by omega))

end Hdb
end Verif
