import Verif.Props.C22_Window
import Mathlib.Data.List.Pairwise

/-!
C58: `multiSelect` and its comment "groups sorted between each other".

The claim is false: `selectBox` takes `right` as the last position of the range, `multiSelect` stops as soon as `right - left ≤ n`, so the very
last item is never separated from the group before it when it should be a group of its own.  Away from that item, and for ranges within which
`selectBox` works (C22), the claim holds.
-/

set_option linter.unusedSectionVars false

namespace Verif
namespace Sel

variable {T B : Type} [LinearOrder B]

/-- nothing before `c` is larger than anything from `c` on -/
def Cut (key : T → B) (a : Arr T) (l0 r0 c : Int) : Prop := ∀ p q, l0 ≤ p → p < c → c ≤ q → q ≤ r0 → key (a.at_ p) ≤ key (a.at_ q)

/-- rearranging `l..r` keeps the cuts that are not strictly inside; at `r` the largest item must keep its place -/
theorem Cut.rearr {key : T → B} {a a' : Arr T} {l0 r0 l r c : Int} (h : Cut key a l0 r0 c) (hl : l0 ≤ l) (hr : r ≤ r0) (hre : Rearr a a' l r)
    (hc : c ≤ l ∨ r ≤ c)
    (hlast : (∀ x, l ≤ x → x ≤ r → key (a.at_ x) ≤ key (a.at_ r)) → key (a'.at_ r) = key (a.at_ r)) : Cut key a' l0 r0 c := by
  intro p q h1 h2 h3 h4
  have hre' := hre
  obtain ⟨-, σ, s1, s2⟩ := hre'
  obtain ⟨out, ins⟩ := hre.inside
  rcases hc with hc | hc
  · rw [out p (by omega)]
    by_cases hq : l ≤ q ∧ q ≤ r
    · obtain ⟨y, y1, y2, y3⟩ := ins q hq.1 hq.2
      rw [y3]; exact h p y h1 h2 (by omega) (by omega)
    · rw [out q (by omega)]; exact h p q h1 h2 h3 h4
  · by_cases hcr : c = r
    · subst hcr
      by_cases hlr : l ≤ c
      · have hmax : ∀ x, l ≤ x → x ≤ c → key (a.at_ x) ≤ key (a.at_ c) := by
          intro x x1 x2
          by_cases hx : x = c
          · rw [hx]
          · exact h x c (by omega) (by omega) (le_refl _) hr
        have hkey := hlast hmax
        -- the largest item may change places with an equal one only
        have hin : ∀ y, l ≤ y → y ≤ c → l ≤ σ y ∧ σ y ≤ c := by
          intro y y1 y2
          constructor <;> (by_contra hcon; have := s2 (σ y) (by omega); have := σ.injective this; omega)
        have hbelow : ∀ x, l ≤ x → x < c → ∀ q, c < q → q ≤ r0 → key (a'.at_ x) ≤ key (a.at_ q) := by
          intro x x1 x2 q q1 q2
          rw [s1]
          obtain ⟨m1, m2⟩ := hin x x1 (by omega)
          by_cases hx : σ x = c
          · have hne : σ c ≠ c := by
              intro hcc
              have := σ.injective (hx.trans hcc.symm)
              omega
            obtain ⟨n1, n2⟩ := hin c hlr (le_refl _)
            have e1 : key (a.at_ (σ c)) = key (a.at_ c) := by rw [← hkey, s1]
            rw [hx, ← e1]
            exact h (σ c) q (by omega) (by omega) (by omega) q2
          · exact h (σ x) q (by omega) (by omega) (by omega) q2
        by_cases hp : l ≤ p
        · by_cases hq : q = c
          · rw [hq, hkey]
            obtain ⟨y, y1, y2, y3⟩ := ins p hp (by omega)
            rw [y3]; exact hmax y y1 y2
          · rw [out q (by omega)]
            exact hbelow p hp h2 q (by omega) h4
        · rw [out p (by omega)]
          by_cases hq : q = c
          · rw [hq, hkey]; exact h p c h1 h2 (le_refl _) hr
          · rw [out q (by omega)]; exact h p q h1 h2 h3 h4
      · have hid : ∀ x, a'.at_ x = a.at_ x := fun x => out x (by omega)
        rw [hid, hid]; exact h p q h1 h2 h3 h4
    · rw [out q (by omega)]
      by_cases hp : l ≤ p ∧ p ≤ r
      · obtain ⟨y, y1, y2, y3⟩ := ins p hp.1 hp.2
        rw [y3]; exact h y q (by omega) (by omega) h3 h4
      · rw [out p (by omega)]; exact h p q h1 h2 h3 h4

/-- state of the loop: the ranges on the stack lie behind each other from top to bottom, start (and, but for the last, end) at multiples of `n`, and every multiple of `n`
that is not strictly inside one of them is a cut -/
structure MInv (key : T → B) (n l0 r0 : Int) (a : Arr T) (stack : List (Int × Int)) : Prop where
  bounds : ∀ e ∈ stack, l0 ≤ e.1 ∧ e.1 ≤ e.2 ∧ e.2 ≤ r0 ∧ n ∣ e.1 - l0 ∧ (e.2 = r0 ∨ n ∣ e.2 - l0)
  order : stack.Pairwise (fun e f => f.2 ≤ e.1)
  cuts : ∀ c, l0 < c → c < r0 → n ∣ c - l0 → (∀ e ∈ stack, ¬ (e.1 < c ∧ c < e.2)) → Cut key a l0 r0 c

private def mu' : List (Int × Int) → Nat
  | [] => 0
  | (l, r) :: s => max 1 (2 * (r - l) - 1).toNat + mu' s

theorem multiLoop_cuts {win : Int → Int → Int → Int × Int} (hw : WinOK bigRange win) (key : T → B) (n : Int) (hn0 : 0 < n) (l0 r0 : Int) (h0 : 0 ≤ l0)
    (hsmall : r0 - l0 ≤ bigRange) :
    ∀ (d : Nat) (a : Arr T) (stack : List (Int × Int)), r0 < a.n → MInv key n l0 r0 a stack → mu' stack ≤ d →
      ∃ a', Yields (fun fuel => multiLoop bigRange win key n fuel a stack) a' ∧ MInv key n l0 r0 a' [] := by
  intro d
  induction d with
  | zero =>
    intro a stack hn inv hd
    cases stack with
    | nil => exact ⟨a, Yields.step (g := fun _ => .ok a) (fun n => rfl) (Yields.const a), inv⟩
    | cons p s => obtain ⟨l, r⟩ := p; simp only [mu'] at hd; omega
  | succ d ih =>
    intro a stack hn inv hd
    cases stack with
    | nil => exact ⟨a, Yields.step (g := fun _ => .ok a) (fun n => rfl) (Yields.const a), inv⟩
    | cons p s =>
      obtain ⟨l, r⟩ := p
      obtain ⟨b1, b2, b3, b4, b5⟩ := inv.bounds (l, r) (by simp)
      simp only at b1 b2 b3 b4 b5
      simp only [mu'] at hd
      have hbs : ∀ e ∈ s, l0 ≤ e.1 ∧ e.1 ≤ e.2 ∧ e.2 ≤ r0 ∧ n ∣ e.1 - l0 ∧ (e.2 = r0 ∨ n ∣ e.2 - l0) := fun e he => inv.bounds e (by simp [he])
      obtain ⟨o1, o2⟩ := List.pairwise_cons.1 inv.order
      simp only at o1
      by_cases hc : r - l ≤ n
      · obtain ⟨a', y, re⟩ := ih a s hn ⟨hbs, o2, fun c c1 c2 c3 c4 => inv.cuts c c1 c2 c3 (by
            intro e he
            rcases List.mem_cons.1 he with rfl | he
            · simp only
              rintro ⟨x1, x2⟩
              have : n ∣ (c - l0) - (l - l0) := Int.dvd_sub c3 b4
              have h1 : c - l0 - (l - l0) = c - l := by omega
              rw [h1] at this
              have := Int.le_of_dvd (by omega) this
              omega
            · exact c4 e he)⟩ (by omega)
        exact ⟨a', Yields.step (fun m => by simp only [multiLoop]; rw [if_pos hc]) y, re⟩
      · let mid := l + ((r - l + 2 * n - 1) / (2 * n)) * n
        have hq1 : (r - l + 2 * n - 1) / (2 * n) * (2 * n) ≤ r - l + 2 * n - 1 := Int.ediv_mul_le _ (by omega)
        have hqpos : 1 ≤ (r - l + 2 * n - 1) / (2 * n) := by
          rw [Int.le_ediv_iff_mul_le (by omega)]; omega
        have hm1 : l < mid := by
          have := Int.mul_le_mul_of_nonneg_right hqpos (by omega : 0 ≤ n)
          simp only [mid]; omega
        have hm2 : mid < r := by
          have h2 : (r - l + 2 * n - 1) / (2 * n) * (2 * n) = 2 * ((r - l + 2 * n - 1) / (2 * n) * n) := by
            rw [← mul_assoc, mul_comm _ (2 : Int), mul_assoc]
          by_cases hq2 : (r - l + 2 * n - 1) / (2 * n) = 1
          · simp only [mid, hq2]; omega
          · have hq3 : 2 ≤ (r - l + 2 * n - 1) / (2 * n) := by omega
            have h3 := Int.mul_le_mul_of_nonneg_right hq3 (by omega : 0 ≤ n)
            simp only [mid]
            rw [h2] at hq1
            omega
        have hm3 : n ∣ mid - l0 := by
          have h1 : mid - l0 = (l - l0) + (r - l + 2 * n - 1) / (2 * n) * n := by simp only [mid]; omega
          rw [h1]; exact Int.dvd_add b4 (Int.dvd_mul_left _ _)
        obtain ⟨a1, y1, r1, pl, last⟩ := selectBox_spec hw key a mid l r (by omega) (by omega) (by omega) (by omega)
        have pl := pl (by omega)
        have last := last (by omega) hm2
        have keep : ∀ c, Cut key a l0 r0 c → c ≤ l ∨ r ≤ c → Cut key a1 l0 r0 c := fun c h hh => h.rearr b1 b3 r1 hh last
        have hcl : l0 < l → Cut key a1 l0 r0 l := fun hl => keep l (inv.cuts l hl (by omega) b4 (by
          intro e he
          rcases List.mem_cons.1 he with rfl | he
          · simp only; omega
          · have := o1 e he; omega)) (Or.inl (le_refl _))
        have hcr : r < r0 → Cut key a1 l0 r0 r := fun hr => keep r (inv.cuts r (by omega) hr (b5.resolve_left (by omega)) (by
          intro e he
          rcases List.mem_cons.1 he with rfl | he
          · simp only; omega
          · have := o1 e he; omega)) (Or.inr (le_refl _))
        have hcm : Cut key a1 l0 r0 mid := by
          intro p q p1 p2 q1 q2
          by_cases hp : p < l
          · exact hcl (by omega) p q p1 hp (by omega) q2
          · by_cases hq : r < q
            · exact hcr (by omega) p q p1 (by omega) (by omega) q2
            · refine le_trans (pl.1 p (by omega) p2) ?_
              by_cases hqm : q = mid
              · rw [hqm]
              · exact pl.2 q (by omega) (by omega)
        obtain ⟨a2, y2, r2⟩ := ih a1 ((mid, r) :: (l, mid) :: s) (by rw [r1.1]; exact hn)
          ⟨by
            intro e he
            simp only [List.mem_cons] at he
            rcases he with rfl | rfl | he
            · exact ⟨by simp only; omega, by simp only; omega, b3, hm3, b5⟩
            · exact ⟨b1, by simp only; omega, by simp only; omega, b4, Or.inr hm3⟩
            · exact hbs e he,
           by
            refine List.pairwise_cons.2 ⟨?_, List.pairwise_cons.2 ⟨fun e he => o1 e he, o2⟩⟩
            intro e he
            rcases List.mem_cons.1 he with rfl | he
            · exact le_refl _
            · have := o1 e he
              simp only; omega,
           by
            intro c c1 c2 c3 c4
            by_cases hcmid : c = mid
            · rw [hcmid]; exact hcm
            · have h1 := c4 (mid, r) (by simp)
              have h2 := c4 (l, mid) (by simp)
              simp only at h1 h2
              refine keep c (inv.cuts c c1 c2 c3 ?_) (by omega)
              intro e he
              rcases List.mem_cons.1 he with rfl | he
              · simp only; omega
              · exact c4 e (by simp [he])⟩
          (by simp only [mu']; omega)
        refine ⟨a2, ?_, r2⟩
        refine Yields.step (fun m => by simp only [multiLoop]; rw [if_neg hc]) ?_
        exact Yields.bind y1 y2

/-- C58, the part that holds.  On a range of at most 600 positions, after `multiSelect` with group size `n` every item of an earlier group is not greater than every
item of a later group — except the item at position `right` when that should be a group of its own (`n` divides `right - left`), and except longer ranges. -/
theorem C58_groups_partial {win : Int → Int → Int → Int × Int} (hw : WinOK bigRange win) (key : T → B) (a : Arr T) (left right n : Int) (hn0 : 0 < n)
    (h0 : 0 ≤ left) (hn : right < a.n) (hsmall : right - left ≤ 600) :
    ∃ a', Yields (fun fuel => multiSelect bigRange win key fuel a left right n) a' ∧
      ∀ p q, left ≤ p → q ≤ right → (p - left) / n < (q - left) / n → (q < right ∨ ¬ n ∣ right - left) → key (a'.at_ p) ≤ key (a'.at_ q) := by
  by_cases hlr : left ≤ right
  · obtain ⟨a', y, inv⟩ := multiLoop_cuts hw key n hn0 left right h0 hsmall _ a [(left, right)] hn
      ⟨by simp [hlr], by simp, fun c c1 c2 _ h => absurd ⟨c1, c2⟩ (h (left, right) (by simp))⟩ (Nat.le_refl _)
    refine ⟨a', y, ?_⟩
    intro p q hp hq hlt hor
    have e1 := Int.emod_add_mul_ediv (q - left) n
    have e2 := Int.emod_nonneg (q - left) (by omega : n ≠ 0)
    have e3 := Int.emod_add_mul_ediv (p - left) n
    have e4 := Int.emod_lt_of_pos (p - left) hn0
    have e5 : n * ((p - left) / n + 1) ≤ n * ((q - left) / n) := Int.mul_le_mul_of_nonneg_left (by omega) (by omega)
    rw [Int.mul_add] at e5
    let c := left + n * ((q - left) / n)
    have hc1 : p < c := by simp only [c]; omega
    have hc2 : c ≤ q := by simp only [c]; omega
    have hdvd : n ∣ c - left := ⟨(q - left) / n, by simp only [c]; omega⟩
    have hc3 : c < right := by
      rcases hor with h | h
      · omega
      · by_contra hcon
        have : c = right := by omega
        exact h (this ▸ hdvd)
    exact inv.cuts c (by omega) hc3 hdvd (by simp) p q hp hc1 hc2 hq
  · obtain ⟨a', y, -⟩ := C22_multiSelect hw key a left right n hn0 h0 hn
    exact ⟨a', y, fun p q hp hq hlt _ => by
      have := Int.ediv_le_ediv hn0 (by omega : q - left ≤ p - left)
      omega⟩

/-- five items, group size 2 -/
def fiveKeys : Arr Int := { n := 5, at_ := fun i => [0, 1, 2, 4, 3].getD i.toNat 0 }

/-- C58 is false: five items in groups of two.  Whatever the sampling window, `multiSelect` leaves them as they are, with 4 in the second group and 3 in the third. -/
theorem C58_refuted (win : Int → Int → Int → Int × Int) :
    ∃ a', Yields (fun fuel => multiSelect bigRange win (fun x : Int => x) fuel fiveKeys 0 4 2) a' ∧ a'.n = 5 ∧
      (3 : Int) / 2 < 4 / 2 ∧ a'.at_ 4 < a'.at_ 3 := by
  have h : ∃ a', multiSelect bigRange win (fun x : Int => x) 20 fiveKeys 0 4 2 = .ok a' ∧ a'.n = 5 ∧ a'.at_ 4 = 3 ∧ a'.at_ 3 = 4 := ⟨_, rfl, rfl, rfl, rfl⟩
  obtain ⟨a', h1, h2, h3, h4⟩ := h
  exact ⟨a', (multiSelect_le bigRange win (fun x : Int => x) fiveKeys 0 4 2).yields h1, h2, by decide, by rw [h3, h4]; decide⟩

/-- the same call meets the hypotheses of `C58_groups_partial` -/
example : ∃ a', Yields (fun fuel => multiSelect bigRange winReal (fun x : Int => x) fuel fiveKeys 0 4 2) a' ∧ a'.at_ 1 ≤ a'.at_ 3 := by
  obtain ⟨a', y, h⟩ := C58_groups_partial winReal_ok (fun x : Int => x) fiveKeys 0 4 2 (by decide) (by decide) (by decide) (by decide)
  exact ⟨a', y, h 1 3 (by decide) (by decide) (by decide) (Or.inl (by decide))⟩

end Sel
end Verif
