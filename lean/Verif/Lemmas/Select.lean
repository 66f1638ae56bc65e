import Verif.Model.Select
import Verif.Model.Yields
import Mathlib.Logic.Equiv.Basic

/-! Correctness of the in-place selection. -/

namespace Verif
namespace Sel

variable {T B : Type} [LinearOrder B]

/-- the second slice is a rearrangement of the first that moves nothing outside `l..r` -/
def Rearr (a a' : Arr T) (l r : Int) : Prop :=
  a'.n = a.n ∧ ∃ σ : Equiv.Perm Int, (∀ x, a'.at_ x = a.at_ (σ x)) ∧ ∀ x, (x < l ∨ r < x) → σ x = x

theorem Rearr.refl (a : Arr T) (l r : Int) : Rearr a a l r := ⟨rfl, Equiv.refl _, fun _ => rfl, fun _ _ => rfl⟩

theorem Rearr.trans {a b c : Arr T} {l r : Int} (h1 : Rearr a b l r) (h2 : Rearr b c l r) : Rearr a c l r := by
  obtain ⟨n1, s, s1, s2⟩ := h1
  obtain ⟨n2, u, u1, u2⟩ := h2
  refine ⟨n2.trans n1, u.trans s, fun x => ?_, fun x hx => ?_⟩
  · rw [u1, s1]; rfl
  · simp [u2 x hx, s2 x hx]

theorem Rearr.mono {a b : Arr T} {l r l' r' : Int} (h : Rearr a b l r) (h1 : l' ≤ l) (h2 : r ≤ r') : Rearr a b l' r' := by
  obtain ⟨n, s, s1, s2⟩ := h
  exact ⟨n, s, s1, fun x hx => s2 x (by omega)⟩

/-- nothing moves outside the range; inside, every value comes from inside -/
theorem Rearr.inside {a b : Arr T} {l r : Int} (h : Rearr a b l r) :
    (∀ x, (x < l ∨ r < x) → b.at_ x = a.at_ x) ∧ ∀ x, l ≤ x → x ≤ r → ∃ y, l ≤ y ∧ y ≤ r ∧ b.at_ x = a.at_ y := by
  obtain ⟨n, s, s1, s2⟩ := h
  refine ⟨fun x hx => by rw [s1, s2 x hx], fun x h1 h2 => ⟨s x, ?_, ?_, s1 x⟩⟩
  · by_contra hlt
    have := s2 (s x) (by omega)
    have := s.injective this
    omega
  · by_contra hlt
    have := s2 (s x) (by omega)
    have := s.injective this
    omega

theorem swap_spec (a : Arr T) {i j l r : Int} (hi : 0 ≤ i ∧ i < a.n) (hj : 0 ≤ j ∧ j < a.n) (h1 : l ≤ i ∧ i ≤ r) (h2 : l ≤ j ∧ j ≤ r) :
    ∃ a', a.swap i j = .ok a' ∧ Rearr a a' l r ∧ a'.at_ i = a.at_ j ∧ a'.at_ j = a.at_ i ∧ ∀ x, x ≠ i → x ≠ j → a'.at_ x = a.at_ x := by
  refine ⟨{ a with at_ := fun x => if x = i then a.at_ j else if x = j then a.at_ i else a.at_ x },
    by simp only [Arr.swap]; rw [if_pos ⟨hi, hj⟩], ⟨rfl, Equiv.swap i j, ?_, ?_⟩, ?_, ?_, ?_⟩
  · intro x
    simp only [Equiv.swap_apply_def]
    split
    · rfl
    · split <;> rfl
  · intro x hx
    exact Equiv.swap_apply_of_ne_of_ne (by omega) (by omega)
  · simp
  · by_cases h : j = i
    · simp [h]
    · simp [h]
  · intro x hx hy; simp [hx, hy]

theorem get_ok (a : Arr T) {i : Int} (h0 : 0 ≤ i) (h1 : i < a.n) : a.get i = .ok (a.at_ i) := by
  simp [Arr.get, h0, h1]

theorem scanUp_spec (key : T → B) (t : B) (a : Arr T) (p : Int) (hp : p < a.n) (hk : t ≤ key (a.at_ p)) :
    ∀ (d : Nat) (i : Int), 0 ≤ i → i ≤ p → (p - i).toNat ≤ d →
    ∃ i', (∀ fuel : Nat, p - i < fuel → scanUp key t fuel a i = .ok i') ∧ i ≤ i' ∧ i' ≤ p ∧ t ≤ key (a.at_ i') ∧
      ∀ x, i ≤ x → x < i' → key (a.at_ x) < t := by
  intro d
  induction d with
  | zero =>
    intro i h0 h1 h2
    have : i = p := by omega
    subst this
    refine ⟨i, fun fuel hf => ?_, le_refl _, le_refl _, hk, fun x h h' => by omega⟩
    obtain ⟨f, rfl⟩ : ∃ f, fuel = f + 1 := ⟨fuel - 1, by omega⟩
    simp only [scanUp, get_ok a h0 hp, Res.ok_bind]
    rw [if_neg (not_lt.2 hk)]; rfl
  | succ d ih =>
    intro i h0 h1 h2
    by_cases hlt : key (a.at_ i) < t
    · have hne : i ≠ p := by rintro rfl; exact absurd hlt (not_lt.2 hk)
      obtain ⟨i', e, b1, b2, b3, b4⟩ := ih (i + 1) (by omega) (by omega) (by omega)
      refine ⟨i', fun fuel hf => ?_, by omega, b2, b3, fun x hx1 hx2 => ?_⟩
      · obtain ⟨f, rfl⟩ : ∃ f, fuel = f + 1 := ⟨fuel - 1, by omega⟩
        simp only [scanUp, get_ok a h0 (by omega : i < a.n), Res.ok_bind]
        rw [if_pos hlt, e f (by omega)]
      · by_cases hx : x = i
        · rw [hx]; exact hlt
        · exact b4 x (by omega) hx2
    · refine ⟨i, fun fuel hf => ?_, le_refl _, h1, not_lt.1 hlt, fun x h h' => by omega⟩
      obtain ⟨f, rfl⟩ : ∃ f, fuel = f + 1 := ⟨fuel - 1, by omega⟩
      simp only [scanUp, get_ok a h0 (by omega : i < a.n), Res.ok_bind]
      rw [if_neg hlt]; rfl

theorem scanDown_spec (key : T → B) (t : B) (a : Arr T) (p : Int) (hp : 0 ≤ p) (hk : key (a.at_ p) ≤ t) :
    ∀ (d : Nat) (j : Int), j < a.n → p ≤ j → (j - p).toNat ≤ d →
    ∃ j', (∀ fuel : Nat, j - p < fuel → scanDown key t fuel a j = .ok j') ∧ p ≤ j' ∧ j' ≤ j ∧ key (a.at_ j') ≤ t ∧
      ∀ x, j' < x → x ≤ j → t < key (a.at_ x) := by
  intro d
  induction d with
  | zero =>
    intro j h0 h1 h2
    have : j = p := by omega
    subst this
    refine ⟨j, fun fuel hf => ?_, le_refl _, le_refl _, hk, fun x h h' => by omega⟩
    obtain ⟨f, rfl⟩ : ∃ f, fuel = f + 1 := ⟨fuel - 1, by omega⟩
    simp only [scanDown, get_ok a hp h0, Res.ok_bind]
    rw [if_neg (not_lt.2 hk)]; rfl
  | succ d ih =>
    intro j h0 h1 h2
    by_cases hlt : key (a.at_ j) > t
    · have hne : j ≠ p := by rintro rfl; exact absurd hlt (not_lt.2 hk)
      obtain ⟨j', e, b1, b2, b3, b4⟩ := ih (j - 1) (by omega) (by omega) (by omega)
      refine ⟨j', fun fuel hf => ?_, by omega, by omega, b3, fun x hx1 hx2 => ?_⟩
      · obtain ⟨f, rfl⟩ : ∃ f, fuel = f + 1 := ⟨fuel - 1, by omega⟩
        simp only [scanDown, get_ok a (by omega : 0 ≤ j) h0, Res.ok_bind]
        rw [if_pos hlt, e f (by omega)]
      · by_cases hx : x = j
        · rw [hx]; exact hlt
        · exact b4 x hx1 (by omega)
    · refine ⟨j, fun fuel hf => ?_, h1, le_refl _, not_lt.1 hlt, fun x h h' => by omega⟩
      obtain ⟨f, rfl⟩ : ∃ f, fuel = f + 1 := ⟨fuel - 1, by omega⟩
      simp only [scanDown, get_ok a (by omega : 0 ≤ j) h0, Res.ok_bind]
      rw [if_neg hlt]; rfl

/-- invariant of the partition loop on `left..right` -/
structure PInv (key : T → B) (t : B) (left right : Int) (a : Arr T) (i j : Int) : Prop where
  hi : left ≤ i ∧ i ≤ right
  hj : left ≤ j ∧ j ≤ right
  ki : t ≤ key (a.at_ i)
  kj : key (a.at_ j) ≤ t
  low : ∀ x, left ≤ x → x < i → key (a.at_ x) ≤ t
  high : ∀ x, j < x → x ≤ right → t ≤ key (a.at_ x)

/-- one iteration -/
theorem partStep (key : T → B) (t : B) {left right : Int} {a : Arr T} (h0 : 0 ≤ left) (hn : right < a.n) {i j : Int}
    (inv : PInv key t left right a i j) (hij : i < j) :
    ∃ a' i' j', (∀ fuel : Nat, j - i ≤ fuel → ∀ f (g : Arr T → Int → Int → Res f), (do
        let a ← a.swap i j
        let i ← scanUp key t fuel a (i + 1)
        let j ← scanDown key t fuel a (j - 1)
        g a i j) = g a' i' j') ∧
      Rearr a a' left right ∧ PInv key t left right a' i' j' ∧ i < i' ∧ j' < j ∧ a'.at_ i = a.at_ j ∧ a'.at_ j = a.at_ i ∧
      (∀ x, x ≠ i → x ≠ j → a'.at_ x = a.at_ x) := by
  obtain ⟨b1, b2⟩ := inv.hi
  obtain ⟨b3, b4⟩ := inv.hj
  obtain ⟨a', e1, r1, s1, s2, s3⟩ := swap_spec a (i := i) (j := j) (l := left) (r := right) (by omega) (by omega) (by omega) (by omega)
  have hn' : a'.n = a.n := r1.1
  obtain ⟨i', e2, c1, c2, c3, c4⟩ := scanUp_spec key t a' j (by omega) (by rw [s2]; exact inv.ki) _ (i + 1) (by omega) (by omega) (Nat.le_refl _)
  obtain ⟨j', e3, d1, d2, d3, d4⟩ := scanDown_spec key t a' i (by omega) (by rw [s1]; exact inv.kj) _ (j - 1) (by omega) (by omega) (Nat.le_refl _)
  refine ⟨a', i', j', ?_, r1, ⟨by omega, by omega, c3, d3, ?_, ?_⟩, by omega, by omega, s1, s2, s3⟩
  · intro fuel hf f g
    simp only [e1, Res.ok_bind, e2 fuel (by omega), e3 fuel (by omega)]
  · intro x hx1 hx2
    by_cases hxi : x = i
    · rw [hxi, s1]; exact inv.kj
    · by_cases hlt : x < i
      · rw [s3 x hxi (by omega)]; exact inv.low x hx1 hlt
      · exact le_of_lt (c4 x (by omega) hx2)
  · intro x hx1 hx2
    by_cases hxj : x = j
    · rw [hxj, s2]; exact inv.ki
    · by_cases hlt : j < x
      · rw [s3 x (by omega) hxj]; exact inv.high x hlt hx2
      · exact le_of_lt (d4 x hx1 (by omega))

theorem partLoop_spec (key : T → B) (t : B) {left right : Int} (h0 : 0 ≤ left) : ∀ (d : Nat) (a : Arr T) (i j : Int), right < a.n →
    PInv key t left right a i j → left < i → j < right → (j - i).toNat ≤ d →
    ∃ a' i' j', (∀ fuel : Nat, j - i < fuel → 0 < fuel → partLoop key t fuel a i j = .ok (a', i', j')) ∧ Rearr a a' left right ∧
      PInv key t left right a' i' j' ∧ j' ≤ i' ∧ j' < right ∧
      a'.at_ left = a.at_ left ∧ a'.at_ right = a.at_ right := by
  intro d
  induction d with
  | zero =>
    intro a i j hn inv hl hr hd
    refine ⟨a, i, j, fun fuel hf hf' => ?_, Rearr.refl _ _ _, inv, by omega, hr, rfl, rfl⟩
    obtain ⟨f, rfl⟩ : ∃ f, fuel = f + 1 := ⟨fuel - 1, by omega⟩
    rw [partLoop, if_neg (by omega)]
  | succ d ih =>
    intro a i j hn inv hl hr hd
    by_cases hij : i < j
    · obtain ⟨a', i', j', e, r1, p, q1, q2, q3, q4, q5⟩ := partStep key t h0 hn inv hij
      obtain ⟨a2, i2, j2, e2, r2, p2, q6, q7, q8, q9⟩ := ih a' i' j' (by rw [r1.1]; exact hn) p (by omega) (by omega) (by omega)
      refine ⟨a2, i2, j2, fun fuel hf hf' => ?_, r1.trans r2, p2, q6, q7, ?_, ?_⟩
      · obtain ⟨f, rfl⟩ : ∃ f, fuel = f + 1 := ⟨fuel - 1, by omega⟩
        rw [partLoop, if_pos hij, e f (by omega) _ (partLoop key t f), e2 f (by omega) (by omega)]
      · rw [q8, q5 left (by omega) (by omega)]
      · rw [q9, q5 right (by omega) (by omega)]
    · refine ⟨a, i, j, fun fuel hf hf' => ?_, Rearr.refl _ _ _, inv, by omega, hr, rfl, rfl⟩
      obtain ⟨f, rfl⟩ : ∃ f, fuel = f + 1 := ⟨fuel - 1, by omega⟩
      rw [partLoop, if_neg hij]

/-- one round: the slice is rearranged inside `left..right` so that everything up to `j` is at most, everything from `j` on at least, the item at `j` -/
theorem partRound_spec (key : T → B) (a : Arr T) {k left right : Int} (h0 : 0 ≤ left) (hn : right < a.n) (hlr : left < right)
    (hk : left ≤ k ∧ k ≤ right) :
    ∃ a' j, (∀ fuel : Nat, right - left < fuel → partRound key fuel a k left right = .ok (a', j)) ∧ Rearr a a' left right ∧ left ≤ j ∧ j ≤ right ∧
      (∀ x, left ≤ x → x ≤ j → key (a'.at_ x) ≤ key (a'.at_ j)) ∧ (∀ x, j ≤ x → x ≤ right → key (a'.at_ j) ≤ key (a'.at_ x)) ∧
      (k < right → (∀ x, left ≤ x → x ≤ right → key (a.at_ x) ≤ key (a.at_ right)) → key (a'.at_ right) = key (a.at_ right)) := by
  obtain ⟨a1, e1, r1, s1, s2, s3⟩ := swap_spec a (i := left) (j := k) (l := left) (r := right) (by omega) (by omega) (by omega) (by omega)
  have hn1 : a1.n = a.n := r1.1
  let t := key (a.at_ k)
  have ht1 : key (a1.at_ left) = t := by rw [s1]
  -- after the conditional swap
  obtain ⟨a2, e2, r2, inv, ends, last⟩ : ∃ a2, condSwap key t a1 left right = .ok a2 ∧ Rearr a1 a2 left right ∧
      PInv key t left right a2 left right ∧ (key (a2.at_ left) = t ∨ key (a2.at_ right) = t) ∧
      (k < right → (∀ x, left ≤ x → x ≤ right → key (a.at_ x) ≤ key (a.at_ right)) →
        key (a2.at_ left) = key (a.at_ right) ∧ key (a2.at_ right) = t) := by
    by_cases hgt : key (a1.at_ right) > t
    · obtain ⟨a2, e2, r2, u1, u2, u3⟩ := swap_spec a1 (i := left) (j := right) (l := left) (r := right) (by omega) (by omega) (by omega) (by omega)
      refine ⟨a2, by simp only [condSwap, get_ok a1 (by omega : 0 ≤ right) (by omega), Res.ok_bind]; rw [if_pos hgt, e2], r2, ⟨by omega, by omega, ?_, ?_, fun x _ _ => by omega, fun x _ _ => by omega⟩, Or.inr ?_, fun hkr _ => ⟨?_, ?_⟩⟩
      · rw [u1]; exact le_of_lt hgt
      · rw [u2, ht1]
      · rw [u2, ht1]
      · rw [u1, s3 right (by omega) (by omega)]
      · rw [u2, ht1]
    · refine ⟨a1, by simp only [condSwap, get_ok a1 (by omega : 0 ≤ right) (by omega), Res.ok_bind]; rw [if_neg hgt]; rfl, Rearr.refl _ _ _, ⟨by omega, by omega, ?_, not_lt.1 hgt, fun x _ _ => by omega, fun x _ _ => by omega⟩, Or.inl ht1, fun hkr hmax => ?_⟩
      · rw [ht1]
      · have h1 : a1.at_ right = a.at_ right := s3 right (by omega) (by omega)
        have h2 := not_lt.1 hgt
        rw [h1] at h2
        have h3 : key (a.at_ right) = t := le_antisymm h2 (hmax k hk.1 hk.2)
        exact ⟨ht1.trans h3.symm, by rw [h1, h3]⟩
  have hn2 : a2.n = a.n := r2.1.trans hn1
  -- first iteration, then the rest
  obtain ⟨a3, i3, j3, e3, r3, p3, q1, q2, q3, q4, q5⟩ := partStep key t h0 (by omega) inv hlr
  obtain ⟨a4, i4, j4, e4, r4, p4, q6, q7, q8, q9⟩ := partLoop_spec key t h0 _ a3 i3 j3 (by rw [r3.1]; omega) p3 q1 q2 (Nat.le_refl _)
  have hloop : ∀ fuel : Nat, right - left < fuel → partLoop key t fuel a2 left right = .ok (a4, i4, j4) := by
    intro fuel hf
    obtain ⟨f, rfl⟩ : ∃ f, fuel = f + 1 := ⟨fuel - 1, by omega⟩
    rw [partLoop, if_pos hlr, e3 f (by omega) _ (partLoop key t f), e4 f (by omega) (by omega)]
  have hn4 : a4.n = a.n := r4.1.trans (r3.1.trans hn2)
  have hends : key (a4.at_ left) = t ∨ key (a4.at_ right) = t := by
    rw [q8, q9, q3, q4]; exact ends.symm
  have hlow : ∀ x, left ≤ x → x ≤ j4 → key (a4.at_ x) ≤ t := by
    intro x hx1 hx2
    by_cases hx : x < i4
    · exact p4.low x hx1 hx
    · have : x = j4 := by omega
      rw [this]; exact p4.kj
  have hhigh := p4.high
  obtain ⟨g1, g2⟩ := p4.hj
  have hr4 : Rearr a a4 left right := r1.trans (r2.trans (r3.trans r4))
  by_cases heq : key (a4.at_ left) = t
  · obtain ⟨a5, e5, r5, v1, v2, v3⟩ := swap_spec a4 (i := left) (j := j4) (l := left) (r := right) (by omega) (by omega) (by omega) (by omega)
    have hj5 : key (a5.at_ j4) = t := by rw [v2, heq]
    refine ⟨a5, j4, ?_, hr4.trans r5, g1, g2, ?_, ?_, fun hkr hmax => ?_⟩
    · intro fuel hf
      simp only [partRound, get_ok a (by omega : 0 ≤ k) (by omega), Res.ok_bind, e1]
      rw [show key (a.at_ k) = t from rfl, e2]
      simp only [Res.ok_bind, hloop fuel hf, get_ok a4 h0 (by omega), heq, if_true, e5, Res.pure_eq]
    · intro x hx1 hx2
      rw [hj5]
      by_cases hxl : x = left
      · rw [hxl, v1]; exact p4.kj
      · by_cases hxj : x = j4
        · rw [hxj, hj5]
        · rw [v3 x hxl hxj]; exact hlow x hx1 hx2
    · intro x hx1 hx2
      rw [hj5]
      by_cases hxj : x = j4
      · rw [hxj, hj5]
      · rw [v3 x (by omega) hxj]; exact hhigh x (by omega) hx2
    · rw [v3 right (by omega) (by omega), q9, q4]; exact (last hkr hmax).1
  · have hright : key (a4.at_ right) = t := hends.resolve_left heq
    obtain ⟨a5, e5, r5, v1, v2, v3⟩ := swap_spec a4 (i := j4 + 1) (j := right) (l := left) (r := right) (by omega) (by omega) (by omega) (by omega)
    have hj5 : key (a5.at_ (j4 + 1)) = t := by rw [v1, hright]
    refine ⟨a5, j4 + 1, ?_, hr4.trans r5, by omega, by omega, ?_, ?_, fun hkr hmax => ?_⟩
    · intro fuel hf
      simp only [partRound, get_ok a (by omega : 0 ≤ k) (by omega), Res.ok_bind, e1]
      rw [show key (a.at_ k) = t from rfl, e2]
      simp only [Res.ok_bind, hloop fuel hf, get_ok a4 h0 (by omega), heq, if_false, e5, Res.pure_eq]
    · intro x hx1 hx2
      rw [hj5]
      by_cases hxj : x = j4 + 1
      · rw [hxj, hj5]
      · rw [v3 x hxj (by omega)]; exact hlow x hx1 (by omega)
    · intro x hx1 hx2
      rw [hj5]
      by_cases hxj : x = j4 + 1
      · rw [hxj, hj5]
      · by_cases hxr : x = right
        · rw [hxr, v2]; exact hhigh (j4 + 1) (by omega) (by omega)
        · rw [v3 x hxj hxr]; exact hhigh x (by omega) hx2
    · exact absurd (by rw [q8, q3]; exact (last hkr hmax).2) heq

/-- the sampling window lies inside the range, contains `k` and is smaller -/
def WinOK (big : Int) (win : Int → Int → Int → Int × Int) : Prop :=
  ∀ k l r, l ≤ k → k ≤ r → big < r - l → l ≤ (win k l r).1 ∧ (win k l r).1 ≤ k ∧ k ≤ (win k l r).2 ∧ (win k l r).2 ≤ r ∧ (win k l r).2 - (win k l r).1 < r - l

/-- already separated at `left` and `right` -/
def Separated (key : T → B) (a : Arr T) (l0 r0 left right : Int) : Prop :=
  (∀ p q, l0 ≤ p → p < left → left ≤ q → q ≤ r0 → key (a.at_ p) ≤ key (a.at_ q)) ∧
  (∀ p q, right < p → p ≤ r0 → l0 ≤ q → q ≤ right → key (a.at_ q) ≤ key (a.at_ p))

/-- the item at `k` is in its sorted place: nothing before it is larger, nothing after it is smaller -/
def Placed (key : T → B) (a : Arr T) (l0 r0 k : Int) : Prop :=
  (∀ x, l0 ≤ x → x < k → key (a.at_ x) ≤ key (a.at_ k)) ∧ ∀ x, k < x → x ≤ r0 → key (a.at_ k) ≤ key (a.at_ x)

theorem separated_round {key : T → B} {a a' : Arr T} {l0 r0 left right j k : Int} (hs : Separated key a l0 r0 left right)
    (hl : l0 ≤ left) (hr : right ≤ r0) (hre : Rearr a a' left right) (hj : left ≤ j ∧ j ≤ right)
    (lo : ∀ x, left ≤ x → x ≤ j → key (a'.at_ x) ≤ key (a'.at_ j)) (hi : ∀ x, j ≤ x → x ≤ right → key (a'.at_ j) ≤ key (a'.at_ x)) :
    Separated key a' l0 r0 (if j ≤ k then j + 1 else left) (if k ≤ j then j - 1 else right) := by
  obtain ⟨out, ins⟩ := hre.inside
  -- the old separation, after the rearrangement
  have s1 : ∀ p q, l0 ≤ p → p < left → left ≤ q → q ≤ r0 → key (a'.at_ p) ≤ key (a'.at_ q) := by
    intro p q h1 h2 h3 h4
    rw [out p (by omega)]
    by_cases hq : q ≤ right
    · obtain ⟨y, y1, y2, y3⟩ := ins q h3 hq
      rw [y3]; exact hs.1 p y h1 h2 y1 (by omega)
    · rw [out q (by omega)]; exact hs.1 p q h1 h2 h3 h4
  have s2 : ∀ p q, right < p → p ≤ r0 → l0 ≤ q → q ≤ right → key (a'.at_ q) ≤ key (a'.at_ p) := by
    intro p q h1 h2 h3 h4
    rw [out p (by omega)]
    by_cases hq : left ≤ q
    · obtain ⟨y, y1, y2, y3⟩ := ins q hq h4
      rw [y3]; exact hs.2 p y h1 h2 (by omega) y2
    · rw [out q (by omega)]; exact hs.2 p q h1 h2 h3 h4
  constructor
  · intro p q h1 h2 h3 h4
    by_cases hjk : j ≤ k
    · rw [if_pos hjk] at h2 h3
      by_cases hp : p < left
      · exact s1 p q h1 hp (by omega) h4
      · by_cases hq : q ≤ right
        · exact le_trans (lo p (by omega) (by omega)) (hi q (by omega) hq)
        · exact s2 q p (by omega) h4 h1 (by omega)
    · rw [if_neg hjk] at h2 h3
      exact s1 p q h1 h2 h3 h4
  · intro p q h1 h2 h3 h4
    by_cases hjk : k ≤ j
    · rw [if_pos hjk] at h1 h4
      by_cases hp : right < p
      · exact s2 p q hp h2 h3 (by omega)
      · by_cases hq : left ≤ q
        · exact le_trans (lo q hq (by omega)) (hi p (by omega) (by omega))
        · exact s1 q p h3 (by omega) (by omega) h2
    · rw [if_neg hjk] at h1 h4
      exact s2 p q h1 h2 h3 h4

theorem selLoop_spec (big : Int) {win : Int → Int → Int → Int × Int} (hw : WinOK big win) (key : T → B) (k : Int) :
    ∀ (d : Nat) (l0 r0 : Int), (r0 - l0).toNat ≤ d → 0 ≤ l0 → ∀ (m : Nat) (a : Arr T) (left right : Int), r0 < a.n → l0 ≤ left → right ≤ r0 →
      (right - left).toNat ≤ m → (left ≤ k ∧ k ≤ right ∨ right < left) → l0 ≤ k → k ≤ r0 →
      ∃ a', Yields (fun fuel => selLoop big win key k fuel l0 r0 a left right) a' ∧ Rearr a a' l0 r0 ∧
        (r0 - l0 ≤ big → Separated key a l0 r0 left right → (right < left → left = k + 1 ∧ right = k - 1) → Placed key a' l0 r0 k) ∧
        (r0 - l0 ≤ big → k < r0 → (∀ x, l0 ≤ x → x ≤ r0 → key (a.at_ x) ≤ key (a.at_ r0)) → key (a'.at_ r0) = key (a.at_ r0)) := by
  intro d
  induction d with
  | zero =>
    intro l0 r0 hd h0 m a left right hn hl hr hm hkk hk1 hk2
    refine ⟨a, ⟨1, fun fuel hf => ?_⟩, Rearr.refl _ _ _, ?_, fun _ _ _ => rfl⟩
    · obtain ⟨f, rfl⟩ : ∃ f, fuel = f + 1 := ⟨fuel - 1, by omega⟩
      simp only [selLoop]; rw [if_neg (by omega)]
    · intro _ hs _
      exact ⟨fun x _ _ => by omega, fun x _ _ => by omega⟩
  | succ d ihd =>
    intro l0 r0 hd h0 m
    induction m with
    | zero =>
      intro a left right hn hl hr hm hkk hk1 hk2
      refine ⟨a, ⟨1, fun fuel hf => ?_⟩, Rearr.refl _ _ _, ?_, fun _ _ _ => rfl⟩
      · obtain ⟨f, rfl⟩ : ∃ f, fuel = f + 1 := ⟨fuel - 1, by omega⟩
        simp only [selLoop]; rw [if_neg (by omega)]
      · intro _ hs hex
        rcases hkk with hkk | hkk
        · have e1 : left = k := by omega
          have e2 : right = k := by omega
          subst e1
          exact ⟨fun x h1 h2 => hs.1 x left h1 h2 (le_refl _) hk2, fun x h1 h2 => hs.2 x left (by omega) h2 hk1 (by omega)⟩
        · obtain ⟨e1, e2⟩ := hex hkk
          exact ⟨fun x h1 h2 => hs.2 k x (by omega) hk2 h1 (by omega), fun x h1 h2 => hs.1 k x hk1 (by omega) (by omega) h2⟩
    | succ m ihm =>
      intro a left right hn hl hr hm hkk hk1 hk2
      by_cases hlt : right > left
      · have hkk' : left ≤ k ∧ k ≤ right := by omega
        -- the optional recursive call
        obtain ⟨a1, y1, r1, hsame⟩ : ∃ a1, Yields (fun fuel => sample big left right a
            (selLoop big win key k fuel (win k l0 r0).1 (win k l0 r0).2 a (win k l0 r0).1 (win k l0 r0).2)) a1 ∧ Rearr a a1 l0 r0 ∧
            (r0 - l0 ≤ big → a1 = a) := by
          by_cases hbig : right - left > big
          · obtain ⟨w1, w2, w3, w4, w5⟩ := hw k l0 r0 hk1 hk2 (by omega)
            obtain ⟨a1, y1, r1, -, -⟩ := ihd (win k l0 r0).1 (win k l0 r0).2 (by omega) (by omega)
              ((win k l0 r0).2 - (win k l0 r0).1).toNat a (win k l0 r0).1 (win k l0 r0).2 (by omega) (le_refl _) (le_refl _) (Nat.le_refl _)
              (Or.inl ⟨w2, w3⟩) w2 w3
            refine ⟨a1, ?_, r1.mono w1 w4, fun h => by omega⟩
            simpa only [sample, if_pos hbig] using y1
          · exact ⟨a, by simpa only [sample, if_neg hbig] using Yields.const a, Rearr.refl _ _ _, fun _ => rfl⟩
        have hn1 : a1.n = a.n := r1.1
        obtain ⟨a2, j, e2, r2, j1, j2, lo, hi, hlast⟩ := partRound_spec key a1 (by omega : 0 ≤ left) (by omega) hlt hkk'
        obtain ⟨a3, y3, r3, fin, lst⟩ := ihm a2 (if j ≤ k then j + 1 else left) (if k ≤ j then j - 1 else right) (by rw [r2.1]; omega)
          (by split <;> omega) (by split <;> omega) (by split <;> split <;> omega) (by split <;> split <;> omega) hk1 hk2
        refine ⟨a3, ?_, r1.trans ((r2.mono hl hr).trans r3), ?_, ?_⟩
        · refine Yields.step (fun n => by simp only [selLoop]; rw [if_pos hlt]) ?_
          refine Yields.bind y1 ?_
          refine Yields.bind (a := (a2, j)) ⟨(right - left).toNat + 1, fun fuel hf => e2 fuel (by omega)⟩ ?_
          exact y3
        · intro hsmall hs _
          have ha1 := hsame hsmall
          subst ha1
          refine fin hsmall (separated_round hs hl hr r2 ⟨j1, j2⟩ lo hi) ?_
          intro hx
          split at hx <;> split at hx <;> (constructor <;> (split <;> omega))
        · intro hsmall hkr hmax
          have ha1 := hsame hsmall
          subst ha1
          have hkey : key (a2.at_ r0) = key (a1.at_ r0) := by
            by_cases hrr : right = r0
            · subst hrr
              exact hlast hkr (fun x h1 h2 => hmax x (by omega) h2)
            · rw [r2.inside.1 r0 (by omega)]
          rw [lst hsmall hkr (fun x h1 h2 => ?_), hkey]
          obtain ⟨y, y1, y2, y3⟩ := (r2.mono hl hr).inside.2 x h1 h2
          rw [y3, hkey]
          exact hmax y y1 y2
      · refine ⟨a, ⟨1, fun fuel hf => ?_⟩, Rearr.refl _ _ _, ?_, fun _ _ _ => rfl⟩
        · obtain ⟨f, rfl⟩ : ∃ f, fuel = f + 1 := ⟨fuel - 1, by omega⟩
          simp only [selLoop]; rw [if_neg hlt]
        · intro _ hs hex
          rcases hkk with hkk | hkk
          · have e1 : left = k := by omega
            have e2 : right = k := by omega
            subst e1
            exact ⟨fun x h1 h2 => hs.1 x left h1 h2 (le_refl _) hk2, fun x h1 h2 => hs.2 x left (by omega) h2 hk1 (by omega)⟩
          · obtain ⟨e1, e2⟩ := hex hkk
            exact ⟨fun x h1 h2 => hs.2 k x (by omega) hk2 h1 (by omega), fun x h1 h2 => hs.1 k x hk1 (by omega) (by omega) h2⟩

end Sel
end Verif
