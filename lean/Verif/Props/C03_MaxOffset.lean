import Verif.Model.Offset
import Verif.Lemmas.Coords
import Mathlib.Algebra.Order.Ring.Int

/-! C03: the offset score names a farthest interior vertex. -/

namespace Verif

variable {P K : Type} [LinearOrder K]

/-- invariant of the score loop -/
theorem maxLoop_spec (dist : Int → Res (Fl K)) (D : Int → Fl K) :
    ∀ (todo : Nat) (k index : Int) (off : Fl K), off ≠ .nan →
      (∀ t, k ≤ t → t < k + todo → dist t = .ok (D t)) →
      ∃ index' off', maxLoop dist todo k index off = .ok (index', off') ∧ off' ≠ .nan ∧ off.le off' = true ∧
        (∀ t, k ≤ t → t < k + todo → D t ≠ .nan → (D t).le off' = true) ∧
        ((index' = index ∧ off' = off ∧ ∀ t, k ≤ t → t < k + todo → (D t).ge off = false) ∨
         (k ≤ index' ∧ index' < k + todo ∧ off' = D index' ∧
            ∀ t, index' < t → t < k + todo → (D t).ge off' = false)) := by
  intro todo
  induction todo with
  | zero =>
    intro k index off hoff hd
    exact ⟨index, off, rfl, hoff, Fl.le_refl hoff, by intro t h1 h2; omega, Or.inl ⟨rfl, rfl, by intro t h1 h2; omega⟩⟩
  | succ todo ih =>
    intro k index off hoff hd
    have hk : dist k = .ok (D k) := hd k (by omega) (by omega)
    simp only [maxLoop, hk, Res.ok_bind]
    have hd' : ∀ t, k + 1 ≤ t → t < k + 1 + (todo : Int) → dist t = .ok (D t) := fun t h1 h2 => hd t (by omega) (by push_cast; omega)
    by_cases hge : (D k).ge off = true
    · rw [if_pos hge]
      have hnn : D k ≠ .nan := Fl.ne_nan_of_le_right hge
      obtain ⟨i', o', e, n1, l1, m1, c1⟩ := ih (k + 1) k (D k) hnn hd'
      refine ⟨i', o', e, n1, Fl.le_trans hge l1, ?_, Or.inr ?_⟩
      · intro t h1 h2 hn
        by_cases ht : t = k
        · subst ht; exact l1
        · exact m1 t (by omega) (by push_cast at h2; omega) hn
      · rcases c1 with ⟨rfl, rfl, c⟩ | ⟨c2, c3, c4, c5⟩
        · exact ⟨by omega, by push_cast; omega, rfl, fun t h1 h2 => c t (by omega) (by push_cast at h2; omega)⟩
        · exact ⟨by omega, by push_cast; omega, c4, fun t h1 h2 => c5 t h1 (by push_cast at h2; omega)⟩
    · rw [if_neg hge]
      obtain ⟨i', o', e, n1, l1, m1, c1⟩ := ih (k + 1) index off hoff hd'
      have hge' : (D k).ge off = false := by simpa using hge
      refine ⟨i', o', e, n1, l1, ?_, ?_⟩
      · intro t h1 h2 hn
        by_cases ht : t = k
        · subst ht
          rcases Fl.le_total hn hoff with h | h
          · exact Fl.le_trans h l1
          · exact absurd h hge
        · exact m1 t (by omega) (by push_cast at h2; omega) hn
      · rcases c1 with ⟨rfl, rfl, c⟩ | ⟨c2, c3, c4, c5⟩
        · refine Or.inl ⟨rfl, rfl, ?_⟩
          intro t h1 h2
          by_cases ht : t = k
          · subst ht; exact hge'
          · exact c t (by omega) (by push_cast at h2; omega)
        · exact Or.inr ⟨by omega, by push_cast; omega, c4, fun t h1 h2 => c5 t h1 (by push_cast at h2; omega)⟩

variable [Zero K]

/-- general form of C03, NaN and negative values allowed -/
theorem maxOffset_spec (distFn : P → P → P → Fl K) (c : Coords P) (q : Int → P) (hlen : 3 ≤ c.len)
    (hq : ∀ k, 0 ≤ k → k < c.len → c.pt k = .ok (q k)) :
    ∃ k v, maxOffset distFn c = .ok (k, v) ∧ v ≠ .nan ∧ (Fl.fin 0).le v = true ∧
      (∀ t, 0 < t → t < c.len - 1 → distFn (q 0) (q (c.len - 1)) (q t) ≠ .nan →
        (distFn (q 0) (q (c.len - 1)) (q t)).le v = true) ∧
      ((k = c.len - 1 ∧ v = .fin 0 ∧ ∀ t, 0 < t → t < c.len - 1 → (distFn (q 0) (q (c.len - 1)) (q t)).ge (.fin 0) = false) ∨
       (0 < k ∧ k < c.len - 1 ∧ v = distFn (q 0) (q (c.len - 1)) (q k) ∧
          ∀ t, k < t → t < c.len - 1 → (distFn (q 0) (q (c.len - 1)) (q t)).ge v = false)) := by
  obtain ⟨i', o', e, n1, l1, m1, c1⟩ := maxLoop_spec
    (fun k => do return distFn (q 0) (q (c.len - 1)) (← c.pt k)) (fun k => distFn (q 0) (q (c.len - 1)) (q k))
    (c.len - 1 - 1).toNat 1 (c.len - 1) (.fin 0) (by simp) (by
      intro t h1 h2
      simp only [hq t (by omega) (by omega), Res.ok_bind, Res.pure_eq])
  refine ⟨i', o', ?_, n1, l1, ?_, ?_⟩
  · unfold maxOffset
    have hn : ¬ (c.len - 1 ≤ 1) := by omega
    simp only [hn, if_false, hq 0 (by omega) (by omega), hq (c.len - 1) (by omega) (by omega), Res.ok_bind]
    exact e
  · intro t h1 h2 hn; exact m1 t (by omega) (by omega) hn
  · rcases c1 with ⟨rfl, rfl, c2⟩ | ⟨c2, c3, c4, c5⟩
    · exact Or.inl ⟨rfl, rfl, fun t h1 h2 => c2 t (by omega) (by omega)⟩
    · exact Or.inr ⟨by omega, by omega, c4, fun t h1 h2 => c5 t (by omega) (by omega)⟩

/-- C03.  Three or more vertices, distances not NaN and not negative: the score is an interior index, its value is the distance of
that vertex, no interior vertex is farther, and later interior vertices are strictly nearer (last maximum wins). -/
theorem C03_maxOffset (distFn : P → P → P → Fl K) (c : Coords P) (q : Int → P) (hlen : 3 ≤ c.len)
    (hq : ∀ k, 0 ≤ k → k < c.len → c.pt k = .ok (q k))
    (hd : ∀ t, 0 < t → t < c.len - 1 → (Fl.fin 0).le (distFn (q 0) (q (c.len - 1)) (q t)) = true) :
    ∃ k, maxOffset distFn c = .ok (k, distFn (q 0) (q (c.len - 1)) (q k)) ∧ 0 < k ∧ k < c.len - 1 ∧
      (∀ t, 0 < t → t < c.len - 1 →
        (distFn (q 0) (q (c.len - 1)) (q t)).le (distFn (q 0) (q (c.len - 1)) (q k)) = true) ∧
      (∀ t, k < t → t < c.len - 1 →
        (distFn (q 0) (q (c.len - 1)) (q t)).lt (distFn (q 0) (q (c.len - 1)) (q k)) = true) := by
  obtain ⟨k, v, e, n1, l1, m1, c1⟩ := maxOffset_spec distFn c q hlen hq
  have hnn : ∀ t, 0 < t → t < c.len - 1 → distFn (q 0) (q (c.len - 1)) (q t) ≠ .nan :=
    fun t h1 h2 => Fl.ne_nan_of_le_right (hd t h1 h2)
  rcases c1 with ⟨rfl, rfl, c2⟩ | ⟨c2, c3, rfl, c5⟩
  · have := c2 1 (by omega) (by omega)
    have h2 := hd 1 (by omega) (by omega)
    simp [Fl.ge, h2] at this
  · refine ⟨k, e, c2, c3, fun t h1 h2 => m1 t h1 h2 (hnn t h1 h2), ?_⟩
    intro t h1 h2
    rw [Fl.lt_iff_not_le (hnn t (by omega) h2) n1]
    have := c5 t h1 h2
    simp only [Fl.ge] at this; simp [this]

/-- C03.  The index is the last vertex exactly when no interior distance is a number `>= 0` (all NaN or negative); the value is then 0. -/
theorem C03_maxOffset_none (distFn : P → P → P → Fl K) (c : Coords P) (q : Int → P) (hlen : 3 ≤ c.len)
    (hq : ∀ k, 0 ≤ k → k < c.len → c.pt k = .ok (q k)) :
    (∃ v, maxOffset distFn c = .ok (c.len - 1, v)) ↔
      ∀ t, 0 < t → t < c.len - 1 → (distFn (q 0) (q (c.len - 1)) (q t)).ge (.fin 0) = false := by
  obtain ⟨k, v, e, n1, l1, m1, c1⟩ := maxOffset_spec distFn c q hlen hq
  constructor
  · rintro ⟨v', hv'⟩
    rw [e] at hv'
    rcases c1 with ⟨rfl, rfl, c2⟩ | ⟨c2, c3, rfl, c5⟩
    · exact c2
    · simp at hv'; omega
  · intro h
    rcases c1 with ⟨rfl, rfl, c2⟩ | ⟨c2, c3, rfl, c5⟩
    · exact ⟨_, e⟩
    · have := h k c2 c3
      simp [Fl.ge, l1] at this

/-- C03.  Two or fewer vertices: the last index and zero. -/
theorem C03_maxOffset_short (distFn : P → P → P → Fl K) (c : Coords P) (hlen : c.len ≤ 2) :
    maxOffset distFn c = .ok (c.len - 1, .fin 0) := by
  unfold maxOffset
  have hn : (c.len - 1 ≤ 1) := by omega
  simp only [hn, if_true, Res.pure_eq]

/-- non-trivial case: five vertices on a line, heights 0 3 1 3 0, distance = height; the later of the two maxima is chosen -/
example : maxOffset (K := Int) (fun _ _ (p : Int) => .fin p) (coordsOf [0, 3, 1, 3, 0]) = .ok (3, .fin 3) := by decide
/-- NaN distances are skipped -/
example : maxOffset (K := Int) (fun _ _ (p : Int) => if p = 7 then .nan else .fin p) (coordsOf [0, 7, 1, 7, 0]) = .ok (2, .fin 1) := by decide

end Verif
