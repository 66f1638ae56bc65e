import Verif.Model.Base

/-! Termination vocabulary: a fuelled computation that settles on a value, or never does. -/

namespace Verif

variable {α β : Type}

/-- the fuelled computation terminates with value `a`: for all large enough fuels the outcome is `ok a` -/
def Yields (f : Nat → Res α) (a : α) : Prop := ∃ N, ∀ fuel ≥ N, f fuel = .ok a

/-- the computation never terminates -/
def Diverges (f : Nat → Res α) : Prop := ∀ fuel, f fuel = .timeout

/-- the computation panics -/
def Panics (f : Nat → Res α) : Prop := ∃ N, ∀ fuel ≥ N, f fuel = .panic

theorem Yields.unique {f : Nat → Res α} {a b : α} (ha : Yields f a) (hb : Yields f b) : a = b := by
  obtain ⟨N, hN⟩ := ha
  obtain ⟨M, hM⟩ := hb
  have h1 := hN (max N M) (Nat.le_max_left _ _)
  have h2 := hM (max N M) (Nat.le_max_right _ _)
  rw [h1] at h2
  cases h2; rfl

theorem Yields.not_diverges {f : Nat → Res α} {a : α} (ha : Yields f a) : ¬ Diverges f := by
  obtain ⟨N, hN⟩ := ha
  intro h
  have h1 := hN N (Nat.le_refl _)
  rw [h N] at h1; cases h1

theorem Panics.not_yields {f : Nat → Res α} {a : α} (ha : Panics f) : ¬ Yields f a := by
  rintro ⟨M, hM⟩
  obtain ⟨N, hN⟩ := ha
  have h1 := hN (max N M) (Nat.le_max_left _ _)
  have h2 := hM (max N M) (Nat.le_max_right _ _)
  rw [h1] at h2
  cases h2

theorem Yields.const (a : α) : Yields (fun _ => .ok a) a := ⟨0, fun _ _ => rfl⟩

theorem Yields.bind {f : Nat → Res α} {g : Nat → α → Res β} {a : α} {b : β} (hf : Yields f a) (hg : Yields (fun n => g n a) b) :
    Yields (fun n => f n >>= g n) b := by
  obtain ⟨N, hN⟩ := hf
  obtain ⟨M, hM⟩ := hg
  refine ⟨max N M, fun fuel h => ?_⟩
  simp only [hN fuel (Nat.le_trans (Nat.le_max_left _ _) h), Res.ok_bind]
  exact hM fuel (Nat.le_trans (Nat.le_max_right _ _) h)

/-- one unfolding step of a fuelled loop -/
theorem Yields.step {f g : Nat → Res α} {a : α} (h : ∀ n, f (n + 1) = g n) (hg : Yields g a) : Yields f a := by
  obtain ⟨N, hN⟩ := hg
  refine ⟨N + 1, fun fuel hf => ?_⟩
  obtain ⟨m, rfl⟩ := Nat.exists_eq_add_of_le' (Nat.le_trans (Nat.succ_le_succ (Nat.zero_le N)) hf)
  rw [h m]
  exact hN m (by omega)

theorem Yields.congr {f g : Nat → Res α} {a : α} (h : ∀ n, f n = g n) (hg : Yields g a) : Yields f a := by
  obtain ⟨N, hN⟩ := hg
  exact ⟨N, fun fuel hf => by rw [h]; exact hN fuel hf⟩

end Verif
