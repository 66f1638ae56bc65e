import Verif.Lemmas.PlanarPieces
import Verif.Lemmas.Reach

/-! Exact geometry meets the hypotheses of C12 and C13. -/

set_option linter.unusedSectionVars false

namespace Verif
namespace Planar

theorem lexLe_total (z w : ℂ) : LexLe z w ∨ LexLe w z := by
  unfold LexLe
  rcases lt_trichotomy z.re w.re with h | h | h
  · exact .inl (.inl h)
  · rcases le_total z.im w.im with h' | h'
    · exact .inl (.inr ⟨h, h'⟩)
    · exact .inr (.inr ⟨h.symm, h'⟩)
  · exact .inr (.inl h)

theorem lexLe_trans {x y z : ℂ} (h1 : LexLe x y) (h2 : LexLe y z) : LexLe x z := by
  unfold LexLe at *
  rcases h1 with h1 | ⟨h1, h1'⟩ <;> rcases h2 with h2 | ⟨h2, h2'⟩
  · exact .inl (h1.trans h2)
  · exact .inl (h2 ▸ h1)
  · exact .inl (h1 ▸ h2)
  · exact .inr ⟨h1.trans h2, h1'.trans h2'⟩

theorem lexLe_antisymm {x y : ℂ} (h1 : LexLe x y) (h2 : LexLe y x) : x = y := by
  unfold LexLe at *
  rcases h1 with h1 | ⟨h1, h1'⟩ <;> rcases h2 with h2 | ⟨h2, h2'⟩
  · exact absurd h1 h2.not_gt
  · exact absurd h2 h1.ne'
  · exact absurd h1 h2.ne'
  · exact Complex.ext h1 (le_antisymm h1' h2')

section
variable {P C : Type} {pos : P → ℂ} {region : C → Set ℂ} {lib : Lib P C EReal ℝ} {lnr : LnrLib P EReal}

theorem ExactLnr.sorts (hl : ExactLnr pos lnr) (he : ∀ p q, lib.equals2D p q = true ↔ pos p = pos q) : SortSound lib lnr := by
  refine ⟨⟨fun a => (he a a).2 rfl, fun a b h => ?_, fun a b c h1 h2 => ?_⟩, hl.perm, fun l a b c hs h => ?_⟩
  · rw [he] at *; exact h.symm
  · rw [he] at *; exact h1.trans h2
  · have hp := hl.sorted l
    have hs' := hp.sublist hs
    simp only [List.pairwise_cons, List.mem_cons, List.not_mem_nil, or_false, forall_eq_or_imp, forall_eq, IsEmpty.forall_iff, implies_true,
      List.Pairwise.nil, and_true] at hs'
    obtain ⟨⟨h1, h2⟩, h3⟩ := hs'
    have hac : pos a.pt = pos c.pt := (he _ _).1 h
    have : pos a.pt = pos b.pt := lexLe_antisymm h1 (hac ▸ h3)
    exact (he _ _).2 this

theorem ExactLnr.sortSound (hl : ExactLnr pos lnr) (he : Exact pos region lib) : SortSound lib lnr := hl.sorts he.equals2D

/-- the last vertex of the sorted ones is a largest one -/
theorem ExactLnr.top (hl : ExactLnr pos lnr) {l : List (Vtx P)} {top v : Vtx P} (ht : (lnr.sortV l).getLast? = some top) (hv : v ∈ l) :
    LexLe (pos v.pt) (pos top.pt) := by
  have hs := hl.sorted l
  obtain ⟨m, e⟩ := List.getLast?_eq_some_iff.1 ht
  rw [e] at hs
  have hv' : v ∈ lnr.sortV l := (hl.perm l).mem_iff.2 hv
  rw [e] at hv'
  rcases List.mem_append.1 hv' with h | h
  · exact (List.pairwise_append.1 hs).2.2 v h top (by simp)
  · rw [List.mem_singleton] at h
    rw [h]
    exact .inr ⟨rfl, le_rfl⟩

end

section
variable {P C : Type} {pos : P → ℂ} {region : C → Set ℂ} {env : Env P C EReal ℝ} {pts : Int → List P} {h : Int} {τ e : ℝ}

theorem mem_places {ps : List P} {i j : Int} {v : Nat} {q : P} (hq : ps[v]? = some q) (h0 : 0 ≤ i) (h1 : i ≤ v) (h2 : (v : Int) ≤ j) : pos q ∈ places pos ps i j := by
  refine List.mem_map_of_mem ?_
  rw [between, List.mem_iff_getElem?]
  refine ⟨v - i.toNat, ?_⟩
  rw [List.getElem?_take_of_lt (by omega), List.getElem?_drop, show i.toNat + (v - i.toNat) = v by omega, hq]

theorem found_zero (h0 : 0 ≤ τ) (hτ : τ ≤ e) : Found (within τ) (.fin e) (.fin 0) := by
  refine ⟨by rw [Fl.fin_le_fin, decide_eq_true_eq]; linarith, fun d hd => ?_⟩
  cases d <;> simp_all [within, Fl.le]
  linarith

theorem Exact.hullNear (he : Exact pos region env.lib) (hl : ExactLnr pos env.lnr) (hheap : env.heap.Legal (within τ)) (h0 : 0 ≤ τ) (hτ : τ ≤ e)
    (heps : env.eps = .fin e) : HullNear env (within τ) pts h where
  heap := hheap
  mono := within_mono
  sort := hl.sortSound he
  search := hl.search
  box p nd hk b hb := by
    obtain ⟨k1, -, -, k4, k5⟩ := he.known hk
    exact he.boxDistance_le (k5 ▸ hb) ⟨pos p, rfl⟩ (by rw [k1]; exact hullSet_nonempty k4)
  vertex nd hk v hv p q hq hpq := by
    obtain ⟨k1, -, -, k4, -⟩ := he.known hk
    have hm : pos p ∈ hullSet (places pos (pts h) nd.range.I nd.range.J) := by
      rw [(he.equals2D p q).1 hpq]
      exact subset_convexHull ℝ _ (mem_places hq hk.lo (by have := hv.1; omega) (by have := hv.2; omega))
    have hne : (shape pos region nd.geom).Nonempty := by rw [k1]; exact hullSet_nonempty k4
    rw [he.distance (.point p) nd.geom ⟨pos p, rfl⟩ hne, gap_meet (s := shape pos region (.point p)) ⟨pos p, rfl, by rw [k1]; exact hm⟩, heps]
    exact found_zero h0 hτ
  cross nd hk a b s t hs ht hr x hx := by
    obtain ⟨k1, -, -, k4, -⟩ := he.known hk
    have hseg : pos x.1 ∈ segment ℝ (pos s.1) (pos s.2) ∩ segment ℝ (pos t.1) (pos t.2) := by
      have : pos x.1 ∈ (segment ℝ (pos s.1) (pos s.2) ∩ segment ℝ (pos t.1) (pos t.2)).extremePoints ℝ := by
        rw [← hl.segSeg]; exact ⟨x, hx, rfl⟩
      exact this.1
    have hin : ∀ (a : Nat) (s : P × P), seg (pts h) a = some s → nd.range.I ≤ a ∧ (a : Int) + 1 ≤ nd.range.J →
        segment ℝ (pos s.1) (pos s.2) ⊆ hullSet (places pos (pts h) nd.range.I nd.range.J) := by
      intro a s hs hr
      unfold seg at hs
      split at hs
      · rename_i p q hp hq
        cases hs
        refine (hullSet_convex _).segment_subset (subset_convexHull ℝ _ (mem_places hp hk.lo hr.1 (by omega)))
          (subset_convexHull ℝ _ (mem_places hq hk.lo (by have := hr.1; omega) (by have := hr.2; omega)))
      · cases hs
    have hm : pos x.1 ∈ hullSet (places pos (pts h) nd.range.I nd.range.J) := by
      rcases hr with hr | hr
      · exact hin a s hs hr hseg.1
      · exact hin b t ht hr hseg.2
    have hne : (shape pos region nd.geom).Nonempty := by rw [k1]; exact hullSet_nonempty k4
    rw [he.distance (.point x.1) nd.geom ⟨pos x.1, rfl⟩ hne, gap_meet (s := shape pos region (.point x.1)) ⟨pos x.1, rfl, by rw [k1]; exact hm⟩, heps]
    exact found_zero h0 hτ

end

end Planar
end Verif
