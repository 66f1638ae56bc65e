import Verif.Spec.Piece
import Verif.Props.C03_MaxOffset

/-! Invariants of the decomposition loop. -/

namespace Verif

variable {P C B K : Type}

/-- the stack of the decomposition loop chains from `a` to the last vertex -/
def dpMeasure : List Rng → Nat
  | [] => 0
  | r :: rs => (2 * r.size.toNat - 1) + dpMeasure rs

theorem range_ok {pts : List P} (h : 2 ≤ pts.length) :
    (⟨some (coordsOf pts)⟩ : Polyline P).range = .ok ⟨0, pts.length - 1⟩ := by
  have hl : (coordsOf pts).len = pts.length := by
    unfold coordsOf; rw [Coords.len_sub _ _ _ (by omega)]; omega
  have h0 : (coordsOf pts).idxAt 0 = .ok 0 := by
    unfold Coords.idxAt coordsOf Coords.sub
    simp only [Int.lt_irrefl, if_false]
    rw [getElem?_rangeInts (by simp; omega)]; rfl
  have h1 : (coordsOf pts).idxAt ((coordsOf pts).len - 1) = .ok (pts.length - 1) := by
    rw [hl]
    unfold Coords.idxAt coordsOf Coords.sub
    rw [if_neg (by omega), getElem?_rangeInts (by omega)]
    simp; omega
  simp only [Polyline.range, Polyline.coordinates, Res.ofOption_some, Res.ok_bind, h0, h1, Res.pure_eq]

/-- total correctness of the decomposition loop: with enough fuel it returns, the accepted pieces followed by the pieces made from
the stack chain to the end, every piece is accepted by the relation and carries fresh consecutive identifiers -/
theorem dpLoop_spec (lib : Lib P C B K) (ids : Nat → Int) (pts : List P) (score : ScoreFn P K) (rel : Fl K → Bool) (inst : Int)
    (hhull : HullOk lib pts) (hs : SplitsInside score rel pts) :
    ∀ (fuel : Nat) (stack : List Rng) (hque : List (Node P C B)) (g : Nat) (a : Int), 0 ≤ a →
      Chain a (pts.length - 1) stack → dpMeasure stack ≤ fuel →
      ∃ hs' g', dpLoop lib ids ⟨some (coordsOf pts)⟩ score rel inst fuel stack hque g = .ok (hque ++ hs', g') ∧
        Chain a (pts.length - 1) (hs'.map Node.range) ∧
        (∀ nd ∈ hs', IsPiece lib pts inst nd ∧ ∃ k v, score (Coords.sub pts nd.range.I nd.range.J) = .ok (k, v) ∧ rel v = true) ∧
        g' = g + hs'.length ∧ hs'.map Node.id = (List.range hs'.length).map (fun t => ids (g + t)) := by
  intro fuel
  induction fuel with
  | zero =>
    intro stack hque g a ha hc hm
    cases stack with
    | nil => exact ⟨[], g, by simp [dpLoop], hc, by simp, by simp, by simp⟩
    | cons r rs =>
      obtain ⟨h1, h2, h3⟩ := hc
      simp only [dpMeasure, Rng.size] at hm; omega
  | succ fuel ih =>
    intro stack hque g a ha hc hm
    cases stack with
    | nil => exact ⟨[], g, by simp [dpLoop], hc, by simp, by simp, by simp⟩
    | cons r rs =>
      obtain ⟨h1, h2, h3⟩ := hc
      have hle := h3.le
      simp only [dpMeasure, Rng.size] at hm
      obtain ⟨k, v, hsc, hk⟩ := hs r.I r.J (by omega) h2 (by omega)
      have hsub : (⟨some (coordsOf pts)⟩ : Polyline P).subCoordinates r = .ok (Coords.sub pts r.I r.J) := by
        simp [Polyline.subCoordinates, Polyline.coordinates, coordsOf, Coords.sub]
      simp only [dpLoop, hsub, Res.ok_bind, hsc]
      by_cases hr : rel v = true
      · rw [if_pos hr]
        obtain ⟨nd, hnd, hp, hrg, hid⟩ := createNode_isPiece hhull (i := r.I) (j := r.J) (by omega) h2 (by omega) (ids g) inst
        have hr' : (⟨r.I, r.J⟩ : Rng) = r := rfl
        rw [hr'] at hnd hrg
        simp only [hnd, Res.ok_bind]
        obtain ⟨hs', g', e, c1, c2, c3, c4⟩ := ih rs (hque ++ [nd]) (g + 1) r.J (by omega) h3 (by omega)
        refine ⟨nd :: hs', g', ?_, ?_, ?_, ?_, ?_⟩
        · rw [e]; simp
        · simp only [List.map_cons, hrg]
          exact ⟨h1, h2, c1⟩
        · intro x hx
          rcases List.mem_cons.1 hx with rfl | hx
          · exact ⟨hp, k, v, by rw [hrg]; exact hsc, hr⟩
          · exact c2 x hx
        · simp only [List.length_cons]; omega
        · simp only [List.map_cons, List.length_cons, List.range_succ_eq_map, List.map_map, hid, c4, Nat.add_zero, List.cons.injEq,
            true_and]
          apply List.map_congr_left
          intro t _
          simp only [Function.comp]
          congr 1; omega
      · rw [if_neg hr]
        have hk' := hk (by simpa using hr)
        obtain ⟨hs', g', e, c1, c2, c3, c4⟩ := ih (⟨r.I, r.I + k⟩ :: ⟨r.I + k, r.J⟩ :: rs) hque g a ha
          ⟨h1, by simp only []; omega, ⟨rfl, by simp only []; omega, h3⟩⟩ (by simp only [dpMeasure, Rng.size]; omega)
        exact ⟨hs', g', e, c1, c2, c3, c4⟩

/-- the score of `maxOffset` with a relation that accepts zero always splits inside, whatever the distances are -/
theorem maxOffset_splitsInside [LinearOrder K] [Zero K] (distFn : P → P → P → Fl K) (rel : Fl K → Bool) (hrel : rel (.fin 0) = true)
    (pts : List P) : SplitsInside (maxOffset distFn) rel pts := by
  intro i j hi hij hj
  have hlen : (Coords.sub pts i j).len = j + 1 - i := Coords.len_sub _ _ _ (by omega)
  by_cases h2 : j = i + 1
  · refine ⟨1, .fin 0, ?_, ?_⟩
    · rw [C03_maxOffset_short _ _ (by omega), hlen]; simp; omega
    · intro h; rw [hrel] at h; cases h
  · have hq : ∀ k, 0 ≤ k → k < (Coords.sub pts i j).len →
        (Coords.sub pts i j).pt k = .ok ((pts[(i + k).toNat]?).getD (pts[i.toNat]'(by omega))) := by
      intro k hk1 hk2
      obtain ⟨p, hp, hp'⟩ := Coords.pt_sub_ok (pts := pts) (i := i) (j := j) hk1 (by omega) hi hj
      rw [hp, hp']; rfl
    obtain ⟨k, v, e, n1, l1, m1, c1⟩ := maxOffset_spec distFn _ _ (by omega) hq
    refine ⟨k, v, e, ?_⟩
    intro hv
    rcases c1 with ⟨rfl, rfl, c2⟩ | ⟨c2, c3, c4, c5⟩
    · rw [hrel] at hv; cases hv
    · omega

end Verif
