import Verif.Props.C07_Tolerance
import Verif.Props.C08_Simple
import Verif.Lemmas.SplitMerge

/-! C07 for the whole unconstrained simplification, with the score and relation that the code selects. -/

namespace Verif

open Metric

variable {C B : Type} {E : Type} [NormedAddCommGroup E] [NormedSpace ℝ E]

/-- C07.  `dp.Simplify(...).Simple()` with tolerance `ε`, with the plain or with the squared score (`square`): every vertex of the input lies
within `ε` of the segment joining two kept vertices between which no other vertex is kept. -/
theorem C07_simplify_tolerance (lib : Lib E C B ℝ) (ids : Nat → Int) (g : Nat) (pts : List E) (square : Bool) (ε : ℝ) (hε : 0 ≤ ε)
    (inst : Int) (hlen : 2 ≤ pts.length) (hhull : HullOk lib pts) (fuel : Nat) (out : List Int)
    (hrun : dpSimplify lib ids g ⟨some (coordsOf pts)⟩ (maxOffset segDist) (if square then some (maxOffset segDistSq) else none)
      (.fin ε) (.fin (ε * ε)) inst fuel = .ok out) :
    ∀ (t : Nat) (p : E), pts[t]? = some p → ∃ i ∈ out, ∃ j ∈ out, i ≤ (t : Int) ∧ (t : Int) ≤ j ∧ (∀ x ∈ out, ¬ (i < x ∧ x < j)) ∧
      ∃ a b, pts[i.toNat]? = some a ∧ pts[j.toNat]? = some b ∧ infDist p (segment ℝ a b) ≤ ε := by
  simp only [dpSimplify] at hrun
  obtain ⟨⟨hulls, g'⟩, hr, ho⟩ := Res.bind_eq_ok.1 hrun
  simp only [Res.pure_eq, Res.ok.injEq] at ho
  subst ho
  have hr' : decompose lib ids g ⟨some (coordsOf pts)⟩ (maxOffset (if square then segDistSq else segDist))
      (scoreRelation (.fin (if square then ε * ε else ε))) inst fuel = .ok (hulls, g') := by
    cases square
    · simpa [scoreOf, relationOf] using hr
    · have e : squareScoreRelation (Fl.fin (ε * ε)) = scoreRelation (Fl.fin (ε * ε)) := rfl
      simpa [scoreOf, relationOf, e] using hr
  have hthr : (Fl.fin (0 : ℝ)).le (.fin (if square then ε * ε else ε)) = true := by
    simp only [Fl.fin_le_fin, decide_eq_true_eq]; split <;> positivity
  have hc := (C04_decompose_cover lib ids g pts _ _ inst fuel hlen hhull (maxOffset_splitsInside _ _ hthr pts) hulls g' hr').1
  intro t p hp
  obtain ⟨nd, hnd, h1, h2, h3⟩ := C07_aux lib ids g pts square ε hε inst fuel hlen hhull hulls g' hr' t p hp
  refine ⟨nd.range.I, (mem_simpleSet hulls _).2 ⟨nd, hnd, Or.inl rfl⟩, nd.range.J, (mem_simpleSet hulls _).2 ⟨nd, hnd, Or.inr rfl⟩, h1, h2, ?_, h3⟩
  intro x hx hlt
  have hne : hulls.map Node.range ≠ [] := by rintro e; rw [List.map_eq_nil_iff] at e; subst e; cases hnd
  have hx' : x ∈ (0 : Int) :: (hulls.map Node.range).map Rng.J := by
    rw [hc.mem_bounds hne]
    obtain ⟨m, hm, h⟩ := (mem_simpleSet hulls _).1 hx
    exact ⟨m.range, List.mem_map_of_mem hm, h⟩
  have hb := hc.mem (List.mem_map_of_mem hnd)
  rcases List.mem_cons.1 hx' with rfl | hx'
  · omega
  · exact hc.end_not_inside hx' (List.mem_map_of_mem hnd) hlt

/-- a library on the real line, good enough for runs: hull = the coordinates themselves -/
noncomputable def realLib : Lib ℝ Unit Int ℝ where
  convexHull c := c
  bounds _ := ⟨0, 0, 0, 0⟩
  intersects _ _ := false
  intersection _ _ := []
  distance _ _ := .fin 0
  boxDistance _ _ := .fin 0
  ptInRing _ _ := false
  equals2D _ _ := false
  ptDistance _ _ := .fin 0

theorem realLib_hullOk (pts : List ℝ) : HullOk realLib pts := by
  intro i j hi hij hj
  have hl := Coords.len_sub pts i j (by omega)
  simp only [realLib, hullGeometry, hl]
  split
  · exact ⟨_, rfl⟩
  · exact ⟨_, if_pos (by omega)⟩

/-- the hypotheses are met: the run on 0, 3, 1 with the squared score and tolerance 1/2 returns -/
example : ∃ out, dpSimplify realLib (fun n => n) 0 ⟨some (coordsOf [0, 3, 1])⟩ (maxOffset segDist) (if true then some (maxOffset segDistSq) else none)
    (.fin (1 / 2)) (.fin (1 / 2 * (1 / 2))) 9 6 = .ok out := by
  obtain ⟨out, h, -⟩ := C08_simple realLib (fun n => (n : Int)) 0 [0, 3, 1] (maxOffset segDist) (some (maxOffset segDistSq)) (.fin (1 / 2))
    (.fin (1 / 2 * (1 / 2))) 9 (by decide) (realLib_hullOk _)
    (maxOffset_splitsInside _ _ (by simp only [relationOf, squareScoreRelation, Fl.fin_le_fin, decide_eq_true_eq]; norm_num) _) 6 (by decide)
  exact ⟨out, h⟩

end Verif
