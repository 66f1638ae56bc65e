import Verif.Props.C63_Recursive
import Verif.Props.C79_Hausdorff

/-! C82: when the simplified line shrinks to a point. -/

set_option linter.unusedSectionVars false

namespace Verif

open Metric

section
variable {C B : Type} {E : Type} [NormedAddCommGroup E] [NormedSpace ℝ E]

/-- the trace of a line without extent -/
theorem trace_eq_singleton {a : E} : ∀ {l : List E}, l ≠ [] → (trace l = {a} ↔ ∀ x ∈ l, x = a)
  | l, hl => by
    constructor
    · intro h x hx
      have := mem_trace_of_mem hx
      rwa [h] at this
    · intro h
      refine Set.Subset.antisymm (trace_subset_convex (convex_singleton a) l h) ?_
      obtain ⟨x, hx⟩ := List.exists_mem_of_ne_nil _ hl
      rw [Set.singleton_subset_iff, ← h x hx]
      exact mem_trace_of_mem hx

/-- the whole range is kept as one segment if the procedure accepts it -/
theorem dpSimplify_one {P K : Type} [LinearOrder K] [Zero K] (lib : Lib P C B K) (ids : Nat → Int) (g : Nat) (pts : List P) (score : ScoreFn P K)
    (square : Option (ScoreFn P K)) (e e' : Fl K) (inst : Int) (hlen : 2 ≤ pts.length) (hhull : HullOk lib pts)
    (hs : SplitsInside (scoreOf score square) (relationOf e e' square) pts) (fuel : Nat) (out : List Int)
    (hrun : dpSimplify lib ids g ⟨some (coordsOf pts)⟩ score square e e' inst fuel = .ok out) {k : Int} {v : Fl K}
    (hk : scoreOf score square (Coords.sub pts 0 ((pts.length : Int) - 1)) = .ok (k, v)) (hv : relationOf e e' square v = true) :
    out = [0, (pts.length : Int) - 1] := by
  simp only [dpSimplify] at hrun
  obtain ⟨⟨hulls, g'⟩, hr, ho⟩ := Res.bind_eq_ok.1 hrun
  simp only [Res.pure_eq, Res.ok.injEq] at ho
  subst ho
  have hrec := C63_decompose_recursive lib ids g pts _ _ inst hlen fuel hulls g' hr
  have hrng := hrec.unique (RecDP.keep 0 _ k v hk hv)
  have hc := (C04_decompose_cover lib ids g pts _ _ inst fuel hlen hhull hs hulls g' hr).1
  have hne : hulls ≠ [] := by rintro rfl; simp at hrng
  rw [simpleSet_chain hc hne]
  have : hulls.map (fun nd => nd.range.J) = (hulls.map Node.range).map Rng.J := by rw [List.map_map]; rfl
  rw [this, hrng]
  rfl

/-- the score of a line is at most a bound of the scores of its inner vertices -/
theorem maxOffset_le_bound {P K : Type} [LinearOrder K] [Zero K] (distFn : P → P → P → Fl K) {pts : List P} (hlen : 2 ≤ pts.length) {bound : Fl K}
    (h0 : (Fl.fin 0).le bound = true) {a b : P} (ha : pts.head? = some a) (hb : pts.getLast? = some b) (hd : ∀ p ∈ pts, (distFn a b p).le bound = true) :
    ∃ k v, maxOffset distFn (Coords.sub pts 0 ((pts.length : Int) - 1)) = .ok (k, v) ∧ v.le bound = true := by
  have hl : (Coords.sub pts 0 ((pts.length : Int) - 1)).len = pts.length := by rw [Coords.len_sub _ _ _ (by omega)]; omega
  by_cases h3 : 3 ≤ pts.length
  · have hq : ∀ k, 0 ≤ k → k < (Coords.sub pts 0 ((pts.length : Int) - 1)).len → (Coords.sub pts 0 ((pts.length : Int) - 1)).pt k = .ok (pts[k.toNat]?.getD a) := by
      intro k hk0 hk1
      obtain ⟨p, hp, hp'⟩ := Coords.pt_sub_ok (pts := pts) (i := 0) (j := (pts.length : Int) - 1) (k := k) (by omega) (by omega) (by omega) (by omega)
      rw [zero_add] at hp'
      rw [hp, hp']; rfl
    obtain ⟨k, v, e, -, -, -, h | ⟨k0, k1, rfl, -⟩⟩ := maxOffset_spec distFn _ _ (by omega) hq
    · exact ⟨k, v, e, by rw [h.2.1]; exact h0⟩
    · refine ⟨k, _, e, ?_⟩
      rw [hl] at k1 ⊢
      have e0 : pts[(0 : Int).toNat]?.getD a = a := by
        rw [List.head?_eq_getElem?] at ha
        simp [ha]
      have e1 : pts[((pts.length : Int) - 1).toNat]?.getD a = b := by
        rw [List.getLast?_eq_getElem?] at hb
        rw [show ((pts.length : Int) - 1).toNat = pts.length - 1 by omega, hb]; rfl
      rw [e0, e1]
      refine hd _ ?_
      rw [List.getElem?_eq_getElem (by omega)]
      exact List.getElem_mem _
  · exact ⟨_, _, C03_maxOffset_short distFn _ (by omega), h0⟩

/-- **C82**: `dp.Simplify` of a closed line returns a line without extent (all its vertices equal) exactly if the whole input lies within the tolerance of its first
vertex; then it returns the first and the last vertex only. -/
theorem C82_closed (lib : Lib E C B ℝ) (ids : Nat → Int) (g : Nat) (pts : List E) (square : Bool) (ε : ℝ) (hε : 0 ≤ ε)
    (inst : Int) (hlen : 2 ≤ pts.length) (hhull : HullOk lib pts) (fuel : Nat) (out : List Int)
    (hrun : dpSimplify lib ids g ⟨some (coordsOf pts)⟩ (maxOffset segDist) (if square then some (maxOffset segDistSq) else none)
      (.fin ε) (.fin (ε * ε)) inst fuel = .ok out) {a : E} (ha : pts.head? = some a) (hb : pts.getLast? = some a) :
    (trace (verticesAt pts out) = {a} ↔ ∀ z ∈ trace pts, dist z a ≤ ε) ∧
    (trace (verticesAt pts out) = {a} → out = [0, (pts.length : Int) - 1]) := by
  have hclose := (C79_simplify lib ids g pts square ε hε inst hlen hhull fuel out hrun).1
  have hthr : (Fl.fin (0 : ℝ)).le (.fin (if square then ε * ε else ε)) = true := by
    simp only [Fl.fin_le_fin, decide_eq_true_eq]; split <;> positivity
  have hsp : SplitsInside (scoreOf (maxOffset segDist) (if square then some (maxOffset (segDistSq (E := E))) else none))
      (relationOf (.fin ε) (.fin (ε * ε)) (if square then some (maxOffset (segDistSq (E := E))) else none)) pts := by
    cases square
    · exact maxOffset_splitsInside _ _ hthr pts
    · exact maxOffset_splitsInside _ _ hthr pts
  have h1 : trace (verticesAt pts out) = {a} → ∀ z ∈ trace pts, dist z a ≤ ε := by
    intro h z hz
    obtain ⟨y, hy, hd⟩ := hclose.whole.1 z hz
    rw [h] at hy
    rwa [← Set.mem_singleton_iff.1 hy]
  have h2 : (∀ z ∈ trace pts, dist z a ≤ ε) → out = [0, (pts.length : Int) - 1] := by
    intro h
    have hp : ∀ p ∈ pts, infDist p (segment ℝ a a) ≤ ε := fun p hp => by
      rw [segment_same, infDist_singleton]
      exact h p (mem_trace_of_mem hp)
    obtain ⟨k, v, e, hv⟩ := maxOffset_le_bound (if square then segDistSq else segDist) hlen hthr ha hb (fun p hp' => by
      have := hp p hp'
      cases square
      · simpa [segDist] using this
      · simp only [segDistSq, if_true, Fl.fin_le_fin, decide_eq_true_eq]
        nlinarith [infDist_nonneg (x := p) (s := segment ℝ a a)])
    cases square
    · exact dpSimplify_one lib ids g pts _ _ _ _ inst hlen hhull hsp fuel out hrun e hv
    · exact dpSimplify_one lib ids g pts _ _ _ _ inst hlen hhull hsp fuel out hrun e hv
  refine ⟨⟨h1, fun h => ?_⟩, fun h => h2 (h1 h)⟩
  rw [h2 h, trace_eq_singleton (by rw [List.head?_eq_getElem?] at ha; simp [verticesAt, ha])]
  intro x hx
  obtain ⟨i, hi, hx⟩ := List.mem_filterMap.1 hx
  rcases List.mem_cons.1 hi with rfl | hi
  · rw [List.head?_eq_getElem?] at ha
    exact Option.some.inj (hx.symm.trans ha)
  · obtain rfl := List.mem_singleton.1 hi
    rw [List.getLast?_eq_getElem?] at hb
    rw [show ((pts.length : Int) - 1).toNat = pts.length - 1 by omega] at hx
    exact Option.some.inj (hx.symm.trans hb)

/-- **C82** for lines that need not be closed: a result without extent says that the whole input lies within the tolerance of its first vertex. -/
theorem C82_extent (lib : Lib E C B ℝ) (ids : Nat → Int) (g : Nat) (pts : List E) (square : Bool) (ε : ℝ) (hε : 0 ≤ ε)
    (inst : Int) (hlen : 2 ≤ pts.length) (hhull : HullOk lib pts) (fuel : Nat) (out : List Int)
    (hrun : dpSimplify lib ids g ⟨some (coordsOf pts)⟩ (maxOffset segDist) (if square then some (maxOffset segDistSq) else none)
      (.fin ε) (.fin (ε * ε)) inst fuel = .ok out) {a : E} (h : trace (verticesAt pts out) = {a}) : ∀ z ∈ trace pts, dist z a ≤ ε := by
  intro z hz
  obtain ⟨y, hy, hd⟩ := (C79_simplify lib ids g pts square ε hε inst hlen hhull fuel out hrun).1.whole.1 z hz
  rw [h] at hy
  rwa [← Set.mem_singleton_iff.1 hy]

end

/-- both sides of the equivalence occur: with tolerance 1/2 the closed line 0, 1/4, 0 shrinks to a point … -/
example (out : List Int) (h : dpSimplify realLib (fun n => n) 0 ⟨some (coordsOf [0, 1 / 4, 0])⟩ (maxOffset segDist) (if false then some (maxOffset segDistSq) else none)
    (.fin (1 / 2)) (.fin (1 / 2 * (1 / 2))) 9 6 = .ok out) : out = [0, 2] := by
  obtain ⟨h1, h2⟩ := C82_closed realLib _ 0 [0, 1 / 4, 0] false (1 / 2) (by norm_num) 9 (by decide) (realLib_hullOk _) 6 out h (a := 0) rfl rfl
  refine h2 (h1.2 (fun z hz => ?_))
  have : trace [(0 : ℝ), 1 / 4, 0] ⊆ closedBall 0 (1 / 2) := trace_subset_convex (convex_closedBall _ _) _ (by
    intro x hx
    simp only [List.mem_cons, List.not_mem_nil, or_false] at hx
    rcases hx with rfl | rfl | rfl <;> norm_num [mem_closedBall])
  exact this hz

/-- … and the closed line 0, 3, 0 does not -/
example (out : List Int) (h : dpSimplify realLib (fun n => n) 0 ⟨some (coordsOf [0, 3, 0])⟩ (maxOffset segDist) (if false then some (maxOffset segDistSq) else none)
    (.fin (1 / 2)) (.fin (1 / 2 * (1 / 2))) 9 6 = .ok out) : trace (verticesAt [0, 3, 0] out) ≠ {(0 : ℝ)} := by
  intro he
  have := (C82_closed realLib _ 0 [0, 3, 0] false (1 / 2) (by norm_num) 9 (by decide) (realLib_hullOk _) 6 out h (a := 0) rfl rfl).1.1 he 3
    (mem_trace_of_mem (by simp))
  norm_num at this

end Verif
