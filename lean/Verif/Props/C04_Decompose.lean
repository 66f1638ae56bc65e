import Verif.Lemmas.Decompose

/-! C04, C05, C06: the decomposition covers the line exactly, terminates for thresholds `>= 0`, and diverges otherwise. -/

namespace Verif

variable {P C B K : Type}

/-- more fuel never changes a result -/
theorem dpLoop_mono (lib : Lib P C B K) (ids : Nat → Int) (pln : Polyline P) (score : ScoreFn P K) (rel : Fl K → Bool) (inst : Int) :
    ∀ (fuel : Nat) (stack : List Rng) (hque : List (Node P C B)) (g : Nat) (r : List (Node P C B) × Nat) (fuel' : Nat), fuel ≤ fuel' →
      dpLoop lib ids pln score rel inst fuel stack hque g = .ok r → dpLoop lib ids pln score rel inst fuel' stack hque g = .ok r := by
  intro fuel
  induction fuel with
  | zero =>
    intro stack hque g r fuel' hf h
    cases stack with
    | nil => cases fuel' <;> simpa [dpLoop] using h
    | cons r rs => simp [dpLoop] at h
  | succ fuel ih =>
    intro stack hque g r fuel' hf h
    cases stack with
    | nil => cases fuel' <;> simpa [dpLoop] using h
    | cons r rs =>
      obtain ⟨f', rfl⟩ : ∃ f', fuel' = f' + 1 := ⟨fuel' - 1, by omega⟩
      simp only [dpLoop, Res.bind_eq_ok] at h ⊢
      obtain ⟨c, hc, ⟨k, v⟩, hkv, h⟩ := h
      refine ⟨c, hc, ⟨k, v⟩, hkv, ?_⟩
      by_cases hr : rel v = true
      · simp only [hr, if_true, Res.bind_eq_ok] at h ⊢
        obtain ⟨nd, hnd, h⟩ := h
        exact ⟨nd, hnd, ih _ _ _ _ _ (by omega) h⟩
      · simp only [hr] at h ⊢
        exact ih _ _ _ _ _ (by omega) h

/-- C05.  Termination: any score function that splits inside, any relation, any polyline with at least two vertices; `2 n` iterations
are enough for `n` vertices. -/
theorem C05_decompose_terminates (lib : Lib P C B K) (ids : Nat → Int) (g : Nat) (pts : List P) (score : ScoreFn P K)
    (rel : Fl K → Bool) (inst : Int) (hlen : 2 ≤ pts.length) (hhull : HullOk lib pts) (hs : SplitsInside score rel pts) :
    ∀ fuel, 2 * pts.length ≤ fuel →
      ∃ r, decompose lib ids g ⟨some (coordsOf pts)⟩ score rel inst fuel = .ok r := by
  intro fuel hf
  obtain ⟨hs', g', e, -⟩ := dpLoop_spec lib ids pts score rel inst hhull hs fuel [⟨0, pts.length - 1⟩] [] g 0 (by omega)
    (Chain.singleton (by omega)) (by simp only [dpMeasure, Rng.size]; omega)
  exact ⟨([] ++ hs', g'), by simp only [decompose, range_ok hlen, Res.ok_bind, e]⟩

/-- C05 for the offset score of the plug-in: any distance function (even NaN or negative values), any relation accepting zero. -/
theorem C05_maxOffset_terminates [LinearOrder K] [Zero K] (lib : Lib P C B K) (ids : Nat → Int) (g : Nat) (pts : List P)
    (distFn : P → P → P → Fl K) (threshold : Fl K) (inst : Int) (hlen : 2 ≤ pts.length) (hhull : HullOk lib pts)
    (hthr : (Fl.fin 0).le threshold = true) :
    ∀ fuel, 2 * pts.length ≤ fuel →
      ∃ r, decompose lib ids g ⟨some (coordsOf pts)⟩ (maxOffset distFn) (scoreRelation threshold) inst fuel = .ok r :=
  C05_decompose_terminates lib ids g pts _ _ inst hlen hhull (maxOffset_splitsInside distFn _ hthr pts)

/-- C04.  Whenever the decomposition returns, its pieces are consecutive proper ranges from the first to the last vertex, and each
piece carries exactly the vertices, hull and box of its range. -/
theorem C04_decompose_cover (lib : Lib P C B K) (ids : Nat → Int) (g : Nat) (pts : List P) (score : ScoreFn P K)
    (rel : Fl K → Bool) (inst : Int) (fuel : Nat) (hlen : 2 ≤ pts.length) (hhull : HullOk lib pts) (hs : SplitsInside score rel pts)
    (hulls : List (Node P C B)) (g' : Nat)
    (hrun : decompose lib ids g ⟨some (coordsOf pts)⟩ score rel inst fuel = .ok (hulls, g')) :
    Chain 0 (pts.length - 1) (hulls.map Node.range) ∧ (∀ nd ∈ hulls, IsPiece lib pts inst nd) ∧
      (∀ nd ∈ hulls, ∃ k v, score (Coords.sub pts nd.range.I nd.range.J) = .ok (k, v) ∧ rel v = true) ∧
      g' = g + hulls.length ∧ hulls.map Node.id = (List.range hulls.length).map (fun t => ids (g + t)) := by
  obtain ⟨hs', g1, e, c1, c2, c3, c4⟩ := dpLoop_spec lib ids pts score rel inst hhull hs (max fuel (2 * pts.length))
    [⟨0, pts.length - 1⟩] [] g 0 (by omega) (Chain.singleton (by omega)) (by simp only [dpMeasure, Rng.size]; omega)
  simp only [decompose, range_ok hlen, Res.ok_bind] at hrun
  have h2 := dpLoop_mono lib ids _ score rel inst _ _ _ _ _ _ (Nat.le_max_left fuel (2 * pts.length)) hrun
  rw [e] at h2
  simp only [List.nil_append, Res.ok.injEq, Prod.mk.injEq] at h2
  obtain ⟨rfl, rfl⟩ := h2
  exact ⟨c1, fun nd h => (c2 nd h).1, fun nd h => (c2 nd h).2, c3, c4⟩

/-- C04.  A polyline with fewer than two coordinates has no line string and decomposes into nothing. -/
theorem C04_decompose_short (lib : Lib P C B K) (ids : Nat → Int) (g : Nat) (pts : List P) (score : ScoreFn P K)
    (rel : Fl K → Bool) (inst : Int) (fuel : Nat) (hlen : pts.length < 2) :
    decompose lib ids g (createPolyline (coordsOf pts)) score rel inst fuel = .ok ([], g) := by
  have : (coordsOf pts).len < 2 := by
    unfold coordsOf; rw [Coords.len_sub _ _ _ (by omega)]; omega
  simp only [decompose, createPolyline, this, if_true]

/-- what the offset score returns on any sub-line: an index inside the sub-line and a value that is a number `>= 0` -/
theorem maxOffset_bounds [LinearOrder K] [Zero K] (distFn : P → P → P → Fl K) (pts : List P) {i j : Int} (hi : 0 ≤ i) (hij : i ≤ j)
    (hj : j < pts.length) :
    ∃ k v, maxOffset distFn (Coords.sub pts i j) = .ok (k, v) ∧ 0 ≤ k ∧ k ≤ j - i ∧ (Fl.fin 0).le v = true := by
  have hlen : (Coords.sub pts i j).len = j + 1 - i := Coords.len_sub _ _ _ (by omega)
  by_cases h2 : j ≤ i + 1
  · exact ⟨_, _, C03_maxOffset_short _ _ (by omega), by omega, by omega, by simp⟩
  · have hq : ∀ k, 0 ≤ k → k < (Coords.sub pts i j).len →
        (Coords.sub pts i j).pt k = .ok ((pts[(i + k).toNat]?).getD (pts[i.toNat]'(by omega))) := by
      intro k hk1 hk2
      obtain ⟨p, hp, hp'⟩ := Coords.pt_sub_ok (pts := pts) (i := i) (j := j) hk1 (by omega) hi hj
      rw [hp, hp']; rfl
    obtain ⟨k, v, e, n1, l1, m1, c1⟩ := maxOffset_spec distFn _ _ (by omega) hq
    exact ⟨k, v, e, by rcases c1 with c | c <;> omega, by rcases c1 with c | c <;> omega, l1⟩

/-- C06 (refutation).  If the threshold is negative or NaN (it does not accept zero), the decomposition of any polyline with at least
one vertex diverges: it is still running after any number of iterations. -/
theorem C06_negative_threshold_diverges [LinearOrder K] [Zero K] (lib : Lib P C B K) (ids : Nat → Int) (g : Nat) (pts : List P)
    (distFn : P → P → P → Fl K) (threshold : Fl K) (inst : Int) (hlen : 2 ≤ pts.length)
    (hthr : (Fl.fin 0).le threshold = false) :
    ∀ fuel, decompose lib ids g ⟨some (coordsOf pts)⟩ (maxOffset distFn) (scoreRelation threshold) inst fuel = .timeout := by
  intro fuel
  simp only [decompose, range_ok hlen, Res.ok_bind]
  suffices h : ∀ (fuel : Nat) (r : Rng) (rs : List Rng) (hque : List (Node P C B)), 0 ≤ r.I → r.I ≤ r.J → r.J < pts.length →
      dpLoop lib ids ⟨some (coordsOf pts)⟩ (maxOffset distFn) (scoreRelation threshold) inst fuel (r :: rs) hque g = .timeout from
    h fuel _ [] [] (by simp) (by simp only []; omega) (by simp only []; omega)
  intro fuel
  induction fuel with
  | zero => intros; rfl
  | succ fuel ih =>
    intro r rs hque h1 h2 h3
    obtain ⟨k, v, e, k0, k1, hv⟩ := maxOffset_bounds distFn pts h1 h2 h3
    have hsub : (⟨some (coordsOf pts)⟩ : Polyline P).subCoordinates r = .ok (Coords.sub pts r.I r.J) := by
      simp [Polyline.subCoordinates, Polyline.coordinates, coordsOf, Coords.sub]
    have hrel : scoreRelation threshold v = false := by
      cases hb : scoreRelation threshold v with
      | false => rfl
      | true =>
        have := Fl.le_trans hv hb
        rw [hthr] at this; cases this
    simp only [dpLoop, hsub, Res.ok_bind, e, hrel]
    exact ih _ _ _ (by simpa using h1) (by simp only []; omega) (by simp only []; omega)

/-! ### Non-trivial cases -/

/-- a library good enough for runs: hull = the coordinates themselves, other entries irrelevant -/
def demoLib : Lib Int Unit Int Int where
  convexHull c := c
  bounds _ := ⟨0, 0, 0, 0⟩
  intersects _ _ := false
  intersection _ _ := []
  distance _ _ := .fin 0
  boxDistance _ _ := .fin 0
  ptInRing _ _ := false
  equals2D a b := a == b
  ptDistance _ _ := .fin 0

theorem demo_hullOk (pts : List Int) : HullOk demoLib pts := by
  intro i j hi hij hj
  have hl := Coords.len_sub pts i j (by omega)
  simp only [demoLib, hullGeometry, hl]
  split
  · exact ⟨_, rfl⟩
  · exact ⟨.line (Coords.sub pts i j), by rw [if_pos (by omega)]⟩

/-- heights 0 3 1 7 0, distance = height: threshold 2 splits twice, keeping vertices 0 1 3 4 -/
example : ((decompose demoLib (fun n => n) 0 ⟨some (coordsOf [0, 3, 1, 7, 0])⟩ (maxOffset fun _ _ p => .fin p)
    (scoreRelation (.fin 2)) 9 20) >>= fun r => Pure.pure (r.1.map Node.range)) = .ok [⟨0, 1⟩, ⟨1, 3⟩, ⟨3, 4⟩] := by decide

/-- the hypotheses of C04 and C05 hold for this line -/
example : SplitsInside (maxOffset (K := Int) fun _ _ (p : Int) => .fin p) (scoreRelation (.fin 2)) [0, 3, 1, 7, 0] ∧
    HullOk demoLib [0, 3, 1, 7, 0] :=
  ⟨maxOffset_splitsInside _ _ (by decide) _, demo_hullOk _⟩

/-- threshold -1: still running -/
example : decompose demoLib (fun n => n) 0 ⟨some (coordsOf [0, 3, 1])⟩ (maxOffset fun _ _ p => .fin p)
    (scoreRelation (.fin (-1))) 9 50 = .timeout := by decide

end Verif
