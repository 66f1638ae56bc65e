import Verif.Lemmas.PlanarPieces
import Verif.Props.C32_Neighbours

/-! Exact plane geometry under maps that multiply all distances by the same factor (moving, turning, mirroring, scaling). -/

set_option linter.unusedSectionVars false

namespace Verif

namespace Homotopy

variable {P C B K P' C' B' K' : Type} [LinearOrder B] [LinearOrder B']

theorem pass_pair {lib : Lib P C B K} {pt : Nat → P} {db : List (Geo P C)} {lib' : Lib P' C' B' K'} {pt' : Nat → P'} {db' : List (Geo P' C')}
    (h : ∀ ch v, collapseVertex lib pt db ch v = collapseVertex lib' pt' db' ch v) : ∀ fuel l ch d, pass lib pt db fuel l ch d = pass lib' pt' db' fuel l ch d := by
  intro fuel
  induction fuel with
  | zero => intro l ch d; cases l <;> rfl
  | succ n ih => intro l ch d; cases l <;> simp only [pass, h, ih]

theorem deformLoop_pair {lib : Lib P C B K} {pt : Nat → P} {db : List (Geo P C)} {lib' : Lib P' C' B' K'} {pt' : Nat → P'} {db' : List (Geo P' C')}
    (h : ∀ ch v, collapseVertex lib pt db ch v = collapseVertex lib' pt' db' ch v) : ∀ fuel ch, deformLoop lib pt db fuel ch = deformLoop lib' pt' db' fuel ch := by
  intro fuel
  induction fuel with
  | zero => intro ch; rfl
  | succ n ih => intro ch; simp only [deformLoop, pass_pair h, ih]

/-- two geometries that answer alike: to chord, sub-line and all triangles of vertices -/
def AnswersAlike (lib : Lib P C B K) (c : Coords P) (ps : List P) (lib' : Lib P' C' B' K') (c' : Coords P') (ps' : List P') (g : Geo P C) (g' : Geo P' C') : Prop :=
  lib.intersects (.seg c) g = lib'.intersects (.seg c') g' ∧ lib.intersects (.line c) g = lib'.intersects (.line c') g' ∧
  ∀ (i j k : Nat) (x y z : P) (x' y' z' : P'), ps[i]? = some x → ps[j]? = some y → ps[k]? = some z → ps'[i]? = some x' → ps'[j]? = some y' → ps'[k]? = some z' →
    lib.intersects (triangle (C := C) x y z) g = lib'.intersects (triangle (C := C') x' y' z') g'

/-- two lines with constraints that answer alike get the same verdict of the deformation test -/
theorem homotopy_pair {lib : Lib P C B K} {c : Coords P} {ps : List P} (hlen : c.len = ps.length) (hpt : ∀ k (hk : k < ps.length), c.pt k = .ok ps[k])
    {lib' : Lib P' C' B' K'} {c' : Coords P'} {ps' : List P'} (hlen' : c'.len = ps'.length) (hpt' : ∀ k (hk : k < ps'.length), c'.pt k = .ok ps'[k])
    (hb : BoxSound lib) (hb' : BoxSound lib') (hn : ps.length = ps'.length) (hne : 0 < ps.length)
    (heq : ∀ (i j : Nat) (p q : P) (p' q' : P'), ps[i]? = some p → ps[j]? = some q → ps'[i]? = some p' → ps'[j]? = some q' → lib.equals2D p q = lib'.equals2D p' q')
    {db : List (Geo P C)} {db' : List (Geo P' C')} (hto : ∀ g ∈ db, ∃ g' ∈ db', AnswersAlike lib c ps lib' c' ps' g g')
    (hfrom : ∀ g' ∈ db', ∃ g ∈ db, AnswersAlike lib c ps lib' c' ps' g g') (fuel : Nat) : homotopy lib c db fuel = homotopy lib' c' db' fuel := by
  obtain ⟨f1, f2⟩ := filterLoop_spec lib (.seg c) (.line c) db
  obtain ⟨g1, g2⟩ := filterLoop_spec lib' (.seg c') (.line c') db'
  have hx : (filterLoop lib (.seg c) (.line c) db).2.2 = [] ↔ (filterLoop lib' (.seg c') (.line c') db').2.2 = [] := by
    rw [f1, g1]
    constructor
    · intro h g' hg'
      obtain ⟨g, hg, a1, a2, -⟩ := hfrom g' hg'
      rw [← a1, ← a2]; exact h g hg
    · intro h g hg
      obtain ⟨g', hg', a1, a2, -⟩ := hto g hg
      rw [a1, a2]; exact h g' hg'
  have dto : ∀ g ∈ (filterLoop lib (.seg c) (.line c) db).1, ∃ g' ∈ (filterLoop lib' (.seg c') (.line c') db').1, AnswersAlike lib c ps lib' c' ps' g g' := by
    intro g hg
    obtain ⟨q1, q2, q3⟩ := (f2 g).1 hg
    obtain ⟨g', hg', a1, a2, a3⟩ := hto g q1
    exact ⟨g', (g2 g').2 ⟨hg', by rw [← a1]; exact q2, by rw [← a2]; exact q3⟩, a1, a2, a3⟩
  have dfrom : ∀ g' ∈ (filterLoop lib' (.seg c') (.line c') db').1, ∃ g ∈ (filterLoop lib (.seg c) (.line c) db).1, AnswersAlike lib c ps lib' c' ps' g g' := by
    intro g' hg'
    obtain ⟨q1, q2, q3⟩ := (g2 g').1 hg'
    obtain ⟨g, hg, a1, a2, a3⟩ := hfrom g' q1
    exact ⟨g, (f2 g).2 ⟨hg, by rw [a1]; exact q2, by rw [a2]; exact q3⟩, a1, a2, a3⟩
  have hd : (filterLoop lib (.seg c) (.line c) db).1 = [] ↔ (filterLoop lib' (.seg c') (.line c') db').1 = [] := by
    simp only [List.eq_nil_iff_forall_not_mem]
    exact ⟨fun h g' hg' => by obtain ⟨g, hg, -⟩ := dfrom g' hg'; exact h g hg, fun h g hg => by obtain ⟨g', hg', -⟩ := dto g hg; exact h g' hg'⟩
  have ha : allPts c c.len.toNat = .ok ps := by rw [hlen, Int.toNat_natCast, allPts_spec hpt _ (Nat.le_refl _), List.take_length]
  have ha' : allPts c' c'.len.toNat = .ok ps' := by rw [hlen', Int.toNat_natCast, allPts_spec hpt' _ (Nat.le_refl _), List.take_length]
  obtain ⟨p0, q0, rfl⟩ : ∃ p0 q0, ps = p0 :: q0 := List.exists_cons_of_length_pos hne
  obtain ⟨p0', q0', rfl⟩ : ∃ p0 q0, ps' = p0 :: q0 := List.exists_cons_of_length_pos (by omega)
  have hget : ∀ i : Nat, ∃ k : Nat, (p0 :: q0)[k]? = some ((p0 :: q0).getD i p0) ∧ (p0' :: q0')[k]? = some ((p0' :: q0').getD i p0') := by
    intro i
    by_cases hi : i < (p0 :: q0).length
    · have hi' : i < (p0' :: q0').length := by omega
      exact ⟨i, by simp only [List.getD_eq_getElem?_getD, List.getElem?_eq_getElem hi, Option.getD_some],
        by simp only [List.getD_eq_getElem?_getD, List.getElem?_eq_getElem hi', Option.getD_some]⟩
    · have hi' : ¬ i < (p0' :: q0').length := by omega
      refine ⟨0, ?_, ?_⟩
      · have : (p0 :: q0)[i]? = none := List.getElem?_eq_none (by omega)
        rw [List.getD_eq_getElem?_getD, this]; rfl
      · have : (p0' :: q0')[i]? = none := List.getElem?_eq_none (by omega)
        rw [List.getD_eq_getElem?_getD, this]; rfl
  have htri : ∀ (a b d : Nat) (g : Geo P C) (g' : Geo P' C'), AnswersAlike lib c (p0 :: q0) lib' c' (p0' :: q0') g g' →
      lib.intersects (triangle (C := C) ((p0 :: q0).getD a p0) ((p0 :: q0).getD b p0) ((p0 :: q0).getD d p0)) g =
      lib'.intersects (triangle (C := C') ((p0' :: q0').getD a p0') ((p0' :: q0').getD b p0') ((p0' :: q0').getD d p0')) g' := by
    intro a b d g g' hgg
    obtain ⟨i, i1, i2⟩ := hget a
    obtain ⟨j, j1, j2⟩ := hget b
    obtain ⟨k, k1, k2⟩ := hget d
    exact hgg.2.2 i j k _ _ _ _ _ _ i1 j1 k1 i2 j2 k2
  have hfree : ∀ a b d, Free lib (fun i => (p0 :: q0).getD i p0) (filterLoop lib (.seg c) (.line c) db).1 a b d ↔
      Free lib' (fun i => (p0' :: q0').getD i p0') (filterLoop lib' (.seg c') (.line c') db').1 a b d := by
    intro a b d
    constructor
    · intro h g' hg' _
      obtain ⟨g, hg, hgg⟩ := dfrom g' hg'
      have e := htri a b d g g' hgg
      cases hi : lib'.intersects (triangle (C := C') ((p0' :: q0').getD a p0') ((p0' :: q0').getD b p0') ((p0' :: q0').getD d p0')) g' with
      | false => rfl
      | true =>
        rw [hi] at e
        have := h g hg (hb _ _ e)
        rw [e] at this; cases this
    · intro h g hg _
      obtain ⟨g', hg', hgg⟩ := dto g hg
      have e := htri a b d g g' hgg
      cases hi : lib.intersects (triangle (C := C) ((p0 :: q0).getD a p0) ((p0 :: q0).getD b p0) ((p0 :: q0).getD d p0)) g with
      | false => rfl
      | true =>
        rw [hi] at e
        have := h g' hg' (hb' _ _ e.symm)
        rw [← e] at this; cases this
  have hc : ∀ ch v, collapseVertex lib (fun i => (p0 :: q0).getD i p0) (filterLoop lib (.seg c) (.line c) db).1 ch v =
      collapseVertex lib' (fun i => (p0' :: q0').getD i p0') (filterLoop lib' (.seg c') (.line c') db').1 ch v := by
    intro ch v
    rw [Bool.eq_iff_iff, collapseVertex_iff, collapseVertex_iff]
    constructor
    · rintro ⟨a, d, h1, h2, h3⟩; exact ⟨a, d, h1, h2, (hfree _ _ _).1 h3⟩
    · rintro ⟨a, d, h1, h2, h3⟩; exact ⟨a, d, h1, h2, (hfree _ _ _).2 h3⟩
  have heq' : ∀ i j, lib.equals2D ((p0 :: q0).getD i p0) ((p0 :: q0).getD j p0) = lib'.equals2D ((p0' :: q0').getD i p0') ((p0' :: q0').getD j p0') := by
    intro i j
    obtain ⟨k, k1, k2⟩ := hget i
    obtain ⟨l, l1, l2⟩ := hget j
    exact heq k l _ _ _ _ k1 l1 k2 l2
  by_cases hx0 : (filterLoop lib (.seg c) (.line c) db).2.2 = []
  · have hx1 := hx.1 hx0
    by_cases hd0 : (filterLoop lib (.seg c) (.line c) db).1 = []
    · have hd1 := hd.1 hd0
      simp [homotopy, hx0, hx1, hd0, hd1]
    · have hd1 : ¬ (filterLoop lib' (.seg c') (.line c') db').1 = [] := fun h => hd0 (hd.2 h)
      simp only [homotopy, hx0, hx1, List.length_nil, Nat.lt_irrefl, gt_iff_lt, if_false, List.length_eq_zero_iff, hd0, hd1, ha, ha', Res.ok_bind, chainDeformation,
        deformLoop_pair hc, heq', hn]
  · have hx1 : ¬ (filterLoop lib' (.seg c') (.line c') db').2.2 = [] := fun h => hx0 (hx.2 h)
    have h0 : 0 < (filterLoop lib (.seg c) (.line c) db).2.2.length := List.length_pos_iff.2 hx0
    have h1 : 0 < (filterLoop lib' (.seg c') (.line c') db').2.2.length := List.length_pos_iff.2 hx1
    simp only [homotopy, gt_iff_lt, h0, h1, if_true]

end Homotopy

namespace Planar

section
variable {f : ℂ →ᵃ[ℝ] ℂ} {r : ℝ}

theorem lineSet_map (f : ℂ →ᵃ[ℝ] ℂ) : ∀ l : List ℂ, lineSet (l.map f) = f '' lineSet l
  | [] => by simp [lineSet]
  | [a] => by simp [lineSet]
  | a :: b :: l => by
    have ih := lineSet_map f (b :: l)
    rw [List.map_cons] at ih
    rw [List.map_cons, List.map_cons, lineSet, lineSet, ih, Set.image_union, image_segment]

theorem chordSet_map (f : ℂ →ᵃ[ℝ] ℂ) (l : List ℂ) : chordSet (l.map f) = f '' chordSet l := by
  cases l with
  | nil => ext z; simp [chordSet]
  | cons a l =>
    obtain ⟨b, hb⟩ : ∃ b, (a :: l).getLast? = some b := ⟨_, List.getLast?_eq_some_getLast (by simp)⟩
    ext z
    simp only [chordSet, List.head?_map, List.getLast?_map, hb, List.head?_cons, Option.map_some, Option.some.injEq, Set.mem_ofPred_eq, Set.mem_image]
    constructor
    · rintro ⟨_, _, rfl, rfl, hz⟩
      rw [← image_segment] at hz
      obtain ⟨w, hw, rfl⟩ := hz
      exact ⟨w, ⟨a, b, rfl, rfl, hw⟩, rfl⟩
    · rintro ⟨w, ⟨_, _, rfl, rfl, hw⟩, rfl⟩
      refine ⟨_, _, rfl, rfl, ?_⟩
      rw [← image_segment]
      exact ⟨w, hw, rfl⟩

theorem hullSet_map (f : ℂ →ᵃ[ℝ] ℂ) (l : List ℂ) : hullSet (l.map f) = f '' hullSet l := by
  rw [hullSet, hullSet, AffineMap.image_convexHull]
  congr 1
  ext z
  simp

theorem extremePoints_image (hf : Function.Injective f) (s : Set ℂ) : (f '' s).extremePoints ℝ = f '' s.extremePoints ℝ := by
  ext z
  simp only [mem_extremePoints, Set.mem_image]
  constructor
  · rintro ⟨⟨x, hx, rfl⟩, h⟩
    refine ⟨x, ⟨hx, fun a ha b hb hab => ?_⟩, rfl⟩
    obtain ⟨h1, h2⟩ := h (f a) ⟨a, ha, rfl⟩ (f b) ⟨b, hb, rfl⟩ (by rw [← image_openSegment]; exact ⟨x, hab, rfl⟩)
    exact ⟨hf h1, hf h2⟩
  · rintro ⟨x, ⟨hx, h⟩, rfl⟩
    refine ⟨⟨x, hx, rfl⟩, ?_⟩
    rintro _ ⟨a, ha, rfl⟩ _ ⟨b, hb, rfl⟩ hab
    rw [← image_openSegment] at hab
    obtain ⟨y, hy, hyx⟩ := hab
    cases hf hyx
    obtain ⟨h1, h2⟩ := h a ha b hb hy
    exact ⟨congrArg f h1, congrArg f h2⟩

/-- a map that multiplies all distances by `r` -/
def Scales (f : ℂ →ᵃ[ℝ] ℂ) (r : ℝ) : Prop := 0 < r ∧ ∀ x y, dist (f x) (f y) = r * dist x y

theorem Scales.injective (h : Scales f r) : Function.Injective f := by
  intro x y hxy
  have := h.2 x y
  rw [hxy, dist_self] at this
  rcases mul_eq_zero.1 this.symm with h0 | h0
  · exact absurd h0 h.1.ne'
  · exact dist_eq_zero.1 h0

theorem Scales.gap (h : Scales f r) (s t : Set ℂ) : gap (f '' s) (f '' t) = r * gap s t := by
  rw [Planar.gap, Planar.gap, ← smul_eq_mul, ← Real.sInf_smul_of_nonneg h.1.le]
  congr 1
  ext d
  simp only [Set.mem_smul_set, smul_eq_mul, Set.mem_ofPred_eq]
  constructor
  · rintro ⟨_, ⟨x, hx, rfl⟩, _, ⟨y, hy, rfl⟩, rfl⟩
    exact ⟨_, ⟨x, hx, y, hy, rfl⟩, (h.2 x y).symm⟩
  · rintro ⟨_, ⟨x, hx, y, hy, rfl⟩, rfl⟩
    exact ⟨_, ⟨x, hx, rfl⟩, _, ⟨y, hy, rfl⟩, (h.2 x y).symm⟩

theorem Scales.meet (h : Scales f r) (s t : Set ℂ) : (f '' s ∩ f '' t).Nonempty ↔ (s ∩ t).Nonempty := by
  rw [← Set.image_inter h.injective, Set.image_nonempty]

end

end Planar
end Verif
