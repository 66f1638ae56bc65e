import Verif.Lemmas.HdbHeur
import Verif.Lemmas.Box
import Mathlib.MeasureTheory.Measure.Lebesgue.Basic
import Mathlib.Data.EReal.Basic
import Mathlib.Tactic.Linarith

/-!
C91.  Which child an insertion descends into.

hdb/insert.go:107 says: the child that needs the least enlargement, among equals the one with the smallest area (hdb/insert.go:114).
The code compares the areas of the *enlarged* boxes and never subtracts the area the child already has, so the rule is broken
(`C91_contained_passed_over`: an item that lies inside a child is put into another one).  What the code does instead is proved: least
enlarged area up to the tolerance, and what follows for the enlargement.  Areas are stated as Lebesgue measures of the regions of the plane.
-/

namespace Verif
namespace Hdb

open MeasureTheory

/-- specification: the points of the plane inside a box (`mbr.MBR` with possibly infinite sides) -/
def region (b : Box EReal) : Set (ℝ × ℝ) := {p | b.minX ≤ (p.1 : EReal) ∧ b.minY ≤ (p.2 : EReal) ∧ (p.1 : EReal) ≤ b.maxX ∧ (p.2 : EReal) ≤ b.maxY}

/-- specification: a box with finite sides and at least one point, as every box of a polyline is -/
def Proper (b : Box EReal) : Prop := ∃ x0 y0 x1 y1 : ℝ, x0 ≤ x1 ∧ y0 ≤ y1 ∧ b = ⟨x0, y0, x1, y1⟩

/-- specification: area covered -/
noncomputable def areaOfSet (s : Set (ℝ × ℝ)) : ℝ := (volume s).toReal

/-- specification: by how much a box `c` must grow (in area) to take in `b` -/
noncomputable def growth (b c : Box EReal) : ℝ := areaOfSet (region (b.expand c)) - areaOfSet (region c)

/-- the exact numbers: products and sums of coordinate differences -/
structure Exact {T : Type} (N : Num T EReal ℝ) (ε : ℝ) : Prop where
  area : ∀ b, N.area b = (b.maxX.toReal - b.minX.toReal) * (b.maxY.toReal - b.minY.toReal)
  close : ∀ x y, N.close x y = true ↔ |x - y| < ε
  zero : N.zero = 0
  add : ∀ x y, N.add x y = x + y
  margin : ∀ b, N.margin b = (b.maxX.toReal - b.minX.toReal) + (b.maxY.toReal - b.minY.toReal)

theorem region_mk (x0 y0 x1 y1 : ℝ) : region ⟨x0, y0, x1, y1⟩ = Set.Icc x0 x1 ×ˢ Set.Icc y0 y1 := by
  ext p
  simp only [region, EReal.coe_le_coe_iff, Set.mem_ofPred_eq, Set.mem_prod, Set.mem_Icc]
  tauto

theorem areaOfSet_rect {x0 y0 x1 y1 : ℝ} (h1 : x0 ≤ x1) (h2 : y0 ≤ y1) :
    areaOfSet (Set.Icc x0 x1 ×ˢ Set.Icc y0 y1) = (x1 - x0) * (y1 - y0) := by
  unfold areaOfSet
  rw [Measure.volume_eq_prod, Measure.prod_prod, Real.volume_Icc, Real.volume_Icc, ENNReal.toReal_mul,
    ENNReal.toReal_ofReal (by linarith), ENNReal.toReal_ofReal (by linarith)]

theorem Proper.expand {a b : Box EReal} (ha : Proper a) (hb : Proper b) : Proper (a.expand b) := by
  obtain ⟨x0, y0, x1, y1, h1, h2, rfl⟩ := ha
  obtain ⟨u0, v0, u1, v1, h3, h4, rfl⟩ := hb
  refine ⟨min x0 u0, min y0 v0, max x1 u1, max y1 v1, (min_le_left _ _).trans (h1.trans (le_max_left _ _)),
    (min_le_left _ _).trans (h2.trans (le_max_left _ _)), ?_⟩
  simp only [Box.expand, Box.mk.injEq]
  exact ⟨rfl, rfl, rfl, rfl⟩

/-- the code's product of side lengths is the area of the region -/
theorem Exact.area_region {T : Type} {N : Num T EReal ℝ} {ε : ℝ} (hN : Exact N ε) {b : Box EReal} (hb : Proper b) :
    N.area b = areaOfSet (region b) := by
  obtain ⟨x0, y0, x1, y1, h1, h2, rfl⟩ := hb
  rw [hN.area, region_mk, areaOfSet_rect h1 h2]
  simp

/-- a box from four numbers -/
def rect (x0 y0 x1 y1 : ℝ) : Box EReal := ⟨x0, y0, x1, y1⟩

theorem region_rect (x0 y0 x1 y1 : ℝ) : region (rect x0 y0 x1 y1) = Set.Icc x0 x1 ×ˢ Set.Icc y0 y1 := region_mk x0 y0 x1 y1

theorem expand_rect (x0 y0 x1 y1 u0 v0 u1 v1 : ℝ) :
    (rect x0 y0 x1 y1).expand (rect u0 v0 u1 v1) = rect (min x0 u0) (min y0 v0) (max x1 u1) (max y1 v1) := rfl

theorem Exact.area_rect {T : Type} {N : Num T EReal ℝ} {ε : ℝ} (hN : Exact N ε) (x0 y0 x1 y1 : ℝ) : N.area (rect x0 y0 x1 y1) = (x1 - x0) * (y1 - y0) := by
  rw [hN.area]; rfl

variable {T B K : Type} [LinearOrder B] [BoundedOrder B] [LinearOrder K]

/-- C91 (any numbers).  The code picks a child whose enlarged area is least, or equal to the least up to the tolerance; a child with least enlarged
area and smaller area than the picked one can only have been passed over because an even smaller child with larger enlarged area stood before. -/
theorem C91_choose_partial (ops : ItemOps T B) (N : Num T B K) (M : Nat) (b : Box B) {bs : List (Box B)} (hne : bs ≠ []) :
    ∃ k c e, (codeHeur ops N M).choose b bs = some k ∧ bs[k]? = some c ∧
      (∃ d ∈ bs, N.area (b.expand d) = e) ∧ (∀ d ∈ bs, e ≤ N.area (b.expand d)) ∧
      (N.area (b.expand c) = e ∨ N.close (N.area (b.expand c)) e = true) ∧
      ∀ d ∈ bs, N.area (b.expand d) = e → N.area c ≤ N.area d ∨
        ∃ i c', i < k ∧ bs[i]? = some c' ∧ e < N.area (b.expand c') ∧ N.area c' ≤ N.area d := by
  obtain ⟨a, e, k, hk, hs⟩ := chooseLoop_result N b hne
  obtain ⟨c, hc, hcl, ha, hle⟩ := hs.target
  refine ⟨k, c, e, hk, hc, hs.attained, hs.least, hcl, ?_⟩
  intro d hd hde
  have hk := hs.kept d hd hde
  rcases ha with h1 | ⟨i, c', hi, hc', hgt, hA⟩
  · exact .inl (h1 ▸ hk)
  · exact .inr ⟨i, c', hi, hc', hgt, hA ▸ hk⟩

/-- C91 (in the plane).  The box of the picked child, enlarged by the new item, covers at most `ε` more than that of any other child; so its growth
exceeds the growth of another child by at most the difference of their areas, and among children of equal growth it has, up to `ε`, the least area. -/
theorem C91_plane_partial (ops : ItemOps T EReal) {N : Num T EReal ℝ} {ε : ℝ} (hε : 0 ≤ ε) (hN : Exact N ε) (M : Nat) {b : Box EReal} (hb : Proper b)
    {bs : List (Box EReal)} (hbs : ∀ c ∈ bs, Proper c) (hne : bs ≠ []) :
    ∃ k c, (codeHeur ops N M).choose b bs = some k ∧ bs[k]? = some c ∧ ∀ d ∈ bs,
      areaOfSet (region (b.expand c)) ≤ areaOfSet (region (b.expand d)) + ε ∧
      growth b c ≤ growth b d + (areaOfSet (region d) - areaOfSet (region c)) + ε ∧
      (growth b d = growth b c → areaOfSet (region c) ≤ areaOfSet (region d) + ε) ∧
      (areaOfSet (region d) = areaOfSet (region c) → growth b c ≤ growth b d + ε) := by
  obtain ⟨k, c, e, hk, hc, _, hleast, hcl, _⟩ := C91_choose_partial ops N M b hne
  refine ⟨k, c, hk, hc, ?_⟩
  intro d hd
  have hcb := hbs c (List.mem_of_getElem? hc)
  have hdb := hbs d hd
  have hce : N.area (b.expand c) ≤ e + ε := by
    rcases hcl with h | h
    · linarith
    · have := abs_lt.mp ((hN.close _ _).mp h)
      linarith [this.2]
  have hmain : areaOfSet (region (b.expand c)) ≤ areaOfSet (region (b.expand d)) + ε := by
    rw [← hN.area_region (hb.expand hcb), ← hN.area_region (hb.expand hdb)]
    linarith [hleast d hd]
  refine ⟨hmain, ?_, ?_, ?_⟩
  · unfold growth; linarith
  · unfold growth; intro h; linarith
  · unfold growth; intro h; linarith

/-- the full rule: least growth, up to the tolerance -/
def LeastGrowth (ε : ℝ) (b : Box EReal) (bs : List (Box EReal)) (k : Nat) : Prop := ∃ c, bs[k]? = some c ∧ ∀ d ∈ bs, growth b c ≤ growth b d + ε

/-- C91, refutation of the full rule: for every tolerance below 8 there is an item inside the box of one child which the code puts into a child that does
not contain it and must grow by 8. -/
theorem C91_contained_passed_over (ops : ItemOps T EReal) {N : Num T EReal ℝ} {ε : ℝ} (hε : ε < 8) (hN : Exact N ε) (M : Nat) :
    ∃ (b : Box EReal) (bs : List (Box EReal)), Proper b ∧ (∀ c ∈ bs, Proper c) ∧
      (∃ d ∈ bs, region b ⊆ region d) ∧
      ∃ k, (codeHeur ops N M).choose b bs = some k ∧ ¬ LeastGrowth ε b bs k := by
  have e1 : (rect 9 9 10 10).expand (rect 0 0 10 10) = (rect 0 0 10 10) := by
    rw [expand_rect]; norm_num
  have e2 : (rect 9 9 10 10).expand (rect 11 11 12 12) = (rect 9 9 12 12) := by
    rw [expand_rect]; norm_num
  refine ⟨(rect 9 9 10 10), [(rect 0 0 10 10), (rect 11 11 12 12)],
    ⟨9, 9, 10, 10, by norm_num, by norm_num, rfl⟩, ?_, ?_, 1, ?_, ?_⟩
  · intro c hc
    simp only [List.mem_cons, List.not_mem_nil, or_false] at hc
    rcases hc with rfl | rfl
    · exact ⟨0, 0, 10, 10, by norm_num, by norm_num, rfl⟩
    · exact ⟨11, 11, 12, 12, by norm_num, by norm_num, rfl⟩
  · refine ⟨_, List.mem_cons_self, ?_⟩
    rw [region_rect, region_rect]
    exact Set.prod_mono (Set.Icc_subset_Icc (by norm_num) (by norm_num)) (Set.Icc_subset_Icc (by norm_num) (by norm_num))
  · simp only [codeHeur, chooseLoop, ltInf, e1, e2, hN.area_rect]
    norm_num
  · rintro ⟨c, hc, h⟩
    simp only [List.getElem?_cons_succ, List.getElem?_cons_zero, Option.some.injEq] at hc
    subst hc
    have := h _ List.mem_cons_self
    simp only [growth, e1, e2, region_rect] at this
    rw [areaOfSet_rect (by norm_num) (by norm_num), areaOfSet_rect (by norm_num) (by norm_num), areaOfSet_rect (by norm_num) (by norm_num)] at this
    norm_num at this
    linarith

/-- C91, refutation of the tie rule as coded: the second and the third child have the same (least) enlarged area, the third is smaller, but the area of
the first child, which was dropped before, is still the one compared with. -/
theorem C91_tie_not_smallest (ops : ItemOps T EReal) {N : Num T EReal ℝ} {ε : ℝ} (hN : Exact N ε) (M : Nat) :
    ∃ (b : Box EReal) (bs : List (Box EReal)) (c d : Box EReal), Proper b ∧ (∀ x ∈ bs, Proper x) ∧ (codeHeur ops N M).choose b bs = some 1 ∧ bs[1]? = some c ∧
      d ∈ bs ∧ (∀ x ∈ bs, areaOfSet (region (b.expand d)) ≤ areaOfSet (region (b.expand x))) ∧
      areaOfSet (region (b.expand d)) = areaOfSet (region (b.expand c)) ∧ areaOfSet (region d) < areaOfSet (region c) := by
  have e0 : (rect 4 4 5 5).expand (rect 20 20 21 21) = (rect 4 4 21 21) := by
    rw [expand_rect]; norm_num
  have e1 : (rect 4 4 5 5).expand (rect 0 0 8 8) = (rect 0 0 8 8) := by
    rw [expand_rect]; norm_num
  have e2 : (rect 4 4 5 5).expand (rect 5 5 12 12) = (rect 4 4 12 12) := by
    rw [expand_rect]; norm_num
  refine ⟨(rect 4 4 5 5), [(rect 20 20 21 21), (rect 0 0 8 8), (rect 5 5 12 12)],
    _, (rect 5 5 12 12), ⟨4, 4, 5, 5, by norm_num, by norm_num, rfl⟩, ?_, ?_, rfl, by simp, ?_, ?_, ?_⟩
  · intro c hc
    simp only [List.mem_cons, List.not_mem_nil, or_false] at hc
    rcases hc with rfl | rfl | rfl
    · exact ⟨20, 20, 21, 21, by norm_num, by norm_num, rfl⟩
    · exact ⟨0, 0, 8, 8, by norm_num, by norm_num, rfl⟩
    · exact ⟨5, 5, 12, 12, by norm_num, by norm_num, rfl⟩
  · have hcl : closeInf N 64 (some 64) = true := by simp [closeInf]
    simp only [codeHeur, chooseLoop, ltInf, e0, e1, e2, hN.area_rect]
    norm_num [hcl]
  · intro x hx
    simp only [List.mem_cons, List.not_mem_nil, or_false] at hx
    rcases hx with rfl | rfl | rfl
    · rw [e0, e2, region_rect, region_rect, areaOfSet_rect (by norm_num) (by norm_num), areaOfSet_rect (by norm_num) (by norm_num)]; norm_num
    · rw [e1, e2, region_rect, region_rect, areaOfSet_rect (by norm_num) (by norm_num), areaOfSet_rect (by norm_num) (by norm_num)]; norm_num
    · exact le_refl _
  · rw [e1, e2, region_rect, region_rect, areaOfSet_rect (by norm_num) (by norm_num), areaOfSet_rect (by norm_num) (by norm_num)]; norm_num
  · rw [region_rect, region_rect, areaOfSet_rect (by norm_num) (by norm_num), areaOfSet_rect (by norm_num) (by norm_num)]; norm_num

/-- exact numbers with tolerance `ε` exist -/
noncomputable def exactNum (T : Type) (ε : ℝ) : Num T EReal ℝ where
  area b := (b.maxX.toReal - b.minX.toReal) * (b.maxY.toReal - b.minY.toReal)
  margin b := (b.maxX.toReal - b.minX.toReal) + (b.maxY.toReal - b.minY.toReal)
  add x y := x + y
  zero := 0
  close x y := @decide (|x - y| < ε) (Classical.dec _)
  sortX l := l.mergeSort (fun a b => decide (a.bbox.minX ≤ b.bbox.minX))
  sortY l := l.mergeSort (fun a b => decide (a.bbox.minY ≤ b.bbox.minY))
  win k _ _ := (k, k)

theorem exactNum_exact (T : Type) (ε : ℝ) : Exact (exactNum T ε) ε :=
  ⟨fun _ => rfl, fun _ _ => by simp [exactNum], rfl, fun _ _ => rfl, fun _ => rfl⟩

/-- the hypotheses of `C91_plane_partial` are met -/
example : ∃ k c, (codeHeur ⟨fun _ : Unit => (rect 0 0 1 1), fun _ => 0⟩ (exactNum Unit 0) 9).choose (rect 0 0 1 1)
    [(rect 0 0 2 2)] = some k ∧ [(rect 0 0 2 2)][k]? = some c := by
  obtain ⟨k, c, h1, h2, _⟩ := C91_plane_partial ⟨fun _ : Unit => (rect 0 0 1 1), fun _ => 0⟩ (le_refl 0) (exactNum_exact Unit 0) 9
    (b := (rect 0 0 1 1)) ⟨0, 0, 1, 1, by norm_num, by norm_num, rfl⟩
    (bs := [(rect 0 0 2 2)]) (by
      intro c hc
      simp only [List.mem_cons, List.not_mem_nil, or_false] at hc
      exact ⟨0, 0, 2, 2, by norm_num, by norm_num, hc⟩) (by simp)
  exact ⟨k, c, h1, h2⟩

end Hdb
end Verif
