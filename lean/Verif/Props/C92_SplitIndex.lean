import Verif.Props.C91_ChooseChild

/-!
C92.  Where an overflowing node is split.

hdb/split.go:53 and :62 say: the distribution with minimum overlap of the two groups, among those the one with minimum area.  Minimum overlap
holds (`C92_least_overlap`, stated with the areas of regions of the plane); the tie rule is broken, because the area of a distribution
with larger overlap can stay in `minArea` (`C92_tie_not_smallest`); exactly then, `C92_tie_partial`.
-/

namespace Verif
namespace Hdb

variable {T B K : Type} [LinearOrder B] [BoundedOrder B] [LinearOrder K]

/-- the code's overlap is the area the regions share -/
theorem Exact.intersectionArea_region {N : Num T EReal ℝ} {ε : ℝ} (hN : Exact N ε) {a b : Box EReal} (ha : Proper a) (hb : Proper b) :
    intersectionArea N a b = areaOfSet (region a ∩ region b) := by
  obtain ⟨x0, y0, x1, y1, h1, h2, rfl⟩ := ha
  obtain ⟨u0, v0, u1, v1, h3, h4, rfl⟩ := hb
  unfold intersectionArea
  cases hi : Box.intersects (⟨x0, y0, x1, y1⟩ : Box EReal) ⟨u0, v0, u1, v1⟩ with
  | false =>
    simp only [Bool.not_false, if_true, hN.zero]
    have : region ⟨x0, y0, x1, y1⟩ ∩ region ⟨u0, v0, u1, v1⟩ = ∅ := by
      rw [Set.eq_empty_iff_forall_notMem]
      rintro p ⟨hp, hq⟩
      obtain ⟨p1, p2, p3, p4⟩ := hp
      obtain ⟨q1, q2, q3, q4⟩ := hq
      have : Box.intersects (⟨x0, y0, x1, y1⟩ : Box EReal) ⟨u0, v0, u1, v1⟩ = true :=
        Box.intersects_iff.mpr ⟨q1.trans p3, p1.trans q3, q2.trans p4, p2.trans q4⟩
      rw [hi] at this
      exact Bool.noConfusion this
    rw [this]
    simp [areaOfSet]
  | true =>
    simp only [Bool.not_true, Bool.false_eq_true, if_false]
    obtain ⟨i1, i2, i3, i4⟩ := Box.intersects_iff.mp hi
    simp only [EReal.coe_le_coe_iff] at i1 i2 i3 i4
    rw [region_mk, region_mk, Set.prod_inter_prod, Set.Icc_inter_Icc, Set.Icc_inter_Icc]
    change N.area (rect (max x0 u0) (max y0 v0) (min x1 u1) (min y1 v1)) = _
    rw [hN.area_rect]
    exact (areaOfSet_rect (max_le (le_min h1 i2) (le_min i1 h3)) (max_le (le_min h2 i4) (le_min i3 h4))).symm

theorem Proper.unionAll : ∀ {bs : List (Box EReal)}, bs ≠ [] → (∀ b ∈ bs, Proper b) → Proper (Box.unionAll bs)
  | [], h, _ => absurd rfl h
  | [b], _, h => by rw [Box.unionAll_singleton]; exact h b (by simp)
  | b :: c :: bs, _, h => by
    rw [Box.unionAll_cons]
    exact (h b (by simp)).expand (Proper.unionAll (bs := c :: bs) (by simp) (fun x hx => h x (by simp [List.mem_cons] at hx ⊢; tauto)))

/-- specification: the smallest region that is a box and holds the given boxes (`distBBox`) -/
def groupRegion (bs : List (Box EReal)) : Set (ℝ × ℝ) := region (Box.unionAll bs)

/-- specification: the area the two groups share when the first `i` boxes are split off -/
noncomputable def sharedArea (bs : List (Box EReal)) (i : Nat) : ℝ := areaOfSet (groupRegion (bs.take i) ∩ groupRegion (bs.drop i))

/-- specification: the areas of the two groups together -/
noncomputable def totalArea (bs : List (Box EReal)) (i : Nat) : ℝ := areaOfSet (groupRegion (bs.take i)) + areaOfSet (groupRegion (bs.drop i))

theorem groups_proper {bs : List (Box EReal)} (hbs : ∀ b ∈ bs, Proper b) {i : Nat} (h1 : 0 < i) (h2 : i < bs.length) :
    Proper (Box.unionAll (bs.take i)) ∧ Proper (Box.unionAll (bs.drop i)) := by
  refine ⟨Proper.unionAll ?_ (fun b hb => hbs b (List.mem_of_mem_take hb)), Proper.unionAll ?_ (fun b hb => hbs b (List.mem_of_mem_drop hb))⟩
  · intro h; have := congrArg List.length h; rw [List.length_take, List.length_nil] at this; omega
  · intro h; have := congrArg List.length h; rw [List.length_drop, List.length_nil] at this; omega

theorem Exact.overlapAt_eq {N : Num T EReal ℝ} {ε : ℝ} (hN : Exact N ε) {bs : List (Box EReal)} (hbs : ∀ b ∈ bs, Proper b) {i : Nat} (h1 : 0 < i) (h2 : i < bs.length) :
    overlapAt N bs i = sharedArea bs i := by
  obtain ⟨p, q⟩ := groups_proper hbs h1 h2
  exact hN.intersectionArea_region p q

theorem Exact.areaAt_eq {N : Num T EReal ℝ} {ε : ℝ} (hN : Exact N ε) {bs : List (Box EReal)} (hbs : ∀ b ∈ bs, Proper b) {i : Nat} (h1 : 0 < i) (h2 : i < bs.length) :
    areaAt N bs i = totalArea bs i := by
  obtain ⟨p, q⟩ := groups_proper hbs h1 h2
  unfold areaAt totalArea groupRegion
  rw [hN.add, hN.area_region p, hN.area_region q]

/-- C92.  The split the code picks leaves both groups at least `m` boxes, and no split that does so has groups sharing less area. -/
theorem C92_least_overlap (ops : ItemOps T EReal) {N : Num T EReal ℝ} {ε : ℝ} (hN : Exact N ε) {M : Nat} {bs : List (Box EReal)} (hbs : ∀ b ∈ bs, Proper b)
    (hlen : 2 * minEntries M ≤ bs.length) :
    let k := (codeHeur ops N M).splitIdx bs
    minEntries M ≤ k ∧ k + minEntries M ≤ bs.length ∧
      ∀ j, minEntries M ≤ j → j + minEntries M ≤ bs.length → sharedArea bs k ≤ sharedArea bs j := by
  have hm : 2 ≤ minEntries M := Nat.le_max_left _ _
  obtain ⟨o, a, h⟩ := chooseSplitIndex_result N (minEntries M) bs hlen
  obtain ⟨h1, h2⟩ := h.inRange
  refine ⟨h1, ?_, ?_⟩
  · change chooseSplitIndex N (minEntries M) bs + _ ≤ _
    omega
  · intro j hj hj'
    change sharedArea bs (chooseSplitIndex N (minEntries M) bs) ≤ _
    rw [← hN.overlapAt_eq hbs (by omega) (by omega), ← hN.overlapAt_eq hbs (by omega) (by omega), h.target]
    exact h.least j hj (by omega)

/-- C92, the tie rule.  A split with as little shared area and less total area can only have been passed over because of an earlier split with more
shared area whose total area is as small. -/
theorem C92_tie_partial (ops : ItemOps T EReal) {N : Num T EReal ℝ} {ε : ℝ} (hN : Exact N ε) {M : Nat} {bs : List (Box EReal)} (hbs : ∀ b ∈ bs, Proper b)
    (hlen : 2 * minEntries M ≤ bs.length) :
    let k := (codeHeur ops N M).splitIdx bs
    ∀ j, minEntries M ≤ j → j + minEntries M ≤ bs.length → sharedArea bs j = sharedArea bs k → totalArea bs k ≤ totalArea bs j ∨
      ∃ i, minEntries M ≤ i ∧ i < k ∧ sharedArea bs k < sharedArea bs i ∧ totalArea bs i ≤ totalArea bs j := by
  have hm : 2 ≤ minEntries M := Nat.le_max_left _ _
  obtain ⟨o, a, h⟩ := chooseSplitIndex_result N (minEntries M) bs hlen
  obtain ⟨h1, h2⟩ := h.inRange
  intro k j hj hj' he
  change minEntries M ≤ k at h1
  change k < _ at h2
  have ht : overlapAt N bs k = o := h.target
  rw [← hN.overlapAt_eq hbs (by omega) (by omega), ← hN.overlapAt_eq hbs (by omega) (by omega), ht] at he
  have hk := h.kept j hj (by omega) he
  rw [hN.areaAt_eq hbs (by omega) (by omega)] at hk
  rcases h.area with hA | ⟨i, hi1, hi2, hi3, hi4⟩
  · change areaAt N bs k = a at hA
    rw [hN.areaAt_eq hbs (by omega) (by omega)] at hA
    exact .inl (hA ▸ hk)
  · change i < k at hi2
    refine .inr ⟨i, hi1, hi2, ?_, ?_⟩
    · rw [← hN.overlapAt_eq hbs (by omega) (by omega), ← hN.overlapAt_eq hbs (by omega) (by omega), ht]; exact hi3
    · rw [hN.areaAt_eq hbs (by omega) (by omega)] at hi4
      rw [hi4]; exact hk

/-- C92, consequence: if the first allowed split already shares least, the tie rule holds. -/
theorem C92_tie_first (ops : ItemOps T EReal) {N : Num T EReal ℝ} {ε : ℝ} (hN : Exact N ε) {M : Nat} {bs : List (Box EReal)} (hbs : ∀ b ∈ bs, Proper b)
    (hlen : 2 * minEntries M ≤ bs.length)
    (hall : ∀ j, minEntries M ≤ j → j + minEntries M ≤ bs.length → sharedArea bs j = sharedArea bs (minEntries M)) :
    let k := (codeHeur ops N M).splitIdx bs
    ∀ j, minEntries M ≤ j → j + minEntries M ≤ bs.length → totalArea bs k ≤ totalArea bs j := by
  intro k j hj hj'
  obtain ⟨h1, h2, _⟩ := C92_least_overlap ops hN hbs hlen
  rcases C92_tie_partial ops hN hbs hlen j hj hj' (by rw [hall j hj hj', hall _ h1 h2]) with h | ⟨i, hi1, hi2, hi3, _⟩
  · exact h
  · exfalso
    rw [hall i hi1 (by omega), hall _ h1 h2] at hi3
    exact lt_irrefl _ hi3

/-- ten boxes, sorted by their lower side, as an overflowing node of the code's bucket size 9 has them -/
def tenBoxes : List (Box EReal) := [rect 2 1 7 2, rect 3 2 4 2, rect 2 3 6 7, rect 2 3 2 4, rect 6 5 10 5, rect 6 6 7 8, rect 7 7 10 8, rect 0 8 2 11, rect 4 8 8 12, rect 9 8 13 8]

theorem tenBoxes_proper : ∀ b ∈ tenBoxes, Proper b := by
  intro b hb
  simp only [tenBoxes, List.mem_cons, List.not_mem_nil, or_false] at hb
  rcases hb with rfl | rfl | rfl | rfl | rfl | rfl | rfl | rfl | rfl | rfl <;>
  exact ⟨_, _, _, _, by norm_num, by norm_num, rfl⟩

theorem ten4 : Box.unionAll (tenBoxes.take 4) = rect 2 1 7 7 ∧ Box.unionAll (tenBoxes.drop 4) = rect 0 5 13 12 := by
  constructor <;> simp only [tenBoxes, Box.unionAll, List.take, List.drop, List.foldl, Box.empty_expand, expand_rect] <;> norm_num
theorem ten5 : Box.unionAll (tenBoxes.take 5) = rect 2 1 10 7 ∧ Box.unionAll (tenBoxes.drop 5) = rect 0 6 13 12 := by
  constructor <;> simp only [tenBoxes, Box.unionAll, List.take, List.drop, List.foldl, Box.empty_expand, expand_rect] <;> norm_num
theorem ten6 : Box.unionAll (tenBoxes.take 6) = rect 2 1 10 8 ∧ Box.unionAll (tenBoxes.drop 6) = rect 0 7 13 12 := by
  constructor <;> simp only [tenBoxes, Box.unionAll, List.take, List.drop, List.foldl, Box.empty_expand, expand_rect] <;> norm_num

theorem totals (i : Nat) {a b c d a' b' c' d' : ℝ} (h : Box.unionAll (tenBoxes.take i) = rect a b c d ∧ Box.unionAll (tenBoxes.drop i) = rect a' b' c' d')
    (h1 : a ≤ c) (h2 : b ≤ d) (h3 : a' ≤ c') (h4 : b' ≤ d') : totalArea tenBoxes i = (c - a) * (d - b) + (c' - a') * (d' - b') := by
  unfold totalArea groupRegion
  rw [h.1, h.2, region_rect, region_rect, areaOfSet_rect h1 h2, areaOfSet_rect h3 h4]

theorem shareds (i : Nat) {a b c d a' b' c' d' : ℝ} (h : Box.unionAll (tenBoxes.take i) = rect a b c d ∧ Box.unionAll (tenBoxes.drop i) = rect a' b' c' d')
    (h1 : max a a' ≤ min c c') (h2 : max b b' ≤ min d d') : sharedArea tenBoxes i = (min c c' - max a a') * (min d d' - max b b') := by
  unfold sharedArea groupRegion
  rw [h.1, h.2, region_rect, region_rect, Set.prod_inter_prod, Set.Icc_inter_Icc, Set.Icc_inter_Icc]
  exact areaOfSet_rect h1 h2

/-- C92, refutation of the tie rule: of the three allowed splits of `tenBoxes` the second and the third share least (area 8 each, the first 10), the third has
less total area (121, the second 126), but the total area of the first (121) is still the one compared with, and the code picks the second. -/
theorem C92_tie_not_smallest (ops : ItemOps T EReal) {N : Num T EReal ℝ} {ε : ℝ} (hN : Exact N ε) :
    (codeHeur ops N 9).splitIdx tenBoxes = 5 ∧ sharedArea tenBoxes 6 = sharedArea tenBoxes 5 ∧ totalArea tenBoxes 6 < totalArea tenBoxes 5 := by
  have s4 := shareds 4 ten4 (by norm_num) (by norm_num)
  have s5 := shareds 5 ten5 (by norm_num) (by norm_num)
  have s6 := shareds 6 ten6 (by norm_num) (by norm_num)
  have t4 := totals 4 ten4 (by norm_num) (by norm_num) (by norm_num) (by norm_num)
  have t5 := totals 5 ten5 (by norm_num) (by norm_num) (by norm_num) (by norm_num)
  have t6 := totals 6 ten6 (by norm_num) (by norm_num) (by norm_num) (by norm_num)
  norm_num at s4 s5 s6 t4 t5 t6
  have hm : minEntries 9 = 4 := by decide
  have hlen : tenBoxes.length = 10 := rfl
  obtain ⟨h1, h2, h3⟩ := C92_least_overlap ops hN (M := 9) tenBoxes_proper (by decide)
  refine ⟨?_, by rw [s5, s6], by rw [t5, t6]; norm_num⟩
  have o4 : overlapAt N tenBoxes 4 = 10 := by rw [hN.overlapAt_eq tenBoxes_proper (by omega) (by decide), s4]
  have o5 : overlapAt N tenBoxes 5 = 8 := by rw [hN.overlapAt_eq tenBoxes_proper (by omega) (by decide), s5]
  have o6 : overlapAt N tenBoxes 6 = 8 := by rw [hN.overlapAt_eq tenBoxes_proper (by omega) (by decide), s6]
  have a4 : areaAt N tenBoxes 4 = 121 := by rw [hN.areaAt_eq tenBoxes_proper (by omega) (by decide), t4]
  have a5 : areaAt N tenBoxes 5 = 126 := by rw [hN.areaAt_eq tenBoxes_proper (by omega) (by decide), t5]
  have a6 : areaAt N tenBoxes 6 = 121 := by rw [hN.areaAt_eq tenBoxes_proper (by omega) (by decide), t6]
  unfold overlapAt at o4 o5 o6
  unfold areaAt at a4 a5 a6
  simp only [codeHeur, chooseSplitIndex, hm, hlen]
  simp only [splitLoop, ltInf, o4, o5, o6, a4, a5, a6]
  norm_num

/-- the hypotheses of `C92_least_overlap` are met: bucket size 9, the ten boxes -/
example : 4 ≤ (codeHeur ⟨fun _ : Unit => rect 0 0 1 1, fun _ => 0⟩ (exactNum Unit 0) 9).splitIdx tenBoxes :=
  (C92_least_overlap (M := 9) _ (exactNum_exact Unit 0) tenBoxes_proper (by decide)).1

end Hdb
end Verif
