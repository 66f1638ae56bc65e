import Verif.Props.C92_SplitIndex
import Verif.Props.C22_Select
import Mathlib.Algebra.BigOperators.Intervals
import Mathlib.Data.List.Sort

/-!
C93.  Along which axis an overflowing node is split.

hdb/split.go:73-82 measures the total margin of all allowed distributions with the children sorted along x and along y and then leaves
them sorted along the axis with the smaller total.  The total is the one stated (`C93_total_margin`) and the axis is right
(`C93_axis`).  But the children are sorted along x a second time, out of the order along y: with equal lower x sides the arrangement that is left
need not be the one that was measured, and can have the larger margin (`C93_remeasured`); with distinct sides it is the measured one (`C93_axis_partial`).
-/

namespace Verif
namespace Hdb

variable {T : Type}

/-- specification: the lower x sides (y sides) do not decrease -/
def AlongX (cs : List (DbNode T EReal)) : Prop := cs.Pairwise (fun a b => a.bbox.minX ≤ b.bbox.minX)
def AlongY (cs : List (DbNode T EReal)) : Prop := cs.Pairwise (fun a b => a.bbox.minY ≤ b.bbox.minY)

/-- specification: width plus height of the box around some nodes -/
noncomputable def halfPerimeter (cs : List (DbNode T EReal)) : ℝ :=
  let b := Box.unionAll (cs.map DbNode.bbox)
  (b.maxX.toReal - b.minX.toReal) + (b.maxY.toReal - b.minY.toReal)

/-- specification: over all splits that leave both groups at least `m` nodes -/
noncomputable def totalMargin (m : Nat) (cs : List (DbNode T EReal)) : ℝ :=
  ∑ k ∈ Finset.Icc m (cs.length - m), (halfPerimeter (cs.take k) + halfPerimeter (cs.drop k))

/-- what is assumed of the library sort: it rearranges into order -/
structure Sorts (N : Num T EReal ℝ) : Prop where
  permX : ∀ l, (N.sortX l).Perm l
  permY : ∀ l, (N.sortY l).Perm l
  sortX : ∀ l, AlongX (N.sortX l)
  sortY : ∀ l, AlongY (N.sortY l)

theorem foldl_add_real (l : List ℝ) (x : ℝ) : l.foldl (fun a b => a + b) x = x + l.sum := by
  induction l generalizing x with
  | nil => simp
  | cons a l ih => rw [List.foldl_cons, ih, List.sum_cons]; ring

theorem sum_range_list (f : Nat → ℝ) (n : Nat) : ((List.range n).map f).sum = ∑ d ∈ Finset.range n, f d := by
  induction n with
  | zero => simp
  | succ n ih => rw [List.range_succ, List.map_append, List.sum_append, ih, Finset.sum_range_succ]; simp

theorem Exact.margin_take {N : Num T EReal ℝ} {ε : ℝ} (hN : Exact N ε) (cs : List (DbNode T EReal)) (k : Nat) :
    N.margin (Box.unionAll ((cs.map DbNode.bbox).take k)) = halfPerimeter (cs.take k) := by
  rw [hN.margin, ← List.map_take]; rfl

theorem Exact.margin_drop {N : Num T EReal ℝ} {ε : ℝ} (hN : Exact N ε) (cs : List (DbNode T EReal)) (k : Nat) :
    N.margin (Box.unionAll ((cs.map DbNode.bbox).drop k)) = halfPerimeter (cs.drop k) := by
  rw [hN.margin, ← List.map_drop]; rfl

theorem marginLoop_eq {N : Num T EReal ℝ} {ε : ℝ} (hN : Exact N ε) : ∀ (bs : List (Box EReal)) (b : Box EReal) (x : ℝ),
    marginLoop N bs b x = x + ∑ k ∈ Finset.range bs.length, N.margin (b.expand (Box.unionAll (bs.take (k + 1))))
  | [], b, x => by simp [marginLoop]
  | c :: bs, b, x => by
    rw [marginLoop, marginLoop_eq hN bs, hN.add, List.length_cons, Finset.sum_range_succ']
    simp only [List.take_succ_cons, List.take_zero, Box.unionAll_cons, Box.unionAll_nil, Box.expand_empty, Box.expand_assoc]
    ring

/-- C93.  The code's running sums are the total margin over all allowed splits. -/
theorem C93_total_margin {N : Num T EReal ℝ} {ε : ℝ} (hN : Exact N ε) (m : Nat) {cs : List (DbNode T EReal)} (h : 2 * m ≤ cs.length) :
    allDistMargin N m cs = totalMargin m cs := by
  obtain ⟨d, hd⟩ : ∃ d, cs.length = m + m + d := ⟨cs.length - m - m, by omega⟩
  have hl : (cs.map DbNode.bbox).length = m + m + d := by rw [List.length_map, hd]
  have hmid : (((cs.map DbNode.bbox).take (m + m + d - m)).drop m).length = d := by rw [List.length_drop, List.length_take, hl]; omega
  unfold allDistMargin totalMargin
  simp only [marginLoop_eq hN, hN.add, List.length_reverse, hl, hmid]
  have hleft : ∀ k ∈ Finset.range d, N.margin ((Box.unionAll ((cs.map DbNode.bbox).take m)).expand
      (Box.unionAll ((((cs.map DbNode.bbox).take (m + m + d - m)).drop m).take (k + 1)))) = halfPerimeter (cs.take (m + k + 1)) := by
    intro k hk
    have hk := Finset.mem_range.1 hk
    rw [← hN.margin_take, ← Box.unionAll_append]
    congr 2
    rw [List.drop_take, List.take_take, show min (k + 1) (m + m + d - m - m) = k + 1 by omega, show m + k + 1 = m + (k + 1) by omega]
    exact List.take_add.symm
  have hright : ∀ k ∈ Finset.range d, N.margin ((Box.unionAll ((cs.map DbNode.bbox).drop (m + m + d - m))).expand
      (Box.unionAll ((((cs.map DbNode.bbox).take (m + m + d - m)).drop m).reverse.take (k + 1)))) = halfPerimeter (cs.drop (m + (d - 1 - k))) := by
    intro k hk
    have hk := Finset.mem_range.1 hk
    rw [← hN.margin_drop, List.take_reverse, Box.unionAll_perm (List.reverse_perm _), Box.expand_comm, ← Box.unionAll_append, hmid, List.drop_drop]
    congr 2
    have h1 : (m + (d - (k + 1))) ≤ m + m + d - m := by omega
    rw [show m + (d - 1 - k) = m + (d - (k + 1)) by omega]
    conv_rhs => rw [← List.take_append_drop (m + m + d - m) (cs.map DbNode.bbox), List.drop_append_of_le_length (by rw [List.length_take, hl]; omega)]
  rw [Finset.sum_congr rfl hleft, Finset.sum_congr rfl hright, Finset.sum_range_reflect (fun k => halfPerimeter (cs.drop (m + k))) d, hN.margin_take, hN.margin_drop,
    hd, show m + m + d - m = m + d by omega]
  have hI : Finset.Icc m (m + d) = Finset.Ico m (m + d + 1) := by ext x; simp only [Finset.mem_Icc, Finset.mem_Ico]; omega
  rw [hI, Finset.sum_Ico_eq_sum_range, show m + d + 1 - m = d + 1 by omega, Finset.sum_add_distrib, Finset.sum_range_succ', Finset.sum_range_succ]
  have h1 : ∀ x, m + x + 1 = m + (x + 1) := fun x => by omega
  simp only [h1, Nat.add_zero]
  ring

/-- C93.  The node is left sorted along the axis whose arrangement, as measured, has the smaller total margin; along y when they are equal. -/
theorem C93_axis (ops : ItemOps T EReal) {N : Num T EReal ℝ} {ε : ℝ} (hN : Exact N ε) (hs : Sorts N) {M : Nat} {cs : List (DbNode T EReal)}
    (h : 2 * minEntries M ≤ cs.length) :
    ∃ xs ys, xs.Perm cs ∧ ys.Perm cs ∧ AlongX xs ∧ AlongY ys ∧ ((codeHeur ops N M).arrange cs).Perm cs ∧
      (totalMargin (minEntries M) xs < totalMargin (minEntries M) ys → AlongX ((codeHeur ops N M).arrange cs)) ∧
      (totalMargin (minEntries M) ys ≤ totalMargin (minEntries M) xs → (codeHeur ops N M).arrange cs = ys) := by
  have px := hs.permX cs
  have py := (hs.permY (N.sortX cs)).trans px
  have ex := C93_total_margin hN (minEntries M) (cs := N.sortX cs) (by rw [px.length_eq]; exact h)
  have ey := C93_total_margin hN (minEntries M) (cs := N.sortY (N.sortX cs)) (by rw [py.length_eq]; exact h)
  refine ⟨N.sortX cs, N.sortY (N.sortX cs), px, py, hs.sortX _, hs.sortY _, ?_, ?_, ?_⟩
  · simp only [codeHeur, chooseSplitAxis]
    split
    · exact (hs.permX _).trans py
    · exact py
  · intro hlt
    simp only [codeHeur, chooseSplitAxis, ex, ey, if_pos hlt]
    exact hs.sortX _
  · intro hle
    simp only [codeHeur, chooseSplitAxis, ex, ey, if_neg (not_lt.mpr hle)]

theorem alongX_unique {l₁ l₂ : List (DbNode T EReal)} (h1 : AlongX l₁) (h2 : AlongX l₂) (hp : l₁.Perm l₂)
    (hd : ∀ a ∈ l₁, ∀ b ∈ l₁, a.bbox.minX = b.bbox.minX → a = b) : l₁ = l₂ :=
  hp.eq_of_pairwise (fun a b ha hb hab hba => hd a ha b (hp.mem_iff.mpr hb) (le_antisymm hab hba)) h1 h2

theorem alongY_unique {l₁ l₂ : List (DbNode T EReal)} (h1 : AlongY l₁) (h2 : AlongY l₂) (hp : l₁.Perm l₂)
    (hd : ∀ a ∈ l₁, ∀ b ∈ l₁, a.bbox.minY = b.bbox.minY → a = b) : l₁ = l₂ :=
  hp.eq_of_pairwise (fun a b ha hb hab hba => hd a ha b (hp.mem_iff.mpr hb) (le_antisymm hab hba)) h1 h2

/-- C93, in part.  With distinct lower sides the arrangement left has the smaller total margin of the arrangement along x and the one along y. -/
theorem C93_axis_partial (ops : ItemOps T EReal) {N : Num T EReal ℝ} {ε : ℝ} (hN : Exact N ε) (hs : Sorts N) {M : Nat} {cs : List (DbNode T EReal)}
    (h : 2 * minEntries M ≤ cs.length) (hdx : ∀ a ∈ cs, ∀ b ∈ cs, a.bbox.minX = b.bbox.minX → a = b)
    (hdy : ∀ a ∈ cs, ∀ b ∈ cs, a.bbox.minY = b.bbox.minY → a = b) :
    ∀ l, l.Perm cs → AlongX l ∨ AlongY l → totalMargin (minEntries M) ((codeHeur ops N M).arrange cs) ≤ totalMargin (minEntries M) l := by
  obtain ⟨xs, ys, px, py, ax, ay, pr, hx, hy⟩ := C93_axis ops hN hs (M := M) h
  have ux : ∀ l, l.Perm cs → AlongX l → l = xs := fun l hl al => alongX_unique al ax (hl.trans px.symm)
    (fun a ha b hb => hdx a (hl.mem_iff.mp ha) b (hl.mem_iff.mp hb))
  have uy : ∀ l, l.Perm cs → AlongY l → l = ys := fun l hl al => alongY_unique al ay (hl.trans py.symm)
    (fun a ha b hb => hdy a (hl.mem_iff.mp ha) b (hl.mem_iff.mp hb))
  intro l hl ha
  by_cases hlt : totalMargin (minEntries M) xs < totalMargin (minEntries M) ys
  · rw [ux _ pr (hx hlt)]
    rcases ha with ha | ha
    · rw [ux l hl ha]
    · rw [uy l hl ha]; exact hlt.le
  · rw [hy (not_lt.mp hlt)]
    rcases ha with ha | ha
    · rw [ux l hl ha]; exact not_lt.mp hlt
    · rw [uy l hl ha]

/-- a leaf entry with the given box -/
def leafBox (t : T) (x0 y0 x1 y1 : ℝ) : DbNode T EReal := .mk [] (some t) 1 true (rect x0 y0 x1 y1)

/-- ten leaves with one lower x side, in an order that is good along x -/
def tenLeaves (t : T) : List (DbNode T EReal) := [leafBox t 0 8 10 16, leafBox t 0 6 7 17, leafBox t 0 3 10 12, leafBox t 0 4 4 10, leafBox t 0 7 5 17, leafBox t 0 1 4 13,
  leafBox t 0 0 2 14, leafBox t 0 5 1 17, leafBox t 0 9 4 15, leafBox t 0 2 2 16]

/-- the same sorted along y -/
def tenLeavesY (t : T) : List (DbNode T EReal) := [leafBox t 0 0 2 14, leafBox t 0 1 4 13, leafBox t 0 2 2 16, leafBox t 0 3 10 12, leafBox t 0 4 4 10, leafBox t 0 5 1 17,
  leafBox t 0 6 7 17, leafBox t 0 7 5 17, leafBox t 0 8 10 16, leafBox t 0 9 4 15]

theorem tenLeaves_perm (t : T) : (tenLeavesY t).Perm (tenLeaves t) := by
  classical
  have : ∀ (a b c d e f g h i j : DbNode T EReal), [a, b, c, d, e, f, g, h, i, j].Perm [i, g, d, e, h, b, a, f, j, c] := by
    intro a b c d e f g h i j
    have hp : ([0, 1, 2, 3, 4, 5, 6, 7, 8, 9] : List (Fin 10)).Perm [8, 6, 3, 4, 7, 1, 0, 5, 9, 2] := by decide
    have := hp.map (fun n : Fin 10 => [a, b, c, d, e, f, g, h, i, j].get n)
    simpa using this
  exact this _ _ _ _ _ _ _ _ _ _

theorem tenLeaves_alongX (t : T) : AlongX (tenLeaves t) := by
  simp [AlongX, tenLeaves, leafBox, rect]

theorem tenLeavesY_alongX (t : T) : AlongX (tenLeavesY t) := by
  simp [AlongX, tenLeavesY, leafBox, rect]

theorem tenLeavesY_alongY (t : T) : AlongY (tenLeavesY t) := by
  simp only [AlongY, tenLeavesY, leafBox, rect, List.pairwise_cons, List.mem_cons, List.not_mem_nil, or_false, forall_eq_or_imp, forall_eq, DbNode.bbox_mk,
    EReal.coe_le_coe_iff, List.Pairwise.nil, false_imp_iff, implies_true, and_true]
  norm_num

theorem tenLeavesY_inj (t : T) : ∀ a ∈ tenLeavesY t, ∀ b ∈ tenLeavesY t, a.bbox.minY = b.bbox.minY → a = b := by
  simp only [tenLeavesY, leafBox, rect, List.mem_cons, List.not_mem_nil, or_false, forall_eq_or_imp, forall_eq, DbNode.bbox_mk, EReal.coe_eq_coe_iff]
  norm_num

theorem halfPerimeter_of {cs : List (DbNode T EReal)} {a b c d : ℝ} (h : Box.unionAll (cs.map DbNode.bbox) = rect a b c d) :
    halfPerimeter cs = (c - a) + (d - b) := by
  unfold halfPerimeter
  rw [h]; rfl

theorem tenLeaves_margin (t : T) : totalMargin 4 (tenLeaves t) = 138 := by
  have hI : Finset.Icc 4 ((tenLeaves t).length - 4) = {4, 5, 6} := by
    rw [show (tenLeaves t).length = 10 from rfl]; decide
  unfold totalMargin
  rw [hI]
  have h4 := halfPerimeter_of (cs := (tenLeaves t).take 4) (a := 0) (b := 3) (c := 10) (d := 17)
    (by simp only [tenLeaves, leafBox, Box.unionAll, List.take, List.map, DbNode.bbox_mk, List.foldl, Box.empty_expand, expand_rect]; norm_num)
  have h5 := halfPerimeter_of (cs := (tenLeaves t).take 5) (a := 0) (b := 3) (c := 10) (d := 17)
    (by simp only [tenLeaves, leafBox, Box.unionAll, List.take, List.map, DbNode.bbox_mk, List.foldl, Box.empty_expand, expand_rect]; norm_num)
  have h6 := halfPerimeter_of (cs := (tenLeaves t).take 6) (a := 0) (b := 1) (c := 10) (d := 17)
    (by simp only [tenLeaves, leafBox, Box.unionAll, List.take, List.map, DbNode.bbox_mk, List.foldl, Box.empty_expand, expand_rect]; norm_num)
  have g4 := halfPerimeter_of (cs := (tenLeaves t).drop 4) (a := 0) (b := 0) (c := 5) (d := 17)
    (by simp only [tenLeaves, leafBox, Box.unionAll, List.drop, List.map, DbNode.bbox_mk, List.foldl, Box.empty_expand, expand_rect]; norm_num)
  have g5 := halfPerimeter_of (cs := (tenLeaves t).drop 5) (a := 0) (b := 0) (c := 4) (d := 17)
    (by simp only [tenLeaves, leafBox, Box.unionAll, List.drop, List.map, DbNode.bbox_mk, List.foldl, Box.empty_expand, expand_rect]; norm_num)
  have g6 := halfPerimeter_of (cs := (tenLeaves t).drop 6) (a := 0) (b := 0) (c := 4) (d := 17)
    (by simp only [tenLeaves, leafBox, Box.unionAll, List.drop, List.map, DbNode.bbox_mk, List.foldl, Box.empty_expand, expand_rect]; norm_num)
  rw [Finset.sum_insert (by decide), Finset.sum_insert (by decide), Finset.sum_singleton, h4, h5, h6, g4, g5, g6]
  norm_num

theorem tenLeavesY_margin (t : T) : totalMargin 4 (tenLeavesY t) = 145 := by
  have hI : Finset.Icc 4 ((tenLeavesY t).length - 4) = {4, 5, 6} := by
    rw [show (tenLeavesY t).length = 10 from rfl]; decide
  unfold totalMargin
  rw [hI]
  have h4 := halfPerimeter_of (cs := (tenLeavesY t).take 4) (a := 0) (b := 0) (c := 10) (d := 16)
    (by simp only [tenLeavesY, leafBox, Box.unionAll, List.take, List.map, DbNode.bbox_mk, List.foldl, Box.empty_expand, expand_rect]; norm_num)
  have h5 := halfPerimeter_of (cs := (tenLeavesY t).take 5) (a := 0) (b := 0) (c := 10) (d := 16)
    (by simp only [tenLeavesY, leafBox, Box.unionAll, List.take, List.map, DbNode.bbox_mk, List.foldl, Box.empty_expand, expand_rect]; norm_num)
  have h6 := halfPerimeter_of (cs := (tenLeavesY t).take 6) (a := 0) (b := 0) (c := 10) (d := 17)
    (by simp only [tenLeavesY, leafBox, Box.unionAll, List.take, List.map, DbNode.bbox_mk, List.foldl, Box.empty_expand, expand_rect]; norm_num)
  have g4 := halfPerimeter_of (cs := (tenLeavesY t).drop 4) (a := 0) (b := 4) (c := 10) (d := 17)
    (by simp only [tenLeavesY, leafBox, Box.unionAll, List.drop, List.map, DbNode.bbox_mk, List.foldl, Box.empty_expand, expand_rect]; norm_num)
  have g5 := halfPerimeter_of (cs := (tenLeavesY t).drop 5) (a := 0) (b := 5) (c := 10) (d := 17)
    (by simp only [tenLeavesY, leafBox, Box.unionAll, List.drop, List.map, DbNode.bbox_mk, List.foldl, Box.empty_expand, expand_rect]; norm_num)
  have g6 := halfPerimeter_of (cs := (tenLeavesY t).drop 6) (a := 0) (b := 6) (c := 10) (d := 17)
    (by simp only [tenLeavesY, leafBox, Box.unionAll, List.drop, List.map, DbNode.bbox_mk, List.foldl, Box.empty_expand, expand_rect]; norm_num)
  rw [Finset.sum_insert (by decide), Finset.sum_insert (by decide), Finset.sum_singleton, h4, h5, h6, g4, g5, g6]
  norm_num

/-- C93, refutation of "the arrangement with the smaller margin is the one left": with a sort that leaves sorted lists alone (the library's insertion sort of up to
twelve nodes does), `tenLeaves` is measured along x as it stands (138), is better than along y (145), and is left in the order along y. -/
theorem C93_remeasured (ops : ItemOps T EReal) {N : Num T EReal ℝ} (hs : Sorts N) (hst : ∀ l, AlongX l → N.sortX l = l) (t : T) :
    ∃ cs, AlongX cs ∧ totalMargin (minEntries 9) cs < totalMargin (minEntries 9) ((codeHeur ops N 9).arrange cs) := by
  have hm : minEntries 9 = 4 := by decide
  refine ⟨tenLeaves t, tenLeaves_alongX t, ?_⟩
  have ex : N.sortX (tenLeaves t) = tenLeaves t := hst _ (tenLeaves_alongX t)
  have ey : N.sortY (tenLeaves t) = tenLeavesY t := by
    have hp := (hs.permY (tenLeaves t)).trans (tenLeaves_perm t).symm
    exact (alongY_unique (tenLeavesY_alongY t) (hs.sortY _) hp.symm (tenLeavesY_inj t)).symm
  have eyx : N.sortX (tenLeavesY t) = tenLeavesY t := hst _ (tenLeavesY_alongX t)
  have : (codeHeur ops N 9).arrange (tenLeaves t) = tenLeavesY t := by
    simp only [codeHeur, chooseSplitAxis, ex, ey, eyx, ite_self]
  rw [this, hm, tenLeaves_margin, tenLeavesY_margin]
  norm_num

theorem exactNum_sorts (T : Type) (ε : ℝ) : Sorts (exactNum T ε) := by
  refine ⟨fun l => List.mergeSort_perm _ _, fun l => List.mergeSort_perm _ _, fun l => ?_, fun l => ?_⟩
  · have := List.pairwise_mergeSort (le := fun a b : DbNode T EReal => decide (a.bbox.minX ≤ b.bbox.minX))
      (fun a b c h1 h2 => by simp only [decide_eq_true_eq] at *; exact h1.trans h2)
      (fun a b => by simp only [Bool.or_eq_true, decide_eq_true_eq]; exact le_total _ _) l
    simpa [AlongX, exactNum] using this
  · have := List.pairwise_mergeSort (le := fun a b : DbNode T EReal => decide (a.bbox.minY ≤ b.bbox.minY))
      (fun a b c h1 h2 => by simp only [decide_eq_true_eq] at *; exact h1.trans h2)
      (fun a b => by simp only [Bool.or_eq_true, decide_eq_true_eq]; exact le_total _ _) l
    simpa [AlongY, exactNum] using this

/-- the hypotheses are met: the stable merge sort, `tenLeaves` -/
example : ∃ cs : List (DbNode Unit EReal), AlongX cs ∧ totalMargin (minEntries 9) cs <
    totalMargin (minEntries 9) ((codeHeur ⟨fun _ => rect 0 0 1 1, fun _ => 0⟩ (exactNum Unit 0) 9).arrange cs) :=
  C93_remeasured _ (exactNum_sorts Unit 0)
    (fun l hl => by
      simp only [exactNum]
      exact List.mergeSort_of_pairwise (by simpa [AlongX] using hl)) ()

/-- ten leaves in a diagonal -/
noncomputable def diagonal : List (DbNode Unit EReal) := (List.range 10).map (fun i : Nat => leafBox () (i : ℝ) (i : ℝ) (i + 1 : ℝ) (i + 2 : ℝ))

/-- the hypotheses of `C93_axis_partial` are met: distinct lower sides -/
example : totalMargin (minEntries 9) ((codeHeur ⟨fun _ => rect 0 0 1 1, fun _ => 0⟩ (exactNum Unit 0) 9).arrange diagonal) ≤
    totalMargin (minEntries 9) ((exactNum Unit 0).sortX diagonal) := by
  refine C93_axis_partial _ (exactNum_exact Unit 0) (exactNum_sorts Unit 0) (by simp [diagonal]; decide) ?_ ?_ _
    ((exactNum_sorts Unit 0).permX _) (.inl ((exactNum_sorts Unit 0).sortX _))
  all_goals
    intro a ha b hb h
    simp only [diagonal, List.mem_map] at ha hb
    obtain ⟨i, _, rfl⟩ := ha
    obtain ⟨j, _, rfl⟩ := hb
    simp only [leafBox, rect, DbNode.bbox_mk, EReal.coe_eq_coe_iff, Nat.cast_inj] at h
    rw [h]

end Hdb
end Verif
