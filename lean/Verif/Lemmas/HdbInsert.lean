import Verif.Spec.Hdb

/-! Insertion keeps the invariant and adds exactly the new contents. -/

namespace Verif
namespace Hdb

variable {T B : Type} [LinearOrder B] [BoundedOrder B]

theorem split_at_getElem? {α : Type} {l : List α} {i : Nat} {a : α} (h : l[i]? = some a) :
    ∃ xs ys, l = xs ++ a :: ys ∧ xs.length = i ∧ ∀ b, l.set i b = xs ++ b :: ys := by
  induction l generalizing i with
  | nil => simp at h
  | cons x l ih =>
    cases i with
    | zero => simp at h; subst h; exact ⟨[], l, rfl, rfl, fun b => rfl⟩
    | succ i =>
      simp at h
      obtain ⟨xs, ys, e1, e2, e3⟩ := ih h
      refine ⟨x :: xs, ys, by simp [e1], by simp [e2], fun b => by simp [e3]⟩

omit [LinearOrder B] [BoundedOrder B] in
theorem flat_newLeafNode (ops : ItemOps T B) (t : T) : flat 0 (newLeafNode ops t) = [t] := rfl

theorem WF.bbox {ops : ItemOps T B} {M h : Nat} {nd : DbNode T B} (hw : WF ops M (h + 1) nd) :
    nd.bbox = Box.unionAll (nd.children.map DbNode.bbox) := hw.2.2.2.2.2.1

theorem WF.child {ops : ItemOps T B} {M h : Nat} {nd c : DbNode T B} (hw : WF ops M (h + 1) nd) (hc : c ∈ nd.children) :
    WF ops M h c := hw.2.2.2.2.2.2 c hc

theorem WF.ne_nil {ops : ItemOps T B} {M h : Nat} {nd : DbNode T B} (hw : WF ops M (h + 1) nd) : nd.children ≠ [] := hw.2.2.2.1

theorem WF.flat_ne_nil {ops : ItemOps T B} {M : Nat} : ∀ {h : Nat} {nd : DbNode T B}, WF ops M h nd → flat h nd ≠ [] := by
  intro h
  induction h with
  | zero => rintro nd ⟨t, rfl⟩; simp [flat_newLeafNode]
  | succ h ih =>
    intro nd hw
    obtain ⟨c, cs, hc⟩ := List.exists_cons_of_ne_nil hw.ne_nil
    have := ih (hw.child (c := c) (by simp [hc]))
    simp [flat, hc, this]

/-- every stored item's box lies in the box of the node -/
theorem WF.le_bbox {ops : ItemOps T B} {M : Nat} : ∀ {h : Nat} {nd : DbNode T B}, WF ops M h nd → ∀ t ∈ flat h nd,
    ops.mbr t ≤ nd.bbox := by
  intro h
  induction h with
  | zero =>
    rintro nd ⟨t, rfl⟩ x hx
    simp only [flat_newLeafNode, List.mem_singleton] at hx; subst hx
    exact Box.le_refl' _
  | succ h ih =>
    intro nd hw t ht
    simp only [flat, List.mem_flatMap] at ht
    obtain ⟨c, hc, ht⟩ := ht
    rw [hw.bbox]
    exact Box.le_trans' (ih (hw.child hc) t ht) (Box.le_unionAll (List.mem_map_of_mem hc))

/-- the box of a node is the least box around the items stored below it -/
theorem WF.bbox_le_iff {ops : ItemOps T B} {M : Nat} : ∀ {h : Nat} {nd : DbNode T B}, WF ops M h nd → ∀ c, nd.bbox ≤ c ↔ ∀ t ∈ flat h nd, ops.mbr t ≤ c := by
  intro h
  induction h with
  | zero =>
    rintro nd ⟨t, rfl⟩ c
    simp only [flat_newLeafNode, List.mem_singleton, forall_eq]
    exact Iff.rfl
  | succ h ih =>
    intro nd hw c
    refine ⟨fun hb t ht => Box.le_trans' (hw.le_bbox t ht) hb, fun hb => ?_⟩
    rw [hw.bbox]
    refine Box.unionAll_le (fun b hb' => ?_)
    obtain ⟨d, hd, rfl⟩ := List.mem_map.1 hb'
    exact (ih (hw.child hd) c).2 (fun t ht => hb t (by simp only [flat, List.mem_flatMap]; exact ⟨d, hd, ht⟩))

theorem splitNode_spec {ops : ItemOps T B} {M : Nat} {H : Heur T B} (hH : Legal H M) {h : Nat} {cs : List (DbNode T B)}
    (hlen : cs.length = M + 1) (hcs : ∀ c ∈ cs, WF ops M h c) {ht : Nat} {lf : Bool} (hht : ht = h + 1) (hlf : lf = decide (h = 0)) :
    WF ops M (h + 1) (splitNode H cs ht lf).1 ∧ WF ops M (h + 1) (splitNode H cs ht lf).2 ∧
      (flat (h + 1) (splitNode H cs ht lf).1 ++ flat (h + 1) (splitNode H cs ht lf).2).Perm (cs.flatMap (flat h)) ∧
      Box.unionAll [(splitNode H cs ht lf).1.bbox, (splitNode H cs ht lf).2.bbox] = Box.unionAll (cs.map DbNode.bbox) := by
  subst hht hlf
  have hp := hH.arrange cs
  have hl : (H.arrange cs).length = M + 1 := by rw [hp.length_eq, hlen]
  obtain ⟨s1, s2⟩ := hH.splitIdx ((H.arrange cs).map DbNode.bbox) (by simp [hl])
  have hmem : ∀ c ∈ H.arrange cs, WF ops M h c := fun c hc => hcs c (hp.mem_iff.1 hc)
  generalize hat : H.splitIdx ((H.arrange cs).map DbNode.bbox) = at_ at *
  have hsp : splitNode H cs (h + 1) (decide (h = 0)) =
    (.mk ((H.arrange cs).take at_) none (h + 1) (decide (h = 0)) (calcBBox ((H.arrange cs).take at_)),
     .mk ((H.arrange cs).drop at_) none (h + 1) (decide (h = 0)) (calcBBox ((H.arrange cs).drop at_))) := by
    simp only [splitNode, hat]
  rw [hsp]
  refine ⟨⟨rfl, rfl, rfl, ?_, ?_, rfl, ?_⟩, ⟨rfl, rfl, rfl, ?_, ?_, rfl, ?_⟩, ?_, ?_⟩
  · simp only [DbNode.children_mk, ← List.length_pos_iff_ne_nil, List.length_take]; omega
  · simp only [DbNode.children_mk, List.length_take]; omega
  · intro c hc; exact hmem c (List.mem_of_mem_take hc)
  · simp only [DbNode.children_mk, ← List.length_pos_iff_ne_nil, List.length_drop]; omega
  · simp only [DbNode.children_mk, List.length_drop]; omega
  · intro c hc; exact hmem c (List.mem_of_mem_drop hc)
  · simp only [flat, DbNode.children_mk]
    rw [← List.flatMap_append, List.take_append_drop]
    exact hp.flatMap_right _
  · simp only [DbNode.bbox_mk, calcBBox]
    rw [Box.unionAll_cons, Box.unionAll_singleton, ← Box.unionAll_append, ← List.map_append, List.take_append_drop]
    exact Box.unionAll_perm (hp.map _)

/-- replacing one child by one or two nodes -/
theorem replace_child {h : Nat} {cs xs ys : List (DbNode T B)} {c c' : DbNode T B} {sib : List (DbNode T B)} {add : List T} {nb : Box B}
    (hcs : cs = xs ++ c :: ys)
    (hflat : ((c' :: sib).flatMap (flat h)).Perm (flat h c ++ add))
    (hbox : Box.unionAll ((c' :: sib).map DbNode.bbox) = c.bbox.expand nb) :
    (((xs ++ c' :: ys) ++ sib).flatMap (flat h)).Perm (cs.flatMap (flat h) ++ add) ∧
    Box.unionAll (((xs ++ c' :: ys) ++ sib).map DbNode.bbox) = (Box.unionAll (cs.map DbNode.bbox)).expand nb := by
  subst hcs
  constructor
  · have h1 : ((xs ++ c' :: ys) ++ sib).Perm (xs ++ ys ++ (c' :: sib)) := by
      rw [List.append_assoc, List.append_assoc]
      refine List.Perm.append_left _ ?_
      exact List.perm_middle.symm
    have h2 : (xs ++ c :: ys).Perm (xs ++ ys ++ [c]) := by
      rw [List.append_assoc]
      exact List.Perm.append_left _ (List.perm_append_singleton c ys).symm
    refine (h1.flatMap_right _).trans ?_
    rw [List.flatMap_append]
    refine List.Perm.trans ?_ ((h2.flatMap_right (flat h)).symm.append_right add)
    have e : (xs ++ ys ++ [c]).flatMap (flat h) ++ add = (xs ++ ys).flatMap (flat h) ++ (flat h c ++ add) := by
      simp [List.flatMap_append]
    rw [e]
    exact List.Perm.append_left _ hflat
  · have h1 : (((xs ++ c' :: ys) ++ sib).map DbNode.bbox).Perm ((xs ++ ys).map DbNode.bbox ++ (c' :: sib).map DbNode.bbox) := by
      rw [← List.map_append]
      refine List.Perm.map _ ?_
      rw [List.append_assoc, List.append_assoc]
      exact List.Perm.append_left _ List.perm_middle.symm
    have h2 : ((xs ++ c :: ys).map DbNode.bbox).Perm ((xs ++ ys).map DbNode.bbox ++ [c.bbox]) := by
      have : (xs ++ c :: ys).Perm (xs ++ ys ++ [c]) := by
        rw [List.append_assoc]
        exact List.Perm.append_left _ (List.perm_append_singleton c ys).symm
      simpa using this.map DbNode.bbox
    rw [Box.unionAll_perm h1, Box.unionAll_perm h2, Box.unionAll_append, Box.unionAll_append, hbox, Box.unionAll_singleton,
      Box.expand_assoc]

theorem insertAt_spec {ops : ItemOps T B} {M : Nat} {H : Heur T B} (hH : Legal H M) {k : Nat} {new : DbNode T B}
    (hnew : WF ops M k new) :
    ∀ (level : Nat) (nd : DbNode T B), WF ops M (level + k + 1) nd →
      ∃ nd' sib, insertAt H M new level nd = .ok (nd', sib) ∧ (∀ x ∈ nd' :: sib.toList, WF ops M (level + k + 1) x) ∧
        ((nd' :: sib.toList).flatMap (flat (level + k + 1))).Perm (flat (level + k + 1) nd ++ flat k new) ∧
        Box.unionAll ((nd' :: sib.toList).map DbNode.bbox) = nd.bbox.expand new.bbox := by
  intro level
  induction level with
  | zero =>
    intro nd hw
    obtain ⟨cs, it, ht, lf, bb⟩ := nd
    rw [Nat.zero_add] at hw ⊢
    obtain ⟨w1, w2, w3, w4, w5, w6, w7⟩ := hw
    simp only [DbNode.item_mk, DbNode.height_mk, DbNode.leaf_mk, DbNode.children_mk, DbNode.bbox_mk] at w1 w2 w3 w4 w5 w6 w7
    have hall : ∀ c ∈ cs ++ [new], WF ops M k c := by
      intro c hc
      rcases List.mem_append.1 hc with hc | hc
      · exact w7 c hc
      · simp at hc; subst hc; exact hnew
    have hfl : (cs ++ [new]).flatMap (flat k) = cs.flatMap (flat k) ++ flat k new := by simp [List.flatMap_append]
    have hbx : Box.unionAll ((cs ++ [new]).map DbNode.bbox) = bb.expand new.bbox := by
      rw [List.map_append, Box.unionAll_append, w6]; simp [Box.unionAll_singleton]
    simp only [insertAt]
    by_cases hov : (cs ++ [new]).length > M
    · rw [if_pos hov]
      obtain ⟨p1, p2, p3, p4⟩ := splitNode_spec hH (by simp only [List.length_append, List.length_singleton] at hov ⊢; omega) hall w2 w3
      refine ⟨_, _, rfl, ?_, ?_, ?_⟩
      · intro x hx
        simp only [Option.toList, List.mem_cons, List.not_mem_nil, or_false] at hx
        rcases hx with rfl | rfl <;> assumption
      · simp only [Option.toList, List.flatMap_cons, List.flatMap_nil, List.append_nil]
        rw [hfl] at p3
        exact p3
      · simp only [Option.toList, List.map_cons, List.map_nil]
        rw [p4, hbx]; rfl
    · rw [if_neg hov]
      refine ⟨_, _, rfl, ?_, ?_, ?_⟩
      · intro x hx
        simp only [Option.toList, List.mem_singleton] at hx
        subst hx
        exact ⟨w1, w2, w3, by simp [DbNode.children_mk], by simpa [DbNode.children_mk] using Nat.le_of_not_lt hov,
          by simp only [DbNode.bbox_mk, DbNode.children_mk]; exact hbx.symm, hall⟩
      · simp only [Option.toList, List.flatMap_cons, List.flatMap_nil, List.append_nil, flat, DbNode.children_mk]
        rw [hfl]
      · simp only [Option.toList, List.map_cons, List.map_nil, Box.unionAll_singleton, DbNode.bbox_mk]
  | succ level ih =>
    intro nd hw
    obtain ⟨cs, it, ht, lf, bb⟩ := nd
    have hh : level + 1 + k + 1 = (level + k + 1) + 1 := by omega
    rw [hh] at hw ⊢
    obtain ⟨w1, w2, w3, w4, w5, w6, w7⟩ := hw
    simp only [DbNode.item_mk, DbNode.height_mk, DbNode.leaf_mk, DbNode.children_mk, DbNode.bbox_mk] at w1 w2 w3 w4 w5 w6 w7
    have hlf : lf = false := by rw [w3]; simp
    obtain ⟨i, hi, hci⟩ := hH.choose new.bbox (cs.map DbNode.bbox) (by simpa using w4)
    rw [List.length_map] at hi
    have hget : cs[i]? = some cs[i] := List.getElem?_eq_getElem hi
    simp only [insertAt, hlf, hci, hget]
    obtain ⟨c', sib, e, q1, q2, q3⟩ := ih cs[i] (w7 _ (List.getElem_mem hi))
    rw [e]
    obtain ⟨xs, ys, e1, e2, e3⟩ := split_at_getElem? hget
    obtain ⟨r1, r2⟩ := replace_child (h := level + k + 1) e1 q2 q3
    have hall : ∀ c ∈ (xs ++ c' :: ys) ++ sib.toList, WF ops M (level + k + 1) c := by
      intro c hc
      simp only [List.mem_append, List.mem_cons] at hc
      rcases hc with (hc | rfl | hc) | hc
      · exact w7 c (by rw [e1]; simp [hc])
      · exact q1 _ (by simp)
      · exact w7 c (by rw [e1]; simp [hc])
      · exact q1 _ (by simp only [List.mem_cons]; exact Or.inr hc)
    have hlen' : (xs ++ c' :: ys).length = cs.length := by rw [e1]; simp
    cases sib with
    | none =>
      simp only [Res.ok_bind, e3]
      simp only [Option.toList, List.append_nil] at hall r1 r2
      refine ⟨_, _, rfl, ?_, ?_, ?_⟩
      · intro x hx
        simp only [Option.toList, List.mem_singleton] at hx
        subst hx
        exact ⟨w1, w2, by simp [DbNode.leaf_mk], by simp [DbNode.children_mk], by simp only [DbNode.children_mk]; omega,
          by simp only [DbNode.bbox_mk, DbNode.children_mk]; rw [r2, w6], hall⟩
      · simpa only [Option.toList, List.flatMap_cons, List.flatMap_nil, List.append_nil, flat, DbNode.children_mk] using r1
      · simp only [Option.toList, List.map_cons, List.map_nil, Box.unionAll_singleton, DbNode.bbox_mk]
    | some s =>
      simp only [Res.ok_bind, e3]
      simp only [Option.toList] at hall r1 r2
      simp only [if_false, Bool.false_eq_true]
      by_cases hov : ((xs ++ c' :: ys) ++ [s]).length > M
      · rw [if_pos hov]
        obtain ⟨p1, p2, p3, p4⟩ := splitNode_spec hH (ht := ht) (lf := false)
          (by simp only [List.length_append, List.length_singleton] at hov hlen' ⊢; omega) hall w2 (by simp)
        refine ⟨_, _, rfl, ?_, ?_, ?_⟩
        · intro x hx
          simp only [Option.toList, List.mem_cons, List.not_mem_nil, or_false] at hx
          rcases hx with rfl | rfl <;> assumption
        · simp only [Option.toList, List.flatMap_cons, List.flatMap_nil, List.append_nil]
          exact p3.trans r1
        · simp only [Option.toList, List.map_cons, List.map_nil]
          rw [p4, r2, ← w6]; rfl
      · rw [if_neg hov]
        refine ⟨_, _, rfl, ?_, ?_, ?_⟩
        · intro x hx
          simp only [Option.toList, List.mem_singleton] at hx
          subst hx
          exact ⟨w1, w2, by simp [DbNode.leaf_mk], by simp [DbNode.children_mk], by simpa [DbNode.children_mk] using Nat.le_of_not_lt hov,
            by simp only [DbNode.bbox_mk, DbNode.children_mk]; rw [r2, w6], hall⟩
        · simpa only [Option.toList, List.flatMap_cons, List.flatMap_nil, List.append_nil, flat, DbNode.children_mk] using r1
        · simp only [Option.toList, List.map_cons, List.map_nil, Box.unionAll_singleton, DbNode.bbox_mk]

theorem splitRoot_spec {ops : ItemOps T B} {M h : Nat} (hM : 2 ≤ M) {a b : DbNode T B} (ha : WF ops M (h + 1) a)
    (hb : WF ops M (h + 1) b) :
    WF ops M (h + 2) (splitRoot a b) ∧ flat (h + 2) (splitRoot a b) = flat (h + 1) a ++ flat (h + 1) b := by
  refine ⟨⟨rfl, ?_, rfl, ?_, ?_, rfl, ?_⟩, ?_⟩
  · simp [splitRoot, ha.2.1]
  · simp [splitRoot, DbNode.children_mk]
  · simpa [splitRoot, DbNode.children_mk] using hM
  · intro c hc
    simp only [splitRoot, DbNode.children_mk, List.mem_cons, List.not_mem_nil, or_false] at hc
    rcases hc with rfl | rfl <;> assumption
  · simp [splitRoot, flat, DbNode.children_mk]

theorem insertNode_spec {ops : ItemOps T B} {M : Nat} (hM : 2 ≤ M) {H : Heur T B} (hH : Legal H M) {k level : Nat} {new root : DbNode T B}
    (hnew : WF ops M k new) (hroot : WF ops M (level + k + 1) root) :
    ∃ r h', insertNode H M root new level = .ok r ∧ WF ops M (h' + 1) r ∧
      (flat (h' + 1) r).Perm (flat (level + k + 1) root ++ flat k new) := by
  obtain ⟨nd', sib, e, q1, q2, q3⟩ := insertAt_spec hH hnew level root hroot
  unfold insertNode
  rw [e]
  cases sib with
  | none =>
    exact ⟨nd', level + k, rfl, q1 _ (by simp), by simpa using q2⟩
  | some s =>
    obtain ⟨s1, s2⟩ := splitRoot_spec hM (q1 nd' (by simp)) (q1 s (by simp))
    exact ⟨_, _, rfl, s1, by rw [s2]; simpa using q2⟩

theorem insertItem_spec {ops : ItemOps T B} {M : Nat} (hM : 2 ≤ M) {H : Heur T B} (hH : Legal H M) {root : DbNode T B} {t : T}
    (hroot : RootWF ops M root) :
    ∃ r h', insertItem ops H M root t = .ok r ∧ WF ops M (h' + 1) r ∧ (flat (h' + 1) r).Perm (flat root.height root ++ [t]) := by
  rcases hroot with rfl | ⟨h, hw⟩
  · refine ⟨.mk [newLeafNode ops t] none 1 true (Box.empty.expand (ops.mbr t)), 0, ?_, ?_, ?_⟩
    · have : ¬ (1 > M) := by omega
      simp [insertItem, insertNode, insertAt, DbNode.height_mk, newLeafNode, DbNode.bbox_mk, this]
    · refine ⟨rfl, rfl, rfl, by simp [DbNode.children_mk], by simp [DbNode.children_mk]; omega, ?_, ?_⟩
      · simp [DbNode.bbox_mk, DbNode.children_mk, Box.unionAll_singleton, newLeafNode]
      · intro c hc
        simp [DbNode.children_mk] at hc; exact ⟨t, hc⟩
    · simp [flat, DbNode.children_mk, DbNode.height_mk, newLeafNode, DbNode.item_mk]
  · have hh : root.height = h + 1 := hw.2.1
    obtain ⟨r, h', e, r1, r2⟩ := insertNode_spec hM hH (k := 0) (level := h) (new := newLeafNode ops t) ⟨t, rfl⟩ hw
    refine ⟨r, h', ?_, r1, ?_⟩
    · unfold insertItem; rw [hh]; simpa using e
    · rw [hh]; exact r2

theorem insertItems_spec {ops : ItemOps T B} {M : Nat} (hM : 2 ≤ M) {H : Heur T B} (hH : Legal H M) (ts : List T) :
    ∀ root : DbNode T B, RootWF ops M root →
      ∃ r, insertItems ops H M root ts = .ok r ∧ RootWF ops M r ∧ (flat r.height r).Perm (flat root.height root ++ ts) := by
  induction ts with
  | nil => intro root hr; exact ⟨root, rfl, hr, by simp⟩
  | cons t ts ih =>
    intro root hr
    obtain ⟨r, h', e, r1, r2⟩ := insertItem_spec hM hH (t := t) hr
    obtain ⟨r', e', r1', r2'⟩ := ih r (Or.inr ⟨_, r1⟩)
    refine ⟨r', ?_, r1', ?_⟩
    · simp only [insertItems, e, Res.ok_bind, e']
    · have hh : r.height = h' + 1 := r1.2.1
      rw [hh] at r2'
      refine r2'.trans ?_
      refine (r2.append_right ts).trans ?_
      simp

end Hdb
end Verif
