import Verif.Lemmas.SplitSelf

/-! The indices of the reported self-intersections are indices of the line. -/

set_option linter.unusedSectionVars false

namespace Verif

variable {P C B K : Type}

theorem mem_sortedIntsSet_iff {l : List Int} {x : Int} : x ∈ sortedIntsSet l ↔ x ∈ l := by
  rw [sortedIntsSet, (List.perm_insertionSort _ _).mem_iff, List.mem_dedup]

theorem planarLoop_idx (eq : P → P → Bool) : ∀ (l : List (Vtx P)) (d : Nat) (idx : List Int), ∀ i ∈ planarLoop eq l d idx,
    i.kind = .planarVertex ∧ ∀ v ∈ i.planar, v ∈ idx ∨ v ∈ l.map Vtx.index := by
  intro l
  induction l with
  | nil => intro d idx i hi; simp [planarLoop] at hi
  | cons a l ih =>
    intro d idx i hi
    cases l with
    | nil => simp [planarLoop] at hi
    | cons b l =>
      simp only [planarLoop] at hi
      split_ifs at hi with h1 h2 h3
      · obtain ⟨h4, h5⟩ := ih _ _ i hi
        refine ⟨h4, fun v hv => ?_⟩
        rcases h5 v hv with h | h
        · simp only [List.mem_append, List.mem_cons, List.not_mem_nil, or_false] at h
          rcases h with h | rfl | rfl
          · exact .inl h
          · exact .inr (by simp)
          · exact .inr (by simp)
        · exact .inr (List.mem_cons_of_mem _ h)
      · obtain ⟨h4, h5⟩ := ih _ _ i hi
        refine ⟨h4, fun v hv => ?_⟩
        rcases h5 v hv with h | h
        · simp only [List.mem_append, List.mem_cons, List.not_mem_nil, or_false] at h
          rcases h with h | rfl
          · exact .inl h
          · exact .inr (by simp)
        · exact .inr (List.mem_cons_of_mem _ h)
      · rcases List.mem_cons.1 hi with rfl | hi
        · exact ⟨rfl, fun v hv => .inl (mem_sortedIntsSet_iff.1 hv)⟩
        · obtain ⟨h4, h5⟩ := ih _ _ i hi
          exact ⟨h4, fun v hv => .inr (List.mem_cons_of_mem _ ((h5 v hv).resolve_left (by simp)))⟩
      · obtain ⟨h4, h5⟩ := ih _ _ i hi
        exact ⟨h4, fun v hv => .inr (List.mem_cons_of_mem _ ((h5 v hv).resolve_left (by simp)))⟩

theorem nonPlanarInner_idx (lnr : LnrLib P B) {c : Coords P} {ps : List P} (data : List (SegBox B)) (hd : SegOK ps data) (d : Nat) :
    ∀ (os : List Nat) (cache : List (List Int)) r, nonPlanarInner lnr c data d os cache = .ok r →
    ∀ i ∈ r.1, i.kind = .nonPlanarVertex ∧ ∀ v ∈ i.nonPlanar, 0 ≤ v ∧ v < ps.length := by
  intro os
  induction os with
  | nil => intro cache r h; cases h; simp
  | cons o os ih =>
    intro cache r h
    simp only [nonPlanarInner] at h
    split at h
    · exact ih _ _ h
    · split at h
      · rename_i s t hs ht
        split at h
        · exact ih _ _ h
        · cases h1 : c.pt s.I <;> simp only [h1, Res.ok_bind, Res.panic_bind, Res.timeout_bind, reduceCtorEq] at h
          cases h2 : c.pt s.J <;> simp only [h2, Res.ok_bind, Res.panic_bind, Res.timeout_bind, reduceCtorEq] at h
          cases h3 : c.pt t.I <;> simp only [h3, Res.ok_bind, Res.panic_bind, Res.timeout_bind, reduceCtorEq] at h
          cases h4 : c.pt t.J <;> simp only [h4, Res.ok_bind, Res.panic_bind, Res.timeout_bind, reduceCtorEq] at h
          cases h5 : nonPlanarInner lnr c data d os (cache ++ [segCacheKey s t]) with
          | ok r' =>
            simp only [h5, Res.ok_bind, Res.pure_eq, Res.ok.injEq] at h
            subst h
            intro i hi
            rcases List.mem_append.1 hi with hi | hi
            · obtain ⟨p, -, rfl⟩ := List.mem_map.1 hi
              refine ⟨rfl, fun v hv => ?_⟩
              have hv := mem_sortedIntsSet_iff.1 hv
              obtain ⟨x, x1, x2, x3⟩ := hd s (List.mem_of_getElem? hs)
              obtain ⟨y, y1, y2, y3⟩ := hd t (List.mem_of_getElem? ht)
              simp only [segCacheKey] at hv
              split_ifs at hv <;> simp only [List.mem_cons, List.not_mem_nil, or_false] at hv <;> rcases hv with rfl | rfl | rfl | rfl <;> omega
            · exact ih _ _ h5 i hi
          | panic => simp [h5] at h
          | timeout => simp [h5] at h
      · cases h

theorem nonPlanarOuter_idx (lnr : LnrLib P B) {c : Coords P} {ps : List P} (data : List (SegBox B)) (hd : SegOK ps data) :
    ∀ (ds : List Nat) (cache : List (List Int)) r, nonPlanarOuter lnr c data ds cache = .ok r →
    ∀ i ∈ r.1, i.kind = .nonPlanarVertex ∧ ∀ v ∈ i.nonPlanar, 0 ≤ v ∧ v < ps.length := by
  intro ds
  induction ds with
  | nil => intro cache r h; cases h; simp
  | cons d ds ih =>
    intro cache r h
    simp only [nonPlanarOuter] at h
    cases h1 : nonPlanarInner lnr c data d (lnr.segSearch data d) cache with
    | ok r1 =>
      simp only [h1, Res.ok_bind] at h
      cases h2 : nonPlanarOuter lnr c data ds r1.2 with
      | ok r2 =>
        simp only [h2, Res.ok_bind, Res.pure_eq, Res.ok.injEq] at h
        subst h
        intro i hi
        rcases List.mem_append.1 hi with hi | hi
        · exact nonPlanarInner_idx lnr data hd d _ _ _ h1 i hi
        · exact ih _ _ h2 i hi
      | panic => simp [h2] at h
      | timeout => simp [h2] at h
    | panic => simp [h1] at h
    | timeout => simp [h1] at h

section
variable [LinearOrder B] [BoundedOrder B] [LinearOrder K]

/-- lnr/self.go:13-22 -/
theorem selfIntersection_bounds {lib : Lib P C B K} {lnr : LnrLib P B} (hl : LnrOK lnr) {ps : List P} (h2 : 2 ≤ ps.length) {planar nonPlanar : Bool}
    {inters : List (Inter P)} (h : selfIntersection lib lnr (createPolyline (coordsOf ps)) planar nonPlanar = .ok inters) :
    ∀ i ∈ inters, ∀ v ∈ i.splitIdxs, 0 ≤ v ∧ v < ps.length := by
  have hc := polyline_coordinates h2
  have hv := verticesOf_ok ps nullFId ps.length 0 (by omega)
  obtain ⟨data, e, dl, hd⟩ := SegOK.of_bounds lnr ps h2
  have hlen : (coordsOf ps).len.toNat = ps.length := by rw [coordsOf_len]; simp
  have hlen2 : ((coordsOf ps).len - 1).toNat = ps.length - 1 := by rw [coordsOf_len]; omega
  have hA : ∀ a, (if planar then planarIntersects lib lnr (createPolyline (coordsOf ps)) else .ok []) = .ok a →
      ∀ i ∈ a, ∀ v ∈ i.splitIdxs, 0 ≤ v ∧ v < ps.length := by
    intro a ha
    cases planar with
    | false => simp only [Bool.false_eq_true, if_false] at ha; cases ha; simp
    | true =>
      simp only [if_true, planarIntersects, hc, Res.ok_bind, hlen, hv, Res.pure_eq, Res.ok.injEq] at ha
      subst ha
      intro i hi v hvi
      obtain ⟨h3, h4⟩ := planarLoop_idx _ _ _ _ i hi
      simp only [Inter.splitIdxs, h3, if_true] at hvi
      have h5 := (h4 v hvi).resolve_left (by simp)
      have h6 := ((hl.sort _).map Vtx.index).mem_iff.1 h5
      simp only [List.map_map, List.mem_map] at h6
      obtain ⟨⟨p, k⟩, hk, rfl⟩ := h6
      have := List.mem_zipIdx_iff_getElem?.1 hk
      have := (List.getElem?_eq_some_iff.1 this).1
      simp at this ⊢
      omega
  have hB : ∀ a, (if nonPlanar then nonPlanarIntersection lnr (createPolyline (coordsOf ps)) else .ok []) = .ok a →
      ∀ i ∈ a, ∀ v ∈ i.splitIdxs, 0 ≤ v ∧ v < ps.length := by
    intro a ha
    cases nonPlanar with
    | false => simp only [Bool.false_eq_true, if_false] at ha; cases ha; simp
    | true =>
      simp only [if_true, nonPlanarIntersection, hc, Res.ok_bind, hlen2, e] at ha
      cases h1 : nonPlanarOuter lnr (coordsOf ps) data (List.range data.length) [] with
      | ok r =>
        simp only [h1, Res.ok_bind, Res.pure_eq, Res.ok.injEq] at ha
        subst ha
        intro i hi v hvi
        obtain ⟨h3, h4⟩ := nonPlanarOuter_idx lnr data hd _ _ _ h1 i hi
        simp only [Inter.splitIdxs, h3, reduceCtorEq, if_true, if_false] at hvi
        exact h4 v hvi
      | panic => simp [h1] at ha
      | timeout => simp [h1] at ha
  simp only [selfIntersection] at h
  have hE : ∀ (f g : Res (List (Inter P))), (f.bind fun a => g.bind fun b => .ok (a ++ b)) = .ok inters → ∃ a b, f = .ok a ∧ g = .ok b ∧ inters = a ++ b := by
    intro f g hfg
    cases f with
    | ok a => cases g with
      | ok b => simp only [Res.bind] at hfg; cases hfg; exact ⟨a, b, rfl, rfl, rfl⟩
      | panic => cases hfg
      | timeout => cases hfg
    | panic => cases hfg
    | timeout => cases hfg
  have h : ((if planar then planarIntersects lib lnr (createPolyline (coordsOf ps)) else .ok []).bind fun a =>
      (if nonPlanar then nonPlanarIntersection lnr (createPolyline (coordsOf ps)) else .ok []).bind fun b => .ok (a ++ b)) = .ok inters := by
    cases planar <;> cases nonPlanar <;> exact h
  obtain ⟨a, b, ea, eb, rfl⟩ := hE _ _ h
  intro i hi
  rcases List.mem_append.1 hi with hi | hi
  · exact hA a ea i hi
  · exact hB b eb i hi

end

end Verif
