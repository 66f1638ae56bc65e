import Verif.Lemmas.SplitSelf

/-! C25: the non-planar self-intersection search. -/

set_option linter.unusedSectionVars false

namespace Verif

variable {P C B K : Type} [LinearOrder B]

/-- assumption about the external segment index: it returns exactly the positions of the segments whose box meets the given one, in any order and
possibly repeatedly -/
def SearchSound (lnr : LnrLib P B) : Prop :=
  ∀ (data : List (SegBox B)) (d o : Nat) (s : SegBox B), data[d]? = some s →
    (o ∈ lnr.segSearch data d ↔ ∃ t, data[o]? = some t ∧ s.box.intersects t.box = true)

theorem Box.intersects_comm (a b : Box B) : a.intersects b = b.intersects a := by
  rw [Bool.eq_iff_iff]; simp [Box.intersects]; grind

/-- segment `a` of the line -/
def seg (ps : List P) (a : Nat) : Option (P × P) := match ps[a]?, ps[a + 1]? with
  | some p, some q => some (p, q)
  | _, _ => none

/-- the boxes of segments `a` and `b` meet -/
def SegsMeet (lnr : LnrLib P B) (ps : List P) (a b : Nat) : Prop :=
  ∃ s t, seg ps a = some s ∧ seg ps b = some t ∧ (lnr.segBox s.1 s.2).intersects (lnr.segBox t.1 t.2) = true

/-- the reports required for segments `a < b`: their intersection points other than a vertex of both, with the four ends -/
def segReports (lnr : LnrLib P B) (ps : List P) (ab : Nat × Nat) : List (Inter P) :=
  match seg ps ab.1, seg ps ab.2 with
  | some s, some t => ((lnr.segSeg s.1 s.2 t.1 t.2).filter (fun p => !p.2.1 || p.2.2)).map
      (fun p => ⟨p.1, .nonPlanarVertex, [], sortedIntsSet [(ab.1 : Int), ab.1 + 1, ab.2, ab.2 + 1]⟩)
  | _, _ => []

variable {lnr : LnrLib P B}

/-- exact contents of the segment array -/
def SegData (lnr : LnrLib P B) (ps : List P) (data : List (SegBox B)) : Prop :=
  data.length = ps.length - 1 ∧ ∀ t < data.length, ∃ a b, ps[t]? = some a ∧ ps[t + 1]? = some b ∧ data[t]? = some ⟨lnr.segBox a b, t, ((t + 1 : Nat) : Int)⟩

theorem segCacheKey_inj {d o o' : Nat} {X Y Z : Box B} (h : segCacheKey ⟨X, d, ((d + 1 : Nat) : Int)⟩ ⟨Y, o, ((o + 1 : Nat) : Int)⟩ =
    segCacheKey ⟨X, d, ((d + 1 : Nat) : Int)⟩ ⟨Z, o', ((o' + 1 : Nat) : Int)⟩) : o = o' := by
  simp only [segCacheKey] at h
  split_ifs at h <;> simp at h <;> omega

/-- the key of the segments `a` and `b` -/
def pairKey (a b : Nat) : List Int := [((min a b : Nat) : Int), (min a b : Nat) + 1, (max a b : Nat), (max a b : Nat) + 1]

theorem segCacheKey_eq (a b : Nat) (X Y : Box B) : segCacheKey ⟨X, a, ((a + 1 : Nat) : Int)⟩ ⟨Y, b, ((b + 1 : Nat) : Int)⟩ = pairKey a b := by
  simp only [segCacheKey, pairKey]
  by_cases h : (b : Int) < a
  · rw [if_pos h]; simp; omega
  · rw [if_neg h]; simp; omega

theorem pairKey_inj {a b c d : Nat} (h : pairKey a b = pairKey c d) : (a = c ∧ b = d) ∨ (a = d ∧ b = c) := by
  simp only [pairKey, List.cons.injEq, Nat.cast_inj] at h
  omega

theorem inner_spec {ps : List P} {data : List (SegBox B)} (hd : SegData lnr ps data) {d : Nat} (hlt : d < data.length) :
    ∀ (os : List Nat) (cache : List (List Int)), (∀ o ∈ os, o < data.length) → (∀ o ∈ os, o < d → pairKey d o ∈ cache) →
    ∃ ns : List Nat, nonPlanarInner lnr (coordsOf ps) data d os cache =
        .ok (ns.flatMap (fun o => segReports lnr ps (d, o)), cache ++ ns.map (pairKey d)) ∧ ns.Nodup ∧
      ∀ o, o ∈ ns ↔ o ∈ os ∧ o ≠ d ∧ pairKey d o ∉ cache := by
  intro os
  induction os with
  | nil => intro cache _ _; exact ⟨[], by simp [nonPlanarInner], by simp, by simp⟩
  | cons o os ih =>
    intro cache ho hsm
    have ho' := fun x hx => ho x (List.mem_cons_of_mem _ hx)
    have hsm' := fun x hx => hsm x (List.mem_cons_of_mem _ hx)
    obtain ⟨a, b, pa, pb, e1⟩ := hd.2 d hlt
    obtain ⟨a', b', pa', pb', e2⟩ := hd.2 o (ho o (by simp))
    simp only [nonPlanarInner]
    by_cases h1 : d = o
    · obtain ⟨ns, n1, n2, n3⟩ := ih cache ho' hsm'
      refine ⟨ns, by rw [if_pos h1, n1], n2, fun x => ?_⟩
      rw [n3, List.mem_cons]
      constructor
      · rintro ⟨h2, h3⟩; exact ⟨.inr h2, h3⟩
      · rintro ⟨rfl | h2, h3, h4⟩
        · exact absurd h1.symm h3
        · exact ⟨h2, h3, h4⟩
    · rw [if_neg h1]
      simp only [e1, e2, segCacheKey_eq]
      by_cases h2 : pairKey d o ∈ cache
      · obtain ⟨ns, n1, n2, n3⟩ := ih cache ho' hsm'
        refine ⟨ns, by rw [if_pos h2, n1], n2, fun x => ?_⟩
        rw [n3, List.mem_cons]
        constructor
        · rintro ⟨h3, h4⟩; exact ⟨.inr h3, h4⟩
        · rintro ⟨rfl | h3, h4, h5⟩
          · exact absurd h2 h5
          · exact ⟨h3, h4, h5⟩
      · obtain ⟨ns, n1, n2, n3⟩ := ih (cache ++ [pairKey d o]) ho' (fun x hx hlt => List.mem_append_left _ (hsm' x hx hlt))
        have hdo : d < o := by
          by_contra hc
          exact h2 (hsm o (by simp) (by omega))
        have p1 : (coordsOf ps).pt (d : Int) = .ok a := by
          have hlt := (List.getElem?_eq_some_iff.1 pa).1
          rw [coordsOf_pt ps d hlt, (List.getElem?_eq_some_iff.1 pa).2]
        have p2 : (coordsOf ps).pt ((d + 1 : Nat) : Int) = .ok b := by
          have hlt := (List.getElem?_eq_some_iff.1 pb).1
          rw [coordsOf_pt ps (d + 1) hlt, (List.getElem?_eq_some_iff.1 pb).2]
        have p3 : (coordsOf ps).pt (o : Int) = .ok a' := by
          have hlt := (List.getElem?_eq_some_iff.1 pa').1
          rw [coordsOf_pt ps o hlt, (List.getElem?_eq_some_iff.1 pa').2]
        have p4 : (coordsOf ps).pt ((o + 1 : Nat) : Int) = .ok b' := by
          have hlt := (List.getElem?_eq_some_iff.1 pb').1
          rw [coordsOf_pt ps (o + 1) hlt, (List.getElem?_eq_some_iff.1 pb').2]
        refine ⟨o :: ns, ?_, ?_, fun x => ?_⟩
        · rw [if_neg h2]
          simp only [p1, p2, p3, p4, Res.ok_bind, n1, Res.pure_eq, List.flatMap_cons, List.map_cons, List.append_assoc, List.singleton_append]
          have e3 : pairInters (lnr.segSeg a b a' b') (pairKey d o) = segReports lnr ps (d, o) := by
            have hmin : min d o = d := by omega
            have hmax : max d o = o := by omega
            simp only [segReports, seg, pa, pb, pa', pb', pairInters, pairKey, hmin, hmax]
            congr 1
            apply List.filter_congr
            intro x _
            cases x.2.1 <;> cases x.2.2 <;> rfl
          rw [e3]
        · rw [List.nodup_cons]
          refine ⟨fun hm => ?_, n2⟩
          exact ((n3 o).1 hm).2.2 (by simp)
        · rw [List.mem_cons, n3, List.mem_cons]
          constructor
          · rintro (rfl | ⟨h3, h4, h5⟩)
            · exact ⟨.inl rfl, fun h => h1 h.symm, h2⟩
            · exact ⟨.inr h3, h4, fun h => h5 (List.mem_append_left _ h)⟩
          · rintro ⟨rfl | h3, h4, h5⟩
            · exact .inl rfl
            · by_cases hxo : x = o
              · exact .inl hxo
              · refine .inr ⟨h3, h4, fun h => ?_⟩
                rcases List.mem_append.1 h with h | h
                · exact h5 h
                · rw [List.mem_singleton] at h
                  rcases pairKey_inj h with ⟨-, h⟩ | ⟨h, h'⟩
                  · exact hxo h
                  · omega

/-- C25.  The search returns.  There is a duplicate-free list of pairs of segments, namely of exactly the pairs `a < b` whose boxes meet, such that the
result consists of the required reports of each of these pairs, pair after pair. -/
theorem C25_nonplanar (hs : SearchSound lnr) {ps : List P} (h2 : 2 ≤ ps.length) :
    ∃ pairs : List (Nat × Nat), nonPlanarIntersection lnr (createPolyline (coordsOf ps)) = .ok (pairs.flatMap (segReports lnr ps)) ∧
      pairs.Nodup ∧ ∀ a b, (a, b) ∈ pairs ↔ a < b ∧ SegsMeet lnr ps a b := by
  obtain ⟨data, e, hl, hdat⟩ := segmentBounds_ok lnr ps (ps.length - 1) 0 (by omega)
  have hd : SegData lnr ps data := ⟨hl, fun t ht => by simpa using hdat t (by omega)⟩
  have hmeet : ∀ a b, a < data.length → (b ∈ lnr.segSearch data a ↔ SegsMeet lnr ps a b) := by
    intro a b ha
    obtain ⟨p, q, hp, hq, ea⟩ := hd.2 a ha
    rw [hs data a b _ ea]
    constructor
    · rintro ⟨t, ht, hi⟩
      have hb : b < data.length := (List.getElem?_eq_some_iff.1 ht).1
      obtain ⟨p', q', hp', hq', eb⟩ := hd.2 b hb
      rw [eb] at ht; cases ht
      exact ⟨(p, q), (p', q'), by simp [seg, hp, hq], by simp [seg, hp', hq'], hi⟩
    · rintro ⟨s, t, hs', ht', hi⟩
      have hb : b < data.length := by
        by_contra hc
        have : ps[b + 1]? = none := List.getElem?_eq_none (by rw [hd.1] at hc; omega)
        simp only [seg, this] at ht'
        split at ht' <;> simp_all
      obtain ⟨p', q', hp', hq', eb⟩ := hd.2 b hb
      simp only [seg, hp, hq, Option.some.injEq] at hs'
      simp only [seg, hp', hq', Option.some.injEq] at ht'
      subst hs'; subst ht'
      exact ⟨_, eb, hi⟩
  have hsymm : ∀ a b, SegsMeet lnr ps a b → SegsMeet lnr ps b a := by
    rintro a b ⟨s, t, h1, h2, h3⟩
    exact ⟨t, s, h2, h1, by rw [Box.intersects_comm]; exact h3⟩
  have hbound : ∀ a b, SegsMeet lnr ps a b → a < data.length ∧ b < data.length := by
    have key : ∀ a s, seg ps a = some s → a < data.length := by
      intro a s h
      by_contra hc
      have : ps[a + 1]? = none := List.getElem?_eq_none (by rw [hd.1] at hc; omega)
      simp only [seg, this] at h
      split at h <;> simp_all
    rintro a b ⟨s, t, h1, h2, -⟩
    exact ⟨key a s h1, key b t h2⟩
  have hout : ∀ (n d : Nat) (cache : List (List Int)), d + n = data.length →
      (∀ k, k ∈ cache ↔ ∃ a b, a < d ∧ a < b ∧ SegsMeet lnr ps a b ∧ k = pairKey a b) →
      ∃ (pairs : List (Nat × Nat)) (cache' : List (List Int)), nonPlanarOuter lnr (coordsOf ps) data (List.range' d n) cache =
          .ok (pairs.flatMap (segReports lnr ps), cache') ∧
        pairs.Nodup ∧ ∀ a b, (a, b) ∈ pairs ↔ d ≤ a ∧ a < b ∧ SegsMeet lnr ps a b := by
    intro n
    induction n with
    | zero =>
      intro d cache hdn _
      refine ⟨[], cache, rfl, by simp, fun a b => ?_⟩
      simp only [List.not_mem_nil, false_iff, not_and]
      intro h1 _ h3
      have := (hbound a b h3).1
      omega
    | succ n ih =>
      intro d cache hdn hc
      obtain ⟨ns, n1, n2, n3⟩ := inner_spec hd (d := d) (by omega) (lnr.segSearch data d) cache
        (fun o ho => (hbound d o ((hmeet d o (by omega)).1 ho)).2)
        (fun o ho hlt => (hc _).2 ⟨o, d, hlt, hlt, hsymm _ _ ((hmeet d o (by omega)).1 ho), by simp [pairKey, Nat.min_comm, Nat.max_comm]⟩)
      have hns : ∀ o, o ∈ ns ↔ d < o ∧ SegsMeet lnr ps d o := by
        intro o
        rw [n3, hmeet d o (by omega)]
        constructor
        · rintro ⟨h1, h2, h3⟩
          refine ⟨?_, h1⟩
          by_contra hc'
          exact h3 ((hc _).2 ⟨o, d, by omega, by omega, hsymm _ _ h1, by simp [pairKey, Nat.min_comm, Nat.max_comm]⟩)
        · rintro ⟨h1, h2⟩
          refine ⟨h2, by omega, fun hm => ?_⟩
          obtain ⟨a, b, q1, q2, q3, q4⟩ := (hc _).1 hm
          rcases pairKey_inj q4 with ⟨h, h'⟩ | ⟨h, h'⟩ <;> omega
      obtain ⟨pairs, cache', m1, m2, m3⟩ := ih (d + 1) (cache ++ ns.map (pairKey d)) (by omega) (by
        intro k
        rw [List.mem_append, hc, List.mem_map]
        constructor
        · rintro (⟨a, b, q1, q2, q3, q4⟩ | ⟨o, ho, rfl⟩)
          · exact ⟨a, b, by omega, q2, q3, q4⟩
          · have := (hns o).1 ho
            exact ⟨d, o, by omega, this.1, this.2, rfl⟩
        · rintro ⟨a, b, q1, q2, q3, q4⟩
          by_cases had : a = d
          · subst had
            exact .inr ⟨b, (hns b).2 ⟨q2, q3⟩, q4.symm⟩
          · exact .inl ⟨a, b, by omega, q2, q3, q4⟩)
      refine ⟨ns.map (fun o => (d, o)) ++ pairs, cache', ?_, ?_, ?_⟩
      · simp only [List.range'_succ, nonPlanarOuter, n1, m1, Res.ok_bind, Res.pure_eq, List.flatMap_append, List.flatMap_map]
      · rw [List.nodup_append]
        refine ⟨n2.map (fun a b h => by simpa using h), m2, ?_⟩
        rintro ⟨a, b⟩ hx ⟨a', b'⟩ hy heq
        cases heq
        obtain ⟨o, -, he⟩ := List.mem_map.1 hx
        cases he
        have := ((m3 d b).1 hy).1
        omega
      · intro a b
        rw [List.mem_append, m3, List.mem_map]
        constructor
        · rintro (⟨o, ho, he⟩ | ⟨q1, q2, q3⟩)
          · cases he
            have := (hns b).1 ho
            exact ⟨Nat.le_refl _, this.1, this.2⟩
          · exact ⟨by omega, q2, q3⟩
        · rintro ⟨q1, q2, q3⟩
          by_cases had : a = d
          · subst had
            exact .inl ⟨b, (hns b).2 ⟨q2, q3⟩, rfl⟩
          · exact .inr ⟨by omega, q2, q3⟩
  obtain ⟨pairs, cache', o1, o2, o3⟩ := hout data.length 0 [] (by omega) (by simp)
  have hlen2 : ((coordsOf ps).len - 1).toNat = ps.length - 1 := by rw [coordsOf_len]; omega
  refine ⟨pairs, ?_, o2, fun a b => by rw [o3]; simp⟩
  simp only [nonPlanarIntersection, polyline_coordinates h2, hlen2, e, Res.ok_bind, List.range_eq_range', o1, Res.pure_eq]

/-- each report of C25 names the four ends of its two segments, ascending; for segments that follow each other these are three indices -/
theorem C25_ends (lnr : LnrLib P B) (ps : List P) (a b : Nat) : ∀ i ∈ segReports lnr ps (a, b),
    i.kind = .nonPlanarVertex ∧ i.nonPlanar.Pairwise (· < ·) ∧ ∀ v : Int, v ∈ i.nonPlanar ↔ v = a ∨ v = a + 1 ∨ v = b ∨ v = b + 1 := by
  intro i hi
  simp only [segReports] at hi
  split at hi
  · obtain ⟨p, -, rfl⟩ := List.mem_map.1 hi
    refine ⟨rfl, ?_, fun v => ?_⟩
    · have h1 := List.pairwise_insertionSort (· ≤ ·) ([(a : Int), a + 1, b, b + 1]).dedup
      have h3 : (sortedIntsSet [(a : Int), a + 1, b, b + 1]).Nodup := (List.perm_insertionSort _ _).nodup_iff.2 (List.nodup_dedup _)
      exact (h1.and h3).imp (fun hab => lt_of_le_of_ne hab.1 hab.2)
    · simp only []
      rw [sortedIntsSet, (List.perm_insertionSort _ _).mem_iff, List.mem_dedup]
      simp
  · cases hi

/-! ### a concrete case: a line of heights, segments as intervals -/

/-- segments on a number line; two segments that properly overlap are said to meet in the larger of their lower ends -/
def overlapLnr : LnrLib Int Int where
  sortV l := l
  segBox a b := ⟨min a b, 0, max a b, 0⟩
  segSeg a b c d := [(max (min a b) (min c d), decide (b = c), decide (a = c))]
  segSearch data d := match data[d]? with
    | some s => (List.range data.length).filter (fun o => match data[o]? with | some t => s.box.intersects t.box | none => false)
    | none => []

theorem overlap_sound : SearchSound overlapLnr := by
  intro data d o s hs
  simp only [overlapLnr, hs, List.mem_filter, List.mem_range]
  constructor
  · rintro ⟨h1, h2⟩
    rw [List.getElem?_eq_getElem h1] at h2 ⊢
    exact ⟨_, rfl, h2⟩
  · rintro ⟨t, h1, h2⟩
    exact ⟨(List.getElem?_eq_some_iff.1 h1).1, by rw [h1]; exact h2⟩

/-- segments 0-1, 1-2, 2-3 of the line 0 10 4 20: consecutive segments share a vertex (not reported), segments 0 and 2 overlap from 4 on -/
example : nonPlanarIntersection overlapLnr (createPolyline (coordsOf [0, 10, 4, 20])) =
    .ok [⟨4, .nonPlanarVertex, [], [0, 1, 2, 3]⟩] := by decide +kernel

end Verif
