import Verif.Lemmas.Lnr

/-! C23, C24, C25: what package `lnr` reports. -/

set_option linter.unusedSectionVars false

namespace Verif

variable {P C B K : Type}

/-- the vertices of a line with their positions -/
def lineVertices (fid : Int) (ps : List P) : List (Vtx P) := ps.zipIdx.map (fun x => ⟨x.1, x.2, fid⟩)

theorem mem_lineVertices {fid : Int} {ps : List P} {v : Vtx P} : v ∈ lineVertices fid ps ↔ ∃ i : Nat, ps[i]? = some v.pt ∧ v.index = i ∧ v.fid = fid := by
  simp only [lineVertices, List.mem_map]
  constructor
  · rintro ⟨⟨p, i⟩, h, rfl⟩
    exact ⟨i, List.mem_zipIdx_iff_getElem?.1 h, rfl, rfl⟩
  · rintro ⟨i, h1, h2, h3⟩
    exact ⟨(v.pt, i), List.mem_zipIdx_iff_getElem?.2 h1, by cases v; simp_all⟩

theorem lineVertices_index_nodup (fid : Int) (ps : List P) : ((lineVertices fid ps).map Vtx.index).Nodup := by
  have : (lineVertices fid ps).map Vtx.index = (List.range ps.length).map (fun n : Nat => (n : Int)) := by
    rw [lineVertices, List.map_map]
    have : (Vtx.index ∘ fun x : P × Nat => (⟨x.1, x.2, fid⟩ : Vtx P)) = (fun n : Nat => (n : Int)) ∘ Prod.snd := rfl
    rw [this, ← List.map_map, List.zipIdx_map_snd, List.range_eq_range']
  rw [this]
  exact List.Nodup.map (fun a b h => by simpa using h) List.nodup_range

/-- assumptions about coordinate equality and sorting: coordinate equality is an equality, and after sorting equal vertices are neighbours -/
structure SortSound (lib : Lib P C B K) (lnr : LnrLib P B) : Prop where
  eq : EqLike lib.equals2D
  perm : ∀ l, (lnr.sortV l).Perm l
  contig : ∀ l, Contig (fun a b : Vtx P => lib.equals2D a.pt b.pt) (lnr.sortV l)

/-- the assumptions hold for exact equality and any sorting by a total order of the points -/
theorem SortSound.of_exact [LinearOrder P] {lib : Lib P C B K} {lnr : LnrLib P B} (heq : ∀ p q, lib.equals2D p q = true ↔ p = q)
    (hperm : ∀ l, (lnr.sortV l).Perm l) (hsort : ∀ l, (lnr.sortV l).Pairwise (fun a b => a.pt ≤ b.pt)) : SortSound lib lnr := by
  refine ⟨⟨fun a => (heq a a).2 rfl, fun a b h => ?_, fun a b c h1 h2 => ?_⟩, hperm, fun l a b c hs h => ?_⟩
  · rw [heq] at *; exact h.symm
  · rw [heq] at *; exact h1.trans h2
  · rw [heq] at *
    have := (hsort l).sublist hs
    simp only [List.pairwise_cons, List.mem_cons, List.not_mem_nil, or_false, forall_eq_or_imp, forall_eq] at this
    exact le_antisymm this.1.1 (h ▸ this.2.1)

theorem nodup_length_two {α : Type} {l : List α} (h : l.Nodup) : 2 ≤ l.length ↔ ∃ a ∈ l, ∃ b ∈ l, a ≠ b := by
  match l, h with
  | [], _ => simp
  | [a], _ => simp
  | a :: b :: l, h =>
    simp only [List.length_cons, Nat.le_add_left, true_iff]
    refine ⟨a, by simp, b, by simp, ?_⟩
    rintro rfl
    simp at h

variable {lib : Lib P C B K} {lnr : LnrLib P B}

theorem mem_sortedIntsSet' {l : List Int} {x : Int} : x ∈ sortedIntsSet l ↔ x ∈ l := by
  rw [sortedIntsSet, (List.perm_insertionSort _ _).mem_iff, List.mem_dedup]

theorem planarIntersects_eq (lib : Lib P C B K) (lnr : LnrLib P B) {ps : List P} (h2 : 2 ≤ ps.length) :
    planarIntersects lib lnr (createPolyline (coordsOf ps)) = .ok (planarLoop lib.equals2D (lnr.sortV (lineVertices nullFId ps)) 0 []) := by
  have hv := verticesOf_ok ps nullFId ps.length 0 (by omega)
  have hlen : (coordsOf ps).len.toNat = ps.length := by rw [coordsOf_len]; simp
  simp only [planarIntersects, polyline_coordinates h2, Res.ok_bind, hlen, hv, Res.pure_eq, List.drop_zero, List.take_length, lineVertices]

/-- C23 (partial: the location that sorts last is never reported, see `C23_refuted`).  The search returns; each report is a location of the line
with the strictly increasing list of exactly the indices visiting it, at least two; locations are reported once; and every location visited by two
different vertices is reported unless it is the location that sorts last. -/
theorem C23_planar_partial (h : SortSound lib lnr) {ps : List P} (h2 : 2 ≤ ps.length) :
    ∃ inters top, planarIntersects lib lnr (createPolyline (coordsOf ps)) = .ok inters ∧
      (lnr.sortV (lineVertices nullFId ps)).getLast? = some top ∧
      (∀ i ∈ inters, i.kind = .planarVertex ∧ i.planar.Pairwise (· < ·) ∧ 2 ≤ i.planar.length ∧ lib.equals2D i.pt top.pt = false ∧
        (∃ k : Nat, ps[k]? = some i.pt) ∧
        ∀ v : Int, v ∈ i.planar ↔ ∃ (k : Nat) (q : P), v = k ∧ ps[k]? = some q ∧ lib.equals2D i.pt q = true) ∧
      inters.Pairwise (fun i j => lib.equals2D i.pt j.pt = false) ∧
      (∀ (k l : Nat) (p q : P), k ≠ l → ps[k]? = some p → ps[l]? = some q → lib.equals2D p q = true → lib.equals2D p top.pt = false →
        ∃ i ∈ inters, lib.equals2D i.pt p = true) := by
  have hr := h.eq.comap (Vtx.pt (P := P))
  have hc := h.contig (lineVertices nullFId ps)
  have hperm := h.perm (lineVertices nullFId ps)
  set s := lnr.sortV (lineVertices nullFId ps) with hs
  have hne : s ≠ [] := by
    intro h0
    have := hperm.length_eq
    rw [h0] at this
    simp [lineVertices] at this
    omega
  obtain ⟨top, htop⟩ : ∃ top, s.getLast? = some top := ⟨_, List.getLast?_eq_some_getLast hne⟩
  have hnd : (s.map Vtx.index).Nodup := (hperm.map Vtx.index).nodup_iff.2 (lineVertices_index_nodup _ _)
  have hmem : ∀ i, i ∈ planarLoop lib.equals2D s 0 [] ↔ ∃ x ∈ s, lib.equals2D x.pt top.pt = false ∧
      2 ≤ (s.filter (fun y => lib.equals2D x.pt y.pt)).length ∧ planarReport (s.filter (fun y => lib.equals2D x.pt y.pt)) = some i := by
    intro i
    rw [planarLoop_runs, List.mem_filterMap]
    constructor
    · rintro ⟨m, hm, hrep⟩
      obtain ⟨hm1, hm2⟩ := List.mem_filter.1 hm
      obtain ⟨x, hx, rfl, hxt⟩ := (mem_dropLast_runs hr hc htop m).1 hm1
      exact ⟨x, hx, hxt, by simpa using hm2, hrep⟩
    · rintro ⟨x, hx, hxt, hl, hrep⟩
      exact ⟨_, List.mem_filter.2 ⟨(mem_dropLast_runs hr hc htop _).2 ⟨x, hx, rfl, hxt⟩, by simpa using hl⟩, hrep⟩
  have hreport : ∀ x i, planarReport (s.filter (fun y => lib.equals2D x y.pt)) = some i → ∃ z ∈ s, lib.equals2D x z.pt = true ∧
      i = ⟨z.pt, .planarVertex, sortedIntsSet ((s.filter (fun y => lib.equals2D x y.pt)).map Vtx.index), []⟩ := by
    intro x i hi
    simp only [planarReport, Option.map_eq_some_iff] at hi
    obtain ⟨z, hz, rfl⟩ := hi
    obtain ⟨hz1, hz2⟩ := List.mem_filter.1 (List.mem_of_getLast? hz)
    exact ⟨z, hz1, hz2, rfl⟩
  refine ⟨_, top, planarIntersects_eq lib lnr h2, htop, ?_, ?_, ?_⟩
  · intro i hi
    obtain ⟨x, hx, hxt, hl, hrep⟩ := (hmem i).1 hi
    obtain ⟨z, hz, hxz, rfl⟩ := hreport x.pt i hrep
    have hmv : ∀ v : Int, v ∈ sortedIntsSet ((s.filter (fun y => lib.equals2D x.pt y.pt)).map Vtx.index) ↔
        ∃ (k : Nat) (q : P), v = k ∧ ps[k]? = some q ∧ lib.equals2D z.pt q = true := by
      intro v
      rw [mem_sortedIntsSet', List.mem_map]
      constructor
      · rintro ⟨y, hy, rfl⟩
        obtain ⟨hy1, hy2⟩ := List.mem_filter.1 hy
        obtain ⟨k, hk, hki, -⟩ := mem_lineVertices.1 (hperm.mem_iff.1 hy1)
        exact ⟨k, y.pt, hki, hk, h.eq.trans _ _ _ (h.eq.symm _ _ hxz) hy2⟩
      · rintro ⟨k, q, rfl, hk, hq⟩
        exact ⟨⟨q, k, nullFId⟩, List.mem_filter.2 ⟨hperm.mem_iff.2 (mem_lineVertices.2 ⟨k, hk, rfl, rfl⟩), h.eq.trans _ _ _ hxz hq⟩, rfl⟩
    refine ⟨rfl, ?_, ?_, ?_, ?_, hmv⟩
    · have h1 := List.pairwise_insertionSort (· ≤ ·) ((s.filter (fun y => lib.equals2D x.pt y.pt)).map Vtx.index).dedup
      have h3 : (sortedIntsSet ((s.filter (fun y => lib.equals2D x.pt y.pt)).map Vtx.index)).Nodup :=
        (List.perm_insertionSort _ _).nodup_iff.2 (List.nodup_dedup _)
      exact (h1.and h3).imp (fun hab => lt_of_le_of_ne hab.1 hab.2)
    · have hsub : ((s.filter (fun y => lib.equals2D x.pt y.pt)).map Vtx.index).Nodup := hnd.sublist (List.filter_sublist.map _)
      have : (sortedIntsSet ((s.filter (fun y => lib.equals2D x.pt y.pt)).map Vtx.index)).length =
          (s.filter (fun y => lib.equals2D x.pt y.pt)).length := by
        rw [sortedIntsSet, (List.perm_insertionSort _ _).length_eq, List.Nodup.dedup hsub, List.length_map]
      rw [this]; exact hl
    · cases hzt : lib.equals2D z.pt top.pt with
      | false => rfl
      | true => rw [h.eq.trans _ _ _ hxz hzt] at hxt; cases hxt
    · obtain ⟨k, hk, -⟩ := mem_lineVertices.1 (hperm.mem_iff.1 hz)
      exact ⟨k, hk⟩
  · have hp := runs_pairwise hr (s.splitBy (fun a b : Vtx P => lib.equals2D a.pt b.pt)) (List.nil_notMem_splitBy _ s)
      (List.isChain_getLast_head_splitBy (fun a b : Vtx P => lib.equals2D a.pt b.pt) s) (by rw [List.flatten_splitBy]; exact hc)
    rw [planarLoop_runs]
    refine List.Pairwise.filterMap planarReport (R := fun m n => ∀ x ∈ m, ∀ y ∈ n, lib.equals2D x.pt y.pt = false) ?_
      ((hp.sublist (List.dropLast_sublist _)).filter _)
    intro m n hmn i hi j hj
    simp only [planarReport, Option.map_eq_some_iff] at hi hj
    obtain ⟨a, ha, rfl⟩ := hi
    obtain ⟨b, hb, rfl⟩ := hj
    exact hmn a (List.mem_of_getLast? ha) b (List.mem_of_getLast? hb)
  · intro k l p q hkl hk hlq hpq hpt
    have hpm : (⟨p, k, nullFId⟩ : Vtx P) ∈ s := hperm.mem_iff.2 (mem_lineVertices.2 ⟨k, hk, rfl, rfl⟩)
    have hqm : (⟨q, l, nullFId⟩ : Vtx P) ∈ s := hperm.mem_iff.2 (mem_lineVertices.2 ⟨l, hlq, rfl, rfl⟩)
    have hlen : 2 ≤ (s.filter (fun y => lib.equals2D p y.pt)).length := by
      refine (nodup_length_two (hnd.of_map.sublist List.filter_sublist)).2
        ⟨⟨p, k, nullFId⟩, List.mem_filter.2 ⟨hpm, h.eq.refl p⟩, ⟨q, l, nullFId⟩, List.mem_filter.2 ⟨hqm, hpq⟩, ?_⟩
      intro hc'
      simp only [Vtx.mk.injEq] at hc'
      omega
    have hne' : s.filter (fun y => lib.equals2D p y.pt) ≠ [] := by intro h0; rw [h0] at hlen; simp at hlen
    obtain ⟨i, hi⟩ : ∃ i, planarReport (s.filter (fun y => lib.equals2D p y.pt)) = some i :=
      ⟨_, by rw [planarReport, List.getLast?_eq_some_getLast hne', Option.map_some]⟩
    obtain ⟨z, hz, hpz, rfl⟩ := hreport p i hi
    exact ⟨_, (hmem _).2 ⟨_, hpm, hpt, hlen, hi⟩, h.eq.symm _ _ hpz⟩

/-- C23 is false as stated: whatever the line, the location that sorts last is not reported, however often it is visited. -/
theorem C23_last_never_reported (h : SortSound lib lnr) {ps : List P} (h2 : 2 ≤ ps.length) :
    ∃ (inters : List (Inter P)) (k : Nat) (q : P), planarIntersects lib lnr (createPolyline (coordsOf ps)) = .ok inters ∧ ps[k]? = some q ∧ ∀ i ∈ inters, lib.equals2D i.pt q = false := by
  obtain ⟨inters, top, h1, h3, h4, -, -⟩ := C23_planar_partial h h2
  obtain ⟨k, hk, -⟩ := mem_lineVertices.1 ((h.perm _).mem_iff.1 (List.mem_of_getLast? h3))
  exact ⟨inters, k, top.pt, h1, hk, fun i hi => (h4 i hi).2.2.2.1⟩

/-! ### C24 -/

/-- the vertices of all features -/
def classVertices (fs : List (List P × Int)) : List (Vtx P) := fs.flatMap (fun f => lineVertices f.2 f.1)

theorem fcVertices_eq (fs : List (List P × Int)) : fcVertices (fs.map (fun f => (coordsOf f.1, f.2))) = .ok (classVertices fs) := by
  induction fs with
  | nil => rfl
  | cons f fs ih =>
    have hv := verticesOf_ok f.1 f.2 f.1.length 0 (by omega)
    have hlen : (coordsOf f.1).len.toNat = f.1.length := by rw [coordsOf_len]; simp
    simp only [List.map_cons, fcVertices, hlen, hv, ih, Res.ok_bind, Res.pure_eq, List.drop_zero, List.take_length, classVertices, List.flatMap_cons,
      lineVertices]

/-- C24 (partial: vertices at the location that sorts last are missing, see `C24_last_never_reported`).  A (feature, index) pair is reported exactly when it is
a vertex of that feature, some vertex at another position of the class has the same location, and the location is not the one that sorts last. -/
theorem C24_junctions_partial (h : SortSound lib lnr) (fs : List (List P × Int)) {top : Vtx P}
    (htop : (lnr.sortV (classVertices fs)).getLast? = some top) :
    ∃ entries, fcPlanarSelfIntersection lib lnr (fs.map (fun f => (coordsOf f.1, f.2))) = .ok entries ∧
      ∀ f i, (f, i) ∈ entries ↔ ∃ v w rest, (classVertices fs).Perm (v :: w :: rest) ∧ v.fid = f ∧ v.index = i ∧ lib.equals2D v.pt w.pt = true ∧
        lib.equals2D v.pt top.pt = false := by
  have hr := h.eq.comap (Vtx.pt (P := P))
  have hc := h.contig (classVertices fs)
  have hperm := h.perm (classVertices fs)
  refine ⟨fcLoop lib.equals2D (lnr.sortV (classVertices fs)) 0 [], by simp only [fcPlanarSelfIntersection, fcVertices_eq, Res.ok_bind, Res.pure_eq], ?_⟩
  set s := lnr.sortV (classVertices fs) with hs
  intro f i
  rw [fcLoop_runs, List.mem_flatMap]
  constructor
  · rintro ⟨m, hm, hmv⟩
    obtain ⟨hm1, hm2⟩ := List.mem_filter.1 hm
    obtain ⟨x, hx, rfl, hxt⟩ := (mem_dropLast_runs hr hc htop m).1 hm1
    obtain ⟨v, hv, hve⟩ := List.mem_map.1 hmv
    cases hve
    have hv2 := (List.mem_filter.1 hv).2
    obtain ⟨u1, u2, hu⟩ := List.append_of_mem hv
    obtain ⟨l1, hl1⟩ : ∃ l1, (s.filter (fun y => lib.equals2D x.pt y.pt)).Perm (v :: l1) := ⟨u1 ++ u2, hu ▸ List.perm_middle⟩
    have hlen : 0 < l1.length := by
      have := hl1.length_eq
      simp only [List.length_cons, decide_eq_true_eq] at this hm2
      omega
    obtain ⟨w, l2, rfl⟩ := List.exists_cons_of_length_pos hlen
    have hw : w ∈ s.filter (fun y => lib.equals2D x.pt y.pt) := hl1.mem_iff.2 (by simp)
    have hw2 := (List.mem_filter.1 hw).2
    refine ⟨v, w, l2 ++ s.filter (fun y => !lib.equals2D x.pt y.pt), ?_, rfl, rfl, h.eq.trans _ _ _ (h.eq.symm _ _ hv2) hw2, ?_⟩
    · refine hperm.symm.trans ((List.filter_append_perm (fun y => lib.equals2D x.pt y.pt) s).symm.trans ?_)
      exact hl1.append_right _
    · cases hvt : lib.equals2D v.pt top.pt with
      | false => rfl
      | true => rw [h.eq.trans _ _ _ hv2 hvt] at hxt; cases hxt
  · rintro ⟨v, w, rest, hp, rfl, rfl, hvw, hvt⟩
    have hps := hperm.trans hp
    have hv : v ∈ s := hps.mem_iff.2 (by simp)
    refine ⟨s.filter (fun y => lib.equals2D v.pt y.pt), List.mem_filter.2 ⟨(mem_dropLast_runs hr hc htop _).2 ⟨v, hv, rfl, hvt⟩, ?_⟩,
      List.mem_map.2 ⟨v, List.mem_filter.2 ⟨hv, h.eq.refl _⟩, rfl⟩⟩
    have := (hps.filter (fun y => lib.equals2D v.pt y.pt)).length_eq
    rw [decide_eq_true_eq, this]
    simp [h.eq.refl v.pt, hvw]

/-- C24 is false as stated: no vertex at the location that sorts last is reported, even if all features meet there. -/
theorem C24_last_never_reported (h : SortSound lib lnr) (fs : List (List P × Int)) {top : Vtx P}
    (htop : (lnr.sortV (classVertices fs)).getLast? = some top) :
    ∃ entries, fcPlanarSelfIntersection lib lnr (fs.map (fun f => (coordsOf f.1, f.2))) = .ok entries ∧
      ∀ f i, (f, i) ∈ entries → ∃ v ∈ classVertices fs, v.fid = f ∧ v.index = i ∧ lib.equals2D v.pt top.pt = false := by
  obtain ⟨entries, h1, h2⟩ := C24_junctions_partial h fs htop
  refine ⟨entries, h1, fun f i hfi => ?_⟩
  obtain ⟨v, w, rest, hp, hf, hi, -, hvt⟩ := (h2 f i).1 hfi
  exact ⟨v, hp.mem_iff.2 (by simp), hf, hi, hvt⟩

/-- C24 (partial as `C24_junctions_partial`), what a feature gets: the junctions looked up under the identifier of a feature are exactly the vertices of
features with that identifier that meet another vertex of the class, at a location that is not the one that sorts last. -/
theorem C24_feature_partial (h : SortSound lib lnr) (fs : List (List P × Int)) {top : Vtx P}
    (htop : (lnr.sortV (classVertices fs)).getLast? = some top) :
    ∃ entries, fcPlanarSelfIntersection lib lnr (fs.map (fun f => (coordsOf f.1, f.2))) = .ok entries ∧
      ∀ f i, i ∈ junctionsOf entries f ↔ ∃ v w rest, (classVertices fs).Perm (v :: w :: rest) ∧ v.fid = f ∧ v.index = i ∧ lib.equals2D v.pt w.pt = true ∧
        lib.equals2D v.pt top.pt = false := by
  obtain ⟨entries, h1, h2⟩ := C24_junctions_partial h fs htop
  refine ⟨entries, h1, fun f i => ?_⟩
  rw [← h2]
  simp only [junctionsOf, List.mem_map, List.mem_filter, decide_eq_true_eq]
  constructor
  · rintro ⟨⟨a, b⟩, ⟨h3, rfl⟩, rfl⟩; exact h3
  · intro h3; exact ⟨(f, i), ⟨h3, rfl⟩, rfl⟩

/-! ### concrete cases -/

/-- points on a line with exact equality and insertion sort -/
def demoLnr : LnrLib Int Int where
  sortV l := l.insertionSort (fun a b => a.pt ≤ b.pt)
  segBox a b := ⟨min a b, 0, max a b, 0⟩
  segSeg _ _ _ _ := []
  segSearch data _ := List.range data.length

def eqLib : Lib Int Unit Int Int where
  convexHull c := c
  bounds _ := ⟨0, 0, 0, 0⟩
  intersects _ _ := false
  intersection _ _ := []
  distance _ _ := .fin 0
  boxDistance _ _ := .fin 0
  ptInRing _ _ := false
  equals2D a b := a == b
  ptDistance _ _ := .fin 0

theorem demo_sortSound : SortSound eqLib demoLnr := by
  refine SortSound.of_exact (fun p q => by simp [eqLib]) (fun l => List.perm_insertionSort _ l) (fun l => ?_)
  have : Std.Total (α := Vtx Int) (fun a b => a.pt ≤ b.pt) := ⟨fun a b => le_total a.pt b.pt⟩
  have : IsTrans (Vtx Int) (fun a b => a.pt ≤ b.pt) := ⟨fun a b c h1 h2 => le_trans (a := a.pt) h1 h2⟩
  exact List.pairwise_insertionSort _ l

/-- the line 5 2 9 2 5 2 9: location 2 (visited three times) and 5 are reported, 9 (visited twice) is not -/
example : planarIntersects eqLib demoLnr (createPolyline (coordsOf [5, 2, 9, 2, 5, 2, 9])) =
    .ok [⟨2, .planarVertex, [1, 3, 5], []⟩, ⟨5, .planarVertex, [0, 4], []⟩] := by decide +kernel

/-- C23 refuted: a line visiting a location twice that is not reported -/
theorem C23_refuted : ∃ ps : List Int, 2 ≤ ps.length ∧ ps[0]? = ps[2]? ∧ SortSound eqLib demoLnr ∧
    planarIntersects eqLib demoLnr (createPolyline (coordsOf ps)) = .ok [] :=
  ⟨[9, 2, 9], by decide, rfl, demo_sortSound, by decide +kernel⟩

/-- C24 refuted: two features sharing a vertex that is not reported -/
theorem C24_refuted : ∃ fs : List (List Int × Int), (∃ f ∈ fs, ∃ f' ∈ fs, f.2 ≠ f'.2 ∧ f.1.getLast? = f'.1.head?) ∧
    fcPlanarSelfIntersection eqLib demoLnr (fs.map (fun f => (coordsOf f.1, f.2))) = .ok [] :=
  ⟨[([1, 9], 7), ([9, 3], 8)], by decide +kernel, by decide +kernel⟩

/-- three features meeting at 5, two of them also at 9: only the junction at 5 is reported -/
example : fcPlanarSelfIntersection eqLib demoLnr ([([1, 5, 9], 7), ([5, 9], 8), ([0, 5], 9)].map (fun f => (coordsOf f.1, f.2))) =
    .ok [(7, 1), (8, 0), (9, 1)] := by decide +kernel
example : junctionsOf [(7, 1), (8, 0), (9, 1)] 8 = [0] := by decide

example : (demoLnr.sortV (classVertices [([1, 5, 9], 7), ([5, 9], 8), ([0, 5], 9)])).getLast? = some ⟨9, 1, 8⟩ := by decide +kernel

end Verif
