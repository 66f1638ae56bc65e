import Verif.Lemmas.SplitMerge
import Verif.Lemmas.HdbYields
import Verif.Props.C26_Relate

/-! The deformation stage: neighbours, selection, validation, one round and the loop. -/

set_option linter.unusedSectionVars false

namespace Verif

variable {P C B K : Type} [LinearOrder B] [BoundedOrder B] [LinearOrder K]
variable {env : Env P C B K} {pts : Int → List P} {hs : List Int} {src : Int → Prop} {ids : Nat → Int} {g : Nat}

/-- an index of pieces made by the operations, with the capacity the code uses -/
structure DbOK (db : Db P C B) : Prop where
  wf : Hdb.TreeWF nodeOps db
  cap : db.maxE = maxEntries Hdb.defaultCap

/-! ### facts about pieces -/

theorem IsPiece.segmentPoints_ok {lib : Lib P C B K} {ps : List P} {k : Int} {nd : Node P C B} (h : IsPiece lib ps k nd) (h0 : 0 ≤ nd.range.I)
    (h1 : nd.range.I < nd.range.J) (h2 : nd.range.J < ps.length) : ∃ ab, nd.segmentPoints = .ok ab := by
  have hl : nd.coords.len = nd.range.J + 1 - nd.range.I := by rw [h.coords]; exact Coords.len_sub _ _ _ (by omega)
  obtain ⟨a, ha, _⟩ := Coords.pt_sub_ok (pts := ps) (i := nd.range.I) (j := nd.range.J) (k := 0) (by omega) (by omega) h0 h2
  obtain ⟨b, hb, _⟩ := Coords.pt_sub_ok (pts := ps) (i := nd.range.I) (j := nd.range.J) (k := nd.coords.len - 1) (by omega) (by omega) h0 h2
  rw [← h.coords] at ha hb
  exact ⟨(a, b), by simp only [Node.segmentPoints, Coords.first, Coords.last, ha, hb, Res.ok_bind, Res.pure_eq]⟩

/-- the vertices of a piece -/
theorem IsPiece.vertices {lib : Lib P C B K} {ps : List P} {k : Int} {nd : Node P C B} (h : IsPiece lib ps k nd) (h0 : 0 ≤ nd.range.I)
    (h1 : nd.range.I < nd.range.J) (h2 : nd.range.J < ps.length) :
    ∃ vs : List P, nd.coords.len = vs.length ∧ 2 ≤ vs.length ∧ ∀ k (hk : k < vs.length), nd.coords.pt k = .ok vs[k] := by
  have hl : nd.coords.len = nd.range.J + 1 - nd.range.I := by rw [h.coords]; exact Coords.len_sub _ _ _ (by omega)
  have hlen : ((ps.drop nd.range.I.toNat).take (nd.range.J + 1 - nd.range.I).toNat).length = (nd.range.J + 1 - nd.range.I).toNat := by
    rw [List.length_take, List.length_drop]; omega
  refine ⟨(ps.drop nd.range.I.toNat).take (nd.range.J + 1 - nd.range.I).toNat, by rw [hl, hlen]; omega, by rw [hlen]; omega, ?_⟩
  intro k hk
  rw [hlen] at hk
  rw [h.coords, Coords.pt_sub (by omega) (by omega) h0]
  have hlt : (nd.range.I + (k : Int)).toNat < ps.length := by omega
  rw [List.getElem?_eq_getElem hlt]
  simp only [List.getElem_take, List.getElem_drop, Res.ofOption]
  congr 2; omega

theorem Pieces.valid {l : List (Node P C B)} (h : Pieces env pts hs src ids g l) (hi : ∀ k ∈ hs, InstOK env k (pts k)) {nd : Node P C B} (hnd : nd ∈ l) :
    nd.mbr.Valid := by
  obtain ⟨b0, b1, b2⟩ := h.bounds hnd
  obtain ⟨h1, h2⟩ := h.piece nd hnd
  rw [h2.mbr]
  exact (hi _ h1).box _ _ b0 b1 b2 _ h2.geom

/-- membership in a cover, unbundled: what the predicates below need of a piece -/
structure Known (env : Env P C B K) (pts : Int → List P) (hs : List Int) (nd : Node P C B) : Prop where
  inst : nd.inst ∈ hs
  piece : IsPiece env.lib (pts nd.inst) nd.inst nd
  lo : 0 ≤ nd.range.I
  lt : nd.range.I < nd.range.J
  hi : nd.range.J < (pts nd.inst).length

theorem Pieces.known {l : List (Node P C B)} (h : Pieces env pts hs src ids g l) {nd : Node P C B} (hnd : nd ∈ l) : Known env pts hs nd :=
  ⟨(h.piece nd hnd).1, (h.piece nd hnd).2, (h.bounds hnd).1, (h.bounds hnd).2.1, (h.bounds hnd).2.2⟩

/-! ### neighbours and validation -/

theorem neighboursOf_yields {db : Db P C B} (hd : DbOK db) (hv : ∀ x ∈ Hdb.contents db, x.mbr.Valid) (hull : Node P C B) :
    ∃ ns, Yields (neighboursOf env db hull) ns ∧ ns.Perm ((Hdb.contents db).filter
      (fun x => x.id ≠ hull.id ∧ hull.mbr.intersects x.mbr = true ∧ (env.lib.distance x.geom hull.geom).le env.eps = true)) := by
  obtain ⟨out, ⟨N, hN⟩, p⟩ := Hdb.search_yields hd.wf hv (nodeOps.mbr hull)
  refine ⟨out.filter (fun nd => nodeOps.id nd ≠ nodeOps.id hull ∧ (env.lib.distance nd.geom hull.geom).le env.eps),
    ⟨N, fun fuel hf => ?_⟩, (p.filter _).trans (List.Perm.of_eq ?_)⟩
  · simp only [neighboursOf, Hdb.nodeNeighbours, hN fuel hf, Res.ok_bind, Res.pure_eq]
  · rw [List.filter_filter]
    apply List.filter_congr
    intro x _
    simp only [nodeOps]
    rw [Bool.eq_iff_iff]
    simp; grind

theorem validate_yields (he : EnvOK env) {hull : Node P C B} {k : Int} (hi : InstOK env k (pts k)) (hk : Known env pts hs hull) :
    ∃ b, Yields (validateContextRelation env hull (env.inst k)) b := by
  obtain ⟨near, hl, hmono⟩ := he.heap
  by_cases hopt : ((env.inst k).opts.geomRelation || (env.inst k).opts.distRelation || (env.inst k).opts.dirRelation) = true
  swap
  · exact ⟨true, 0, fun fuel _ => by simp [validateContextRelation, hopt]⟩
  obtain ⟨out, ⟨N, hN⟩, -⟩ := Hdb.contextNeighbours_yields (strong := False) hi.ctx hl hmono (fun h => h.elim) (env.inst k).opts.minDist
    (boxDist := env.lib.boxDistance hull.geom) (itemDist := fun nd => env.lib.distance hull.geom nd.geom)
  obtain ⟨vs, v1, v2, v3⟩ := hk.piece.vertices hk.lo hk.lt hk.hi
  obtain ⟨b, M, hM⟩ := C29_terminates env.lib v1 v2 v3 (out.map Node.geom)
  refine ⟨(!(env.inst k).opts.geomRelation || isGeomRelateValid env.lib hull (out.map Node.geom)) &&
      (!(env.inst k).opts.distRelation || isDistRelateValid env.lib (env.inst k).opts.minDist hull (out.map Node.geom)) &&
      (!(env.inst k).opts.dirRelation || b), max N M, fun fuel hf => ?_⟩
  simp only [validateContextRelation, hopt, Bool.not_true, Bool.false_eq_true, if_false, hN fuel (by omega), Res.ok_bind, isDirRelateValid,
    hM fuel (by omega)]
  have key : ∀ (b f x : Bool), andThen b f (.ok x) = .ok (b && (!f || x)) := by intro b f x; cases b <;> cases f <;> simp [andThen]
  simp only [key, Res.ok_bind, Bool.true_and]

/-! ### selection of neighbours -/

theorem collapsible_ok {nd other : Node P C B} (hn : Known env pts hs nd) (ho : Known env pts hs other) (hp : ∀ p, nd.geom ≠ .point p) :
    ∃ b, nd.collapsible env.lib other = .ok b := by
  obtain ⟨⟨a1, a2⟩, ha⟩ := hn.piece.segmentPoints_ok hn.lo hn.lt hn.hi
  obtain ⟨⟨b1, b2⟩, hb⟩ := ho.piece.segmentPoints_ok ho.lo ho.lt ho.hi
  have hg := hn.piece.geom
  unfold Node.collapsible
  split_ifs
  · exact ⟨_, rfl⟩
  · exact ⟨_, rfl⟩
  · simp only [ha, hb, Res.ok_bind]
    cases hgeo : nd.geom with
    | point p => exact absurd hgeo (hp p)
    | poly c => split_ifs <;> exact ⟨_, rfl⟩
    | line c => simp_all [Geo.isLineString]
    | seg c => simp only [hullGeometry] at hg; split_ifs at hg <;> simp_all [Res.bind_eq_ok]
    | ctx c => simp only [hullGeometry] at hg; split_ifs at hg <;> simp_all [Res.bind_eq_ok]

theorem isContiguous_ok {a b : Node P C B} (ha : Known env pts hs a) (hb : Known env pts hs b) :
    ∃ r, Node.isContiguous env.lib a b = .ok r ∧ (r.2.2 ≤ (env.lib.intersection a.geom b.geom).length) := by
  obtain ⟨⟨a1, a2⟩, ha⟩ := ha.piece.segmentPoints_ok ha.lo ha.lt ha.hi
  obtain ⟨⟨b1, b2⟩, hb⟩ := hb.piece.segmentPoints_ok hb.lo hb.lt hb.hi
  unfold Node.isContiguous
  split_ifs
  · exact ⟨_, by simp only [ha, hb, Res.ok_bind]; rfl, Nat.le_refl _⟩
  · exact ⟨_, rfl, Nat.zero_le _⟩

theorem fcContiguous_ok {a b : Node P C B} (ha : Known env pts hs a) (hb : Known env pts hs b) :
    ∃ r, fcContiguous env a b = .ok r ∧ (r.2.2 ≤ (env.lib.intersection a.geom b.geom).length) := by
  unfold fcContiguous
  split_ifs
  · exact isContiguous_ok ha hb
  · exact ⟨_, rfl, Nat.le_refl _⟩
  · exact ⟨_, rfl, Nat.zero_le _⟩

/-- the candidates are the piece itself and the neighbour -/
theorem candidates_ok (he : EnvOK env) {d : Fl K} {a b : Node P C B} (ha : Known env pts hs a) (hb : Known env pts hs b) {r : Bool × Bool × Nat}
    (hr : r.2.2 ≤ (env.lib.intersection a.geom b.geom).length) :
    ∃ s, candidates env.lib d a b r = .ok s ∧ (∀ x, s.1 = some x → x = a) ∧ (∀ x, s.2 = some x → x = b) := by
  unfold candidates
  split_ifs with h1 h2 h3
  · exact ⟨_, rfl, by simp, by simp⟩
  · simp only [Bool.and_eq_true, decide_eq_true_eq] at h2
    have pa : ∀ p, a.geom ≠ .point p := by
      intro p hp
      have := (he.point p b.geom).1
      rw [hp] at hr; omega
    have pb : ∀ p, b.geom ≠ .point p := by
      intro p hp
      have := (he.point p a.geom).2
      rw [hp] at hr; omega
    obtain ⟨ca, h3⟩ := collapsible_ok ha hb pa
    obtain ⟨cb, h4⟩ := collapsible_ok hb ha pb
    refine ⟨(if ca then none else some a, if cb then none else some b), by simp only [contiguousCandidates, h3, h4, Res.ok_bind, Res.pure_eq], ?_, ?_⟩
    · cases ca <;> simp [eq_comm]
    · cases cb <;> simp [eq_comm]
  · refine ⟨_, rfl, ?_, ?_⟩ <;>
    · intro x
      unfold nonContiguousCandidates
      simp only []
      split_ifs <;> simp [eq_comm]
  · exact ⟨_, rfl, by simp, by simp⟩

theorem mem_dictSet {d : List (Node P C B)} {nd x : Node P C B} (h : x ∈ dictSet d nd) : x ∈ d ∨ x = nd := by
  unfold dictSet at h
  split_ifs at h
  · obtain ⟨y, hy, rfl⟩ := List.mem_map.1 h
    split_ifs
    · exact .inr rfl
    · exact .inl hy
  · simpa using h

theorem mem_dictAdd {d : List (Node P C B)} {s : Option (Node P C B) × Option (Node P C B)} {x : Node P C B} (h : x ∈ dictAdd d s) :
    x ∈ d ∨ s.1 = some x ∨ s.2 = some x := by
  obtain ⟨s1, s2⟩ := s
  unfold dictAdd at h
  cases s1 <;> cases s2 <;> simp only [] at h
  · exact .inl h
  · rcases mem_dictSet h with h | h <;> simp [h]
  · rcases mem_dictSet h with h | h <;> simp [h]
  · rcases mem_dictSet h with h | h
    · rcases mem_dictSet h with h | h <;> simp [h]
    · simp [h]

theorem selectFCLoop_ok (he : EnvOK env) {d : Fl K} {hull : Node P C B} (hk : Known env pts hs hull) : ∀ (ns dict : List (Node P C B)),
    (∀ n ∈ ns, Known env pts hs n) → ∃ out, selectFCLoop env d hull ns dict = .ok out ∧ ∀ x ∈ out, x ∈ dict ∨ x = hull ∨ x ∈ ns := by
  intro ns
  induction ns with
  | nil => intro dict _; exact ⟨dict, rfl, fun x hx => .inl hx⟩
  | cons n ns ih =>
    intro dict hn
    obtain ⟨r, hr, hr'⟩ := fcContiguous_ok hk (hn n (by simp))
    obtain ⟨s, h1, h2, h3⟩ := candidates_ok he (d := d) hk (hn n (by simp)) hr'
    obtain ⟨out, h4, h5⟩ := ih (dictAdd dict s) (fun m hm => hn m (List.mem_cons_of_mem _ hm))
    refine ⟨out, by simp only [selectFCLoop, hr, h1, h4, Res.ok_bind], fun x hx => ?_⟩
    rcases h5 x hx with h | h | h
    · rcases mem_dictAdd h with h | h | h
      · exact .inl h
      · exact .inr (.inl (h2 x h))
      · exact .inr (.inr (by simp [h3 x h]))
    · exact .inr (.inl h)
    · exact .inr (.inr (List.mem_cons_of_mem _ h))

theorem selectLoop_ok (he : EnvOK env) {d : Fl K} {hull : Node P C B} (hk : Known env pts hs hull) : ∀ (ns dict : List (Node P C B)),
    (∀ n ∈ ns, Known env pts hs n) → ∃ out, selectLoop env.lib d hull ns dict = .ok out ∧ ∀ x ∈ out, x ∈ dict ∨ x = hull ∨ x ∈ ns := by
  intro ns
  induction ns with
  | nil => intro dict _; exact ⟨dict, rfl, fun x hx => .inl hx⟩
  | cons n ns ih =>
    intro dict hn
    obtain ⟨r, hr, hr'⟩ := isContiguous_ok hk (hn n (by simp))
    obtain ⟨s, h1, h2, h3⟩ := candidates_ok he (d := d) hk (hn n (by simp)) hr'
    obtain ⟨out, h4, h5⟩ := ih (dictAdd dict s) (fun m hm => hn m (List.mem_cons_of_mem _ hm))
    refine ⟨out, by simp only [selectLoop, hr, h1, h4, Res.ok_bind], fun x hx => ?_⟩
    rcases h5 x hx with h | h | h
    · rcases mem_dictAdd h with h | h | h
      · exact .inl h
      · exact .inr (.inl (h2 x h))
      · exact .inr (.inr (by simp [h3 x h]))
    · exact .inr (.inl h)
    · exact .inr (.inr (List.mem_cons_of_mem _ h))

theorem fcSelections_yields (he : EnvOK env) (dirty : Int → Bool) {db : Db P C B} (hd : DbOK db) (hp : ∀ x ∈ Hdb.contents db, Known env pts hs x ∧ x.mbr.Valid)
    {hull : Node P C B} (hh : hull ∈ Hdb.contents db) : ∃ s, Yields (fcSelections env dirty db hull) s ∧ ∀ x ∈ s, x ∈ Hdb.contents db := by
  unfold fcSelections
  by_cases h : (env.inst hull.inst).opts.avoidNewSelfIntersects = true
  · simp only [h, if_true]
    obtain ⟨ns, ⟨N, hN⟩, p⟩ := neighboursOf_yields (env := env) hd (fun x hx => (hp x hx).2) hull
    have hns : ∀ x ∈ optimizeNeighbours env dirty hull ns, x ∈ Hdb.contents db := by
      intro x hx
      unfold optimizeNeighbours at hx
      have hx' : x ∈ ns := by
        split_ifs at hx
        · exact hx
        · exact (List.mem_filter.1 hx).1
      exact (List.mem_filter.1 (p.mem_iff.1 hx')).1
    obtain ⟨out, e, ho⟩ := selectFCLoop_ok he (d := (env.inst hull.inst).opts.nonPlanarDisplacement) (hp hull hh).1 _ [] (fun n hn => (hp n (hns n hn)).1)
    refine ⟨out, ⟨N, fun fuel hf => by simp only [selectFeatureClass, hN fuel hf, Res.ok_bind, e]⟩, fun x hx => ?_⟩
    rcases ho x hx with h | rfl | h
    · cases h
    · exact hh
    · exact hns x h
  · simp only [h]
    exact ⟨[], ⟨0, fun _ _ => rfl⟩, by simp⟩

/-- A piece needs no more splitting on account of the context: it cannot be split, or it is degenerate, or it was found valid. -/
def Settled (env : Env P C B K) (nd : Node P C B) : Prop :=
  nd.range.size = 1 ∨ nd.geom.isLineString = true ∨ Yields (validateContextRelation env nd (env.inst nd.inst)) true

theorem hullSelections_yields (he : EnvOK env) (hi : ∀ k ∈ hs, InstOK env k (pts k)) (dirty : Int → Bool) {db : Db P C B} (hd : DbOK db)
    (hp : ∀ x ∈ Hdb.contents db, Known env pts hs x ∧ x.mbr.Valid) {hull : Node P C B} (hh : hull ∈ Hdb.contents db) :
    ∃ s, Yields (hullSelections env dirty db hull) s ∧ (∀ x ∈ s, x ∈ Hdb.contents db) ∧ (hull.range.size = 1 → s = []) ∧
      ((∃ x ∈ s, x.id = hull.id) ∨ Settled env hull) := by
  unfold hullSelections
  by_cases h1 : hull.range.size = 1
  · exact ⟨[], ⟨0, fun _ _ => by simp [h1]⟩, by simp, fun _ => rfl, .inr (.inl h1)⟩
  by_cases h2 : hull.geom.isLineString = true
  · exact ⟨[], ⟨0, fun _ _ => by simp [h1, h2]⟩, by simp, fun _ => rfl, .inr (.inr (.inl h2))⟩
  obtain ⟨s, ⟨N, hN⟩, hs1⟩ := fcSelections_yields he dirty hd hp hh
  obtain ⟨b, M, hM⟩ := validate_yields he (hi _ (hp hull hh).1.inst) (hp hull hh).1
  by_cases h3 : notSelected hull s = true
  · refine ⟨if b then s else s ++ [hull], ⟨max N M, fun fuel hf => ?_⟩, ?_, fun h => absurd h h1, ?_⟩
    · simp only [h1, if_false, h2, Bool.false_eq_true, hN fuel (by omega), Res.ok_bind, ctxSelections, h3, if_true, hM fuel (by omega), Res.pure_eq]
    · intro x hx
      cases b with
      | true => exact hs1 x (by simpa using hx)
      | false =>
        have hx' : x ∈ s ∨ x = hull := by simpa using hx
        rcases hx' with h | h
        · exact hs1 x h
        · rw [h]; exact hh
    · cases b with
      | true => exact .inr (.inr (.inr ⟨M, hM⟩))
      | false => exact .inl ⟨hull, by simp, rfl⟩
  · refine ⟨s, ⟨N, fun fuel hf => ?_⟩, hs1, fun h => absurd h h1, .inl ?_⟩
    · simp only [h1, if_false, h2, Bool.false_eq_true, hN fuel (by omega), Res.ok_bind, ctxSelections, h3]
    · simpa [notSelected] using h3

theorem selectionsOf_yields (he : EnvOK env) (hi : ∀ k ∈ hs, InstOK env k (pts k)) (dirty : Int → Bool) {db : Db P C B} (hd : DbOK db)
    (hp : ∀ x ∈ Hdb.contents db, Known env pts hs x ∧ x.mbr.Valid) : ∀ hulls : List (Node P C B), (∀ x ∈ hulls, x ∈ Hdb.contents db) →
    ∃ s, Yields (fun fuel => selectionsOf env dirty db fuel hulls) s ∧ (∀ x ∈ s, x ∈ Hdb.contents db) ∧ ((∀ x ∈ hulls, x.range.size = 1) → s = []) ∧
      (∀ hull ∈ hulls, (∃ x ∈ s, x.id = hull.id) ∨ Settled env hull) := by
  intro hulls
  induction hulls with
  | nil => intro _; exact ⟨[], ⟨0, fun _ _ => rfl⟩, by simp, fun _ => rfl, by simp⟩
  | cons h hulls ih =>
    intro hm
    obtain ⟨s1, ⟨N, hN⟩, a1, a2, a3⟩ := hullSelections_yields he hi dirty hd hp (hm h (by simp))
    obtain ⟨s2, ⟨M, hM⟩, b1, b2, b3⟩ := ih (fun x hx => hm x (List.mem_cons_of_mem _ hx))
    refine ⟨s1 ++ s2, ⟨max N M, fun fuel hf => ?_⟩, ?_, ?_, ?_⟩
    · have e2 := hM fuel (by omega)
      simp only [] at e2
      simp only [selectionsOf, hN fuel (by omega), e2, Res.ok_bind, Res.pure_eq]
    · intro x hx
      rcases List.mem_append.1 hx with hx | hx
      · exact a1 x hx
      · exact b1 x hx
    · intro hx
      rw [a2 (hx h (by simp)), b2 (fun x hx' => hx x (List.mem_cons_of_mem _ hx'))]; rfl
    · intro x hx
      rcases List.mem_cons.1 hx with rfl | hx
      · rcases a3 with ⟨y, hy, hy'⟩ | h
        · exact .inl ⟨y, List.mem_append_left _ hy, hy'⟩
        · exact .inr h
      · rcases b3 x hx with ⟨y, hy, hy'⟩ | h
        · exact .inl ⟨y, List.mem_append_right _ hy, hy'⟩
        · exact .inr h

theorem dedupId_spec (l : List (Node P C B)) : (∀ x ∈ dedupId l, x ∈ l) ∧ ((dedupId l).map Node.id).Nodup ∧ (∀ x ∈ l, ∃ y ∈ dedupId l, y.id = x.id) := by
  induction l with
  | nil => simp [dedupId]
  | cons a l ih =>
    obtain ⟨h1, h2, h3⟩ := ih
    refine ⟨?_, ?_, ?_⟩
    · intro x hx
      rcases List.mem_cons.1 hx with rfl | hx
      · simp
      · exact List.mem_cons_of_mem _ (h1 x (List.mem_filter.1 hx).1)
    · rw [dedupId, List.map_cons, List.nodup_cons]
      refine ⟨?_, h2.sublist (List.filter_sublist.map _)⟩
      intro hm
      obtain ⟨y, hy, hy'⟩ := List.mem_map.1 hm
      have := (List.mem_filter.1 hy).2
      simp [hy'] at this
    · intro x hx
      by_cases hid : x.id = a.id
      · exact ⟨a, by simp [dedupId], hid.symm⟩
      · rcases List.mem_cons.1 hx with rfl | hx
        · exact absurd rfl hid
        · obtain ⟨y, hy, hy'⟩ := h3 x hx
          exact ⟨y, List.mem_cons_of_mem _ (List.mem_filter.2 ⟨hy, by simp [hy', hid]⟩), hy'⟩

/-- constdp/simple_0.go:11-80: selection terminates; the selected pieces are distinct pieces of the index, and every candidate that is not selected is
settled -/
theorem findDeformable_yields (he : EnvOK env) (hi : ∀ k ∈ hs, InstOK env k (pts k)) (dirty : Int → Bool) {db : Db P C B} (hd : DbOK db)
    (hp : Pieces env pts hs src ids g (Hdb.contents db)) (hulls : List (Node P C B)) (hm : ∀ x ∈ hulls, x ∈ Hdb.contents db) :
    ∃ s, Yields (findDeformable env dirty hulls db) s ∧ (∀ x ∈ s, x ∈ Hdb.contents db) ∧ (s.map Node.id).Nodup ∧
      ((∀ x ∈ hulls, x.range.size = 1) → s = []) ∧ (∀ hull ∈ hulls, hull ∈ s ∨ Settled env hull) := by
  obtain ⟨s, ⟨N, hN⟩, a1, a2, a3⟩ := selectionsOf_yields he hi dirty hd (fun x hx => ⟨hp.known hx, hp.valid hi hx⟩) hulls hm
  obtain ⟨d1, d2, d3⟩ := dedupId_spec s
  refine ⟨dedupId s, ⟨N, fun fuel hf => ?_⟩, fun x hx => a1 x (d1 x hx), d2, ?_, ?_⟩
  · have e := hN fuel hf
    simp only [] at e
    simp only [findDeformable, e, Res.ok_bind, Res.pure_eq]
  · intro h; rw [a2 h]; rfl
  · intro hull hh
    rcases a3 hull hh with ⟨x, hx, hid⟩ | h
    · obtain ⟨y, hy, hy'⟩ := d3 x hx
      have : y = hull := hp.eq_of_id (a1 y (d1 y hy)) (hm hull hh) (hy'.trans hid)
      exact .inl (this ▸ hy)
    · exact .inr h

end Verif
