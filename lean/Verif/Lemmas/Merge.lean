import Verif.Lemmas.SplitSelf

/-! The merge pass: package `merge` and constdp/node_aggregates.go. -/

set_option linter.unusedSectionVars false

namespace Verif

variable {P C B K : Type} [LinearOrder B] [BoundedOrder B] [LinearOrder K]
variable {env : Env P C B K} {pts : Int → List P} {hs : List Int} {src : Int → Prop} {ids : Nat → Int} {g : Nat}

/-- `m` is the union of the adjacent pieces `a` and `b`, acceptable to the relation in use, with an identifier between `g` and `g'` -/
structure Merged (env : Env P C B K) (pts : Int → List P) (ids : Nat → Int) (g g' : Nat) (h : Int) (a b m : Node P C B) : Prop where
  adj : a.range.J = b.range.I
  range : m.range = ⟨a.range.I, b.range.J⟩
  piece : IsPiece env.lib (pts h) h m
  id : ∃ k, g ≤ k ∧ k < g' ∧ m.id = ids k
  score : ∃ k v, (env.inst h).scoreFn (Coords.sub (pts h) a.range.I b.range.J) = .ok (k, v) ∧ (env.inst h).rel v = true

theorem contiguous_of_adj {r s : Rng} (h : r.J = s.I) (h1 : r.I < r.J) (h2 : s.I < s.J) : r.contiguous s = true :=
  (C02_contiguous_iff r s h1 h2).2 (.inl h)

theorem mergeRange_of_adj {r s : Rng} (h : r.J = s.I) (h1 : r.I < r.J) (h2 : s.I < s.J) : mergeRange r s = ⟨r.I, s.J⟩ := by
  obtain ⟨a, b, _⟩ := C02_merge_union r s h1 h2 h
  cases hm : mergeRange r s
  rw [hm] at a b
  simp only at a b
  rw [a, b]

/-- merge/merge.go:23-37 on two adjacent pieces -/
theorem mergeFragments_ok (hi : ∀ k ∈ hs, InstOK env k (pts k)) {h : Int} (hh : h ∈ hs) {a b : Node P C B} (ha : Known env pts hs a) (hb : Known env pts hs b)
    (ai : a.inst = h) (bi : b.inst = h) (adj : a.range.J = b.range.I) (ids : Nat → Int) (g : Nat) :
    ∃ mo g', contiguousFragmentsAtThreshold env.lib ids g (env.inst h).scoreFn (env.inst h).rel a b = .ok (mo, g') ∧ g ≤ g' ∧
      ∀ m, mo = some m → Merged env pts ids g g' h a b m := by
  subst ai
  have pa := ha.piece
  have pb := hb.piece
  rw [bi] at pb
  have hbl := hb.hi
  rw [bi] at hbl
  have la := ha.lt; have lb := hb.lt; have l0 := ha.lo
  obtain ⟨k, v, sk, -⟩ := (hi _ hh).inside a.range.I b.range.J ha.lo (by omega) hbl
  have hc : contiguousCoordinates a b = .ok (Coords.sub (pts a.inst) a.range.I b.range.J) := by
    have hsw : ¬ (b.range.I < a.range.J ∧ b.range.J = a.range.I) := by omega
    simp only [contiguousCoordinates, contiguous_of_adj adj la lb, Bool.not_true, Bool.false_eq_true, if_false, hsw]
    have hne : a.coords.idxs ≠ [] := by
      rw [pa.coords]
      intro h0
      have := length_rangeInts a.range.I a.range.J
      simp only [Coords.sub] at h0
      rw [h0] at this; simp at this; omega
    simp only [hne, if_false]
    rw [pa.coords, pb.coords, adj]
    simp only [Coords.sub]
    rw [dropLast_append_rangeInts (by omega) (by omega)]
  obtain ⟨nd, e1, p1, r1, i1⟩ := createNode_isPiece (hi _ hh).hull (i := a.range.I) (j := b.range.J) ha.lo (by omega) hbl (ids g) a.inst
  by_cases hr : (env.inst a.inst).rel v = true
  · refine ⟨some nd, g + 1, ?_, by omega, ?_⟩
    · simp only [contiguousFragmentsAtThreshold, contiguous_of_adj adj la lb, Bool.not_true, Bool.false_eq_true, if_false, hc, Res.ok_bind, sk, hr, if_true,
        mergeRange_of_adj adj la lb, e1, Res.pure_eq]
    · rintro m ⟨⟩
      exact ⟨adj, r1, p1, ⟨g, by omega, by omega, i1⟩, k, v, sk, hr⟩
  · refine ⟨none, g, ?_, by omega, by simp⟩
    simp only [contiguousFragmentsAtThreshold, contiguous_of_adj adj la lb, Bool.not_true, Bool.false_eq_true, if_false, hc, Res.ok_bind, sk, hr, Res.pure_eq]

/-! ### validation of a merged piece -/

theorem select_yields (he : EnvOK env) (d : Fl K) {db : Db P C B} (hd : DbOK db) (hp : ∀ x ∈ Hdb.contents db, Known env pts hs x ∧ x.mbr.Valid)
    {hull : Node P C B} (hk : Known env pts hs hull) : ∃ s, Yields (select env d db hull) s ∧ ∀ x ∈ s, x = hull ∨ x ∈ Hdb.contents db := by
  obtain ⟨ns, ⟨N, hN⟩, p⟩ := neighboursOf_yields (env := env) hd (fun x hx => (hp x hx).2) hull
  have hns : ∀ x ∈ ns, x ∈ Hdb.contents db := fun x hx => (List.mem_filter.1 (p.mem_iff.1 hx)).1
  obtain ⟨out, e, ho⟩ := selectLoop_ok he (d := d) hk ns [] (fun n hn => (hp n (hns n hn)).1)
  refine ⟨out, ⟨N, fun fuel hf => by simp only [select, hN fuel hf, Res.ok_bind, e]⟩, fun x hx => ?_⟩
  rcases ho x hx with h | rfl | h
  · cases h
  · exact .inl rfl
  · exact .inr (hns x h)

/-- constdp/validate.go:11-28: the verdict: nothing conflicts (if asked for) and the context relations hold -/
theorem validateMerge_yields (he : EnvOK env) (hi : ∀ k ∈ hs, InstOK env k (pts k)) {h : Int} (hh : h ∈ hs) {db : Db P C B} (hd : DbOK db)
    (hp : ∀ x ∈ Hdb.contents db, Known env pts hs x ∧ x.mbr.Valid) {m : Node P C B} (hk : Known env pts hs m) :
    ∃ b, Yields (validateMerge env (env.inst h) m db) b ∧
      (b = true ↔ ((env.inst h).opts.avoidNewSelfIntersects = true → Yields (select env (env.inst h).opts.nonPlanarDisplacement db m) []) ∧
        Yields (validateContextRelation env m (env.inst h)) true) := by
  obtain ⟨s, ⟨N, hN⟩, -⟩ := select_yields he (env.inst h).opts.nonPlanarDisplacement hd hp hk
  obtain ⟨c, M, hM⟩ := validate_yields he (hi h hh) hk
  have hc : Yields (validateContextRelation env m (env.inst h)) true ↔ c = true :=
    ⟨fun hy => Yields.unique ⟨M, hM⟩ hy, fun hb => hb ▸ ⟨M, hM⟩⟩
  have hs' : Yields (select env (env.inst h).opts.nonPlanarDisplacement db m) [] ↔ s = [] :=
    ⟨fun hy => Yields.unique ⟨N, hN⟩ hy, fun hb => hb ▸ ⟨N, hN⟩⟩
  rw [hc, hs']
  by_cases ha : (env.inst h).opts.avoidNewSelfIntersects = true
  · by_cases hnil : s = []
    · refine ⟨c, ⟨max N M, fun fuel hf => ?_⟩, by simp [ha, hnil]⟩
      simp [validateMerge, ha, hN fuel (by omega), hM fuel (by omega), hnil, notSelected]
    · refine ⟨false, ⟨max N M, fun fuel hf => ?_⟩, by simp [ha, hnil]⟩
      simp [validateMerge, ha, hN fuel (by omega), hnil]
  · refine ⟨c, ⟨max N M, fun fuel hf => ?_⟩, by simp [ha]⟩
    simp [validateMerge, ha, hM fuel (by omega), notSelected]

/-! ### one fragment -/

/-- constdp/node_aggregates.go:62-80 -/
theorem tryMerge_ok (hi : ∀ k ∈ hs, InstOK env k (pts k)) {h : Int} (hh : h ∈ hs) (enabled : Bool) {a b : Option (Node P C B)}
    (hab : ∀ x y, a = some x → b = some y → Known env pts hs x ∧ Known env pts hs y ∧ x.inst = h ∧ y.inst = h ∧ x.range.J = y.range.I)
    (cache : List (List Int)) (g : Nat) :
    ∃ mo cache' g', tryMerge env ids (env.inst h) enabled a b cache g = .ok (mo, cache', g') ∧ g ≤ g' ∧
      ∀ m, mo = some m → enabled = true ∧ ∃ x y, a = some x ∧ b = some y ∧ Merged env pts ids g g' h x y m := by
  unfold tryMerge
  split
  · rename_i a b
    obtain ⟨k1, k2, k3, k4, k5⟩ := hab a b rfl rfl
    by_cases hc : cacheKey env a b ∈ cache
    · exact ⟨none, cache, g, by simp [hc], Nat.le_refl _, by simp⟩
    · obtain ⟨mo, g', e, hg, hm⟩ := mergeFragments_ok hi hh k1 k2 k3 k4 k5 ids g
      refine ⟨mo, cacheKey env a b :: cache, g', by simp only [hc, if_false, e, Res.ok_bind, Res.pure_eq], hg, fun m h => ⟨rfl, a, b, rfl, rfl, hm m h⟩⟩
  · exact ⟨none, cache, g, rfl, Nat.le_refl _, by simp⟩

/-- node/contig.go:35-53: what the two neighbours are -/
theorem neighboursLoop_spec (hull : Node P C B) : ∀ (ns : List (Node P C B)) (prev nxt : Option (Node P C B)) (l : List (Node P C B)),
    (∀ x, prev = some x → x ∈ l ∧ x.range.J = hull.range.I) → (∀ x, nxt = some x → x ∈ l ∧ hull.range.J = x.range.I) → (∀ x ∈ ns, x ∈ l) →
    (∀ x, (Node.neighboursLoop hull ns prev nxt).1 = some x → x ∈ l ∧ x.range.J = hull.range.I) ∧
    (∀ x, (Node.neighboursLoop hull ns prev nxt).2 = some x → x ∈ l ∧ hull.range.J = x.range.I) := by
  intro ns
  induction ns with
  | nil => intro prev nxt l h1 h2 _; exact ⟨h1, h2⟩
  | cons n ns ih =>
    intro prev nxt l h1 h2 hm
    have hn := hm n (by simp)
    have hm' := fun x hx => hm x (List.mem_cons_of_mem n hx)
    have key : ∀ (pr nx : Option (Node P C B)), (∀ x, pr = some x → x ∈ l ∧ x.range.J = hull.range.I) → (∀ x, nx = some x → x ∈ l ∧ hull.range.J = x.range.I) →
        (∀ x, (if pr.isSome && nx.isSome then (pr, nx) else Node.neighboursLoop hull ns pr nx).1 = some x → x ∈ l ∧ x.range.J = hull.range.I) ∧
        (∀ x, (if pr.isSome && nx.isSome then (pr, nx) else Node.neighboursLoop hull ns pr nx).2 = some x → x ∈ l ∧ hull.range.J = x.range.I) := by
      intro pr nx q1 q2
      split_ifs
      · exact ⟨q1, q2⟩
      · exact ih pr nx l q1 q2 hm'
    rw [Node.neighboursLoop]
    by_cases c1 : n.id ≠ hull.id
    · by_cases c2 : hull.range.I = n.range.J
      · simp only [c1, c2, if_true, ne_eq, not_false_iff]
        rw [← c2]
        refine key (some n) nxt ?_ h2
        rintro x ⟨⟩; exact ⟨hn, c2.symm⟩
      · by_cases c3 : hull.range.J = n.range.I
        · simp only [c1, c2, c3, if_true, if_false, ne_eq, not_false_iff]
          rw [← c3]
          refine key prev (some n) h1 ?_
          rintro x ⟨⟩; exact ⟨hn, c3⟩
        · simp only [c1, c2, c3, if_true, if_false, ne_eq, not_false_iff]
          exact key prev nxt h1 h2
    · simp only [c1, if_false]
      exact key prev nxt h1 h2

/-- what the treatment of one fragment does to the stored pieces -/
inductive AggOut (env : Env P C B K) (pts : Int → List P) (ids : Nat → Int) (g g' : Nat) (h : Int) (cvs : List Int) (hull : Node P C B)
    (objects objects' before after : List (Node P C B)) : Prop
  /-- nothing -/
  | keep (hb : after.Perm before) (ho : objects' = objects)
  /-- the fragment and its successor are replaced by their union, which was validated against the index without the two -/
  | next (nxt m : Node P C B) (rest : List (Node P C B)) (db : Db P C B) (hb : before.Perm (hull :: nxt :: rest)) (ha : after.Perm (m :: rest))
      (ho : objects = nxt :: objects') (hj : hull.range.J ∉ cvs) (hm : Merged env pts ids g g' h hull nxt m) (hd : DbOK db)
      (hc : (Hdb.contents db).Perm rest) (hv : Yields (validateMerge env (env.inst h) m db) true)
  /-- the fragment and its predecessor are replaced by their union, which was validated against the index without the two (and, if the union with the
  successor was rejected before, without the successor) -/
  | prev (prv m : Node P C B) (rest out : List (Node P C B)) (db : Db P C B) (hb : before.Perm (prv :: hull :: rest)) (ha : after.Perm (m :: rest))
      (ho : objects' = objects) (hi : hull.range.I ∉ cvs) (hm : Merged env pts ids g g' h prv hull m) (hd : DbOK db)
      (hc : rest.Perm (out ++ Hdb.contents db)) (hout : out = [] ∨ ∃ nxt, out = [nxt] ∧ nxt.range.I = hull.range.J)
      (hv : Yields (validateMerge env (env.inst h) m db) true)

theorem next_is_head {u objects : List (Node P C B)} {hull nxt : Node P C B} {a b : Int} (hc : Chain a b ((u ++ hull :: objects).map Node.range))
    (hn : nxt ∈ u ++ hull :: objects) (hr : hull.range.J = nxt.range.I) : ∃ os, objects = nxt :: os := by
  rw [List.map_append, List.map_cons] at hc
  obtain ⟨m, c1, c2, c3, c4⟩ := Chain.append_iff.1 hc
  rcases List.mem_append.1 hn with hn | hn
  · have := c1.mem (List.mem_map.2 ⟨nxt, hn, rfl⟩); omega
  · rcases List.mem_cons.1 hn with rfl | hn
    · omega
    · cases objects with
      | nil => cases hn
      | cons o os =>
        rw [List.map_cons] at c4
        obtain ⟨c5, c6, c7⟩ := c4
        rcases List.mem_cons.1 hn with rfl | hn
        · exact ⟨os, rfl⟩
        · have := c7.mem (List.mem_map.2 ⟨nxt, hn, rfl⟩); omega

theorem Merged.known {h : Int} {g' : Nat} {a b m : Node P C B} (hm : Merged env pts ids g g' h a b m) (hh : h ∈ hs) (ha : Known env pts hs a)
    (hb : Known env pts hs b) (hbi : b.inst = h) : Known env pts hs m := by
  have hmi := hm.piece.inst
  have h1 := ha.lo; have h2 := ha.lt; have h3 := hb.lt; have h4 := hb.hi; have h5 := hm.adj
  rw [hbi] at h4
  refine ⟨hmi ▸ hh, hmi.symm ▸ hm.piece, ?_, ?_, ?_⟩
  · rw [hm.range]; exact h1
  · rw [hm.range]; show a.range.I < b.range.J; omega
  · rw [hm.range, hmi]; exact h4

/-- constdp/node_aggregates.go:48-115 -/
theorem aggStep_yields (he : EnvOK env) {h : Int} (hi : InstOK env h (pts h)) (cvs : List Int) {hull : Node P C B}
    {u objects : List (Node P C B)} {db : Db P C B} (hd : DbOK db) (hp : Pieces env pts [h] src ids g (Hdb.contents db))
    (hperm : (u ++ hull :: objects).Perm (Hdb.contents db)) (hc : Chain 0 ((pts h).length - 1) ((u ++ hull :: objects).map Node.range))
    (cache : List (List Int)) :
    ∃ db' objects' cache' g', Yields (aggStep env ids (env.inst h) cvs hull objects db cache g) (db', objects', cache', g') ∧ DbOK db' ∧ g ≤ g' ∧
      AggOut env pts ids g g' h cvs hull objects objects' (Hdb.contents db) (Hdb.contents db') := by
  have hi' : ∀ k ∈ [h], InstOK env k (pts k) := by
    intro k hk; rw [List.mem_singleton] at hk; rw [hk]; exact hi
  have hone : ∀ x ∈ Hdb.contents db, x.inst = h := fun x hx => List.mem_singleton.1 (hp.known hx).inst
  have hhull : hull ∈ Hdb.contents db := hperm.mem_iff.1 (by simp)
  obtain ⟨d0, ⟨N0, hN0⟩, w0, p0⟩ := hd.remove hp.nodup hhull
  have m0 : ∀ x ∈ Hdb.contents d0, x ∈ Hdb.contents db := fun x hx => p0.mem_iff.2 (List.mem_cons_of_mem _ hx)
  have n0 : ((Hdb.contents d0).map Node.id).Nodup := by
    have := (p0.map Node.id).nodup_iff.1 hp.nodup
    rw [List.map_cons, List.nodup_cons] at this
    exact this.2
  have kv : ∀ x ∈ Hdb.contents db, Known env pts [h] x ∧ x.mbr.Valid := fun x hx => ⟨hp.known hx, hp.valid hi' hx⟩
  obtain ⟨ns, ⟨N1, hN1⟩, p1⟩ := neighboursOf_yields (env := env) w0 (fun x hx => (kv x (m0 x hx)).2) hull
  obtain ⟨b1, b2⟩ := neighboursLoop_spec hull ns none none (Hdb.contents d0) (by simp) (by simp)
    (fun x hx => (List.mem_filter.1 (p1.mem_iff.1 hx)).1)
  have hpn : Node.neighboursLoop hull ns none none = Node.neighbours hull ns := rfl
  rw [hpn] at b1 b2
  generalize hpr : (Node.neighbours hull ns).1 = pr at b1
  generalize hnx : (Node.neighbours hull ns).2 = nx at b2
  have hkh := (kv hull hhull).1
  obtain ⟨mp, c1, g1, e1, hg1, q1⟩ := tryMerge_ok (ids := ids) hi' (h := h) (by simp) (!decide (hull.range.I ∈ cvs)) (a := pr) (b := some hull)
    (by
      rintro x y hx ⟨⟩
      obtain ⟨t1, t2⟩ := b1 x hx
      exact ⟨(kv x (m0 x t1)).1, hkh, hone x (m0 x t1), hone hull hhull, t2⟩) cache g
  obtain ⟨mn, c2, g2, e2, hg2, q2⟩ := tryMerge_ok (ids := ids) hi' (h := h) (by simp) (!decide (hull.range.J ∈ cvs)) (a := some hull) (b := nx)
    (by
      rintro x y ⟨⟩ hy
      obtain ⟨t1, t2⟩ := b2 y hy
      exact ⟨hkh, (kv y (m0 y t1)).1, hone hull hhull, hone y (m0 y t1), t2⟩) c1 g1
  -- first attempt: the successor
  have A : ∃ s, Yields (fun fuel => mergeNext env (env.inst h) mn nx fuel { db := d0, objects := objects, insertList := [], merged := false }) s ∧ DbOK s.db ∧
      ((s.merged = true ∧ ∃ nxt m, nx = some nxt ∧ objects = nxt :: s.objects ∧ s.insertList = [m] ∧ hull.range.J ∉ cvs ∧
          Merged env pts ids g g2 h hull nxt m ∧ (Hdb.contents d0).Perm (nxt :: Hdb.contents s.db) ∧
          Yields (validateMerge env (env.inst h) m s.db) true) ∨
       (s.merged = false ∧ s.objects = objects ∧ (Hdb.contents d0).Perm (s.insertList ++ Hdb.contents s.db) ∧
          (s.insertList = [] ∨ ∃ nxt, nx = some nxt ∧ s.insertList = [nxt] ∧ nxt.range.I = hull.range.J))) := by
    cases mn with
    | none => exact ⟨_, ⟨0, fun _ _ => rfl⟩, w0, .inr ⟨rfl, rfl, by simp, .inl rfl⟩⟩
    | some m =>
      obtain ⟨en, x, nxt, ⟨⟩, hy, hm⟩ := q2 m rfl
      subst hy
      obtain ⟨t1, t2⟩ := b2 nxt rfl
      obtain ⟨d1, ⟨N2, hN2⟩, w1, p2⟩ := w0.remove n0 t1
      have m1 : ∀ x ∈ Hdb.contents d1, x ∈ Hdb.contents db := fun x hx => m0 x (p2.mem_iff.2 (List.mem_cons_of_mem _ hx))
      have hkm : Known env pts [h] m := hm.known (by simp) hkh (kv nxt (m0 nxt t1)).1 (hone nxt (m0 nxt t1))
      obtain ⟨b, ⟨N3, hN3⟩, -⟩ := validateMerge_yields he hi' (h := h) (by simp) w1 (fun x hx => kv x (m1 x hx)) hkm
      obtain ⟨os, hos⟩ := next_is_head hc (hperm.mem_iff.2 (m0 nxt t1)) t2
      cases b with
      | true =>
        refine ⟨{ db := d1, objects := os, insertList := [m], merged := true }, ⟨max N2 N3, fun fuel hf => ?_⟩, w1, .inl ⟨rfl, nxt, m, rfl, hos, rfl, ?_, ?_, p2, ⟨N3, hN3⟩⟩⟩
        · simp only [mergeNext, hN2 fuel (by omega), hN3 fuel (by omega), Res.ok_bind, if_true, hos, List.nil_append]
        · simpa using en
        · obtain ⟨k, k1, k2, k3⟩ := hm.id
          exact ⟨hm.adj, hm.range, hm.piece, ⟨k, by omega, by omega, k3⟩, hm.score⟩
      | false =>
        refine ⟨{ db := d1, objects := objects, insertList := [nxt], merged := false }, ⟨max N2 N3, fun fuel hf => ?_⟩, w1,
          .inr ⟨rfl, rfl, by simpa using p2, .inr ⟨nxt, rfl, rfl, t2.symm⟩⟩⟩
        simp only [mergeNext, hN2 fuel (by omega), hN3 fuel (by omega), Res.ok_bind, Bool.false_eq_true, if_false, List.nil_append]
  obtain ⟨s, ⟨N4, hN4⟩, w4, hs⟩ := A
  -- second attempt: the predecessor
  have B : ∃ s', Yields (fun fuel => mergePrev env (env.inst h) mp pr fuel s) s' ∧ DbOK s'.db ∧ s'.objects = s.objects ∧
      ((s.merged = true ∧ s' = s) ∨
       (s.merged = false ∧ s'.merged = true ∧ ∃ prv m, pr = some prv ∧ s'.insertList = s.insertList ++ [m] ∧ hull.range.I ∉ cvs ∧
          Merged env pts ids g g2 h prv hull m ∧ (Hdb.contents s.db).Perm (prv :: Hdb.contents s'.db) ∧
          Yields (validateMerge env (env.inst h) m s'.db) true) ∨
       (s.merged = false ∧ s'.merged = false ∧ (s.insertList ++ Hdb.contents s.db).Perm (s'.insertList ++ Hdb.contents s'.db))) := by
    rcases hs with ⟨hmt, -⟩ | ⟨hmf, hso, hsp, hsl⟩
    · refine ⟨s, ⟨0, fun _ _ => ?_⟩, w4, rfl, .inl ⟨hmt, rfl⟩⟩
      simp only [mergePrev]
      split
      · simp_all
      · rfl
    · cases mp with
      | none =>
        refine ⟨s, ⟨0, fun _ _ => ?_⟩, w4, rfl, .inr (.inr ⟨hmf, hmf, List.Perm.refl _⟩)⟩
        simp only [mergePrev]
        split
        · simp_all
        · rfl
      | some m =>
        obtain ⟨en, prv, x, hy, ⟨⟩, hm⟩ := q1 m rfl
        subst hy
        obtain ⟨t1, t2⟩ := b1 prv rfl
        have hn4 : ((Hdb.contents s.db).map Node.id).Nodup := by
          have := (hsp.map Node.id).nodup_iff.1 n0
          rw [List.map_append, List.nodup_append] at this
          exact this.2.1
        have m4 : ∀ x ∈ Hdb.contents s.db, x ∈ Hdb.contents db := fun x hx => m0 x (hsp.mem_iff.2 (List.mem_append_right _ hx))
        have hkp := (kv prv (m0 prv t1)).1
        have hmem : prv ∈ Hdb.contents s.db := by
          rcases List.mem_append.1 (hsp.mem_iff.1 t1) with h1 | h1
          · rcases hsl with h2 | ⟨nxt, h2, h3, h4⟩
            · rw [h2] at h1; cases h1
            · rw [h3, List.mem_singleton] at h1
              have := hkh.lt; have := hkp.lt
              rw [h1] at t2 this; omega
          · exact h1
        obtain ⟨d1, ⟨N2, hN2⟩, w1, p2⟩ := w4.remove hn4 hmem
        have hkm : Known env pts [h] m := hm.known (by simp) hkp hkh (hone hull hhull)
        obtain ⟨b, ⟨N3, hN3⟩, -⟩ := validateMerge_yields he hi' (h := h) (by simp) w1
          (fun x hx => kv x (m4 x (p2.mem_iff.2 (List.mem_cons_of_mem _ hx)))) hkm
        obtain ⟨sdb, sob, sin, sme⟩ := s
        simp only at hmf hso hsp hsl w4 hn4 m4 hmem p2 ⊢
        subst hmf
        cases b with
        | true =>
          refine ⟨{ db := d1, objects := sob, insertList := sin ++ [m], merged := true }, ⟨max N2 N3, fun fuel hf => ?_⟩, w1, rfl,
            .inr (.inl ⟨rfl, rfl, prv, m, rfl, rfl, ?_, ?_, p2, ⟨N3, hN3⟩⟩)⟩
          · simp only [mergePrev, hN2 fuel (by omega), hN3 fuel (by omega), Res.ok_bind, if_true]
          · simpa using en
          · obtain ⟨k, k1, k2, k3⟩ := hm.id
            exact ⟨hm.adj, hm.range, hm.piece, ⟨k, by omega, by omega, k3⟩, hm.score⟩
        | false =>
          refine ⟨{ db := d1, objects := sob, insertList := sin ++ [prv], merged := false }, ⟨max N2 N3, fun fuel hf => ?_⟩, w1, rfl,
            .inr (.inr ⟨rfl, rfl, ?_⟩)⟩
          · simp only [mergePrev, hN2 fuel (by omega), hN3 fuel (by omega), Res.ok_bind, Bool.false_eq_true, if_false]
          · rw [List.append_assoc]
            exact p2.append_left sin
  obtain ⟨s', ⟨N5, hN5⟩, w5, ho5, hs'⟩ := B
  obtain ⟨d6, ⟨N6, hN6⟩, w6, p6⟩ := w5.load he (if s'.merged then s'.insertList else s'.insertList ++ [hull])
  refine ⟨d6, s'.objects, c2, g2, ⟨max N0 (max N1 (max N4 (max N5 N6))), fun fuel hf => ?_⟩, w6, by omega, ?_⟩
  · have a4 := hN4 fuel (by omega)
    have a5 := hN5 fuel (by omega)
    have a6 := hN6 fuel (by omega)
    simp only [] at a4 a5 a6
    simp only [aggStep, hN0 fuel (by omega), hN1 fuel (by omega), Res.ok_bind, hpr, hnx, e1, e2, a4, a5, a6, Res.pure_eq]
  · rw [ho5]
    rcases hs' with ⟨h1, rfl⟩ | ⟨h1, h2, prv, m, h3, h4, h5, h6, h7, h8⟩ | ⟨h1, h2, h3⟩
    · rcases hs with ⟨-, nxt, m, k1, k2, k3, k4, k5, k6, k7⟩ | ⟨k1, -⟩
      · refine .next nxt m (Hdb.contents s'.db) s'.db (p0.trans (k6.cons hull)) ?_ k2 k4 k5 w4 (List.Perm.refl _) k7
        simp only [h1, if_true, k3] at p6
        exact p6.trans List.perm_append_comm
      · rw [h1] at k1; cases k1
    · rcases hs with ⟨k1, -⟩ | ⟨-, k2, k3, k4⟩
      · rw [h1] at k1; cases k1
      · refine .prev prv m (s.insertList ++ Hdb.contents s'.db) s.insertList s'.db ?_ ?_ k2 h5 h6 w5 (List.Perm.refl _) ?_ h8
        · refine p0.trans ?_
          have : (hull :: Hdb.contents d0).Perm (hull :: prv :: (s.insertList ++ Hdb.contents s'.db)) :=
            (k3.trans ((h7.append_left _).trans List.perm_middle)).cons hull
          exact this.trans (List.Perm.swap _ _ _)
        · simp only [h2, if_true, h4] at p6
          refine p6.trans (List.perm_append_comm.trans ?_)
          rw [List.append_assoc]
          exact List.perm_middle
        · rcases k4 with h | ⟨nxt, -, h, h'⟩
          · exact .inl h
          · exact .inr ⟨nxt, h, h'⟩
    · rcases hs with ⟨k1, -⟩ | ⟨-, k2, k3, k4⟩
      · rw [h1] at k1; cases k1
      · refine .keep ?_ k2
        simp only [h2, Bool.false_eq_true, if_false] at p6
        refine p6.trans (List.perm_append_comm.trans ?_)
        rw [List.append_assoc]
        refine List.Perm.trans ?_ p0.symm
        refine (List.perm_append_comm_assoc s'.insertList [hull] (Hdb.contents s'.db)).trans ?_
        exact ((k3.trans h3).symm).cons hull

end Verif
