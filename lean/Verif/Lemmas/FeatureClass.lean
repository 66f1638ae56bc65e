import Verif.Lemmas.Reach

/-! The simplification of a feature class: the instances one by one, and the joint deformation stage. -/

set_option linter.unusedSectionVars false

namespace Verif

variable {P C B K : Type} [LinearOrder B] [BoundedOrder B] [LinearOrder K]
variable {env : Env P C B K} {pts : Int → List P} {hs : List Int} {src : Int → Prop} {ids : Nat → Int} {g : Nat}

/-- The identifiers obtained from one shared source by the simplifications of the instances and by the joint stage: all different. -/
structure Streams (ids : Nat → Int) (idsOf : Int → Nat → Int) (handles : List Int) : Prop where
  joint : Function.Injective ids
  each : ∀ h ∈ handles, Function.Injective (idsOf h)
  apart : ∀ a ∈ handles, ∀ b ∈ handles, a ≠ b → ∀ k l, idsOf a k ≠ idsOf b l
  later : ∀ a ∈ handles, ∀ k l, idsOf a k ≠ ids l

/-- the pieces of one polyline of a cover -/
theorem Pieces.restrict {l : List (Node P C B)} (hp : Pieces env pts hs src ids g l) {h : Int} (hh : h ∈ hs) :
    Pieces env pts [h] src ids g (l.filter (fun nd => nd.inst = h)) := by
  have hm : ∀ nd, nd ∈ l.filter (fun nd => nd.inst = h) → nd ∈ l ∧ nd.inst = h := fun nd hnd => by simpa using List.mem_filter.1 hnd
  refine ⟨(List.filter_sublist.map _).nodup hp.nodup, fun nd hnd => hp.fresh nd (hm nd hnd).1, ⟨fun nd hnd => hp.source.1 nd (hm nd hnd).1, hp.source.2⟩,
    fun nd hnd => ⟨by simp [(hm nd hnd).2], (hp.piece nd (hm nd hnd).1).2⟩, fun k hk => ?_⟩
  rw [List.mem_singleton] at hk; subst hk
  obtain ⟨s, h1, h2⟩ := hp.cover k hh
  exact ⟨s, by simpa [List.filter_filter] using h1, h2⟩

/-- what is known of the result of one instance -/
structure InstResult (env : Env P C B K) (pts : Int → List P) (ids : Nat → Int) (h : Int) (cv : List Int) (out : Out P C B) : Prop where
  simple : out.simple = simpleSet out.hulls
  pieces : ∃ g, Pieces env pts [h] (∃ k, ids k = ·) ids g out.hulls
  settled : ∀ x ∈ out.hulls, Settled env x
  fixed : Splittable env pts h cv → (env.inst h).opts.planarSelf = true →
    (∀ v ∈ cv, ∀ x ∈ out.hulls, ¬ Inside v x) ∧ ∀ inters,
      selfIntersection env.lib env.lnr (env.inst h).pln (env.inst h).opts.planarSelf (env.inst h).opts.nonPlanarSelf = .ok inters →
      ∀ i ∈ inters, ∀ v ∈ i.splitIdxs, ∀ x ∈ out.hulls, ¬ Inside v x
  sep : (env.inst h).opts.avoidNewSelfIntersects = true → Sep env h out.hulls
  rooted : ∀ x ∈ out.hulls, Rooted env pts x

/-- constdp/fc_simplify.go:71-106 -/
theorem simplifyInstances_yields (he : EnvOK env) (hl : LnrOK env.lnr) {idsOf : Int → Nat → Int} {js : List (Int × Int)} : ∀ (handles : List Int)
    (dirty : Int → Bool), (∀ h ∈ handles, InstOK env h (pts h)) → (∀ h ∈ handles, Function.Injective (idsOf h)) →
    (∀ h ∈ handles, ∀ i ∈ junctionsOf js (env.inst h).id, 0 ≤ i ∧ i < (pts h).length) →
    ∃ outs dirty', Yields (fun fuel => simplifyInstances env idsOf js fuel handles dirty) (outs, dirty') ∧ outs.map Prod.fst = handles ∧
      ∀ x ∈ outs, InstResult env pts (idsOf x.1) x.1 (junctionsOf js (env.inst x.1).id) x.2 := by
  intro handles
  induction handles with
  | nil => intro dirty _ _ _; exact ⟨[], dirty, ⟨0, fun _ _ => rfl⟩, rfl, by simp⟩
  | cons h handles ih =>
    intro dirty hi hinj hcv
    obtain ⟨out, d1, g', ⟨N, hN⟩, r1, r2, r3, r4, r5, r6⟩ := simplify_yields he hl (hi h (by simp)) (hinj h (by simp)) (hcv h (by simp)) dirty
    obtain ⟨outs, d2, ⟨M, hM⟩, q1, q2⟩ := ih d1 (fun k hk => hi k (List.mem_cons_of_mem _ hk)) (fun k hk => hinj k (List.mem_cons_of_mem _ hk))
      (fun k hk => hcv k (List.mem_cons_of_mem _ hk))
    refine ⟨(h, out) :: outs, d2, ⟨max N M, fun fuel hf => ?_⟩, by rw [List.map_cons, q1], fun x hx => ?_⟩
    · have e := hM fuel (by omega)
      simp only [] at e
      simp only [simplifyInstances, hN fuel (by omega), e, Res.ok_bind, Res.pure_eq]
    · rcases List.mem_cons.1 hx with rfl | hx
      · exact ⟨r1, ⟨g', r2⟩, r3, r4, r5, r6⟩
      · exact q2 x hx

/-- the pieces of all instances together cover all polylines -/
theorem joint_pieces {idsOf : Int → Nat → Int} {cv : Int → List Int} : ∀ (outs : List (Int × Out P C B)), (outs.map Prod.fst).Nodup →
    Streams ids idsOf (outs.map Prod.fst) → (∀ x ∈ outs, InstResult env pts (idsOf x.1) x.1 (cv x.1) x.2) →
    Pieces env pts (outs.map Prod.fst) (fun _ => True) ids 0 (outs.flatMap (fun x => x.2.hulls)) ∧
      (∀ x ∈ outs, (outs.flatMap (fun x => x.2.hulls)).filter (fun nd => nd.inst = x.1) = x.2.hulls) := by
  intro outs hnd hst hr
  have hinst : ∀ x ∈ outs, ∀ nd ∈ x.2.hulls, nd.inst = x.1 := by
    intro x hx nd hnd
    obtain ⟨g, hp⟩ := (hr x hx).pieces
    simpa using (hp.piece nd hnd).1
  have hsrc : ∀ x ∈ outs, ∀ nd ∈ x.2.hulls, ∃ k, idsOf x.1 k = nd.id := by
    intro x hx nd hnd
    obtain ⟨g, hp⟩ := (hr x hx).pieces
    exact hp.source.1 nd hnd
  have hfil : ∀ (l : List (Int × Out P C B)), (l.map Prod.fst).Nodup → (∀ x ∈ l, ∀ nd ∈ x.2.hulls, nd.inst = x.1) → ∀ x ∈ l,
      (l.flatMap (fun x => x.2.hulls)).filter (fun nd => nd.inst = x.1) = x.2.hulls := by
    intro l
    induction l with
    | nil => intro _ _ x hx; cases hx
    | cons y l ih =>
      intro hn hi x hx
      rw [List.map_cons, List.nodup_cons] at hn
      rw [List.flatMap_cons, List.filter_append]
      rcases List.mem_cons.1 hx with rfl | hx
      · rw [List.filter_eq_self.2 (fun nd hnd => by simpa using hi x (by simp) nd hnd), List.filter_eq_nil_iff.2, List.append_nil]
        intro nd hnd hc
        obtain ⟨z, hz, hnz⟩ := List.mem_flatMap.1 hnd
        have h1 := hi z (List.mem_cons_of_mem _ hz) nd hnz
        have h2 : nd.inst = x.1 := by simpa using hc
        exact hn.1 (List.mem_map.2 ⟨z, hz, h1.symm.trans h2⟩)
      · rw [ih hn.2 (fun z hz => hi z (List.mem_cons_of_mem _ hz)) x hx, List.filter_eq_nil_iff.2, List.nil_append]
        intro nd hnd hc
        have h1 := hi y (by simp) nd hnd
        have h2 : nd.inst = x.1 := by simpa using hc
        exact hn.1 (List.mem_map.2 ⟨x, hx, h2.symm.trans h1⟩)
  have hfil := hfil outs hnd hinst
  refine ⟨⟨?_, ?_, ⟨fun _ _ => trivial, fun _ => trivial⟩, ?_, ?_⟩, hfil⟩
  · rw [List.map_flatMap, List.nodup_flatMap]
    refine ⟨fun x hx => ?_, ?_⟩
    · obtain ⟨g, hp⟩ := (hr x hx).pieces
      exact hp.nodup
    · have hp : outs.Pairwise (fun a b => a.1 ≠ b.1) := by rw [List.Nodup, List.pairwise_map] at hnd; exact hnd
      refine (List.Pairwise.and_mem.1 hp).imp ?_
      rintro a b ⟨ha, hb, hab⟩ i hi1 hi2
      obtain ⟨n1, hn1, rfl⟩ := List.mem_map.1 hi1
      obtain ⟨n2, hn2, h2⟩ := List.mem_map.1 hi2
      obtain ⟨k1, e1⟩ := hsrc a ha n1 hn1
      obtain ⟨k2, e2⟩ := hsrc b hb n2 hn2
      exact hst.apart a.1 (List.mem_map.2 ⟨a, ha, rfl⟩) b.1 (List.mem_map.2 ⟨b, hb, rfl⟩) hab k1 k2 (e1.trans (h2.symm.trans e2.symm))
  · intro nd hnd' k _ hk
    obtain ⟨x, hx, hxn⟩ := List.mem_flatMap.1 hnd'
    obtain ⟨k1, e1⟩ := hsrc x hx nd hxn
    exact hst.later x.1 (List.mem_map.2 ⟨x, hx, rfl⟩) k1 k (e1.trans hk)
  · intro nd hnd'
    obtain ⟨x, hx, hxn⟩ := List.mem_flatMap.1 hnd'
    obtain ⟨g, hp⟩ := (hr x hx).pieces
    exact ⟨by rw [hinst x hx nd hxn]; exact List.mem_map.2 ⟨x, hx, rfl⟩, (hp.piece nd hxn).2⟩
  · intro h hh
    obtain ⟨x, hx, rfl⟩ := List.mem_map.1 hh
    obtain ⟨g, hp⟩ := (hr x hx).pieces
    obtain ⟨s, h1, h2⟩ := hp.cover x.1 (by simp)
    refine ⟨s, h1.trans (List.Perm.of_eq ?_), h2⟩
    rw [hfil x hx, List.filter_eq_self.2 (fun nd hnd => by simpa using hinst x hx nd hnd)]

/-- with one identifier per instance, a group consists of the pieces of one instance -/
theorem groupResult_eq {handles : List Int} (hid : ∀ a ∈ handles, ∀ b ∈ handles, (env.inst a).id = (env.inst b).id → a = b) {nodes : List (Node P C B)}
    (hp : Pieces env pts handles src ids g nodes) {h : Int} (hh : h ∈ handles) (h2 : 2 ≤ (pts h).length) (old : Out P C B) :
    groupResult env nodes h old = ⟨nodes.filter (fun nd => nd.inst = h), simpleSet (nodes.filter (fun nd => nd.inst = h))⟩ := by
  have hg : groupOf env nodes (env.inst h).id = nodes.filter (fun nd => nd.inst = h) := by
    unfold groupOf
    refine List.filter_congr (fun nd hnd => ?_)
    rw [decide_eq_decide]
    exact ⟨fun he => hid _ (hp.piece nd hnd).1 _ hh he, fun he => by rw [he]⟩
  unfold groupResult
  simp only [hg]
  cases hf : nodes.filter (fun nd => nd.inst = h) with
  | nil =>
    obtain ⟨s, s1, s2⟩ := hp.cover h hh
    rw [hf] at s1
    rw [s1.eq_nil] at s2
    simp only [List.map_nil, Chain] at s2
    omega
  | cons nd l =>
    have : nd ∈ nodes.filter (fun nd => nd.inst = h) := by rw [hf]; simp
    have := (List.mem_filter.1 this).2
    simp only [decide_eq_true_eq] at this
    simp only [this, if_true]

/-- the reported junctions are vertices of the features -/
theorem fcLoop_mem (eq : P → P → Bool) (s : List (Vtx P)) {e : Int × Int} (h : e ∈ fcLoop eq s 0 []) : ∃ v ∈ s, v.fid = e.1 ∧ v.index = e.2 := by
  rw [fcLoop_runs, List.mem_flatMap] at h
  obtain ⟨m, hm, he⟩ := h
  obtain ⟨v, hv, rfl⟩ := List.mem_map.1 he
  refine ⟨v, ?_, rfl, rfl⟩
  have h1 : m ∈ s.splitBy (fun a b => eq a.pt b.pt) := List.dropLast_subset _ (List.mem_filter.1 hm).1
  have h2 : v ∈ (s.splitBy (fun a b => eq a.pt b.pt)).flatten := List.mem_flatten.2 ⟨m, h1, hv⟩
  rwa [List.flatten_splitBy] at h2

theorem fcJunctions_ok (hl : LnrOK env.lnr) {handles : List Int} (hi : ∀ h ∈ handles, InstOK env h (pts h))
    (hid : ∀ a ∈ handles, ∀ b ∈ handles, (env.inst a).id = (env.inst b).id → a = b) (pl : Bool) :
    ∃ js, fcJunctions env handles pl = .ok js ∧ (pl = false → js = []) ∧
      (pl = true → fcPlanarSelfIntersection env.lib env.lnr ((handles.map (fun h => (pts h, (env.inst h).id))).map (fun f => (coordsOf f.1, f.2))) = .ok js) ∧
      ∀ h ∈ handles, ∀ i ∈ junctionsOf js (env.inst h).id, 0 ≤ i ∧ i < (pts h).length := by
  cases pl with
  | false => exact ⟨[], rfl, fun _ => rfl, by simp, by simp [junctionsOf]⟩
  | true =>
    have h1 : ∀ hs : List Int, (∀ h ∈ hs, h ∈ handles) → Hdb.mapRes (fun h => do let c ← (env.inst h).pln.coordinates; Res.ok (c, (env.inst h).id)) hs =
        .ok ((hs.map (fun h => (pts h, (env.inst h).id))).map (fun f => (coordsOf f.1, f.2))) := by
      intro hs
      induction hs with
      | nil => intro _; rfl
      | cons a hs ih =>
        intro hm
        have ha := hi a (hm a (by simp))
        have hc := polyline_coordinates ha.two
        rw [← ha.pln] at hc
        simp only [Hdb.mapRes, hc, Res.ok_bind, Res.pure_eq, ih (fun h hh => hm h (List.mem_cons_of_mem _ hh)), List.map_cons]
    have h2 := fcVertices_eq (handles.map (fun h => (pts h, (env.inst h).id)))
    refine ⟨fcLoop env.lib.equals2D (env.lnr.sortV (classVertices (handles.map (fun h => (pts h, (env.inst h).id))))) 0 [],
      by simp only [fcJunctions, if_true, Res.pure_eq, h1 handles (fun _ h => h), Res.ok_bind, fcPlanarSelfIntersection, h2], by simp,
      fun _ => by simp only [fcPlanarSelfIntersection, h2, Res.ok_bind, Res.pure_eq], ?_⟩
    intro h hh i hi'
    simp only [junctionsOf, List.mem_map, List.mem_filter] at hi'
    obtain ⟨e, ⟨he, hf⟩, rfl⟩ := hi'
    obtain ⟨v, hv, v1, v2⟩ := fcLoop_mem _ _ he
    have hv := (hl.sort _).mem_iff.1 hv
    simp only [classVertices, List.mem_flatMap, List.mem_map] at hv
    obtain ⟨f, ⟨k, hk, rfl⟩, hv⟩ := hv
    obtain ⟨n, n1, n2, n3⟩ := mem_lineVertices.1 hv
    have hkh : k = h := hid k hk h hh (n3.symm.trans (v1.trans (by simpa using hf)))
    subst hkh
    have := (List.getElem?_eq_some_iff.1 n1).1
    rw [← v2, n2]
    simp only at this
    omega

/-- what is known of the result of one feature: its pieces cover it, no fixed vertex is inside a piece -/
structure FeatureResult (env : Env P C B K) (pts : Int → List P) (ids : Nat → Int) (h : Int) (cv : List Int) (out : Out P C B) : Prop where
  simple : out.simple = simpleSet out.hulls
  pieces : ∃ src ids' g, Pieces env pts [h] src ids' g out.hulls
  settled : ∀ x ∈ out.hulls, Settled env x
  fixed : Splittable env pts h cv → (env.inst h).opts.planarSelf = true →
    (∀ v ∈ cv, ∀ x ∈ out.hulls, ¬ Inside v x) ∧ ∀ inters,
      selfIntersection env.lib env.lnr (env.inst h).pln (env.inst h).opts.planarSelf (env.inst h).opts.nonPlanarSelf = .ok inters →
      ∀ i ∈ inters, ∀ v ∈ i.splitIdxs, ∀ x ∈ out.hulls, ¬ Inside v x
  rooted : ∀ x ∈ out.hulls, Rooted env pts x

/-- constdp/fc_simplify.go:14-69 -/
theorem simplifyFeatureClass_yields (he : EnvOK env) (hl : LnrOK env.lnr) {handles : List Int} (hi : ∀ h ∈ handles, InstOK env h (pts h))
    (hn : handles.Nodup) (hid : ∀ a ∈ handles, ∀ b ∈ handles, (env.inst a).id = (env.inst b).id → a = b) {idsOf : Int → Nat → Int}
    (hst : Streams ids idsOf handles) (o : Opts K) (dirty : Int → Bool) :
    ∃ js res, fcJunctions env handles o.planarSelf = .ok js ∧ Yields (simplifyFeatureClass env ids idsOf handles o dirty) res ∧ res.map Prod.fst = handles ∧
      ∀ x ∈ res, FeatureResult env pts ids x.1 (junctionsOf js (env.inst x.1).id) x.2 := by
  obtain ⟨js, j1, -, -, j2⟩ := fcJunctions_ok hl hi hid o.planarSelf
  obtain ⟨outs, d1, ⟨N1, e1⟩, r1, r2⟩ := simplifyInstances_yields he hl (js := js) handles dirty hi hst.each j2
  obtain ⟨p1, p2⟩ := joint_pieces (ids := ids) (cv := fun h => junctionsOf js (env.inst h).id) outs (by rw [r1]; exact hn) (by rw [r1]; exact hst) r2
  by_cases hc : (o.avoidNewSelfIntersects || o.planarSelf || o.geomRelation || o.dirRelation || o.distRelation) = true
  · obtain ⟨d2, ⟨N2, e2⟩, w2, q2⟩ := DbOK.new.load he (outs.flatMap (fun x => x.2.hulls))
    rw [contents_new, List.nil_append] at q2
    rw [r1] at p1
    obtain ⟨st, ⟨N3, e3⟩, w3, hg3, p3, s3, set3⟩ := deformLoop_yields he hi hst.joint _ ⟨d2, 0, d1⟩ (outs.flatMap (fun x => x.2.hulls)) rfl w2
      (p1.perm q2.symm) (fun x hx => q2.mem_iff.2 hx) (fun x hx => .inl (q2.mem_iff.1 hx))
    obtain ⟨nodes, ⟨N5, e5⟩, q5⟩ := Hdb.all_yields w3.wf
    have p5 := p3.perm q5.symm
    refine ⟨js, outs.map (fun x => (x.1, groupResult env nodes x.1 x.2)), j1, ⟨max N1 (max N2 (max N3 N5)), fun fuel hf => ?_⟩, ?_, ?_⟩
    · have e1 := e1 fuel (by omega)
      have e3 := e3 fuel (by omega)
      simp only [] at e1 e3
      simp only [simplifyFeatureClass, j1, e1, Res.ok_bind, hc, if_true, e2 fuel (by omega), e3, e5 fuel (by omega), Res.pure_eq]
    · rw [List.map_map]; exact r1
    · intro y hy
      obtain ⟨x, hx, rfl⟩ := List.mem_map.1 hy
      have hxh : x.1 ∈ handles := by rw [← r1]; exact List.mem_map.2 ⟨x, hx, rfl⟩
      show FeatureResult env pts ids x.1 (junctionsOf js (env.inst x.1).id) (groupResult env nodes x.1 x.2)
      rw [groupResult_eq hid p5 hxh (hi _ hxh).two]
      have hsub : ∀ v, (∀ z ∈ x.2.hulls, ¬ Inside v z) → ∀ z ∈ nodes.filter (fun nd => nd.inst = x.1), ¬ Inside v z := by
        intro v hv z hz
        obtain ⟨hz1, hz2⟩ := List.mem_filter.1 hz
        obtain ⟨w, hw, hzw⟩ := s3 z (q5.mem_iff.1 hz1)
        refine hzw.not_inside (hv w ?_)
        rw [← p2 x hx]
        exact List.mem_filter.2 ⟨q2.mem_iff.1 hw, by rw [← hzw.inst]; exact hz2⟩
      refine ⟨rfl, ⟨_, _, _, p5.restrict hxh⟩, fun z hz => set3 z (q5.mem_iff.1 (List.mem_filter.1 hz).1), fun hs hpl => ?_, fun z hz => ?_⟩
      swap
      · obtain ⟨hz1, hz2⟩ := List.mem_filter.1 hz
        obtain ⟨w, hw, hzw⟩ := s3 z (q5.mem_iff.1 hz1)
        obtain ⟨y, hy, hwy⟩ := List.mem_flatMap.1 (q2.mem_iff.1 hw)
        exact ((r2 y hy).rooted w hwy).sub hzw
      obtain ⟨f1, f2⟩ := (r2 x hx).fixed hs hpl
      exact ⟨fun v hv => hsub v (f1 v hv), fun inters hin i hii v hv => hsub v (f2 inters hin i hii v hv)⟩
  · refine ⟨js, outs, j1, ⟨N1, fun fuel hf => ?_⟩, r1, fun x hx => ?_⟩
    · have e1 := e1 fuel (by omega)
      simp only [] at e1
      simp only [simplifyFeatureClass, j1, e1, Res.ok_bind, hc, Bool.false_eq_true, if_false, Res.pure_eq]
    · obtain ⟨g, hp⟩ := (r2 x hx).pieces
      exact ⟨(r2 x hx).simple, ⟨_, _, g, hp⟩, (r2 x hx).settled, (r2 x hx).fixed, (r2 x hx).rooted⟩

end Verif
