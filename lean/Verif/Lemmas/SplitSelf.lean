import Verif.Lemmas.DeformLoop

/-! Splitting at self-intersections and fixed vertices: packages `constrain` and `lnr`. -/

set_option linter.unusedSectionVars false

namespace Verif

variable {P C B K : Type} [LinearOrder B] [BoundedOrder B] [LinearOrder K]
variable {env : Env P C B K} {pts : Int → List P} {hs : List Int} {src : Int → Prop} {ids : Nat → Int} {g : Nat}

/-- index `v` lies strictly inside the piece -/
def Inside (v : Int) (nd : Node P C B) : Prop := nd.range.I < v ∧ v < nd.range.J

theorem Sub.not_inside {n x : Node P C B} (h : Sub n x) {v : Int} (hv : ¬ Inside v x) : ¬ Inside v n := by
  have := h.lo; have := h.hi
  simp only [Inside] at hv ⊢
  omega

/-- constrain/split.go:33-40 -/
theorem splitNodes_yields (he : EnvOK env) (hi : ∀ k ∈ hs, InstOK env k (pts k)) (hinj : Function.Injective ids) (idxs : List Int) :
    ∀ (nodes : List (Node P C B)) (db : Db P C B) (g : Nat), DbOK db → Pieces env pts hs src ids g (Hdb.contents db) → (nodes.map Node.id).Nodup →
    (∀ x ∈ nodes, x ∈ Hdb.contents db) →
    ∃ db' g', Yields (fun fuel => splitNodes env ids idxs fuel nodes db g) (db', g') ∧ DbOK db' ∧ g ≤ g' ∧ Pieces env pts hs src ids g' (Hdb.contents db') ∧
      (∀ m ∈ Hdb.contents db', (m ∈ Hdb.contents db ∧ m ∉ nodes) ∨ (∃ x ∈ nodes, Sub m x) ∧ ∀ v ∈ idxs, ¬ Inside v m) := by
  intro nodes
  induction nodes with
  | nil =>
    intro db g hd hp _ _
    exact ⟨db, g, ⟨0, fun _ _ => rfl⟩, hd, Nat.le_refl _, hp, fun m hm => .inl ⟨hm, by simp⟩⟩
  | cons x nodes ih =>
    intro db g hd hp hn hm
    rw [List.map_cons, List.nodup_cons] at hn
    have hx := hp.known (hm x (by simp))
    have hxn : ∀ y ∈ nodes, y ≠ x := by
      rintro y hy rfl
      exact hn.1 (List.mem_map.2 ⟨y, hy, rfl⟩)
    rcases atIndex_spec (hi _ hx.inst).hull hx.piece hx.lo hx.hi ids g idxs with ⟨hno, e⟩ | ⟨-, ns, e, ne, ch, pc, fr, nd, sp⟩
    · obtain ⟨db', g', ⟨N, hN⟩, d', hg, p', s'⟩ := ih db g hd hp hn.2 (fun y hy => hm y (List.mem_cons_of_mem _ hy))
      refine ⟨db', g', ⟨N, fun fuel hf => ?_⟩, d', hg, p', fun m hm' => ?_⟩
      · have e2 := hN fuel hf
        simp only [] at e2
        simp only [splitNodes, e, Res.ok_bind, List.length_nil, if_true, e2]
      · rcases s' m hm' with ⟨h1, h2⟩ | ⟨⟨y, hy, hs⟩, h2⟩
        · by_cases hmx : m = x
          · right; subst hmx
            exact ⟨⟨m, by simp, Sub.refl m⟩, hno⟩
          · exact .inl ⟨h1, by simp [hmx, h2]⟩
        · exact .inr ⟨⟨y, List.mem_cons_of_mem _ hy, hs⟩, h2⟩
    · obtain ⟨d1, ⟨N1, hN1⟩, w1, p1⟩ := hd.remove hp.nodup (hm x (by simp))
      obtain ⟨d2, ⟨N2, hN2⟩, w2, p2⟩ := w1.load he ns
      have hp2 : Pieces env pts hs src ids (g + ns.length) (Hdb.contents d2) := by
        have := (hp.perm p1).replace (g' := g + ns.length) (by omega) (nd hinj) fr hinj pc ch
        exact this.perm (List.perm_append_comm.trans p2.symm)
      obtain ⟨db', g', ⟨N, hN⟩, d', hg, p', s'⟩ := ih d2 (g + ns.length) w2 hp2 hn.2 (by
        intro y hy
        have h1 := p1.mem_iff.1 (hm y (List.mem_cons_of_mem _ hy))
        rcases List.mem_cons.1 h1 with rfl | h1
        · exact absurd rfl (hxn y hy)
        · exact p2.mem_iff.2 (List.mem_append_left _ h1))
      refine ⟨db', g', ⟨max N (max N1 N2), fun fuel hf => ?_⟩, d', by omega, p', fun m hm' => ?_⟩
      · have e1 := hN2 fuel (by omega)
        have e2 := hN fuel (by omega)
        simp only [] at e1 e2
        have hl : ns.length ≠ 0 := by simpa using ne
        simp only [splitNodes, e, Res.ok_bind, hl, if_false, hN1 fuel (by omega), e1, e2]
      · rcases s' m hm' with ⟨h1, h2⟩ | ⟨⟨y, hy, hs⟩, h2⟩
        · rcases List.mem_append.1 (p2.mem_iff.1 h1) with h | h
          · left
            have hmx : m ≠ x := by
              rintro rfl
              have := (p1.map Node.id).nodup_iff.1 hp.nodup
              rw [List.map_cons, List.nodup_cons] at this
              exact this.1 (List.mem_map.2 ⟨m, h, rfl⟩)
            exact ⟨p1.mem_iff.2 (List.mem_cons_of_mem _ h), by simp [hmx, h2]⟩
          · right
            have hb := ch.mem (List.mem_map.2 ⟨m, h, rfl⟩)
            exact ⟨⟨x, by simp, (pc m h).inst, hb.1, hb.2.2⟩, fun v hv => sp v hv m h⟩
        · exact .inr ⟨⟨y, List.mem_cons_of_mem _ hy, hs⟩, h2⟩

/-- What the nearest-neighbour search needs to find the pieces that contain one of the vertices `idxs` when asked at point `p`: boxes do not seem much farther (`far` says how
much) than what they contain, and the hull of such a piece is so near that it cannot be missed. -/
structure Reaches (env : Env P C B K) (near : Fl K → Fl K → Prop) (pts : Int → List P) (hs : List Int) (p : P) (idxs : List Int) : Prop where
  found : ∃ far : Fl K → Fl K → Prop, (∀ items : List (Node P C B), (∀ x ∈ items, Known env pts hs x) →
      Hdb.BoxNear nodeOps near far (env.lib.boxDistance (.point p)) (fun nd => env.lib.distance (.point p) nd.geom) items) ∧
    ∀ nd, Known env pts hs nd → (∃ v ∈ idxs, Inside v nd) → ¬ Hdb.Missed far (fun nd : Node P C B => env.lib.distance (.point p) nd.geom) env.eps nd

/-- constrain/split.go:21-41 -/
theorem splitAtInters_yields (he : EnvOK env) (hi : ∀ k ∈ hs, InstOK env k (pts k)) (hinj : Function.Injective ids) {strong : Prop}
    {near : Fl K → Fl K → Prop} (hl : env.heap.Legal near) (_ : ∀ a b c, near a b → b.le c = true → near a c) :
    ∀ (inters : List (Inter P)) (db : Db P C B) (g : Nat), DbOK db → Pieces env pts hs src ids g (Hdb.contents db) →
    (strong → ∀ i ∈ inters, Reaches env near pts hs i.pt i.splitIdxs) →
    ∃ db' g', Yields (fun fuel => splitAtInters env ids fuel inters db g) (db', g') ∧ DbOK db' ∧ g ≤ g' ∧ Pieces env pts hs src ids g' (Hdb.contents db') ∧
      (∀ m ∈ Hdb.contents db', ∃ x ∈ Hdb.contents db, Sub m x) ∧
      (strong → ∀ i ∈ inters, ∀ v ∈ i.splitIdxs, ∀ m ∈ Hdb.contents db', ¬ Inside v m) := by
  intro inters
  induction inters with
  | nil =>
    intro db g hd hp _
    exact ⟨db, g, ⟨0, fun _ _ => rfl⟩, hd, Nat.le_refl _, hp, fun m hm => ⟨m, hm, Sub.refl m⟩, by simp⟩
  | cons inter inters ih =>
    intro db g hd hp hr
    by_cases hz : inter.splitIdxs.length = 0
    · obtain ⟨db', g', ⟨N, hN⟩, d', hg, p', s', t'⟩ := ih db g hd hp (fun h i hi => hr h i (List.mem_cons_of_mem _ hi))
      refine ⟨db', g', ⟨N, fun fuel hf => ?_⟩, d', hg, p', s', ?_⟩
      · have e2 := hN fuel hf
        simp only [] at e2
        simp only [splitAtInters, hz, if_true, e2]
      · intro h i hi
        rcases List.mem_cons.1 hi with rfl | hi
        · rw [List.length_eq_zero_iff] at hz; rw [hz]; simp
        · exact t' h i hi
    · obtain ⟨far, hfar⟩ : ∃ far : Fl K → Fl K → Prop, strong → (∀ items : List (Node P C B), (∀ x ∈ items, Known env pts hs x) →
            Hdb.BoxNear nodeOps near far (env.lib.boxDistance (.point inter.pt)) (fun nd => env.lib.distance (.point inter.pt) nd.geom) items) ∧
          ∀ nd, Known env pts hs nd → (∃ v ∈ inter.splitIdxs, Inside v nd) →
            ¬ Hdb.Missed far (fun nd : Node P C B => env.lib.distance (.point inter.pt) nd.geom) env.eps nd := by
        by_cases hst : strong
        · obtain ⟨far, h⟩ := (hr hst inter (by simp)).found
          exact ⟨far, fun _ => h⟩
        · exact ⟨near, fun h => absurd h hst⟩
      obtain ⟨nodes, ⟨N1, hN1⟩, rest, kp, kd, ks⟩ := Hdb.contextNeighbours_rough_yields (strong := strong) hd.wf hl
        (boxDist := env.lib.boxDistance (.point inter.pt)) (itemDist := fun nd => env.lib.distance (.point inter.pt) nd.geom)
        (fun h => (hfar h).1 _ (fun t ht => hp.known ht)) env.eps
      have hnd : (nodes.map Node.id).Nodup := by
        have := (kp.map Node.id).nodup_iff.2 hp.nodup
        rw [List.map_append, List.nodup_append] at this
        exact this.1
      have hmem : ∀ x ∈ nodes, x ∈ Hdb.contents db := fun x hx => kp.mem_iff.1 (List.mem_append_left _ hx)
      obtain ⟨d1, g1, ⟨N2, hN2⟩, w1, hg1, p1, s1⟩ := splitNodes_yields he hi hinj inter.splitIdxs nodes db g hd hp hnd hmem
      obtain ⟨db', g', ⟨N, hN⟩, d', hg, p', s', t'⟩ := ih d1 g1 w1 p1 (fun h i hi => hr h i (List.mem_cons_of_mem _ hi))
      refine ⟨db', g', ⟨max N (max N1 N2), fun fuel hf => ?_⟩, d', by omega, p', ?_, ?_⟩
      · have e1 := hN2 fuel (by omega)
        have e2 := hN fuel (by omega)
        simp only [] at e1 e2
        simp only [splitAtInters, hz, if_false, hN1 fuel (by omega), Res.ok_bind, e1, e2]
      · intro m hm
        obtain ⟨y, hy, hs⟩ := s' m hm
        rcases s1 y hy with ⟨h1, _⟩ | ⟨⟨x, hx, hs2⟩, _⟩
        · exact ⟨y, h1, hs⟩
        · exact ⟨x, hmem x hx, hs.trans hs2⟩
      · intro h i hi' v hv m hm
        rcases List.mem_cons.1 hi' with rfl | hi'
        · obtain ⟨y, hy, hs⟩ := s' m hm
          apply hs.not_inside
          rcases s1 y hy with ⟨h1, h2⟩ | ⟨_, h2⟩
          · intro hin
            have hrest : y ∈ rest := by
              rcases List.mem_append.1 (kp.mem_iff.2 h1) with h3 | h3
              · exact absurd h3 h2
              · exact h3
            exact (hfar h).2 y (hp.known h1) ⟨v, hv, hin⟩ ((ks h).2 y hrest).missed
          · exact h2 v hv
        · exact t' h i hi' v hv m hm

/-! ### the self-intersections themselves -/

/-- assumptions about the external code used by `lnr`: sorting permutes, and the segment index returns positions of the array it was built from -/
structure LnrOK (lnr : LnrLib P B) : Prop where
  sort : ∀ l, (lnr.sortV l).Perm l
  search : ∀ data d, ∀ o ∈ lnr.segSearch data d, o < data.length

theorem coordsOf_len (ps : List P) : (coordsOf ps).len = ps.length := by
  rw [coordsOf, Coords.len_sub _ _ _ (by omega)]; omega

theorem coordsOf_pt (ps : List P) (k : Nat) (h : k < ps.length) : (coordsOf ps).pt k = .ok ps[k] := by
  rw [coordsOf, Coords.pt_sub (by omega) (by omega) (by omega)]
  simp [List.getElem?_eq_getElem h, Res.ofOption]

theorem polyline_coordinates {ps : List P} (h : 2 ≤ ps.length) : (createPolyline (coordsOf ps)).coordinates = .ok (coordsOf ps) := by
  have : ¬ (coordsOf ps).len < 2 := by rw [coordsOf_len]; omega
  simp [createPolyline, Polyline.coordinates, this]

/-- the vertices of a coordinate list with their positions -/
theorem verticesOf_ok (ps : List P) (fid : Int) : ∀ (todo i : Nat), i + todo ≤ ps.length →
    verticesOf (coordsOf ps) fid todo i = .ok (((ps.drop i).take todo).zipIdx i |>.map (fun x => ⟨x.1, x.2, fid⟩)) := by
  intro todo
  induction todo with
  | zero => intro i _; simp [verticesOf]
  | succ n ih =>
    intro i h
    have hlt : i < ps.length := by omega
    simp only [verticesOf, coordsOf_pt ps i hlt, Res.ok_bind, ih (i + 1) (by omega), Res.pure_eq]
    rw [List.drop_eq_getElem_cons hlt, List.take_succ_cons, List.zipIdx_cons, List.map_cons]

theorem coordsOf_idxAt (ps : List P) (k : Nat) (hk : k < ps.length) : (coordsOf ps).idxAt k = .ok (k : Int) := by
  have h0 : ¬ ((k : Int) < 0) := by omega
  have := getElem?_rangeInts (i := 0) (j := ps.length - 1) (t := k) (by omega)
  simp only [Coords.idxAt, coordsOf, Coords.sub, h0, if_false, Int.toNat_natCast, this, Res.ofOption, Int.zero_add]

omit [LinearOrder B] [BoundedOrder B] [LinearOrder K] in
theorem segmentBounds_ok (lnr : LnrLib P B) (ps : List P) : ∀ (todo i : Nat), i + todo + 1 ≤ ps.length →
    ∃ data, segmentBounds lnr (coordsOf ps) todo i = .ok data ∧ data.length = todo ∧
      ∀ t < todo, ∃ a b, ps[i + t]? = some a ∧ ps[i + t + 1]? = some b ∧
        data[t]? = some ⟨lnr.segBox a b, (i + t : Nat), ((i + t + 1 : Nat) : Int)⟩ := by
  intro todo
  induction todo with
  | zero => intro i _; exact ⟨[], rfl, rfl, by intro t h; omega⟩
  | succ n ih =>
    intro i h
    obtain ⟨data, e, hl, hd⟩ := ih (i + 1) (by omega)
    refine ⟨⟨lnr.segBox (ps[i]'(by omega)) (ps[i + 1]'(by omega)), (i : Nat), ((i + 1 : Nat) : Int)⟩ :: data, ?_, by simp [hl], ?_⟩
    · have e1 := coordsOf_pt ps i (by omega)
      have e2 := coordsOf_pt ps (i + 1) (by omega)
      have e3 := coordsOf_idxAt ps i (by omega)
      have e4 := coordsOf_idxAt ps (i + 1) (by omega)
      have e5 : ((i + 1 : Nat) : Int) = (i : Int) + 1 := by omega
      rw [e5] at e2 e4
      simp only [segmentBounds, e1, e2, e3, e4, e, Res.ok_bind, Res.pure_eq, e5]
    · intro t ht
      cases t with
      | zero => exact ⟨_, _, List.getElem?_eq_getElem (by omega), List.getElem?_eq_getElem (by omega), by simp⟩
      | succ t =>
        obtain ⟨a, b, h1, h2, h3⟩ := hd t (by omega)
        have : i + 1 + t = i + (t + 1) := by omega
        rw [this] at h1 h2 h3
        exact ⟨a, b, h1, h2, by rw [List.getElem?_cons_succ, h3]⟩

/-- what is known of the segment boxes -/
def SegOK (ps : List P) (data : List (SegBox B)) : Prop := ∀ s ∈ data, ∃ t : Nat, t + 1 < ps.length ∧ s.I = t ∧ s.J = t + 1

theorem nonPlanarInner_ok (lnr : LnrLib P B) (ps : List P) (data : List (SegBox B)) (hd : SegOK ps data) (d : Nat) (hlt : d < data.length) :
    ∀ (os : List Nat) (cache : List (List Int)), (∀ o ∈ os, o < data.length) → ∃ r, nonPlanarInner lnr (coordsOf ps) data d os cache = .ok r := by
  intro os
  induction os with
  | nil => intro cache _; exact ⟨_, rfl⟩
  | cons o os ih =>
    intro cache ho
    have ho' := fun x hx => ho x (List.mem_cons_of_mem _ hx)
    have e1 := List.getElem?_eq_getElem hlt
    have hoo := ho o (by simp)
    have e2 := List.getElem?_eq_getElem hoo
    obtain ⟨t, t1, t2, t3⟩ := hd _ (List.mem_of_getElem? e1)
    obtain ⟨u, u1, u2, u3⟩ := hd _ (List.mem_of_getElem? e2)
    simp only [nonPlanarInner]
    split_ifs with h1
    · exact ih cache ho'
    · simp only [e1, e2]
      split_ifs with h2
      · exact ih cache ho'
      · obtain ⟨⟨r, c⟩, hr⟩ := ih (cache ++ [segCacheKey data[d] data[o]]) ho'
        have p1 := coordsOf_pt ps t (by omega)
        have p2 := coordsOf_pt ps (t + 1) (by omega)
        have p3 := coordsOf_pt ps u (by omega)
        have p4 := coordsOf_pt ps (u + 1) (by omega)
        push_cast at p2 p4
        simp only [t2, t3, u2, u3, p1, p2, p3, p4, hr, Res.ok_bind, Res.pure_eq]
        exact ⟨_, rfl⟩

theorem nonPlanarOuter_ok (lnr : LnrLib P B) (hl : LnrOK lnr) (ps : List P) (data : List (SegBox B)) (hd : SegOK ps data) :
    ∀ (ds : List Nat) (cache : List (List Int)), (∀ o ∈ ds, o < data.length) → ∃ r, nonPlanarOuter lnr (coordsOf ps) data ds cache = .ok r := by
  intro ds
  induction ds with
  | nil => intro cache _; exact ⟨_, rfl⟩
  | cons d ds ih =>
    intro cache ho
    obtain ⟨⟨r, c⟩, hr⟩ := nonPlanarInner_ok lnr ps data hd d (ho d (by simp)) (lnr.segSearch data d) cache (fun o h => hl.search data d o h)
    obtain ⟨⟨r2, c2⟩, hr2⟩ := ih c (fun x hx => ho x (List.mem_cons_of_mem _ hx))
    exact ⟨_, by simp only [nonPlanarOuter, hr, hr2, Res.ok_bind, Res.pure_eq]; rfl⟩

theorem SegOK.of_bounds (lnr : LnrLib P B) (ps : List P) (h2 : 2 ≤ ps.length) : ∃ data, segmentBounds lnr (coordsOf ps) (ps.length - 1) 0 = .ok data ∧
    data.length = ps.length - 1 ∧ SegOK ps data := by
  obtain ⟨data, e, hl, hd⟩ := segmentBounds_ok lnr ps (ps.length - 1) 0 (by omega)
  refine ⟨data, e, hl, fun s hs => ?_⟩
  obtain ⟨t, ht⟩ := List.getElem?_of_mem hs
  have hlt : t < data.length := by
    by_contra hc
    rw [List.getElem?_eq_none (by omega)] at ht; cases ht
  obtain ⟨a, b, _, _, h3⟩ := hd t (by omega)
  rw [ht] at h3
  cases h3
  exact ⟨t, by omega, by simp, by push_cast; simp⟩

/-- lnr/self.go:13-22: detection returns -/
theorem selfIntersection_ok (hl : LnrOK env.lnr) {ps : List P} (h2 : 2 ≤ ps.length) (planar nonPlanar : Bool) :
    ∃ inters, selfIntersection env.lib env.lnr (createPolyline (coordsOf ps)) planar nonPlanar = .ok inters := by
  have hc := polyline_coordinates h2
  have hv := verticesOf_ok ps nullFId ps.length 0 (by omega)
  obtain ⟨data, e, dl, hd⟩ := SegOK.of_bounds env.lnr ps h2
  obtain ⟨⟨r, c⟩, hr⟩ := nonPlanarOuter_ok env.lnr hl ps data hd (List.range data.length) [] (fun o h => List.mem_range.1 h)
  have hlen : (coordsOf ps).len.toNat = ps.length := by rw [coordsOf_len]; simp
  have hlen2 : ((coordsOf ps).len - 1).toNat = ps.length - 1 := by rw [coordsOf_len]; omega
  have h1 : ∃ a, (if planar then planarIntersects env.lib env.lnr (createPolyline (coordsOf ps)) else .ok []) = .ok a := by
    cases planar with
    | false => exact ⟨_, rfl⟩
    | true => exact ⟨_, by simp only [if_true, planarIntersects, hc, Res.ok_bind, hlen, hv, Res.pure_eq]; rfl⟩
  have h3 : ∃ a, (if nonPlanar then nonPlanarIntersection env.lnr (createPolyline (coordsOf ps)) else .ok []) = .ok a := by
    cases nonPlanar with
    | false => exact ⟨_, rfl⟩
    | true => exact ⟨_, by simp only [if_true, nonPlanarIntersection, hc, Res.ok_bind, hlen2, e, hr, Res.pure_eq]; rfl⟩
  obtain ⟨a, ha⟩ := h1
  obtain ⟨b, hb⟩ := h3
  refine ⟨a ++ b, ?_⟩
  cases planar <;> cases nonPlanar <;> simp only [if_true, Bool.false_eq_true, if_false] at ha hb <;>
    simp only [selfIntersection, if_true, Bool.false_eq_true, if_false, ha, hb, Res.ok_bind, Res.pure_eq] <;>
    first | rfl | (cases ha; rfl) | (cases hb; rfl) | (cases ha; cases hb; rfl)

/-- constrain/toself.go:40-50 -/
theorem addConstVerts_ok {ps : List P} (h2 : 2 ≤ ps.length) : ∀ (cv s : List Int), (∀ i ∈ cv, 0 ≤ i ∧ i < ps.length) →
    ∃ s' added, addConstVerts (createPolyline (coordsOf ps)) cv s = .ok (s', added) ∧ (∀ v, v ∈ s' ↔ v ∈ s ∨ v ∈ cv) ∧
      (∀ v ∈ s', v ∈ s ∨ ∃ i ∈ added, v ∈ i.splitIdxs) ∧
      (∀ i ∈ added, ∃ v ∈ cv, ps[v.toNat]? = some i.pt ∧ i.splitIdxs = [v]) := by
  intro cv
  induction cv with
  | nil => intro s _; exact ⟨s, [], rfl, by simp, fun v hv => .inl hv, by simp⟩
  | cons c cv ih =>
    intro s h
    have h' := fun i hi => h i (List.mem_cons_of_mem _ hi)
    by_cases hc : c ∈ s
    · obtain ⟨s', added, e, a1, a2, a3⟩ := ih s h'
      refine ⟨s', added, by simp only [addConstVerts, hc, if_true, e], ?_, a2, ?_⟩
      · intro v; rw [a1, List.mem_cons]
        constructor
        · rintro (h | h)
          · exact .inl h
          · exact .inr (.inr h)
        · rintro (h | rfl | h)
          · exact .inl h
          · exact .inl hc
          · exact .inr h
      · intro i hi
        obtain ⟨v, hv, hh⟩ := a3 i hi
        exact ⟨v, List.mem_cons_of_mem _ hv, hh⟩
    · obtain ⟨s', added, e, a1, a2, a3⟩ := ih (s ++ [c]) h'
      obtain ⟨c0, c1⟩ := h c (by simp)
      have hlt : c.toNat < ps.length := by omega
      have hp := coordsOf_pt ps c.toNat hlt
      rw [show ((c.toNat : Nat) : Int) = c by omega] at hp
      refine ⟨s', ⟨ps[c.toNat], .planarVertex, [c], []⟩ :: added, ?_, ?_, ?_, ?_⟩
      · simp only [addConstVerts, hc, if_false, polyline_coordinates h2, Res.ok_bind, hp, e, Res.pure_eq]
      · intro v; rw [a1]; simp [or_assoc]
      · intro v hv
        rcases a2 v hv with h | ⟨i, hi, h⟩
        · rcases List.mem_append.1 h with h | h
          · exact .inl h
          · right
            exact ⟨_, List.mem_cons_self, by simpa [Inter.splitIdxs] using h⟩
        · exact .inr ⟨i, List.mem_cons_of_mem _ hi, h⟩
      · intro i hi
        rcases List.mem_cons.1 hi with rfl | hi
        · exact ⟨c, by simp, List.getElem?_eq_getElem hlt, by simp [Inter.splitIdxs]⟩
        · obtain ⟨v, hv, hh⟩ := a3 i hi
          exact ⟨v, List.mem_cons_of_mem _ hv, hh⟩

theorem Inter.vertexSet_eq (i : Inter P) : i.vertexSet = i.splitIdxs := by
  unfold Inter.vertexSet Inter.splitIdxs
  cases i.kind <;> simp

theorem mem_sortNodes {l : List (Node P C B)} : (sortNodes l).Perm l := List.perm_insertionSort _ _

/-- constrain/toself.go:15-67: splitting terminates and refines the cover; the returned index set consists of the vertices of the detected intersections and
the fixed vertices, and (given that the search reaches them) none of these is strictly inside a piece afterwards -/
theorem toSelfIntersects_yields (he : EnvOK env) (hl : LnrOK env.lnr) (hi : ∀ k ∈ hs, InstOK env k (pts k)) (hinj : Function.Injective ids) {h : Int}
    (hh : h ∈ hs) {strong : Prop} {near : Fl K → Fl K → Prop} (hlg : env.heap.Legal near) (hmono : ∀ a b c, near a b → b.le c = true → near a c)
    {nodes : List (Node P C B)} {cv : List Int} (hp : Pieces env pts hs src ids g nodes) (hcv : ∀ i ∈ cv, 0 ≤ i ∧ i < (pts h).length)
    (hr1 : strong → ∀ inters, selfIntersection env.lib env.lnr (env.inst h).pln (env.inst h).opts.planarSelf (env.inst h).opts.nonPlanarSelf = .ok inters →
      ∀ i ∈ inters, Reaches env near pts hs i.pt i.splitIdxs)
    (hr2 : strong → ∀ v ∈ cv, ∀ p, (pts h)[v.toNat]? = some p → Reaches env near pts hs p [v]) :
    ∃ nodes' cvs g', Yields (toSelfIntersects env ids g nodes (env.inst h) cv) (nodes', cvs, g') ∧ g ≤ g' ∧ Pieces env pts hs src ids g' nodes' ∧
      (∀ m ∈ nodes', ∃ x ∈ nodes, Sub m x) ∧
      ((env.inst h).opts.planarSelf = true → ∃ inters,
        selfIntersection env.lib env.lnr (env.inst h).pln (env.inst h).opts.planarSelf (env.inst h).opts.nonPlanarSelf = .ok inters ∧
        ∀ v, v ∈ cvs ↔ v ∈ cv ∨ ∃ i ∈ inters, v ∈ i.splitIdxs) ∧
      ((env.inst h).opts.planarSelf = false → cvs = [] ∧ nodes' = nodes) ∧
      (strong → ∀ v ∈ cvs, ∀ m ∈ nodes', ¬ Inside v m) := by
  by_cases hps : (env.inst h).opts.planarSelf = true
  swap
  · simp only [Bool.not_eq_true] at hps
    refine ⟨nodes, [], g, ⟨0, fun _ _ => by simp [toSelfIntersects, hps]⟩, Nat.le_refl _, hp, fun m hm => ⟨m, hm, Sub.refl m⟩, ?_, fun _ => ⟨rfl, rfl⟩, by simp⟩
    intro hc; rw [hps] at hc; cases hc
  obtain ⟨d0, ⟨N0, hN0⟩, w0, p0⟩ := DbOK.new.load he nodes
  rw [contents_new, List.nil_append] at p0
  obtain ⟨inters, e1⟩ := selfIntersection_ok (env := env) hl (hi h hh).two (env.inst h).opts.planarSelf (env.inst h).opts.nonPlanarSelf
  rw [← (hi h hh).pln] at e1
  obtain ⟨vs, added, e2, a1, a2, a3⟩ := addConstVerts_ok (hi h hh).two cv (inters.flatMap Inter.vertexSet) hcv
  rw [← (hi h hh).pln] at e2
  obtain ⟨d1, g1, ⟨N1, hN1⟩, w1, hg1, p1, s1, t1⟩ := splitAtInters_yields he hi hinj (strong := strong) hlg hmono (inters ++ added) d0 g w0 (hp.perm p0.symm)
    (by
      intro hst i hii
      rcases List.mem_append.1 hii with h1 | h1
      · exact hr1 hst inters e1 i h1
      · obtain ⟨v, hv, hv1, hv2⟩ := a3 i h1
        rw [hv2]; exact hr2 hst v hv i.pt hv1)
  obtain ⟨out, ⟨N2, hN2⟩, p2⟩ := Hdb.all_yields w1.wf
  have hmem : ∀ m, m ∈ sortNodes out ↔ m ∈ Hdb.contents d1 := fun m => mem_sortNodes.mem_iff.trans p2.mem_iff
  have hvs : ∀ v, v ∈ vs ↔ v ∈ cv ∨ ∃ i ∈ inters, v ∈ i.splitIdxs := by
    intro v; rw [a1, List.mem_flatMap]
    simp only [Inter.vertexSet_eq]
    exact Or.comm
  refine ⟨sortNodes out, sortedIntsSet vs, g1, ⟨max N0 (max N1 N2), fun fuel hf => ?_⟩, hg1, p1.perm (p2.symm.trans mem_sortNodes.symm), ?_, ?_, ?_, ?_⟩
  · have q0 := hN0 fuel (by omega)
    have q1 := hN1 fuel (by omega)
    simp only [] at q0 q1
    simp only [toSelfIntersects, hps, Bool.not_true, Bool.false_eq_true, if_false, q0, Res.ok_bind]
    rw [hps] at e1
    simp only [e1, e2, Res.ok_bind, q1, hN2 fuel (by omega), Res.pure_eq]
  · intro m hm
    obtain ⟨x, hx, hs⟩ := s1 m ((hmem m).1 hm)
    exact ⟨x, p0.mem_iff.1 hx, hs⟩
  · intro _
    exact ⟨inters, e1, fun v => by rw [mem_sortedIntsSet, hvs]⟩
  · intro hc; rw [hps] at hc; cases hc
  · intro hst v hv m hm
    rw [mem_sortedIntsSet] at hv
    have : ∃ i ∈ inters ++ added, v ∈ i.splitIdxs := by
      rcases a2 v hv with h1 | ⟨i, hi1, hi2⟩
      · obtain ⟨i, hi1, hi2⟩ := List.mem_flatMap.1 h1
        exact ⟨i, List.mem_append_left _ hi1, by rwa [Inter.vertexSet_eq] at hi2⟩
      · exact ⟨i, List.mem_append_right _ hi1, hi2⟩
    obtain ⟨i, hi1, hi2⟩ := this
    exact t1 hst i hi1 v hi2 m ((hmem m).1 hm)

end Verif
