import Verif.Lemmas.Reach
import Verif.Props.C32_Neighbours

/-! C09, C10, C12, C30, C48: the constrained simplification of one polyline. -/

set_option linter.unusedSectionVars false

namespace Verif

variable {P C B K : Type} [LinearOrder B] [BoundedOrder B] [LinearOrder K]
variable {env : Env P C B K} {near : Fl K → Fl K → Prop} {pts : Int → List P} {ids : Nat → Int} {h : Int} {cv : List Int} {dirty d : Int → Bool} {out : Out P C B} {fuel : Nat}

/-- C10.  The constrained simplification terminates with a result, for all options, constraints, predicates, index heuristics, map orders and previous
states. -/
theorem C10_terminates (he : EnvOK env) (hl : LnrOK env.lnr) (hi : InstOK env h (pts h)) (hinj : Function.Injective ids)
    (hcv : ∀ i ∈ cv, 0 ≤ i ∧ i < (pts h).length) (dirty : Int → Bool) : ∃ r, Yields (simplify env ids h cv dirty) r := by
  obtain ⟨out, d, -, hy, -⟩ := simplify_yields he hl hi hinj hcv dirty
  exact ⟨_, hy⟩

/-- C10, no partial execution panics -/
theorem C10_never_panics (he : EnvOK env) (hl : LnrOK env.lnr) (hi : InstOK env h (pts h)) (hinj : Function.Injective ids)
    (hcv : ∀ i ∈ cv, 0 ≤ i ∧ i < (pts h).length) (dirty : Int → Bool) (fuel : Nat) : simplify env ids h cv dirty fuel ≠ .panic := by
  obtain ⟨r, hy⟩ := C10_terminates he hl hi hinj hcv dirty
  rcases (simplify_le env ids h cv dirty).eq_of_yields hy fuel with h | h <;> rw [h] <;> simp

/-- everything known of a result -/
theorem simplify_result (he : EnvOK env) (hl : LnrOK env.lnr) (hi : InstOK env h (pts h)) (hinj : Function.Injective ids)
    (hcv : ∀ i ∈ cv, 0 ≤ i ∧ i < (pts h).length) (hr : simplify env ids h cv dirty fuel = .ok (out, d)) :
    out.simple = simpleSet out.hulls ∧ (∃ g', Pieces env pts [h] (∃ k, ids k = ·) ids g' out.hulls) ∧ (∀ x ∈ out.hulls, Settled env x) ∧
      (Splittable env pts h cv → (env.inst h).opts.planarSelf = true →
        (∀ v ∈ cv, ∀ x ∈ out.hulls, ¬ Inside v x) ∧ ∀ inters,
          selfIntersection env.lib env.lnr (env.inst h).pln (env.inst h).opts.planarSelf (env.inst h).opts.nonPlanarSelf = .ok inters →
          ∀ i ∈ inters, ∀ v ∈ i.splitIdxs, ∀ x ∈ out.hulls, ¬ Inside v x) := by
  obtain ⟨out', d', g', hy, h1, h2, h3, h4, -⟩ := simplify_yields he hl hi hinj hcv dirty
  have := ((simplify_le env ids h cv dirty).yields hr).unique hy
  cases this
  exact ⟨h1, ⟨g', h2⟩, h3, h4⟩

/-- Specification: `l` is a list of indices of a line of `n` vertices, strictly increasing, from the first to the last. -/
structure KeptIndices (n : Nat) (l : List Int) : Prop where
  increasing : l.Pairwise (· < ·)
  first : l.head? = some 0
  last : l.getLast? = some ((n : Int) - 1)
  bound : ∀ v ∈ l, 0 ≤ v ∧ v < n

/-- kept indices select a sub-sequence of the vertices -/
theorem KeptIndices.sublist {ps : List P} {l : List Int} (hk : KeptIndices ps.length l) : ∃ is : List (Fin ps.length),
    is.map (fun i => (i.val : Int)) = l ∧ (is.map (fun i => ps[i])).Sublist ps := by
  obtain ⟨inc, -, -, bd⟩ := hk
  have key : ∀ l : List Int, (∀ v ∈ l, 0 ≤ v ∧ v < ps.length) → ∃ is : List (Fin ps.length), is.map (fun i => (i.val : Int)) = l := by
    intro l
    induction l with
    | nil => intro _; exact ⟨[], rfl⟩
    | cons v l ih =>
      intro hb
      obtain ⟨is, hi⟩ := ih (fun w hw => hb w (List.mem_cons_of_mem _ hw))
      have := hb v (by simp)
      refine ⟨⟨v.toNat, by omega⟩ :: is, ?_⟩
      simp only [List.map_cons, hi, List.cons.injEq, and_true]
      omega
  obtain ⟨is, rfl⟩ := key l bd
  refine ⟨is, rfl, List.map_getElem_sublist ?_⟩
  rw [List.pairwise_map] at inc
  exact inc.imp (fun hab => by simpa using hab)

/-- a cover of the line with vertices `pts h` keeps its ends, and increasing indices in between -/
theorem Pieces.kept {src : Int → Prop} {g : Nat} {l : List (Node P C B)} (hp : Pieces env pts [h] src ids g l) (h2 : 2 ≤ (pts h).length) :
    KeptIndices (pts h).length (simpleSet l) := by
  have hc := sortNodes_chain hp
  have hne : sortNodes l ≠ [] := by
    intro h0
    rw [h0] at hc
    simp only [List.map_nil, Chain] at hc
    omega
  have hs : simpleSet l = simpleSet (sortNodes l) := by
    refine pairwise_lt_ext (simpleSet_pairwise _) (simpleSet_pairwise _) (fun y => ?_)
    rw [mem_simpleSet, mem_simpleSet]
    simp only [mem_sortNodes.mem_iff]
  rw [hs]
  have hlast := hc.getLast
  rw [List.map_map] at hlast
  refine ⟨simpleSet_pairwise _, ?_, ?_, ?_⟩
  · rw [simpleSet_chain hc hne]; rfl
  · rw [simpleSet_chain hc hne]; exact hlast
  · intro v hv
    rw [mem_simpleSet] at hv
    obtain ⟨nd, hnd, hv⟩ := hv
    have := hc.mem (List.mem_map_of_mem hnd)
    omega

/-- C09.  Whatever the options, constraints, predicates, index heuristics, map orders and previous states: the kept indices are strictly increasing
indices of the line from the first to the last vertex, so the output is a sub-sequence of the input with both ends. -/
theorem C09_subsequence (he : EnvOK env) (hl : LnrOK env.lnr) (hi : InstOK env h (pts h)) (hinj : Function.Injective ids)
    (hcv : ∀ i ∈ cv, 0 ≤ i ∧ i < (pts h).length) (hr : simplify env ids h cv dirty fuel = .ok (out, d)) : KeptIndices (pts h).length out.simple := by
  obtain ⟨h1, ⟨g', h2⟩, -⟩ := simplify_result he hl hi hinj hcv hr
  rw [h1]
  exact h2.kept hi.two

/-- C12.  With `planar_self` on, every fixed vertex and every vertex of a reported self-intersection (planar or not) is kept. -/
theorem C12_survive (he : EnvOK env) (hl : LnrOK env.lnr) (hi : InstOK env h (pts h)) (hinj : Function.Injective ids)
    (hcv : ∀ i ∈ cv, 0 ≤ i ∧ i < (pts h).length) (hn : HullNear env near pts h) (hpl : (env.inst h).opts.planarSelf = true)
    (hr : simplify env ids h cv dirty fuel = .ok (out, d)) :
    (∀ v ∈ cv, v ∈ out.simple) ∧
    ∃ inters, selfIntersection env.lib env.lnr (env.inst h).pln true (env.inst h).opts.nonPlanarSelf = .ok inters ∧
      ∀ i ∈ inters, ∀ v, v ∈ i.planar ∨ v ∈ i.nonPlanar → v ∈ out.simple := by
  obtain ⟨h1, ⟨g', h2⟩, -, h4⟩ := simplify_result he hl hi hinj hcv hr
  obtain ⟨k1, k2⟩ := h4 (hn.splittable hi hcv) hpl
  rw [hpl] at k2
  obtain ⟨inters, hint⟩ := selfIntersection_ok hl hi.two true (env.inst h).opts.nonPlanarSelf
  have hint' : selfIntersection env.lib env.lnr (env.inst h).pln true (env.inst h).opts.nonPlanarSelf = .ok inters := by rw [hi.pln]; exact hint
  rw [h1]
  refine ⟨fun v hv => h2.mem_simple hi.two (hcv v hv) (k1 v hv), inters, hint', fun i hm v hv => ?_⟩
  have hv : v ∈ i.splitIdxs := by
    rw [(hn.inter hi hint' hm).1]; exact List.mem_append.2 hv
  exact h2.mem_simple hi.two (selfIntersection_bounds hl hi.two hint i hm v hv) (k2 inters hint' i hm v hv)

/-- C12 without the detour over the reports: a location visited by two vertices of the line keeps both of them, unless it is the location that sorts
last (which is never reported, C23). -/
theorem C12_coincident (he : EnvOK env) (hl : LnrOK env.lnr) (hi : InstOK env h (pts h)) (hinj : Function.Injective ids)
    (hcv : ∀ i ∈ cv, 0 ≤ i ∧ i < (pts h).length) (hn : HullNear env near pts h) (hpl : (env.inst h).opts.planarSelf = true)
    (hr : simplify env ids h cv dirty fuel = .ok (out, d)) :
    ∃ top, (env.lnr.sortV (lineVertices nullFId (pts h))).getLast? = some top ∧
      ∀ (k l : Nat) (p q : P), k ≠ l → (pts h)[k]? = some p → (pts h)[l]? = some q → env.lib.equals2D p q = true → env.lib.equals2D p top.pt = false →
        (k : Int) ∈ out.simple := by
  obtain ⟨-, inters, hint, hall⟩ := C12_survive he hl hi hinj hcv hn hpl hr
  obtain ⟨il, top, e1, e2, e3, -, e5⟩ := C23_planar_partial hn.sort hi.two
  refine ⟨top, e2, fun k l p q hkl hp hq heq htop => ?_⟩
  obtain ⟨i, hm, hip⟩ := e5 k l p q hkl hp hq heq htop
  have hmem : i ∈ inters := by
    rw [hi.pln] at hint
    simp only [selfIntersection, if_true, e1, Res.ok_bind] at hint
    split at hint
    · obtain ⟨b, -, hb⟩ := Res.bind_eq_ok.1 hint
      cases hb
      exact List.mem_append_left _ hm
    · cases hint
      exact List.mem_append_left _ hm
  exact hall i hmem k (.inl (((e3 i hm).2.2.2.2.2 k).2 ⟨k, p, rfl, hp, hip⟩))

/-- the vertices of a piece: its number, and the vertices themselves -/
theorem IsPiece.between {lib : Lib P C B K} {ps : List P} {k : Int} {nd : Node P C B} (hp : IsPiece lib ps k nd) (h0 : 0 ≤ nd.range.I)
    (h1 : nd.range.I < nd.range.J) (h2 : nd.range.J < ps.length) :
    nd.coords.len = (between ps nd.range.I nd.range.J).length ∧ 2 ≤ (between ps nd.range.I nd.range.J).length ∧
    ∀ k (hk : k < (Verif.between ps nd.range.I nd.range.J).length), nd.coords.pt k = .ok (Verif.between ps nd.range.I nd.range.J)[k] := by
  have hl : nd.coords.len = nd.range.J + 1 - nd.range.I := by rw [hp.coords]; exact Coords.len_sub _ _ _ (by omega)
  have hlen : (Verif.between ps nd.range.I nd.range.J).length = (nd.range.J + 1 - nd.range.I).toNat := by
    rw [Verif.between, List.length_take, List.length_drop]; omega
  refine ⟨by rw [hl, hlen]; omega, by rw [hlen]; omega, fun k hk => ?_⟩
  rw [hp.coords, Coords.pt_sub (by omega) (by omega) h0]
  simp only [Verif.between, List.getElem_take, List.getElem_drop]
  rw [show (nd.range.I + (k : Int)).toNat = nd.range.I.toNat + k by omega, List.getElem?_eq_getElem (by omega)]
  rfl

/-- Specification: the piece belongs to the line `h` with the vertices `ps`, and carries exactly the vertices from its first to its last index. -/
structure OwnVertices (ps : List P) (h : Int) (nd : Node P C B) : Prop where
  inst : nd.inst = h
  lo : 0 ≤ nd.range.I
  lt : nd.range.I < nd.range.J
  hi : nd.range.J < ps.length
  len : nd.coords.len = nd.range.J - nd.range.I + 1
  pt : ∀ k : Nat, (k : Int) ≤ nd.range.J - nd.range.I → ∃ p, nd.coords.pt k = .ok p ∧ ps[nd.range.I.toNat + k]? = some p

theorem Pieces.own {src : Int → Prop} {g : Nat} {l : List (Node P C B)} (hp : Pieces env pts [h] src ids g l) {nd : Node P C B} (hnd : nd ∈ l) :
    OwnVertices (pts h) h nd := by
  obtain ⟨b0, b1, b2⟩ := hp.bounds hnd
  obtain ⟨q1, q2⟩ := hp.piece nd hnd
  rw [List.mem_singleton] at q1
  rw [q1] at b2 q2
  refine ⟨q1, b0, b1, b2, ?_, fun k hk => ?_⟩
  · rw [q2.coords, Coords.len_sub _ _ _ (by omega)]; omega
  · obtain ⟨p, hp, hp'⟩ := Coords.pt_sub_ok (pts := pts h) (i := nd.range.I) (j := nd.range.J) (k := k) (by omega) (by omega) b0 b2
    rw [show (nd.range.I + (k : Int)).toNat = nd.range.I.toNat + k by omega] at hp'
    exact ⟨p, by rw [q2.coords]; exact hp, hp'⟩

/-- C48.  Every piece of the result carries exactly the input vertices from its first to its last index. -/
theorem C48_coords (he : EnvOK env) (hl : LnrOK env.lnr) (hi : InstOK env h (pts h)) (hinj : Function.Injective ids)
    (hcv : ∀ i ∈ cv, 0 ≤ i ∧ i < (pts h).length) (hr : simplify env ids h cv dirty fuel = .ok (out, d)) :
    ∀ nd ∈ out.hulls, OwnVertices (pts h) h nd := by
  obtain ⟨-, ⟨g', h2⟩, -⟩ := simplify_result he hl hi hinj hcv hr
  exact fun nd hnd => h2.own hnd

section
variable [Zero K]

/-- Geometric facts used by C30: the priority queue returns an entry that is not much farther than the nearest (`near` says how much), the minimum distance
exceeds this tolerance (`passed`: a constraint passed over for one beyond the minimum distance is not at distance 0), points equal themselves, geometries that
meet have boxes that meet, a box is not farther than what it encloses, and chord, sub-line and triangles of vertices lie in the hull. -/
structure CtxSound (env : Env P C B K) (near : Fl K → Fl K → Prop) (pts : Int → List P) (h : Int) : Prop where
  heap : env.heap.Legal near
  mono : ∀ a b c, near a b → b.le c = true → near a c
  passed : ∀ d x, near d x → d.le (env.inst h).opts.minDist = false → x.le (.fin 0) = false
  refl : ∀ p, env.lib.equals2D p p = true
  boxes : BoxSound env.lib
  minDist : (Fl.fin 0).le (env.inst h).opts.minDist = true
  bound : ∀ nd, Known env pts [h] nd → Hdb.BoxBound nodeOps (env.lib.boxDistance nd.geom) (fun c => env.lib.distance nd.geom c.geom)
    (Hdb.contents (env.inst h).ctxdb)
  hull : ∀ nd, Known env pts [h] nd → HullSound env.lib nd (between (pts h) nd.range.I nd.range.J) ((Hdb.contents (env.inst h).ctxdb).map Node.geom)

/-- Specification: chord and sub-line of a piece are in the requested relations to all constraints, the distances up to the tolerance `near`: the chord
keeps the minimum distance, or the sub-line does not keep it, or the chord is within the tolerance of something beyond the minimum distance. -/
structure Respects (lib : Lib P C B K) (near : Fl K → Fl K → Prop) (o : Opts K) (constraints : List (Geo P C)) (c : Coords P) (ps : List P) : Prop where
  geom : o.geomRelation = true → ∀ g ∈ constraints, lib.intersects (.seg c) g = lib.intersects (.line c) g
  dist : o.distRelation = true → ∀ g ∈ constraints, o.minDist.le (lib.distance (.seg c) g) = true ∨ (lib.distance (.line c) g).lt o.minDist = true ∨
    ∃ d, near d (lib.distance (.seg c) g) ∧ d.le o.minDist = false
  side : o.dirRelation = true → (∀ g ∈ constraints, lib.intersects (.seg c) g = lib.intersects (.line c) g) ∧
    ∀ p q, ps.head? = some p → ps.getLast? = some q → Collapse (SweepsNothing lib c constraints) ps [p, q]

/-- as `Respects`, with the tested distances as the library computes them: `away g` stands for what is known of constraints the search left out -/
structure RespectsUp (lib : Lib P C B K) (away : Geo P C → Prop) (o : Opts K) (constraints : List (Geo P C)) (c : Coords P) (ps : List P) : Prop where
  geom : o.geomRelation = true → ∀ g ∈ constraints, lib.intersects (.seg c) g = lib.intersects (.line c) g
  dist : o.distRelation = true → ∀ g ∈ constraints, o.minDist.le (lib.distance (.seg c) g) = true ∨ (lib.distance (.line c) g).lt o.minDist = true ∨ away g
  side : o.dirRelation = true → (∀ g ∈ constraints, lib.intersects (.seg c) g = lib.intersects (.line c) g) ∧
    ∀ p q, ps.head? = some p → ps.getLast? = some q → Collapse (SweepsNothing lib c constraints) ps [p, q]

/-- the constraint `g` is farther from the hull of the piece than the minimum distance, or an entry that far was handed out while `g` was waiting -/
def LeftOut (env : Env P C B K) (far : Fl K → Fl K → Prop) (h : Int) (nd : Node P C B) (g : Geo P C) : Prop :=
  (env.lib.distance nd.geom g).le (env.inst h).opts.minDist = false ∨ ∃ d, far d (env.lib.distance nd.geom g) ∧ d.le (env.inst h).opts.minDist = false

/-- Library assumptions behind C30 where distances need not be exact: what the search may leave out (up to `far`) meets neither chord nor sub-line nor any
triangle of vertices. -/
structure CtxRough (env : Env P C B K) (near far : Fl K → Fl K → Prop) (pts : Int → List P) (h : Int) : Prop where
  heap : env.heap.Legal near
  refl : ∀ p, env.lib.equals2D p p = true
  boxes : BoxSound env.lib
  reach : ∀ nd, Known env pts [h] nd → Hdb.BoxNear nodeOps near far (env.lib.boxDistance nd.geom) (fun c => env.lib.distance nd.geom c.geom)
    (Hdb.contents (env.inst h).ctxdb)
  away : ∀ nd, Known env pts [h] nd → ∀ g ∈ (Hdb.contents (env.inst h).ctxdb).map Node.geom, LeftOut env far h nd g →
    env.lib.intersects (.seg nd.coords) g = false ∧ env.lib.intersects (.line nd.coords) g = false ∧
    ∀ x ∈ between (pts h) nd.range.I nd.range.J, ∀ y ∈ between (pts h) nd.range.I nd.range.J, ∀ z ∈ between (pts h) nd.range.I nd.range.J,
      env.lib.intersects (Homotopy.triangle (C := C) x y z) g = false

theorem CtxSound.rough (hs : CtxSound env near pts h) : CtxRough env near near pts h where
  heap := hs.heap
  refl := hs.refl
  boxes := hs.boxes
  reach nd hk := (hs.bound nd hk).boxNear hs.mono
  away nd hk g hg hmiss := (hs.hull nd hk).away hg (by
    rcases hmiss with h1 | ⟨d, h1, h2⟩
    · cases h0 : (env.lib.distance nd.geom g).le (.fin 0) with
      | false => rfl
      | true => rw [Fl.le_trans h0 hs.minDist] at h1; cases h1
    · exact hs.passed d _ h1 h2)

/-- a settled piece is a single segment of the line, or its hull has two corners, or it respects the constraints -/
theorem Settled.respects_rough {far : Fl K → Fl K → Prop} (hi : InstOK env h (pts h)) (hs : CtxRough env near far pts h) {nd : Node P C B} (hk : Known env pts [h] nd) (h3 : Settled env nd) :
    nd.range.J = nd.range.I + 1 ∨ (env.lib.convexHull nd.coords).len = 2 ∨
      RespectsUp env.lib (LeftOut env far h nd) (env.inst h).opts ((Hdb.contents (env.inst h).ctxdb).map Node.geom) nd.coords (between (pts h) nd.range.I nd.range.J) := by
  have hins : nd.inst = h := by have := hk.inst; rwa [List.mem_singleton] at this
  have hpc := hk.piece
  have hhi := hk.hi
  rw [hins] at hpc hhi
  rcases h3 with h4 | h4 | h4
  · left
    simp only [Rng.size] at h4
    have := hk.lt
    omega
  · right; left
    have hg := hpc.geom
    rw [← hpc.coords] at hg
    unfold hullGeometry at hg
    split_ifs at hg with g1 g2
    · rw [← Res.ok.inj hg] at h4; cases h4
    · exact g2
    · obtain ⟨p, -, hp⟩ := Res.bind_eq_ok.1 hg
      rw [← Res.ok.inj hp] at h4; cases h4
  · right; right
    obtain ⟨l1, l2, l3⟩ := hpc.between hk.lo hk.lt hhi
    rw [hins] at h4
    obtain ⟨b, hy, tested, -, hmiss, hb⟩ := C32_validate_rough env hs.heap (env.inst h) hi.ctx nd (hs.reach nd hk) l1 l2 l3 hs.refl (hs.away nd hk)
    have hbt := hy.unique h4
    obtain ⟨r1, r2, r3⟩ := hb.1 hbt
    refine ⟨fun ho g hg => ?_, fun ho g hg => ?_, fun ho => ?_⟩
    · exact (C26_geom_iff _ _ _).1 (r1 ho) g hg
    · by_cases hn : g ∈ tested
      · rcases (C27_dist_iff _ _ _ _).1 (r2 ho) g hn with h5 | h5
        · exact .inl h5
        · exact .inr (.inl h5)
      · exact .inr (.inr (hmiss g hg hn))
    · obtain ⟨s1, s2⟩ := C29_accept_sound hs.boxes hs.refl l1 l2 l3 _ (r3 ho)
      refine ⟨s1, fun p q hp hq => ?_⟩
      rw [List.head?_eq_getElem?, List.getElem?_eq_getElem (by omega)] at hp
      rw [List.getLast?_eq_getElem?, List.getElem?_eq_getElem (by omega)] at hq
      cases hp; cases hq
      exact s2

/-- a settled piece is a single segment of the line, or its hull has two corners, or it respects the constraints -/
theorem Settled.respects (hi : InstOK env h (pts h)) (hs : CtxSound env near pts h) {nd : Node P C B} (hk : Known env pts [h] nd) (h3 : Settled env nd) :
    nd.range.J = nd.range.I + 1 ∨ (env.lib.convexHull nd.coords).len = 2 ∨
      Respects env.lib near (env.inst h).opts ((Hdb.contents (env.inst h).ctxdb).map Node.geom) nd.coords (between (pts h) nd.range.I nd.range.J) := by
  refine (h3.respects_rough hi hs.rough hk).imp_right (Or.imp_right (fun hr => ⟨hr.geom, fun ho g hg => ?_, hr.side⟩))
  rcases hr.dist ho g hg with h5 | h5 | h5
  · exact .inl h5
  · exact .inr (.inl h5)
  · have hseg := (hs.hull nd hk).seg g hg
    rcases h5 with h5 | ⟨d, h5, h6⟩
    · left
      rcases Fl.le_total (Fl.ne_nan_of_le_right hs.minDist) (Fl.ne_nan_of_le_left hseg) with h6 | h6
      · exact Fl.le_trans h6 hseg
      · rw [h6] at h5; cases h5
    · exact .inr (.inr ⟨d, hs.mono _ _ _ h5 hseg, h6⟩)

/-- C30.  Every piece of the result is a single segment of the line, or the hull of its vertices has two corners, or it respects all constraints of the
line (not only those in range). -/
theorem C30_context_partial (he : EnvOK env) (hl : LnrOK env.lnr) (hi : InstOK env h (pts h)) (hinj : Function.Injective ids)
    (hcv : ∀ i ∈ cv, 0 ≤ i ∧ i < (pts h).length) (hs : CtxSound env near pts h) (hr : simplify env ids h cv dirty fuel = .ok (out, d)) :
    ∀ nd ∈ out.hulls, nd.range.J = nd.range.I + 1 ∨ (env.lib.convexHull nd.coords).len = 2 ∨
      Respects env.lib near (env.inst h).opts ((Hdb.contents (env.inst h).ctxdb).map Node.geom) nd.coords (between (pts h) nd.range.I nd.range.J) := by
  obtain ⟨-, ⟨g', h2⟩, h3, -⟩ := simplify_result he hl hi hinj hcv hr
  exact fun nd hnd => (h3 nd hnd).respects hi hs (h2.known hnd)

end

end Verif
