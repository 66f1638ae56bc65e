import Verif.Props.C26_Relate
import Verif.Props.C16_Index
import Verif.Model.ConstDP
import Verif.Lemmas.HdbYields

/-! C32: testing a piece against the constraints within the minimum distance only gives the verdict of testing it against all of them. -/

set_option linter.unusedSectionVars false

namespace Verif

variable {P C B K : Type}

namespace Homotopy

variable [LinearOrder B]

theorem pass_congr {lib : Lib P C B K} {pt : Nat → P} {db db' : List (Geo P C)} (h : ∀ ch v, collapseVertex lib pt db ch v = collapseVertex lib pt db' ch v) :
    ∀ fuel l ch d, pass lib pt db fuel l ch d = pass lib pt db' fuel l ch d := by
  intro fuel
  induction fuel with
  | zero => intro l ch d; cases l <;> rfl
  | succ n ih => intro l ch d; cases l <;> simp only [pass, h, ih]

theorem deformLoop_congr {lib : Lib P C B K} {pt : Nat → P} {db db' : List (Geo P C)} (h : ∀ ch v, collapseVertex lib pt db ch v = collapseVertex lib pt db' ch v) :
    ∀ fuel ch, deformLoop lib pt db fuel ch = deformLoop lib pt db' fuel ch := by
  intro fuel
  induction fuel with
  | zero => intro ch; rfl
  | succ n ih => intro ch; simp only [deformLoop, pass_congr h, ih]

/-- two context lists with the same relevant geometries lead to the same verdict -/
theorem homotopy_congr {lib : Lib P C B K} {c : Coords P} {ps : List P} (hlen : c.len = ps.length) (hne : 2 ≤ ps.length)
    (hpt : ∀ k (hk : k < ps.length), c.pt k = .ok ps[k]) (hrefl : ∀ p, lib.equals2D p p = true) {near all : List (Geo P C)}
    (hsub : ∀ g ∈ near, g ∈ all)
    (hfar : ∀ g ∈ all, g ∉ near → lib.intersects (.seg c) g = false ∧ lib.intersects (.line c) g = false ∧
      ∀ x ∈ ps, ∀ y ∈ ps, ∀ z ∈ ps, lib.intersects (triangle (C := C) x y z) g = false) (fuel : Nat) (hf : 2 * ps.length + 1 ≤ fuel) :
    homotopy lib c near fuel = homotopy lib c all fuel := by
  obtain ⟨f1, f2⟩ := filterLoop_spec lib (.seg c) (.line c) near
  obtain ⟨g1, g2⟩ := filterLoop_spec lib (.seg c) (.line c) all
  have hx : (filterLoop lib (.seg c) (.line c) near).2.2 = [] ↔ (filterLoop lib (.seg c) (.line c) all).2.2 = [] := by
    rw [f1, g1]
    refine ⟨fun h g hg => ?_, fun h g hg => h g (hsub g hg)⟩
    by_cases hn : g ∈ near
    · exact h g hn
    · obtain ⟨a, b, _⟩ := hfar g hg hn; rw [a, b]
  obtain ⟨p0, ps', rfl⟩ : ∃ p0 ps', ps = p0 :: ps' := by
    cases ps with
    | nil => simp at hne
    | cons a l => exact ⟨a, l, rfl⟩
  have hmem : ∀ i, (p0 :: ps').getD i p0 ∈ p0 :: ps' := by
    intro i
    rw [List.getD_eq_getElem?_getD]
    cases h : (p0 :: ps')[i]? with
    | none => simp
    | some a => exact List.mem_of_getElem? h
  have hfree : ∀ a b d, Free lib (fun i => (p0 :: ps').getD i p0) (filterLoop lib (.seg c) (.line c) near).1 a b d ↔
      Free lib (fun i => (p0 :: ps').getD i p0) (filterLoop lib (.seg c) (.line c) all).1 a b d := by
    intro a b d
    constructor
    · intro h g hg hbox
      obtain ⟨q1, q2, q3⟩ := (g2 g).1 hg
      by_cases hn : g ∈ near
      · exact h g ((f2 g).2 ⟨hn, q2, q3⟩) hbox
      · exact (hfar g q1 hn).2.2 _ (hmem _) _ (hmem _) _ (hmem _)
    · intro h g hg hbox
      obtain ⟨q1, q2, q3⟩ := (f2 g).1 hg
      exact h g ((g2 g).2 ⟨hsub g q1, q2, q3⟩) hbox
  by_cases hx0 : (filterLoop lib (.seg c) (.line c) near).2.2 = []
  · have hx1 := hx.1 hx0
    by_cases hd : (filterLoop lib (.seg c) (.line c) near).1 = []
    · -- nothing in range: accepted; against all constraints every triangle is free
      have e1 : homotopy lib c near fuel = .ok true := by simp [homotopy, hx0, hd]
      obtain ⟨b, hb, _, hbf⟩ := homotopy_cases (lib := lib) hlen hne hpt all
      rw [e1, hb fuel hf]
      cases b with
      | true => rfl
      | false =>
        exfalso
        rcases hbf rfl hrefl with ⟨g, hg, hgne⟩ | ⟨l, _, hl, hst⟩
        · exact hgne (g1.1 hx1 g hg)
        · match l, hl with
          | i :: j :: k :: y, _ =>
            refine hst [] i j k y rfl ((hfree i j k).1 ?_)
            rw [hd]; intro g hg; cases hg
    · have hd' : (filterLoop lib (.seg c) (.line c) all).1 ≠ [] := by
        intro h0
        obtain ⟨g, hg⟩ := List.exists_mem_of_ne_nil _ hd
        have := (g2 g).2 ⟨hsub g ((f2 g).1 hg).1, ((f2 g).1 hg).2⟩
        rw [h0] at this; cases this
      have hc : ∀ ch v, collapseVertex lib (fun i => (p0 :: ps').getD i p0) (filterLoop lib (.seg c) (.line c) near).1 ch v =
          collapseVertex lib (fun i => (p0 :: ps').getD i p0) (filterLoop lib (.seg c) (.line c) all).1 ch v := by
        intro ch v
        rw [Bool.eq_iff_iff, collapseVertex_iff, collapseVertex_iff]
        constructor
        · rintro ⟨a, d, h1, h2, h3⟩; exact ⟨a, d, h1, h2, (hfree _ _ _).1 h3⟩
        · rintro ⟨a, d, h1, h2, h3⟩; exact ⟨a, d, h1, h2, (hfree _ _ _).2 h3⟩
      have ha : allPts c c.len.toNat = .ok (p0 :: ps') := by
        rw [hlen, Int.toNat_natCast, allPts_spec hpt _ (Nat.le_refl _), List.take_length]
      simp only [homotopy, hx0, hx1, List.length_nil, Nat.lt_irrefl, gt_iff_lt, if_false, List.length_eq_zero_iff, hd, hd', ha, Res.ok_bind, chainDeformation,
        deformLoop_congr hc]
  · have hx1 : ¬ (filterLoop lib (.seg c) (.line c) all).2.2 = [] := fun h => hx0 (hx.2 h)
    have h0 : 0 < (filterLoop lib (.seg c) (.line c) near).2.2.length := List.length_pos_iff.2 hx0
    have h1 : 0 < (filterLoop lib (.seg c) (.line c) all).2.2.length := List.length_pos_iff.2 hx1
    simp only [homotopy, gt_iff_lt, h0, h1, if_true]

end Homotopy

/-- Facts about exact plane geometry used by C32: chord, sub-line and the triangles of vertices lie in the hull, so they are at least as far from a
constraint as the hull is, and geometries that meet are at distance at most zero. -/
structure HullSound [LinearOrder K] [Zero K] (lib : Lib P C B K) (hull : Node P C B) (ps : List P) (all : List (Geo P C)) : Prop where
  seg : ∀ g ∈ all, (lib.distance hull.geom g).le (lib.distance (.seg hull.coords) g) = true
  line : ∀ g ∈ all, (lib.distance hull.geom g).le (lib.distance (.line hull.coords) g) = true
  tri : ∀ g ∈ all, ∀ x ∈ ps, ∀ y ∈ ps, ∀ z ∈ ps, (lib.distance hull.geom g).le (lib.distance (Homotopy.triangle x y z) g) = true
  meet : ∀ g ∈ all, ∀ x, lib.intersects x g = true → (lib.distance x g).le (.fin 0) = true

section
variable [LinearOrder B] [LinearOrder K] [Zero K]

/-- a constraint at a positive distance of the hull meets neither chord nor sub-line nor any triangle of vertices -/
theorem HullSound.away {lib : Lib P C B K} {hull : Node P C B} {ps : List P} {all : List (Geo P C)} (h : HullSound lib hull ps all)
    {g : Geo P C} (hg : g ∈ all) (hd : (lib.distance hull.geom g).le (.fin 0) = false) :
    lib.intersects (.seg hull.coords) g = false ∧ lib.intersects (.line hull.coords) g = false ∧
    ∀ x ∈ ps, ∀ y ∈ ps, ∀ z ∈ ps, lib.intersects (Homotopy.triangle (C := C) x y z) g = false := by
  have key : ∀ x, (lib.distance hull.geom g).le (lib.distance x g) = true → lib.intersects x g = false := by
    intro x hx
    cases hi : lib.intersects x g with
    | false => rfl
    | true =>
      have := Fl.le_trans hx (h.meet g hg x hi)
      rw [this] at hd; cases hd
  exact ⟨key _ (h.seg g hg), key _ (h.line g hg), fun x hx y hy z hz => key _ (h.tri g hg x hx y hy z hz)⟩

theorem HullSound.far {lib : Lib P C B K} {hull : Node P C B} {ps : List P} {all : List (Geo P C)} (h : HullSound lib hull ps all) {m : Fl K}
    (hm : (Fl.fin 0).le m = true) {g : Geo P C} (hg : g ∈ all) (hd : (lib.distance hull.geom g).le m = false) :
    lib.intersects (.seg hull.coords) g = false ∧ lib.intersects (.line hull.coords) g = false ∧
    (∀ x ∈ ps, ∀ y ∈ ps, ∀ z ∈ ps, lib.intersects (Homotopy.triangle (C := C) x y z) g = false) ∧ m.le (lib.distance (.seg hull.coords) g) = true := by
  have key : ∀ x, (lib.distance hull.geom g).le (lib.distance x g) = true → lib.intersects x g = false := by
    intro x hx
    cases hi : lib.intersects x g with
    | false => rfl
    | true =>
      have := Fl.le_trans hx (Fl.le_trans (h.meet g hg x hi) hm)
      rw [this] at hd; cases hd
  refine ⟨key _ (h.seg g hg), key _ (h.line g hg), fun x hx y hy z hz => key _ (h.tri g hg x hx y hy z hz), ?_⟩
  have hn := h.seg g hg
  rcases Fl.le_total (Fl.ne_nan_of_le_right hm) (Fl.ne_nan_of_le_left hn) with h1 | h1
  · exact Fl.le_trans h1 hn
  · rw [h1] at hd; cases hd

/-- C32 for the three relations: `near` are the constraints within the minimum distance of the hull. -/
theorem C32_relations {lib : Lib P C B K} {hull : Node P C B} {ps : List P} {all near : List (Geo P C)} (h : HullSound lib hull ps all)
    (hlen : hull.coords.len = ps.length) (hne : 2 ≤ ps.length) (hpt : ∀ k (hk : k < ps.length), hull.coords.pt k = .ok ps[k])
    (hrefl : ∀ p, lib.equals2D p p = true) {m : Fl K} (hm : (Fl.fin 0).le m = true)
    (hnear : ∀ g, g ∈ near ↔ g ∈ all ∧ (lib.distance hull.geom g).le m = true) :
    isGeomRelateValid lib hull near = isGeomRelateValid lib hull all ∧ isDistRelateValid lib m hull near = isDistRelateValid lib m hull all ∧
    ∀ fuel, 2 * ps.length + 1 ≤ fuel → isDirRelateValid lib hull near fuel = isDirRelateValid lib hull all fuel := by
  have hfar : ∀ g ∈ all, g ∉ near → (lib.distance hull.geom g).le m = false := by
    intro g hg hn
    cases hd : (lib.distance hull.geom g).le m with
    | false => rfl
    | true => exact absurd ((hnear g).2 ⟨hg, hd⟩) hn
  refine ⟨?_, ?_, ?_⟩
  · rw [Bool.eq_iff_iff, C26_geom_iff, C26_geom_iff]
    refine ⟨fun hv g hg => ?_, fun hv g hg => hv g ((hnear g).1 hg).1⟩
    by_cases hn : g ∈ near
    · exact hv g hn
    · obtain ⟨a, b, _⟩ := h.far hm hg (hfar g hg hn); rw [a, b]
  · rw [Bool.eq_iff_iff, C27_dist_iff, C27_dist_iff]
    refine ⟨fun hv g hg => ?_, fun hv g hg => hv g ((hnear g).1 hg).1⟩
    by_cases hn : g ∈ near
    · exact hv g hn
    · exact .inl (h.far hm hg (hfar g hg hn)).2.2.2
  · intro fuel hf
    refine Homotopy.homotopy_congr hlen hne hpt hrefl (fun g hg => ((hnear g).1 hg).1) ?_ fuel hf
    intro g hg hn
    obtain ⟨a, b, c, _⟩ := h.far hm hg (hfar g hg hn)
    exact ⟨a, b, c⟩

theorem andThen_ok (b f x : Bool) : andThen b f (.ok x) = .ok (b && (!f || x)) := by cases b <;> cases f <;> simp [andThen]

variable [BoundedOrder B]

/-- C32: validation through the constraint index gives exactly the verdict of the requested relations against all constraints of the index. -/
theorem C32_validate (env : Env P C B K) (hheap : env.heap.Legal Hdb.nearLe) (self : Inst P C B K) (hw : Hdb.TreeWF nodeOps self.ctxdb) (hull : Node P C B)
    {ps : List P} (h : HullSound env.lib hull ps ((Hdb.contents self.ctxdb).map Node.geom))
    (hb : Hdb.BoxBound nodeOps (env.lib.boxDistance hull.geom) (fun nd => env.lib.distance hull.geom nd.geom) (Hdb.contents self.ctxdb))
    (hlen : hull.coords.len = ps.length) (hne : 2 ≤ ps.length) (hpt : ∀ k (hk : k < ps.length), hull.coords.pt k = .ok ps[k])
    (hrefl : ∀ p, env.lib.equals2D p p = true) (hm : (Fl.fin 0).le self.opts.minDist = true) :
    ∃ b, Yields (validateContextRelation env hull self) b ∧
      (b = true ↔
        (self.opts.geomRelation = true → isGeomRelateValid env.lib hull ((Hdb.contents self.ctxdb).map Node.geom) = true) ∧
        (self.opts.distRelation = true → isDistRelateValid env.lib self.opts.minDist hull ((Hdb.contents self.ctxdb).map Node.geom) = true) ∧
        (self.opts.dirRelation = true → Yields (isDirRelateValid env.lib hull ((Hdb.contents self.ctxdb).map Node.geom)) true)) := by
  by_cases hopt : (self.opts.geomRelation || self.opts.distRelation || self.opts.dirRelation) = true
  swap
  · refine ⟨true, ⟨0, fun fuel _ => by simp [validateContextRelation, hopt]⟩, ?_⟩
    simp only [Bool.or_eq_true, not_or, Bool.not_eq_true] at hopt
    simp [hopt]
  obtain ⟨out, ⟨N, hN⟩, hout⟩ := Hdb.contextNeighbours_yields (strong := True) hw hheap (fun a b c h1 h2 => Fl.le_trans h1 h2) (fun _ => hb) self.opts.minDist
  have hmem : ∀ g, g ∈ out.map Node.geom ↔ g ∈ (Hdb.contents self.ctxdb).map Node.geom ∧ (env.lib.distance hull.geom g).le self.opts.minDist = true := by
    intro g
    simp only [List.mem_map, (Hdb.KOut_exact hout).1.mem_iff, List.mem_filter]
    constructor
    · rintro ⟨a, ⟨h1, h2⟩, rfl⟩; exact ⟨⟨a, h1, rfl⟩, h2⟩
    · rintro ⟨⟨a, h1, rfl⟩, h2⟩; exact ⟨a, ⟨h1, h2⟩, rfl⟩
  obtain ⟨r1, r2, r3⟩ := C32_relations h hlen hne hpt hrefl hm hmem
  obtain ⟨b, hb⟩ := C29_terminates env.lib hlen hne hpt ((Hdb.contents self.ctxdb).map Node.geom)
  obtain ⟨M, hM⟩ := hb
  have hdir : ∀ fuel ≥ max M (2 * ps.length + 1), isDirRelateValid env.lib hull (out.map Node.geom) fuel = .ok b := by
    intro fuel hf
    rw [r3 fuel (by omega)]; exact hM fuel (by omega)
  have hdir' : Yields (isDirRelateValid env.lib hull ((Hdb.contents self.ctxdb).map Node.geom)) true ↔ b = true :=
    ⟨fun hy => (Yields.unique ⟨M, hM⟩ hy), fun hb => hb ▸ ⟨M, hM⟩⟩
  refine ⟨(!self.opts.geomRelation || isGeomRelateValid env.lib hull ((Hdb.contents self.ctxdb).map Node.geom)) &&
      (!self.opts.distRelation || isDistRelateValid env.lib self.opts.minDist hull ((Hdb.contents self.ctxdb).map Node.geom)) &&
      (!self.opts.dirRelation || b), ⟨max N (max M (2 * ps.length + 1)), fun fuel hf => ?_⟩, ?_⟩
  · simp only [validateContextRelation, hopt, Bool.not_true, Bool.false_eq_true, if_false, hN fuel (by omega), Res.ok_bind, r1, r2]
    simp only [andThen_ok, Res.ok_bind, hdir fuel (by omega), Bool.true_and]
  · rw [hdir']
    cases self.opts.geomRelation <;> cases self.opts.distRelation <;> cases self.opts.dirRelation <;> simp [and_assoc]


/-- C32 with distances that need not be exact: boxes may seem farther than what is inside them, within `far`.  As long as what the search leaves out meets neither chord nor
sub-line nor any triangle of vertices (`hpass`), the verdicts on intersections and sides are those against all constraints of the index. -/
theorem C32_validate_rough (env : Env P C B K) {near far : Fl K → Fl K → Prop} (hheap : env.heap.Legal near)
    (self : Inst P C B K) (hw : Hdb.TreeWF nodeOps self.ctxdb) (hull : Node P C B) {ps : List P}
    (hb : Hdb.BoxNear nodeOps near far (env.lib.boxDistance hull.geom) (fun nd => env.lib.distance hull.geom nd.geom) (Hdb.contents self.ctxdb))
    (hlen : hull.coords.len = ps.length) (hne : 2 ≤ ps.length) (hpt : ∀ k (hk : k < ps.length), hull.coords.pt k = .ok ps[k])
    (hrefl : ∀ p, env.lib.equals2D p p = true)
    (hpass : ∀ g ∈ (Hdb.contents self.ctxdb).map Node.geom, ((env.lib.distance hull.geom g).le self.opts.minDist = false ∨
        ∃ d, far d (env.lib.distance hull.geom g) ∧ d.le self.opts.minDist = false) →
      env.lib.intersects (.seg hull.coords) g = false ∧ env.lib.intersects (.line hull.coords) g = false ∧
      ∀ x ∈ ps, ∀ y ∈ ps, ∀ z ∈ ps, env.lib.intersects (Homotopy.triangle (C := C) x y z) g = false) :
    ∃ b, Yields (validateContextRelation env hull self) b ∧ ∃ tested : List (Geo P C), (∀ g ∈ tested, g ∈ (Hdb.contents self.ctxdb).map Node.geom) ∧
      (∀ g ∈ (Hdb.contents self.ctxdb).map Node.geom, g ∉ tested → (env.lib.distance hull.geom g).le self.opts.minDist = false ∨
        ∃ d, far d (env.lib.distance hull.geom g) ∧ d.le self.opts.minDist = false) ∧
      (b = true ↔
        (self.opts.geomRelation = true → isGeomRelateValid env.lib hull ((Hdb.contents self.ctxdb).map Node.geom) = true) ∧
        (self.opts.distRelation = true → isDistRelateValid env.lib self.opts.minDist hull tested = true) ∧
        (self.opts.dirRelation = true → Yields (isDirRelateValid env.lib hull ((Hdb.contents self.ctxdb).map Node.geom)) true)) := by
  by_cases hopt : (self.opts.geomRelation || self.opts.distRelation || self.opts.dirRelation) = true
  swap
  · refine ⟨true, ⟨0, fun fuel _ => by simp [validateContextRelation, hopt]⟩, (Hdb.contents self.ctxdb).map Node.geom, fun _ hg => hg, fun g hg hn => absurd hg hn, ?_⟩
    simp only [Bool.or_eq_true, not_or, Bool.not_eq_true] at hopt
    simp [hopt]
  obtain ⟨out, ⟨N, hN⟩, rest, hperm, hle, hout⟩ := Hdb.contextNeighbours_rough_yields (strong := True) hw hheap (fun _ => hb) self.opts.minDist
  have hmiss : ∀ g ∈ (Hdb.contents self.ctxdb).map Node.geom, g ∉ out.map Node.geom → (env.lib.distance hull.geom g).le self.opts.minDist = false ∨
        ∃ d, far d (env.lib.distance hull.geom g) ∧ d.le self.opts.minDist = false := by
    intro g hg hn
    obtain ⟨nd, hnd, rfl⟩ := List.mem_map.1 hg
    rcases List.mem_append.1 (hperm.mem_iff.2 hnd) with h1 | h1
    · exact absurd (List.mem_map.2 ⟨nd, h1, rfl⟩) hn
    · exact ((hout trivial).2 nd h1).missed
  have hsub : ∀ g ∈ out.map Node.geom, g ∈ (Hdb.contents self.ctxdb).map Node.geom := by
    intro g hg
    obtain ⟨nd, hnd, rfl⟩ := List.mem_map.1 hg
    exact List.mem_map.2 ⟨nd, hperm.mem_iff.1 (List.mem_append_left _ hnd), rfl⟩
  have r1 : isGeomRelateValid env.lib hull (out.map Node.geom) = isGeomRelateValid env.lib hull ((Hdb.contents self.ctxdb).map Node.geom) := by
    rw [Bool.eq_iff_iff, C26_geom_iff, C26_geom_iff]
    refine ⟨fun hv g hg => ?_, fun hv g hg => hv g (hsub g hg)⟩
    by_cases hn : g ∈ out.map Node.geom
    · exact hv g hn
    · obtain ⟨a, b, -⟩ := hpass g hg (hmiss g hg hn); rw [a, b]
  have r3 : ∀ fuel, 2 * ps.length + 1 ≤ fuel → isDirRelateValid env.lib hull (out.map Node.geom) fuel =
      isDirRelateValid env.lib hull ((Hdb.contents self.ctxdb).map Node.geom) fuel :=
    fun fuel hf => Homotopy.homotopy_congr hlen hne hpt hrefl hsub (fun g hg hn => hpass g hg (hmiss g hg hn)) fuel hf
  obtain ⟨b, hb⟩ := C29_terminates env.lib hlen hne hpt ((Hdb.contents self.ctxdb).map Node.geom)
  obtain ⟨M, hM⟩ := hb
  have hdir : ∀ fuel ≥ max M (2 * ps.length + 1), isDirRelateValid env.lib hull (out.map Node.geom) fuel = .ok b := by
    intro fuel hf
    rw [r3 fuel (by omega)]; exact hM fuel (by omega)
  have hdir' : Yields (isDirRelateValid env.lib hull ((Hdb.contents self.ctxdb).map Node.geom)) true ↔ b = true :=
    ⟨fun hy => (Yields.unique ⟨M, hM⟩ hy), fun hb => hb ▸ ⟨M, hM⟩⟩
  refine ⟨(!self.opts.geomRelation || isGeomRelateValid env.lib hull ((Hdb.contents self.ctxdb).map Node.geom)) &&
      (!self.opts.distRelation || isDistRelateValid env.lib self.opts.minDist hull (out.map Node.geom)) &&
      (!self.opts.dirRelation || b), ⟨max N (max M (2 * ps.length + 1)), fun fuel hf => ?_⟩, out.map Node.geom, hsub, hmiss, ?_⟩
  · simp only [validateContextRelation, hopt, Bool.not_true, Bool.false_eq_true, if_false, hN fuel (by omega), Res.ok_bind, r1]
    simp only [andThen_ok, Res.ok_bind, hdir fuel (by omega), Bool.true_and]
  · rw [hdir']
    cases self.opts.geomRelation <;> cases self.opts.distRelation <;> cases self.opts.dirRelation <;> simp [and_assoc]

/-- C32 with a queue that compares with a tolerance (`near`), as long as the minimum distance exceeds the tolerance (`hpass`): the verdicts on intersections
and sides are those against all constraints of the index; for the distances, constraints can be left out only if they are beyond the minimum distance or
closer to it than the tolerance. -/
theorem C32_validate_tolerant (env : Env P C B K) {near : Fl K → Fl K → Prop} (hheap : env.heap.Legal near) (hmono : ∀ a b c, near a b → b.le c = true → near a c)
    (self : Inst P C B K) (hw : Hdb.TreeWF nodeOps self.ctxdb) (hull : Node P C B)
    {ps : List P} (h : HullSound env.lib hull ps ((Hdb.contents self.ctxdb).map Node.geom))
    (hb : Hdb.BoxBound nodeOps (env.lib.boxDistance hull.geom) (fun nd => env.lib.distance hull.geom nd.geom) (Hdb.contents self.ctxdb))
    (hlen : hull.coords.len = ps.length) (hne : 2 ≤ ps.length) (hpt : ∀ k (hk : k < ps.length), hull.coords.pt k = .ok ps[k])
    (hrefl : ∀ p, env.lib.equals2D p p = true) (hm : (Fl.fin 0).le self.opts.minDist = true)
    (hpass : ∀ d x, near d x → d.le self.opts.minDist = false → x.le (.fin 0) = false) :
    ∃ b, Yields (validateContextRelation env hull self) b ∧ ∃ tested : List (Geo P C), (∀ g ∈ tested, g ∈ (Hdb.contents self.ctxdb).map Node.geom) ∧
      (∀ g ∈ (Hdb.contents self.ctxdb).map Node.geom, g ∉ tested → (env.lib.distance hull.geom g).le self.opts.minDist = false ∨
        ∃ d, near d (env.lib.distance hull.geom g) ∧ d.le self.opts.minDist = false) ∧
      (b = true ↔
        (self.opts.geomRelation = true → isGeomRelateValid env.lib hull ((Hdb.contents self.ctxdb).map Node.geom) = true) ∧
        (self.opts.distRelation = true → isDistRelateValid env.lib self.opts.minDist hull tested = true) ∧
        (self.opts.dirRelation = true → Yields (isDirRelateValid env.lib hull ((Hdb.contents self.ctxdb).map Node.geom)) true)) :=
  C32_validate_rough env hheap self hw hull (hb.boxNear hmono) hlen hne hpt hrefl (fun g hg hmiss => h.away hg (by
    rcases hmiss with h1 | ⟨d, h1, h2⟩
    · cases h0 : (env.lib.distance hull.geom g).le (.fin 0) with
      | false => rfl
      | true => rw [Fl.le_trans h0 hm] at h1; cases h1
    · exact hpass d _ h1 h2))

/-- With a negative minimum distance no constraint is in range and every piece passes, whatever relations are requested: the bound in C32 is needed. -/
theorem C32_negative_accepts (env : Env P C B K) {near : Fl K → Fl K → Prop} (hheap : env.heap.Legal near)
    (hmono : ∀ a b c, near a b → b.le c = true → near a c) (self : Inst P C B K) (hw : Hdb.TreeWF nodeOps self.ctxdb) (hull : Node P C B)
    (hd : ∀ nd ∈ Hdb.contents self.ctxdb, (env.lib.distance hull.geom nd.geom).le self.opts.minDist = false) :
    Yields (validateContextRelation env hull self) true := by
  by_cases hopt : (self.opts.geomRelation || self.opts.distRelation || self.opts.dirRelation) = true
  swap
  · exact ⟨0, fun fuel _ => by simp [validateContextRelation, hopt]⟩
  obtain ⟨out, ⟨N, hN⟩, rest, hp, hle, _⟩ := Hdb.contextNeighbours_yields (strong := False) hw hheap hmono (fun h => h.elim) self.opts.minDist
    (boxDist := env.lib.boxDistance hull.geom) (itemDist := fun nd => env.lib.distance hull.geom nd.geom)
  have hnil : out = [] := by
    rw [List.eq_nil_iff_forall_not_mem]
    intro nd hnd
    have h1 := hle nd hnd
    have h2 := hd nd (hp.mem_iff.1 (by simp [hnd]))
    rw [h1] at h2; cases h2
  subst hnil
  refine ⟨N, fun fuel hf => ?_⟩
  have hdir : isDirRelateValid env.lib hull [] fuel = .ok true := by simp [isDirRelateValid, Homotopy.homotopy, Homotopy.filterLoop]
  simp only [validateContextRelation, hopt, Bool.not_true, Bool.false_eq_true, if_false, hN fuel hf, Res.ok_bind, List.map_nil, andThen_ok, hdir]
  simp [isGeomRelateValid, geomRelateLoop, isDistRelateValid, distRelateLoop]

end

/-! ### example: geometry on a line -/

/-- distance of `p` to the interval spanned by `l` -/
def spanDist (p : Int) (l : List Int) : Int := max 0 (max (l.foldl min (l.headD 0) - p) (p - l.foldl max (l.headD 0)))

/-- distance of a one-dimensional geometry to a point constraint -/
def lineDist : Geo Int Int → Geo Int Int → Int
  | .line c, .ctx p => spanDist p c.points
  | .poly c, .ctx p => spanDist p c.points
  | .seg c, .ctx p => spanDist p ([c.points.head?, c.points.getLast?].filterMap id)
  | _, _ => 0

/-- exact geometry of points and intervals of a line -/
def lineLib : Lib Int Int Int Int where
  convexHull c := c
  bounds _ := ⟨0, 0, 0, 0⟩
  intersects a b := lineDist a b = 0
  intersection _ _ := []
  distance a b := .fin (lineDist a b)
  boxDistance _ _ := .fin 0
  ptInRing _ _ := false
  equals2D a b := a = b
  ptDistance _ _ := .fin 0

/-- a piece that overshoots its ends -/
def linePiece : Node Int Int Int :=
  { id := 0, coords := coordsOf [0, 9, 7], range := ⟨0, 2⟩, mbr := ⟨0, 0, 0, 0⟩, geom := .poly (coordsOf [0, 9, 7]), inst := 0 }

/-- the hypotheses of `C32_relations` hold for a piece with a violated constraint (8), an unviolated one (3) and a far one (20) -/
example : HullSound lineLib linePiece [0, 9, 7] [.ctx 8, .ctx 3, .ctx 20] := by
  refine ⟨by decide +kernel, by decide +kernel, by decide +kernel, ?_⟩
  intro g _ x h
  have h : lineDist x g = 0 := by simpa [lineLib] using h
  simp [lineLib, h]

/-- and the restricted test with minimum distance 2 rejects the piece for the near constraint 8 -/
example : isGeomRelateValid lineLib linePiece [.ctx 8, .ctx 3] = false := by decide +kernel

end Verif
