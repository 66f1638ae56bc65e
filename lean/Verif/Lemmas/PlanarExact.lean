import Verif.Lemmas.PlanarPath
import Verif.Lemmas.Points
import Mathlib.Analysis.LocallyConvex.WithSeminorms

/-! What an exact library satisfies: the geometric hypotheses of the pipeline theorems. -/

set_option linter.unusedSectionVars false

namespace Verif
namespace Planar

/-! ### distances -/

theorem gap_bddBelow (s t : Set ℂ) : BddBelow {r | ∃ x ∈ s, ∃ y ∈ t, r = dist x y} :=
  ⟨0, by rintro r ⟨x, -, y, -, rfl⟩; exact dist_nonneg⟩

theorem gap_nonneg (s t : Set ℂ) : 0 ≤ gap s t := Real.sInf_nonneg (by rintro r ⟨x, -, y, -, rfl⟩; exact dist_nonneg)

theorem gap_le {s t : Set ℂ} {x y : ℂ} (hx : x ∈ s) (hy : y ∈ t) : gap s t ≤ dist x y := csInf_le (gap_bddBelow s t) ⟨x, hx, y, hy, rfl⟩

/-- larger sets are not farther apart -/
theorem gap_mono {s s' t t' : Set ℂ} (hs : s ⊆ s') (ht : t ⊆ t') (h1 : s.Nonempty) (h2 : t.Nonempty) : gap s' t' ≤ gap s t := by
  obtain ⟨x, hx⟩ := h1
  obtain ⟨y, hy⟩ := h2
  refine le_csInf ⟨_, x, hx, y, hy, rfl⟩ ?_
  rintro r ⟨x, hx, y, hy, rfl⟩
  exact gap_le (hs hx) (ht hy)

theorem gap_meet {s t : Set ℂ} (h : (s ∩ t).Nonempty) : gap s t = 0 := by
  obtain ⟨z, h1, h2⟩ := h
  exact le_antisymm ((gap_le h1 h2).trans (by simp)) (gap_nonneg _ _)

/-! ### hulls -/

theorem finite_list (l : List ℂ) : {z | z ∈ l}.Finite := l.finite_toSet

/-- a hull is spanned by its corners -/
theorem hull_corners {l m : List ℂ} (h : {z | z ∈ m} = (hullSet l).extremePoints ℝ) : hullSet m = hullSet l := by
  have hc : IsCompact (hullSet l) := (finite_list l).isCompact_convexHull ℝ
  have := closure_convexHull_extremePoints hc (hullSet_convex l)
  rw [← h, ((finite_list m).isClosed_convexHull ℝ).closure_eq] at this
  exact this

theorem hullSet_nonempty {l : List ℂ} (h : l ≠ []) : (hullSet l).Nonempty := by
  match l, h with
  | a :: l, _ => exact ⟨a, subset_convexHull ℝ _ (by simp)⟩

theorem lineSet_nonempty {l : List ℂ} (h : l ≠ []) : (lineSet l).Nonempty := by
  match l, h with
  | a :: l, _ => exact ⟨a, mem_lineSet_of_mem (by simp)⟩

theorem chordSet_nonempty {l : List ℂ} (h : l ≠ []) : (chordSet l).Nonempty := by
  match l, h with
  | a :: l, _ => exact ⟨a, a, (a :: l).getLast (by simp), rfl, by rw [List.getLast?_eq_getLast_of_ne_nil], left_mem_segment ℝ _ _⟩

theorem chordSet_subset_hullSet (l : List ℂ) : chordSet l ⊆ hullSet l := by
  rintro z ⟨a, b, ha, hb, hz⟩
  exact segment_subset_convexHull (s := {z | z ∈ l}) (List.mem_of_head? ha) (List.mem_of_getLast? hb) hz

theorem chordSet_pair (a b : ℂ) : chordSet [a, b] = segment ℝ a b := by
  ext z; simp [chordSet]

section
variable {P C : Type} {pos : P → ℂ} {region : C → Set ℂ} {lib : Lib P C EReal ℝ}

theorem WellIndexed.length {c : Coords P} (h : WellIndexed c) : c.len = c.points.length := by
  have key : ∀ l : List Int, (∀ k ∈ l, 0 ≤ k ∧ k < c.pnts.length) → (l.filterMap (fun k => if k < 0 then none else c.pnts[k.toNat]?)).length = l.length := by
    intro l
    induction l with
    | nil => intro _; rfl
    | cons k l ih =>
      intro hl
      have hk := hl k (by simp)
      rw [List.filterMap_cons, if_neg (by omega), List.getElem?_eq_getElem (by omega)]
      simp only [List.length_cons, ih (fun k hk => hl k (List.mem_cons_of_mem _ hk))]
  rw [Coords.len, Coords.points, key _ h]

theorem WellIndexed.pt {c : Coords P} (h : WellIndexed c) {k : Int} (h0 : 0 ≤ k) (h1 : k < c.len) : ∃ p, c.pt k = .ok p ∧ p ∈ c.points := by
  unfold Coords.len at h1
  have hm : c.idxs[k.toNat]'(by omega) ∈ c.idxs := List.getElem_mem _
  have hk := h _ hm
  unfold Coords.pt
  rw [if_neg (by omega), List.getElem?_eq_getElem (by omega)]
  simp only
  rw [if_neg (by omega), List.getElem?_eq_getElem (by omega)]
  refine ⟨_, rfl, ?_⟩
  rw [Coords.points, List.mem_filterMap]
  refine ⟨_, hm, ?_⟩
  rw [if_neg (by omega), List.getElem?_eq_getElem (by omega)]

theorem WellIndexed.pt_get {c : Coords P} (h : WellIndexed c) {k : Nat} (hk : k < c.points.length) : c.pt k = .ok c.points[k] := by
  have key : ∀ (l : List Int) (k : Nat), (∀ k ∈ l, 0 ≤ k ∧ k < c.pnts.length) →
      (l.filterMap (fun k => if k < 0 then none else c.pnts[k.toNat]?))[k]? = l[k]?.bind (fun k => if k < 0 then none else c.pnts[k.toNat]?) := by
    intro l
    induction l with
    | nil => intro _ _; rfl
    | cons x l ih =>
      intro k hl
      have hx := hl x (by simp)
      have hx' : x.toNat < c.pnts.length := by omega
      rw [List.filterMap_cons, if_neg (by omega), List.getElem?_eq_getElem hx']
      cases k with
      | zero =>
        simp only [List.getElem?_cons_zero, Option.bind_some]
        rw [if_neg (by omega), List.getElem?_eq_getElem hx']
      | succ k => simp only [List.getElem?_cons_succ]; exact ih k (fun k hk => hl k (List.mem_cons_of_mem _ hk))
  have hlen := h.length
  unfold Coords.len at hlen
  have hki : k < c.idxs.length := by omega
  have hx := h _ (List.getElem_mem hki)
  have e := key c.idxs k h
  have e' : c.points[k]? = some c.points[k] := List.getElem?_eq_getElem hk
  have e2 : c.points[k]? = (c.idxs.filterMap (fun k => if k < 0 then none else c.pnts[k.toNat]?))[k]? := rfl
  rw [e2, e, List.getElem?_eq_getElem hki, Option.bind_some, if_neg (by omega)] at e'
  unfold Coords.pt
  rw [if_neg (by omega), Int.toNat_natCast, List.getElem?_eq_getElem hki]
  simp only
  rw [if_neg (by omega), e']
  rfl

theorem wellIndexed_sub {pts : List P} {i j : Int} (h0 : 0 ≤ i) (h2 : j < pts.length) : WellIndexed (Coords.sub pts i j) := by
  intro k hk
  simp only [Coords.sub, rangeInts, List.mem_map, List.mem_range] at hk
  obtain ⟨t, ht, rfl⟩ := hk
  simp only [Coords.sub]
  omega

/-- the hull geometry is the convex hull, whatever its kind -/
theorem Exact.hull_shape (he : Exact pos region lib) {c : Coords P} (hw : WellIndexed c) (hne : c.points ≠ []) :
    ∃ g : Geo P C, hullGeometry (lib.convexHull c) = .ok g ∧ shape pos region g = hullSet (c.points.map pos) := by
  have hc := hull_corners (he.hullCorners c hw)
  have hw' := he.hullIndexed c hw
  have hl := hw'.length
  have hpos : (lib.convexHull c).points ≠ [] := by
    intro h0
    rw [h0] at hc
    have := hullSet_nonempty (l := c.points.map pos) (by simpa using hne)
    rw [← hc] at this
    simp [hullSet] at this
  have hlen : 0 < (lib.convexHull c).points.length := List.length_pos_iff.2 hpos
  unfold hullGeometry
  split
  · exact ⟨_, rfl, hc⟩
  · split
    · rename_i h2
      refine ⟨_, rfl, ?_⟩
      rw [← hc]
      simp only [shape]
      have h2' : (lib.convexHull c).points.length = 2 := by omega
      obtain ⟨a, b, hab⟩ := List.length_eq_two.1 h2'
      rw [hab]
      have hset : {z | z ∈ [pos a, pos b]} = ({pos a, pos b} : Set ℂ) := by ext z; simp
      have hb : pos b ∈ segment ℝ (pos a) (pos b) := right_mem_segment ℝ _ _
      simp only [List.map_cons, List.map_nil, lineSet, hullSet, hset, convexHull_pair]
      rw [Set.union_eq_self_of_subset_right (by simpa using hb)]
    · rename_i h1 h2
      have h2' : (lib.convexHull c).points.length = 1 := by omega
      obtain ⟨a, ha⟩ := List.length_eq_one_iff.1 h2'
      obtain ⟨p, hp, hpm⟩ := hw'.pt (k := 0) (by omega) (by omega)
      rw [ha, List.mem_singleton] at hpm
      subst hpm
      refine ⟨.point p, by rw [hp]; rfl, ?_⟩
      rw [← hc, ha]
      simp [shape, hullSet]

theorem Exact.bounds_subset (he : Exact pos region lib) {a : Geo P C} (h : (shape pos region a).Nonempty) : shape pos region a ⊆ boxSet (lib.bounds a) :=
  (he.bounds a h _).1 (Box.le_refl' _)

theorem boxSet_mono {a b : Box EReal} (h : a ≤ b) : boxSet a ⊆ boxSet b :=
  fun _ hz => ⟨h.1.trans hz.1, hz.2.1.trans h.2.2.1, h.2.1.trans hz.2.2.1, hz.2.2.2.trans h.2.2.2⟩

theorem valid_of_nonempty {b : Box EReal} (h : (boxSet b).Nonempty) : b.Valid := by
  obtain ⟨z, h1, h2, h3, h4⟩ := h
  exact ⟨h1.trans h2, h3.trans h4⟩

theorem Exact.boxSound (he : Exact pos region lib) : BoxSound lib := by
  intro a b h
  obtain ⟨z, h1, h2⟩ := (he.intersects a b).1 h
  obtain ⟨x1, x2, x3, x4⟩ := he.bounds_subset ⟨z, h1⟩ h1
  obtain ⟨y1, y2, y3, y4⟩ := he.bounds_subset ⟨z, h2⟩ h2
  rw [Box.intersects_iff]
  exact ⟨y1.trans x2, x1.trans y2, y3.trans x4, x3.trans y4⟩

theorem Exact.eqLike_refl (he : Exact pos region lib) (p : P) : lib.equals2D p p = true := (he.equals2D p p).2 rfl

/-- distances of larger sets are not larger -/
theorem Exact.distance_le (he : Exact pos region lib) {a a' b b' : Geo P C} (ha : shape pos region a ⊆ shape pos region a')
    (hb : shape pos region b ⊆ shape pos region b') (h1 : (shape pos region a).Nonempty) (h2 : (shape pos region b).Nonempty) :
    (lib.distance a' b').le (lib.distance a b) = true := by
  rw [he.distance _ _ h1 h2, he.distance _ _ (h1.mono ha) (h2.mono hb), Fl.fin_le_fin, decide_eq_true_eq]
  exact gap_mono ha hb h1 h2

theorem Exact.boxDistance_le (he : Exact pos region lib) {a b : Geo P C} {x : Box EReal} (hx : lib.bounds b ≤ x)
    (h1 : (shape pos region a).Nonempty) (h2 : (shape pos region b).Nonempty) : (lib.boxDistance a x).le (lib.distance a b) = true := by
  have hs : shape pos region b ⊆ boxSet x := (he.bounds b h2 x).1 hx
  rw [he.distance _ _ h1 h2, he.boxDistance _ _ h1 (h2.mono hs), Fl.fin_le_fin, decide_eq_true_eq]
  exact gap_mono (fun _ h => h) hs h1 h2

end

/-! ### pieces -/

section
variable {P C : Type} {pos : P → ℂ} {region : C → Set ℂ} {env : Env P C EReal ℝ} {pts : Int → List P} {h : Int}

theorem between_ne_nil {ps : List P} {i j : Int} (h0 : 0 ≤ i) (h1 : i ≤ j) (h2 : j < ps.length) : between ps i j ≠ [] := by
  intro hn
  have := congrArg List.length hn
  rw [between, List.length_take, List.length_drop, List.length_nil] at this
  omega

/-- the sets of the geometries of a piece -/
theorem Exact.known (he : Exact pos region env.lib) {nd : Node P C EReal} (hk : Known env pts [h] nd) :
    shape pos region nd.geom = hullSet (places pos (pts h) nd.range.I nd.range.J) ∧
    shape pos region (.line nd.coords) = lineSet (places pos (pts h) nd.range.I nd.range.J) ∧
    shape pos region (.seg nd.coords) = chordSet (places pos (pts h) nd.range.I nd.range.J) ∧
    places pos (pts h) nd.range.I nd.range.J ≠ [] ∧ nd.mbr = env.lib.bounds nd.geom := by
  obtain ⟨k1, k2, k3, k4, k5⟩ := hk
  have hins : nd.inst = h := by simpa using k1
  rw [hins] at k2 k5
  have hp := points_sub (pts h) k3 k4.le k5
  have hne : places pos (pts h) nd.range.I nd.range.J ≠ [] := by simpa [places] using between_ne_nil k3 k4.le k5
  obtain ⟨g, hg, hs⟩ := he.hull_shape (c := Coords.sub (pts h) nd.range.I nd.range.J) (wellIndexed_sub k3 k5) (by rw [hp]; exact between_ne_nil k3 k4.le k5)
  rw [k2.geom] at hg
  cases hg
  rw [hp] at hs
  refine ⟨hs, ?_, ?_, hne, k2.mbr⟩
  · rw [k2.coords]; simp only [shape, hp, places]
  · rw [k2.coords]; simp only [shape, hp, places]

/-- the index of line `h` holds the constraints `cs` -/
def Constraints (env : Env P C EReal ℝ) (h : Int) (cs : List C) : Prop :=
  ((Hdb.contents (env.inst h).ctxdb).map (fun nd => (nd.geom, nd.mbr))).Perm (cs.map (fun g => (Geo.ctx g, env.lib.bounds (.ctx g))))

theorem Constraints.mem {cs : List C} (hc : Constraints env h cs) {nd : Node P C EReal} (hn : nd ∈ Hdb.contents (env.inst h).ctxdb) :
    ∃ g ∈ cs, nd.geom = .ctx g ∧ nd.mbr = env.lib.bounds (.ctx g) := by
  have := (hc.mem_iff (a := (nd.geom, nd.mbr))).1 (List.mem_map.2 ⟨nd, hn, rfl⟩)
  obtain ⟨g, hg, e⟩ := List.mem_map.1 this
  simp only [Prod.mk.injEq] at e
  exact ⟨g, hg, e.1.symm, e.2.symm⟩

theorem Constraints.geoms {cs : List C} (hc : Constraints env h cs) : ((Hdb.contents (env.inst h).ctxdb).map Node.geom).Perm (cs.map Geo.ctx) := by
  have := hc.map Prod.fst
  rwa [List.map_map, List.map_map] at this

theorem triangle_shape (a b c : P) : shape pos region (Homotopy.triangle a b c) = hullSet [pos a, pos b, pos c] := by
  have : (⟨[a, b, c, a], [0, 1, 2, 3]⟩ : Coords P).points = [a, b, c, a] := rfl
  simp only [Homotopy.triangle, shape, this, hullSet]
  congr 1
  ext z
  simp only [List.map_cons, List.map_nil, List.mem_cons, List.not_mem_nil, or_false, Set.mem_ofPred_eq]
  tauto

/-- exact geometry meets the hypotheses of C30 -/
theorem Exact.ctxSound (he : Exact pos region env.lib) {near : Fl ℝ → Fl ℝ → Prop} (hheap : env.heap.Legal near)
    (hmono : ∀ a b c, near a b → b.le c = true → near a c)
    (hpass : ∀ d x, near d x → d.le (env.inst h).opts.minDist = false → x.le (.fin 0) = false) (hm : (Fl.fin 0).le (env.inst h).opts.minDist = true)
    {cs : List C} (hc : Constraints env h cs) : CtxSound env near pts h where
  heap := hheap
  mono := hmono
  passed := hpass
  refl := he.eqLike_refl
  boxes := he.boxSound
  minDist := hm
  bound nd hk := by
    intro c hcm b hb
    obtain ⟨g, -, e1, e2⟩ := hc.mem hcm
    obtain ⟨k1, -, -, k4, -⟩ := he.known hk
    have hb' : env.lib.bounds (.ctx g) ≤ b := e2 ▸ hb
    simp only [e1]
    exact he.boxDistance_le hb' (by rw [k1]; exact hullSet_nonempty k4) (he.nonempty g)
  hull nd hk := by
    obtain ⟨k1, k2, k3, k4, -⟩ := he.known hk
    have hmem : ∀ g ∈ (Hdb.contents (env.inst h).ctxdb).map Node.geom, (shape pos region g).Nonempty := by
      intro g hg
      obtain ⟨c, hcm, rfl⟩ := List.mem_map.1 hg
      obtain ⟨g, -, e1, -⟩ := hc.mem hcm
      rw [e1]; exact he.nonempty g
    refine ⟨fun g hg => ?_, fun g hg => ?_, fun g hg x hx y hy z hz => ?_, fun g hg x hx => ?_⟩
    · exact he.distance_le (by rw [k1, k3]; exact chordSet_subset_hullSet _) (fun _ h => h) (by rw [k3]; exact chordSet_nonempty k4) (hmem g hg)
    · exact he.distance_le (by rw [k1, k2]; exact lineSet_subset_hullSet _) (fun _ h => h) (by rw [k2]; exact lineSet_nonempty k4) (hmem g hg)
    · refine he.distance_le ?_ (fun _ h => h) (by rw [triangle_shape]; exact hullSet_nonempty (by simp)) (hmem g hg)
      rw [k1, triangle_shape]
      refine hullSet_mono (fun w hw => ?_)
      simp only [List.mem_cons, List.not_mem_nil, or_false] at hw
      rcases hw with rfl | rfl | rfl <;> exact List.mem_map_of_mem (by assumption)
    · have hi := (he.intersects x g).1 hx
      rw [he.distance _ _ (hi.mono (fun _ h => h.1)) (hi.mono (fun _ h => h.2)), gap_meet hi, Fl.fin_le_fin]
      simp

/-- exact geometry builds hulls with proper boxes -/
theorem Exact.hulls (he : Exact pos region env.lib) (ps : List P) : ∀ i j : Int, 0 ≤ i → i < j → j < ps.length →
    ∃ g, hullGeometry (C := C) (env.lib.convexHull (Coords.sub ps i j)) = .ok g ∧ (env.lib.bounds g).Valid := by
  intro i j h0 h1 h2
  have hp := points_sub ps h0 h1.le h2
  obtain ⟨g, hg, hs⟩ := he.hull_shape (c := Coords.sub ps i j) (wellIndexed_sub h0 h2) (by rw [hp]; exact between_ne_nil h0 h1.le h2)
  have hne : (shape pos region g).Nonempty := by rw [hs, hp]; exact hullSet_nonempty (by simpa using between_ne_nil h0 h1.le h2)
  exact ⟨g, hg, valid_of_nonempty (hne.mono (he.bounds_subset hne))⟩

end

end Planar
end Verif
