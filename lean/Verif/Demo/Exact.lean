import Verif.Lemmas.PlanarNear
import Verif.Demo.Env

/-! A library with exact answers exists: the points of the plane, constraints of any shape. -/

namespace Verif
namespace Planar

open Classical in
/-- the corners of the hull of some points, each once -/
noncomputable def corners (l : List ℂ) : List ℂ := (l.filter (fun z => decide (z ∈ (hullSet l).extremePoints ℝ))).dedup

theorem mem_corners {l : List ℂ} {z : ℂ} : z ∈ corners l ↔ z ∈ (hullSet l).extremePoints ℝ := by
  simp only [corners, List.mem_dedup, List.mem_filter, decide_eq_true_eq]
  exact ⟨fun h => h.2, fun h => ⟨extremePoints_convexHull_subset (𝕜 := ℝ) (A := {z | z ∈ l}) h, h⟩⟩

/-- the least box around a set of points -/
noncomputable def leastBox (s : Set ℂ) : Box EReal :=
  ⟨⨅ z ∈ s, (z.re : EReal), ⨅ z ∈ s, (z.im : EReal), ⨆ z ∈ s, (z.re : EReal), ⨆ z ∈ s, (z.im : EReal)⟩

theorem leastBox_le {s : Set ℂ} {b : Box EReal} : leastBox s ≤ b ↔ s ⊆ boxSet b := by
  simp only [Box.le_def, leastBox, le_iInf_iff, iSup_le_iff]
  exact ⟨fun ⟨h1, h2, h3, h4⟩ z hz => ⟨h1 z hz, h3 z hz, h2 z hz, h4 z hz⟩,
    fun h => ⟨fun z hz => (h hz).1, fun z hz => (h hz).2.2.1, fun z hz => (h hz).2.1, fun z hz => (h hz).2.2.2⟩⟩

/-- the constraints: non-empty sets of points -/
abbrev Region : Type := {s : Set ℂ // s.Nonempty}

/-- the set of a geometry -/
abbrev shapeOf (g : Geo ℂ Region) : Set ℂ := shape id (fun r : Region => r.1) g

open Classical in
/-- exact geometry of the plane -/
noncomputable def exactLib : Lib ℂ Region EReal ℝ where
  convexHull c := coordsOf (corners c.points)
  bounds g := leastBox (shapeOf g)
  intersects a b := decide (shapeOf a ∩ shapeOf b).Nonempty
  intersection a b := if h : (shapeOf a ∩ shapeOf b).Finite then h.toFinset.toList else if h : (shapeOf a ∩ shapeOf b).Nonempty then [h.some] else []
  distance a b := .fin (gap (shapeOf a) (shapeOf b))
  boxDistance a b := .fin (gap (shapeOf a) (boxSet b))
  ptInRing c p := decide (p ∈ hullSet c.points)
  equals2D a b := decide (a = b)
  ptDistance a b := .fin (dist a b)

theorem coordsOf_points {P : Type} (l : List P) : (coordsOf l).points = l := by
  cases l with
  | nil => rfl
  | cons a l =>
    have := points_sub (a :: l) (i := 0) (j := (a :: l).length - 1) le_rfl (by simp) (by simp)
    rw [coordsOf, this, between, List.take_of_length_le (by simp)]
    simp

theorem coordsOf_wellIndexed {P : Type} (l : List P) : WellIndexed (coordsOf l) := by
  cases l with
  | nil => intro k hk; simp [coordsOf, Coords.sub, rangeInts] at hk
  | cons a l => exact wellIndexed_sub le_rfl (by simp)

theorem exactLib_exact : Exact id (fun r : Region => r.1) exactLib where
  nonempty g := g.2
  intersects a b := by simp [exactLib]
  distance a b _ _ := rfl
  boxDistance a b _ _ := rfl
  bounds a _ b := leastBox_le
  hullIndexed c _ := coordsOf_wellIndexed _
  hullCorners c _ := by
    ext z
    simp only [exactLib, coordsOf_points, List.map_id, Set.mem_ofPred_eq]
    exact mem_corners
  hullOnce c _ := by
    simp only [exactLib, coordsOf_points, List.map_id, corners]
    exact List.nodup_dedup _
  equals2D p q := by simp [exactLib]

theorem exactLib_point (p : ℂ) (g : Geo ℂ Region) : (exactLib.intersection (.point p) g).length ≤ 1 ∧ (exactLib.intersection g (.point p)).length ≤ 1 := by
  have key : ∀ s : Set ℂ, s.Subsingleton → ∀ h : s.Finite, h.toFinset.toList.length ≤ 1 := by
    intro s hs h
    rw [Finset.length_toList, Finset.card_le_one]
    intro a ha b hb
    exact hs (h.mem_toFinset.1 ha) (h.mem_toFinset.1 hb)
  have hp : (shapeOf (.point p) : Set ℂ).Subsingleton := Set.subsingleton_singleton
  constructor
  · simp only [exactLib]
    split_ifs
    · exact key _ (hp.anti Set.inter_subset_left) _
    all_goals simp
  · simp only [exactLib]
    split_ifs
    · exact key _ (hp.anti Set.inter_subset_right) _
    all_goals simp

open Classical in
theorem exactLib_cut (a b : Geo ℂ Region) (h : exactLib.intersects a b = true) : exactLib.intersection a b ≠ [] := by
  have h : (shapeOf a ∩ shapeOf b).Nonempty := of_decide_eq_true h
  simp only [exactLib]
  split_ifs with hf
  · obtain ⟨z, hz⟩ := h
    exact List.ne_nil_of_mem (Finset.mem_toList.2 (hf.mem_toFinset.2 hz))
  · simp

/-! linear referencing -/

/-- the common part of two segments has at most two corners -/
theorem segment_inter_corners (a b c d : ℂ) : ((segment ℝ a b ∩ segment ℝ c d).extremePoints ℝ).Finite := by
  have hK : IsCompact (segment ℝ a b ∩ segment ℝ c d) := by
    rw [← convexHull_pair, ← convexHull_pair]
    exact ((Set.toFinite {a, b}).isCompact_convexHull ℝ).inter ((Set.toFinite {c, d}).isCompact_convexHull ℝ)
  rcases (segment ℝ a b ∩ segment ℝ c d).eq_empty_or_nonempty with he | hne
  · rw [he, extremePoints_empty]; exact Set.finite_empty
  rcases eq_or_ne a b with rfl | hab
  · refine (Set.finite_singleton a).subset (fun z hz => ?_)
    have := hz.1.1
    rwa [segment_same] at this
  obtain ⟨φ, hφ, hpar⟩ := segment_coordinate hab
  obtain ⟨u, hu, hu'⟩ := hK.exists_isMinOn hne hφ.continuousOn
  obtain ⟨v, hv, hv'⟩ := hK.exists_isMaxOn hne hφ.continuousOn
  have hsub : segment ℝ a b ∩ segment ℝ c d = segment ℝ u v := by
    refine Set.Subset.antisymm (fun z hz => ?_) (((convex_segment a b).inter (convex_segment c d)).segment_subset hu hv)
    have h1 : φ u ≤ φ z := hu' hz
    have h2 : φ z ≤ φ v := hv' hz
    have hz' : φ z ∈ segment ℝ (φ u) (φ v) := by rw [segment_eq_Icc (h1.trans h2)]; exact ⟨h1, h2⟩
    obtain ⟨s, t, hs, ht, hst, e⟩ := hz'
    refine ⟨s, t, hs, ht, hst, ?_⟩
    rw [hpar z hz.1, hpar u hu.1, hpar v hv.1, ← e]
    have : s = 1 - t := by linarith
    subst this
    simp only [smul_eq_mul]
    module
  rw [hsub, ← convexHull_pair]
  exact (Set.toFinite {u, v}).subset extremePoints_convexHull_subset

open Classical in
/-- exact linear referencing -/
noncomputable def exactLnr : LnrLib ℂ EReal where
  sortV l := l.insertionSort (fun a b => LexLe a.pt b.pt)
  segBox a b := leastBox (segment ℝ a b)
  segSeg a b c d := (segment_inter_corners a b c d).toFinset.toList.map (fun z => (z, decide (z ∈ [a, b, c, d]), decide (¬ (z ∈ [a, b] ∧ z ∈ [c, d]))))
  segSearch data d := (List.range data.length).filter (fun o => match data[d]?, data[o]? with
    | some s, some t => s.box.intersects t.box
    | _, _ => false)

open Classical in
theorem exactLnr_exact : ExactLnr id exactLnr where
  perm l := List.perm_insertionSort _ l
  sorted l := by
    have : Std.Total (fun a b : Vtx ℂ => LexLe a.pt b.pt) := ⟨fun a b => lexLe_total a.pt b.pt⟩
    have : IsTrans (Vtx ℂ) (fun a b : Vtx ℂ => LexLe a.pt b.pt) := ⟨fun a b c => lexLe_trans⟩
    exact List.pairwise_insertionSort (fun a b : Vtx ℂ => LexLe a.pt b.pt) l
  segBox a b x := leastBox_le
  segSeg a b c d := by
    ext z
    simp [exactLnr]
  flag a b c d x hx := by
    simp only [exactLnr, List.mem_map, Finset.mem_toList, Set.Finite.mem_toFinset] at hx
    obtain ⟨z, -, rfl⟩ := hx
    simp only [id, Bool.or_eq_true, Bool.not_eq_true', decide_eq_false_iff_not, decide_eq_true_eq, List.mem_cons, List.not_mem_nil, or_false]
    tauto
  search := by
    intro data d o s hs
    simp only [exactLnr, hs, List.mem_filter, List.mem_range]
    constructor
    · rintro ⟨h1, h2⟩
      rw [List.getElem?_eq_getElem h1] at h2
      exact ⟨_, List.getElem?_eq_getElem h1, h2⟩
    · rintro ⟨t, h1, h2⟩
      refine ⟨(List.getElem?_eq_some_iff.1 h1).1, ?_⟩
      rw [h1]; exact h2

/-- lines in the plane, scored by the distance from the chord -/
noncomputable def exactEnv (lines : Int → Demo.Line ℂ Region ℝ) : Env ℂ Region EReal ℝ :=
  Demo.env exactLib exactLnr (fun a b p => .fin (gap {p} (segment ℝ a b))) (.fin 0) lines

section
variable {lines : Int → Demo.Line ℂ Region ℝ} {h : Int}

theorem exactEnv_ok : EnvOK (exactEnv lines) := Demo.env_ok exactLib_point

theorem exactLnr_ok : LnrOK (exactEnv lines).lnr :=
  ⟨exactLnr_exact.perm, fun _ _ _ ho => List.mem_range.1 (List.mem_filter.1 ho).1⟩

theorem exactInst_ok (h2 : 2 ≤ (lines h).pts.length) (ht : (Fl.fin 0).le (lines h).opts.sqThreshold = true) : InstOK (exactEnv lines) h (lines h).pts :=
  Demo.inst_ok h2 (fun a b p => by simp [Fl.fin_le_fin, gap_nonneg]) ht (Exact.hulls (env := exactEnv lines) exactLib_exact _)

theorem exactSetting {m : ℝ} (h0 : 0 ≤ m) (hm : (lines h).opts.minDist = .fin m) :
    Setting id (fun r : Region => r.1) (exactEnv lines) h (lines h).ctx 0 m where
  exact := exactLib_exact
  heap := ⟨Hdb.listHeap_legal.push, Hdb.listHeap_legal.pop_none, Hdb.listHeap_legal.pop_perm,
    fun q x r h1 h2 y hy => within_zero (Hdb.listHeap_legal.pop_min q x r h1 h2 y hy)⟩
  tol := ⟨le_rfl, h0⟩
  minDist := hm
  indexed := by
    have := (Demo.ctxdb_spec exactLib h (lines h).ctx).2.map (fun nd : Node ℂ Region EReal => (nd.geom, nd.mbr))
    rw [List.map_map] at this
    exact this

end

end Planar
end Verif
