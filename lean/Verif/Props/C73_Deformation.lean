import Verif.Demo.Exact
import Verif.Props.C13_FeatureClass
import Verif.Props.C67_Sidedness
import Mathlib.Analysis.Complex.Convex

/-! C73-C75: constraints as sets of points of the plane.  What the checks with an exact geometry library guarantee for the curves. -/

set_option linter.unusedSectionVars false

namespace Verif
namespace Planar

section
variable {P C : Type} {pos : P → ℂ} {region : C → Set ℂ}

/-- C73.  When the sidedness test accepts a sub-line, chord and sub-line meet the same constraints, and the sub-line can be deformed into its chord
continuously, with fixed ends, without ever touching a constraint that the sub-line does not meet. -/
theorem C73_sidedness {lib : Lib P C EReal ℝ} (he : Exact pos region lib) {c : Coords P} (hw : WellIndexed c) (h2 : 2 ≤ c.len) {a b : ℂ}
    (ha : (c.points.map pos).head? = some a) (hb : (c.points.map pos).getLast? = some b) (cs : List C)
    (hy : Yields (Homotopy.homotopy lib c (cs.map .ctx)) true) :
    (∀ g ∈ cs, (segment ℝ a b ∩ region g).Nonempty ↔ (lineSet (c.points.map pos) ∩ region g).Nonempty) ∧
    Deforms (clear region cs (c.points.map pos)) (curve (c.points.map pos)) (curve [a, b]) := by
  have hl := hw.length
  have h2' : 2 ≤ c.points.length := by omega
  obtain ⟨h1, h3⟩ := C29_accept_sound he.boxSound he.eqLike_refl (ps := c.points) hl h2' (fun k hk => hw.pt_get hk) _ hy
  have hch : chordSet (c.points.map pos) = segment ℝ a b := by
    ext z
    simp [chordSet, ha, hb]
  have hsame : ∀ g ∈ cs, (segment ℝ a b ∩ region g).Nonempty ↔ (lineSet (c.points.map pos) ∩ region g).Nonempty := by
    intro g hg
    have e1 := he.intersects (.seg c) (.ctx g)
    have e2 := he.intersects (.line c) (.ctx g)
    rw [h1 _ (List.mem_map_of_mem hg)] at e1
    rw [← hch]
    exact e1.symm.trans e2
  refine ⟨hsame, ?_⟩
  have hends : [pos c.points[0], pos c.points[c.points.length - 1]] = [a, b] := by
    rw [List.head?_map, List.head?_eq_getElem?, List.getElem?_eq_getElem (by omega)] at ha
    rw [List.getLast?_map, List.getLast?_eq_getElem?, List.getElem?_eq_getElem (by omega)] at hb
    simp only [Option.map_some, Option.some.injEq] at ha hb
    rw [ha, hb]
  have hmap := h3.map pos (free'' := fun x y z => hullSet [x, y, z] ⊆ clear region cs (c.points.map pos)) (fun x y z hf w hz g hg hd hzg => by
    have hline : lib.intersects (.line c) (.ctx g) = false := by
      rw [Bool.eq_false_iff, ne_eq, he.intersects]
      exact disjoint_iff_not.1 hd
    have := hf _ (List.mem_map_of_mem hg) (by rw [h1 _ (List.mem_map_of_mem hg)]; exact hline) hline
    rw [Bool.eq_false_iff, ne_eq, he.intersects, triangle_shape] at this
    exact this ⟨w, hz, hzg⟩)
  simp only [List.map_cons, List.map_nil, hends] at hmap
  have hne : c.points.map pos ≠ [] := by
    intro hn
    rw [List.map_eq_nil_iff] at hn
    rw [hn] at h2'
    simp at h2'
  exact (deforms_collapse hmap (lineSet_clear _) hne).1

end

section
variable {P C : Type} {pos : P → ℂ} {region : C → Set ℂ} {env : Env P C EReal ℝ} {pts : Int → List P} {h : Int} {cs : List C} {τ m : ℝ}
  {ids : Nat → Int} {cv : List Int} {dirty d : Int → Bool} {fuel : Nat} {out : Out P C EReal}

/-- C74.  With `DirRelation` on, the simplified line arises from the input line by a continuous deformation with fixed ends that never touches a
constraint the input line does not meet.  In particular the simplified line meets no such constraint. -/
theorem C74_deformation (he : EnvOK env) (hl : LnrOK env.lnr) (hi : InstOK env h (pts h)) (hinj : Function.Injective ids)
    (hcv : ∀ i ∈ cv, 0 ≤ i ∧ i < (pts h).length) (hs : Setting pos region env h cs τ m) (hd : (env.inst h).opts.dirRelation = true)
    (hr : simplify env ids h cv dirty fuel = .ok (out, d)) :
    Deforms (clear region cs ((pts h).map pos)) (curve ((pts h).map pos)) (curve (placesAt pos (pts h) out.simple)) ∧
    ∀ g ∈ cs, Disjoint (lineSet ((pts h).map pos)) (region g) → Disjoint (lineSet (placesAt pos (pts h) out.simple)) (region g) := by
  obtain ⟨h1, ⟨g', h2⟩, h3, -⟩ := simplify_result he hl hi hinj hcv hr
  obtain ⟨k1, k2⟩ := hs.deforms hi h2 h3 hd
  rw [h1]
  exact ⟨k1, fun g hg hdis => Set.disjoint_left.2 (fun z hz => k2 hz g hg hdis)⟩

/-- C75.  With `GeomRelation` on, the simplified line meets no constraint that the input line does not meet; with `DistRelation` on, a constraint at least
the minimum distance away from the input line is at least that distance, less the tolerance of the queue, away from the simplified line. -/
theorem C75_whole_line (he : EnvOK env) (hl : LnrOK env.lnr) (hi : InstOK env h (pts h)) (hinj : Function.Injective ids)
    (hcv : ∀ i ∈ cv, 0 ≤ i ∧ i < (pts h).length) (hs : Setting pos region env h cs τ m) (hr : simplify env ids h cv dirty fuel = .ok (out, d)) :
    ((env.inst h).opts.geomRelation = true → ∀ g ∈ cs, Disjoint (lineSet ((pts h).map pos)) (region g) →
      Disjoint (lineSet (placesAt pos (pts h) out.simple)) (region g)) ∧
    ((env.inst h).opts.distRelation = true → ∀ g ∈ cs, m ≤ gap (lineSet ((pts h).map pos)) (region g) →
      m - τ ≤ gap (lineSet (placesAt pos (pts h) out.simple)) (region g)) := by
  obtain ⟨h1, ⟨g', h2⟩, h3, -⟩ := simplify_result he hl hi hinj hcv hr
  rw [h1]
  refine ⟨fun hd g hg hdis => ?_, fun hd g hg hm => hs.gaps hi h2 h3 hd hg hm⟩
  rw [disjoint_iff_not] at hdis ⊢
  exact fun hn => hdis (hs.meets hi h2 h3 hd hg hn)

/-- Specification: what consecutive kept vertices `i`, `j` of a line have to do with the constraints: the segment between them belongs to the line, or the
vertices from `i` to `j` lie on one straight line, or the requested relations hold for the segment and the vertices replaced by it. -/
def Kept (pos : P → ℂ) (region : C → Set ℂ) (cs : List C) (o : Opts ℝ) (τ m : ℝ) (ps : List P) (i j : Int) : Prop :=
  j = i + 1 ∨ Collinear ℝ {z | z ∈ places pos ps i j} ∨
  ((o.geomRelation = true → ∀ g ∈ cs, (chordSet (places pos ps i j) ∩ region g).Nonempty ↔ (lineSet (places pos ps i j) ∩ region g).Nonempty) ∧
   (o.distRelation = true → ∀ g ∈ cs, m ≤ gap (lineSet (places pos ps i j)) (region g) → m - τ ≤ gap (chordSet (places pos ps i j)) (region g)) ∧
   (o.dirRelation = true → (∀ g ∈ cs, (chordSet (places pos ps i j) ∩ region g).Nonempty ↔ (lineSet (places pos ps i j) ∩ region g).Nonempty) ∧
     Deforms (clear region cs (places pos ps i j)) (curve (places pos ps i j)) (curve (placesAt pos ps [i, j]))))

theorem Judged.kept {src : Int → Prop} {ids : Nat → Int} {g : Nat} {hulls : List (Node P C EReal)} (hs : Judged pos region env pts h cs τ m)
    (hi : InstOK env h (pts h)) (hp : Pieces env pts [h] src ids g hulls) (hn : ∀ x ∈ hulls, Settled env x) {i j : Int}
    (hc : Consecutive (simpleSet hulls) i j) : Kept pos region cs (env.inst h).opts τ m (pts h) i j := by
  obtain ⟨rs, hch, hne, e, hr⟩ := pieces_chain hi hp
  rw [e] at hc
  obtain ⟨r, hrm, rfl, rfl⟩ := consecutive_chain rs _ _ hch hc
  obtain ⟨nd, hnd, rfl⟩ := hr r hrm
  have hk := hp.known hnd
  have hins : nd.inst = h := by simpa using hk.inst
  have hhi := hk.hi
  rw [hins] at hhi
  refine (hs.piece nd hk (hn nd hnd)).imp_right (fun h1 => ?_)
  rcases h1 with ⟨a, ha, b, hb, h1⟩ | h1
  · exact .inl (collinear_of_segment h1)
  · right
    refine ⟨h1.geom, fun hd g hg hm => (h1.dist hd g hg).resolve_right (not_lt.2 hm), fun hd => ⟨(h1.side hd).1, ?_⟩⟩
    obtain ⟨x, y, e1, e2, e3, e4⟩ := places_ends (pos := pos) (ps := pts h) hk.lo hk.lt hhi
    rw [e1]
    refine (deforms_collapse ((h1.side hd).2 x y e2 e3) (lineSet_clear _) ?_).1
    intro hn
    rw [hn] at e4
    simp at e4

theorem Setting.kept {src : Int → Prop} {ids : Nat → Int} {g : Nat} {hulls : List (Node P C EReal)} (hs : Setting pos region env h cs τ m)
    (hi : InstOK env h (pts h)) (hp : Pieces env pts [h] src ids g hulls) (hn : ∀ x ∈ hulls, Settled env x) {i j : Int}
    (hc : Consecutive (simpleSet hulls) i j) : Kept pos region cs (env.inst h).opts τ m (pts h) i j :=
  (hs.judged hi).kept hi hp hn hc

/-- C75 for each segment of the simplified line -/
theorem C75_each_segment (he : EnvOK env) (hl : LnrOK env.lnr) (hi : InstOK env h (pts h)) (hinj : Function.Injective ids)
    (hcv : ∀ i ∈ cv, 0 ≤ i ∧ i < (pts h).length) (hs : Setting pos region env h cs τ m) (hr : simplify env ids h cv dirty fuel = .ok (out, d)) :
    ∀ i j, Consecutive out.simple i j → Kept pos region cs (env.inst h).opts τ m (pts h) i j := by
  obtain ⟨h1, ⟨g', h2⟩, h3, -⟩ := simplify_result he hl hi hinj hcv hr
  rw [h1]
  exact fun i j hc => hs.kept hi h2 h3 hc

/-- lines of a feature class whose pieces are judged -/
theorem Judged.feature_class {idsOf : Int → Nat → Int} {handles : List Int} {o : Opts ℝ} {res : List (Int × Out P C EReal)}
    (hs : Judged pos region env pts h cs τ m) (hc : ClassOK env pts ids idsOf handles) (hr : simplifyFeatureClass env ids idsOf handles o dirty fuel = .ok res) (hm : (h, out) ∈ res) :
    ((env.inst h).opts.dirRelation = true →
      Deforms (clear region cs ((pts h).map pos)) (curve ((pts h).map pos)) (curve (placesAt pos (pts h) out.simple))) ∧
    ((env.inst h).opts.geomRelation = true ∨ (env.inst h).opts.dirRelation = true → ∀ g ∈ cs, Disjoint (lineSet ((pts h).map pos)) (region g) →
      Disjoint (lineSet (placesAt pos (pts h) out.simple)) (region g)) ∧
    ((env.inst h).opts.distRelation = true → ∀ g ∈ cs, m ≤ gap (lineSet ((pts h).map pos)) (region g) →
      m - τ ≤ gap (lineSet (placesAt pos (pts h) out.simple)) (region g)) ∧
    ∀ i j, Consecutive out.simple i j → Kept pos region cs (env.inst h).opts τ m (pts h) i j := by
  obtain ⟨h1, js, -, h2⟩ := fc_result hc hr
  have hh : h ∈ handles := by rw [← h1]; exact List.mem_map.2 ⟨_, hm, rfl⟩
  obtain ⟨src, ids', g, hp⟩ := (h2 _ hm).pieces
  have hn := (h2 _ hm).settled
  have hi := hc.inst h hh
  rw [(h2 _ hm).simple]
  refine ⟨fun hd => (hs.deforms hi hp hn hd).1, fun hd g hg hdis => ?_, fun hd g hg hm => hs.gaps hi hp hn hd hg hm, fun i j hc => hs.kept hi hp hn hc⟩
  rcases hd with hd | hd
  · rw [disjoint_iff_not] at hdis ⊢
    exact fun hn' => hdis (hs.meets hi hp hn hd hg hn')
  · exact Set.disjoint_left.2 (fun z hz => (hs.deforms hi hp hn hd).2 hz g hg hdis)

/-- C74, C75 for the lines of a feature class -/
theorem C74_feature_class {idsOf : Int → Nat → Int} {handles : List Int} {o : Opts ℝ} {res : List (Int × Out P C EReal)}
    (hc : ClassOK env pts ids idsOf handles) (hr : simplifyFeatureClass env ids idsOf handles o dirty fuel = .ok res) (hm : (h, out) ∈ res)
    (hs : Setting pos region env h cs τ m) :
    ((env.inst h).opts.dirRelation = true →
      Deforms (clear region cs ((pts h).map pos)) (curve ((pts h).map pos)) (curve (placesAt pos (pts h) out.simple))) ∧
    ((env.inst h).opts.geomRelation = true ∨ (env.inst h).opts.dirRelation = true → ∀ g ∈ cs, Disjoint (lineSet ((pts h).map pos)) (region g) →
      Disjoint (lineSet (placesAt pos (pts h) out.simple)) (region g)) ∧
    ((env.inst h).opts.distRelation = true → ∀ g ∈ cs, m ≤ gap (lineSet ((pts h).map pos)) (region g) →
      m - τ ≤ gap (lineSet (placesAt pos (pts h) out.simple)) (region g)) ∧
    ∀ i j, Consecutive out.simple i j → Kept pos region cs (env.inst h).opts τ m (pts h) i j := by
  have hh : h ∈ handles := by rw [← (fc_result hc hr).1]; exact List.mem_map.2 ⟨_, hm, rfl⟩
  exact (hs.judged (hc.inst h hh)).feature_class hc hr hm

end

/-! ### concrete case: a peak between two half planes -/

/-- the peak -/
noncomputable def peak : List ℂ := [0, Complex.I, 2]
/-- all points with second ordinate at least 2, and all with second ordinate at most -1 -/
def above : Region := ⟨{z | 2 ≤ z.im}, ⟨⟨0, 2⟩, le_refl (2 : ℝ)⟩⟩
def below : Region := ⟨{z | z.im ≤ -1}, ⟨⟨0, -1⟩, le_refl (-1 : ℝ)⟩⟩

theorem peak_strip : hullSet peak ⊆ {z | 0 ≤ z.im ∧ z.im ≤ 1} := by
  refine convexHull_min ?_ ?_
  · intro z hz
    simp only [peak, List.mem_cons, List.not_mem_nil, or_false, Set.mem_ofPred_eq] at hz ⊢
    rcases hz with rfl | rfl | rfl <;> norm_num
  · exact (convex_halfSpace_im_ge 0).inter (convex_halfSpace_im_le 1)

/-- the sidedness test accepts the peak, so it can be flattened between the two half planes -/
example : Yields (Homotopy.homotopy exactLib (coordsOf peak) ([above, below].map .ctx)) true ∧
    Deforms (clear (fun r : Region => r.1) [above, below] peak) (curve peak) (curve [0, 2]) := by
  have hp : (coordsOf peak).points.map id = peak := by rw [coordsOf_points, List.map_id]
  have hnot : ∀ (a : Geo ℂ Region), shapeOf a ⊆ hullSet peak → ∀ g ∈ [above, below].map Geo.ctx, exactLib.intersects a g = false := by
    intro a ha g hg
    rw [Bool.eq_false_iff, ne_eq, exactLib_exact.intersects]
    rintro ⟨z, h1, h2⟩
    have := peak_strip (ha h1)
    simp only [Set.mem_ofPred_eq] at this
    simp only [List.map_cons, List.map_nil, List.mem_cons, List.not_mem_nil, or_false] at hg
    rcases hg with rfl | rfl <;> simp only [shape, above, below, Set.mem_ofPred_eq] at h2 <;> linarith
  have hy : Yields (Homotopy.homotopy exactLib (coordsOf peak) ([above, below].map .ctx)) true := by
    refine C67_accept_partial (ps := peak) exactLib_exact.boxSound exactLib_exact.eqLike_refl (coordsOf_len _) (by simp [peak])
      (fun k hk => coordsOf_pt _ _ hk) _ (fun g hg => ?_) (fun x y z hs g hg _ _ => ?_)
    · rw [hnot _ ?_ g hg, hnot _ ?_ g hg]
      · simp only [shapeOf, shape, hp]; exact lineSet_subset_hullSet _
      · simp only [shapeOf, shape, hp]; exact chordSet_subset_hullSet _
    · refine hnot _ ?_ g hg
      rw [shapeOf, triangle_shape]
      exact hullSet_mono (fun w hw => hs.subset hw)
  have := (C73_sidedness exactLib_exact (c := coordsOf peak) (coordsOf_wellIndexed _) (by rw [coordsOf_len]; simp [peak]) (a := 0) (b := 2)
    (by rw [hp]; rfl) (by rw [hp]; rfl) [above, below] hy).2
  rw [hp] at this
  exact ⟨hy, this⟩

noncomputable def peakOpts : Opts ℝ :=
  { threshold := .fin 5, sqThreshold := .fin 25, minDist := .fin (1 / 2), nonPlanarDisplacement := .fin 1, planarSelf := false,
    nonPlanarSelf := false, avoidNewSelfIntersects := false, geomRelation := true, distRelation := true, dirRelation := true }

noncomputable def peakLine : Demo.Line ℂ Region ℝ := ⟨peak, [above, below], peakOpts⟩

/-- the whole program on the peak: a result exists, and the simplified line is a deformation of the peak -/
example : ∃ fuel out d, simplify (exactEnv (fun _ => peakLine)) (fun n => n) 0 [] (fun _ => false) fuel = .ok (out, d) ∧
    Deforms (clear (fun r : Region => r.1) [above, below] peak) (curve peak) (curve (placesAt id peak out.simple)) ∧
    ∀ i j, Consecutive out.simple i j → Kept id (fun r : Region => r.1) [above, below] peakLine.opts 0 (1 / 2) peak i j := by
  have he := exactEnv_ok (lines := fun _ => peakLine)
  have hl := exactLnr_ok (lines := fun _ => peakLine)
  have hi : InstOK (exactEnv (fun _ => peakLine)) 0 ((fun _ => peak) (0 : Int)) :=
    exactInst_ok (lines := fun _ => peakLine) (h := 0) (by simp [peakLine, peak]) (by simp [peakLine, peakOpts, Fl.fin_le_fin])
  have hinj : Function.Injective (fun n : Nat => (n : Int)) := fun a b h => by simpa using h
  have hs := exactSetting (lines := fun _ => peakLine) (h := 0) (m := 1 / 2) (by norm_num) rfl
  obtain ⟨⟨out, d⟩, N, hy⟩ := C10_terminates (pts := fun _ => peak) (cv := []) he hl hi hinj (by simp) (fun _ => false)
  have h1 := C74_deformation (pts := fun _ => peak) he hl hi hinj (by simp) hs rfl (hy N le_rfl)
  have h2 := C75_each_segment (pts := fun _ => peak) he hl hi hinj (by simp) hs (hy N le_rfl)
  rw [List.map_id] at h1
  exact ⟨N, out, d, hy N le_rfl, h1.1, h2⟩

end Planar
end Verif
