import Verif.Props.C113_Blurred

/-! C116: the convex hulls of the geometry library are inexact as well: corners may be missing when they stand out only a little. -/

set_option linter.unusedSectionVars false

namespace Verif
namespace Planar

/-- a line whose vertices are all within `σ` of a segment between two of them stays within `2 σ` of its whole hull -/
theorem hull_near_line {l : List ℂ} {a b : ℂ} {σ : ℝ} (ha : a ∈ l) (hb : b ∈ l) (hs : ∀ z ∈ hullSet l, ∃ w ∈ segment ℝ a b, dist z w ≤ σ) :
    ∀ z ∈ hullSet l, ∃ w ∈ lineSet l, dist z w ≤ 2 * σ := by
  have key : ∀ w ∈ segment ℝ a b, ∃ u ∈ lineSet l, dist w u ≤ σ := by
    obtain ⟨w0, -, h0⟩ := hs a (subset_convexHull ℝ _ ha)
    have σ0 : 0 ≤ σ := dist_nonneg.trans h0
    rcases eq_or_ne a b with rfl | hab
    · intro w hw
      rw [segment_same, Set.mem_singleton_iff] at hw
      exact ⟨a, mem_lineSet_of_mem ha, by simpa [hw] using σ0⟩
    have hne : (b - a) ≠ 0 := sub_ne_zero.2 hab.symm
    intro w hw
    have hφ : Continuous (fun z : ℂ => ((z - a) / (b - a)).re) := Complex.continuous_re.comp ((continuous_id.sub continuous_const).div_const _)
    rw [segment_eq_image'] at hw
    obtain ⟨t, ⟨t0, t1⟩, rfl⟩ := hw
    obtain ⟨u, hu, hut⟩ := ((isPreconnected_lineSet l).image _ hφ.continuousOn).Icc_subset ⟨a, mem_lineSet_of_mem ha, rfl⟩ ⟨b, mem_lineSet_of_mem hb, rfl⟩
      (show t ∈ Set.Icc _ _ by simp only [sub_self, zero_div, Complex.zero_re, div_self hne, Complex.one_re]; exact ⟨t0, t1⟩)
    refine ⟨u, hu, ?_⟩
    obtain ⟨v, hv, huv⟩ := hs u (lineSet_subset_hullSet l hu)
    rw [segment_eq_image'] at hv
    obtain ⟨r, -, rfl⟩ := hv
    simp only [] at hut
    rw [dist_comm]
    refine le_trans ?_ huv
    rw [dist_eq_norm, dist_eq_norm]
    have e : ∀ x : ℝ, u - (a + x • (b - a)) = ((u - a) / (b - a) - (x : ℂ)) * (b - a) := by
      intro x
      rw [sub_mul, div_mul_cancel₀ _ hne, Complex.real_smul]
      ring
    rw [e, e, norm_mul, norm_mul]
    refine mul_le_mul_of_nonneg_right ?_ (norm_nonneg _)
    rw [Complex.norm_eq_sqrt_sq_add_sq, Complex.norm_eq_sqrt_sq_add_sq]
    refine Real.sqrt_le_sqrt ?_
    simp only [Complex.sub_re, Complex.ofReal_re, Complex.sub_im, Complex.ofReal_im, sub_zero] at hut ⊢
    nlinarith [sq_nonneg (((u - a) / (b - a)).re - r)]
  intro z hz
  obtain ⟨w, hw, h1⟩ := hs z hz
  obtain ⟨u, hu, h2⟩ := key w hw
  exact ⟨u, hu, by linarith [dist_triangle z w u]⟩

section
variable {P C : Type}

/-- Specification: as `Blurred`, and the convex hulls are inexact: the corners found are vertices, and what they span is within `σ` of every point of the convex
hull.  The parts of a constraint are `2 σ` apart. -/
structure Blunt (σ ε ρ : ℝ) (pos : P → ℂ) (inner outer region : C → Set ℂ) (lib : Lib P C EReal ℝ) : Prop where
  nonempty : ∀ g, (region g).Nonempty
  sub : ∀ g, ∀ z ∈ inner g, ∀ w, dist z w ≤ 2 * σ → w ∈ outer g
  near : ∀ g, ∀ z ∈ outer g, ∃ w ∈ region g, dist z w ≤ ρ
  seen : ∀ a g, (shape pos region a ∩ inner g).Nonempty → lib.intersects a (.ctx g) = true
  only : ∀ a g, lib.intersects a (.ctx g) = true → (shape pos region a ∩ outer g).Nonempty
  boxes : ∀ a b, lib.intersects a b = true → (lib.bounds a).intersects (lib.bounds b) = true
  distance : ∀ a b, (shape pos region a).Nonempty → (shape pos region b).Nonempty →
    ∃ d, lib.distance a b = .fin d ∧ |d - gap (shape pos region a) (shape pos region b)| ≤ ε
  boxDistance : ∀ a b gs, (shape pos region a).Nonempty → gs ≠ [] → (∀ c, b ≤ c ↔ ∀ g ∈ gs, region g ⊆ boxSet c) →
    ∃ d, lib.boxDistance a b = .fin d ∧ |d - gap (shape pos region a) (boxSet b)| ≤ ε
  bounds : ∀ a, (shape pos region a).Nonempty → ∀ b, lib.bounds a ≤ b ↔ shape pos region a ⊆ boxSet b
  hullIndexed : ∀ c, WellIndexed c → WellIndexed (lib.convexHull c)
  hullVertices : ∀ c, WellIndexed c → ∀ z ∈ (lib.convexHull c).points.map pos, z ∈ c.points.map pos
  hullNear : ∀ c, WellIndexed c → ∀ z ∈ hullSet (c.points.map pos), ∃ w ∈ hullSet ((lib.convexHull c).points.map pos), dist z w ≤ σ
  equals2D : ∀ p q, lib.equals2D p q = true ↔ pos p = pos q

/-- with exact hulls this is the library of C113 -/
theorem Blurred.blunt {ε ρ : ℝ} {pos : P → ℂ} {inner outer region : C → Set ℂ} {lib : Lib P C EReal ℝ} (h : Blurred ε ρ pos inner outer region lib) :
    Blunt 0 ε ρ pos inner outer region lib :=
  ⟨h.nonempty, fun g z hz w hd => by rw [mul_zero] at hd; exact dist_le_zero.1 hd ▸ h.sub g hz, h.near, h.seen, h.only, h.boxes, h.distance, h.boxDistance, h.bounds,
    h.hullIndexed, fun c hc z hz => by
      have : z ∈ (hullSet (c.points.map pos)).extremePoints ℝ := by rw [← h.hullCorners c hc]; exact hz
      have h3 : z ∈ ({z | z ∈ c.points.map pos} : Set ℂ) := extremePoints_convexHull_subset (𝕜 := ℝ) this
      exact h3,
    fun c hc z hz => ⟨z, by rwa [hull_corners (h.hullCorners c hc)], by simp⟩, h.equals2D⟩

variable {σ ε ρ : ℝ} {pos : P → ℂ} {inner outer region : C → Set ℂ} {lib : Lib P C EReal ℝ}

/-- the geometry made of a computed hull is the hull of the corners found -/
theorem Blunt.hull_shape (hx : Blunt σ ε ρ pos inner outer region lib) {c : Coords P} (hw : WellIndexed c) (hne : c.points ≠ []) :
    ∃ g : Geo P C, hullGeometry (lib.convexHull c) = .ok g ∧ shape pos region g = hullSet ((lib.convexHull c).points.map pos) := by
  have hw' := hx.hullIndexed c hw
  have hl := hw'.length
  have hpos : (lib.convexHull c).points ≠ [] := by
    intro h0
    obtain ⟨z, hz⟩ := hullSet_nonempty (l := c.points.map pos) (by simpa using hne)
    obtain ⟨w, hw, -⟩ := hx.hullNear c hw z hz
    rw [h0] at hw
    simp [hullSet] at hw
  have hlen : 0 < (lib.convexHull c).points.length := List.length_pos_iff.2 hpos
  unfold hullGeometry
  split
  · exact ⟨_, rfl, rfl⟩
  · split
    · rename_i h2
      refine ⟨_, rfl, ?_⟩
      simp only [shape]
      have h2' : (lib.convexHull c).points.length = 2 := by omega
      obtain ⟨a, b, hab⟩ := List.length_eq_two.1 h2'
      rw [hab]
      have hset : {z | z ∈ [pos a, pos b]} = ({pos a, pos b} : Set ℂ) := by ext z; simp
      have hb : pos b ∈ segment ℝ (pos a) (pos b) := right_mem_segment ℝ _ _
      simp only [List.map_cons, List.map_nil, lineSet, hullSet, hset, convexHull_pair]
      rw [Set.union_eq_self_of_subset_right (by simpa using hb)]
    · rename_i h1 h2
      have h2' : (lib.convexHull c).points.length = 1 := by omega
      obtain ⟨a, ha⟩ := List.length_eq_one_iff.1 h2'
      obtain ⟨p, hp, hpm⟩ := hw'.pt (k := 0) (by omega) (by omega)
      rw [ha, List.mem_singleton] at hpm
      subst hpm
      refine ⟨.point p, by rw [hp]; rfl, ?_⟩
      rw [ha]
      simp [shape, hullSet]

/-- the hulls of pieces can be built and have boxes -/
theorem Blunt.hulls (hx : Blunt σ ε ρ pos inner outer region lib) (ps : List P) : ∀ i j : Int, 0 ≤ i → i < j → j < ps.length →
    ∃ g, hullGeometry (C := C) (lib.convexHull (Coords.sub ps i j)) = .ok g ∧ (lib.bounds g).Valid := by
  intro i j h0 h1 h2
  have hp := points_sub ps h0 h1.le h2
  have hw := wellIndexed_sub (pts := ps) h0 h2
  have hne : (Coords.sub ps i j).points ≠ [] := by rw [hp]; exact between_ne_nil h0 h1.le h2
  obtain ⟨g, hg, hs⟩ := hx.hull_shape hw hne
  obtain ⟨z, hz⟩ := hullSet_nonempty (l := (Coords.sub ps i j).points.map pos) (by simpa using hne)
  obtain ⟨w, hw', -⟩ := hx.hullNear _ hw z hz
  have hn : (shape pos region g).Nonempty := by rw [hs]; exact ⟨w, hw'⟩
  exact ⟨g, hg, valid_of_nonempty (hn.mono ((hx.bounds g hn _).1 (Box.le_refl' _)))⟩

end

section
variable {P C : Type} {pos : P → ℂ} {inner outer region : C → Set ℂ} {env : Env P C EReal ℝ} {pts : Int → List P} {h : Int} {cs : List C} {τ σ ε ρ m : ℝ}

/-- such a library, a queue with tolerance `τ`, a minimum distance `m` and the constraints `cs` of line `h` -/
structure BluntSetting (pos : P → ℂ) (inner outer region : C → Set ℂ) (env : Env P C EReal ℝ) (h : Int) (cs : List C) (τ σ ε ρ m : ℝ) : Prop where
  blunt : Blunt σ ε ρ pos inner outer region env.lib
  heap : env.heap.Legal (within τ)
  tol : 0 ≤ τ ∧ 0 ≤ σ ∧ 0 ≤ ε ∧ τ + σ + 3 * ε + ρ ≤ m
  minDist : (env.inst h).opts.minDist = .fin m
  indexed : Constraints env h cs

theorem Blunt.known (hx : Blunt σ ε ρ pos inner outer region env.lib) {nd : Node P C EReal} (hk : Known env pts [h] nd) :
    ((shape pos region nd.geom).Nonempty ∧ ∀ z ∈ hullSet (places pos (pts h) nd.range.I nd.range.J), ∃ w ∈ shape pos region nd.geom, dist z w ≤ σ) ∧
    shape pos region (.line nd.coords) = lineSet (places pos (pts h) nd.range.I nd.range.J) ∧
    shape pos region (.seg nd.coords) = chordSet (places pos (pts h) nd.range.I nd.range.J) ∧
    places pos (pts h) nd.range.I nd.range.J ≠ [] := by
  obtain ⟨k1, k2, k3, k4, k5⟩ := hk
  have hins : nd.inst = h := by simpa using k1
  rw [hins] at k2 k5
  have hp := points_sub (pts h) k3 k4.le k5
  have hw := wellIndexed_sub (pts := pts h) k3 k5
  have hne : places pos (pts h) nd.range.I nd.range.J ≠ [] := by simpa [places] using between_ne_nil k3 k4.le k5
  obtain ⟨g, hg, hs⟩ := hx.hull_shape hw (by rw [hp]; exact between_ne_nil k3 k4.le k5)
  rw [k2.geom] at hg
  cases hg
  have hn := hx.hullNear _ hw
  rw [← hs, hp] at hn
  refine ⟨⟨?_, hn⟩, ?_, ?_, hne⟩
  · obtain ⟨z, hz⟩ := hullSet_nonempty hne
    obtain ⟨w, hw, -⟩ := hn z hz
    exact ⟨w, hw⟩
  · rw [k2.coords]; simp only [shape, hp, places]
  · rw [k2.coords]; simp only [shape, hp, places]

theorem BluntSetting.left_out (hs : BluntSetting pos inner outer region env h cs τ σ ε ρ m) {nd : Node P C EReal} (hk : Known env pts [h] nd) {g : C}
    (hl : LeftOut env (within (τ + 2 * ε)) h nd (.ctx g)) :
    ∀ z ∈ hullSet (places pos (pts h) nd.range.I nd.range.J), ∀ w ∈ region g, m - τ - 3 * ε - σ < dist z w := by
  obtain ⟨⟨k0, k1⟩, -, -, -⟩ := hs.blunt.known hk
  obtain ⟨d, e, hd⟩ := hs.blunt.distance nd.geom (.ctx g) k0 (hs.blunt.nonempty g)
  simp only [shape.eq_5] at hd
  have hd := abs_le.1 hd
  obtain ⟨t1, t2, t3, t4⟩ := hs.tol
  have key : m - τ - 3 * ε < gap (shape pos region nd.geom) (region g) := by
    rw [LeftOut, e, hs.minDist] at hl
    rcases hl with hl | ⟨x, h1, h2⟩
    · rw [Fl.fin_le_fin, decide_eq_false_iff_not] at hl
      linarith
    · cases x <;> simp_all [within, Fl.le]
      linarith
  intro z hz w hw
  obtain ⟨u, hu, hzu⟩ := k1 z hz
  linarith [gap_le hu hw, dist_triangle_left u w z]

/-- the boxes of index entries are those of constraints -/
theorem BluntSetting.around (hs : BluntSetting pos inner outer region env h cs τ σ ε ρ m) (ts : List (Node P C EReal))
    (ht : ∀ u ∈ ts, u ∈ Hdb.contents (env.inst h).ctxdb) :
    ∃ gs : List C, gs.map Geo.ctx = ts.map Node.geom ∧ ∀ c, (∀ u ∈ ts, (nodeOps (P := P) (C := C) (B := EReal)).mbr u ≤ c) ↔ ∀ g ∈ gs, region g ⊆ boxSet c := by
  induction ts with
  | nil => exact ⟨[], rfl, by simp⟩
  | cons u ts ih =>
    obtain ⟨gs, h1, h2⟩ := ih (fun x hx => ht x (by simp [hx]))
    obtain ⟨g, -, e1, e2⟩ := hs.indexed.mem (ht u (by simp))
    refine ⟨g :: gs, by simp [h1, e1], fun c => ?_⟩
    simp only [List.mem_cons, forall_eq_or_imp, h2]
    have := hs.blunt.bounds (.ctx g) (hs.blunt.nonempty g) c
    rw [← e2] at this
    exact and_congr_left (fun _ => this)

theorem BluntSetting.ctxRough (hs : BluntSetting pos inner outer region env h cs τ σ ε ρ m) : CtxRough env (within τ) (within (τ + 2 * ε)) pts h where
  heap := hs.heap
  refl p := (hs.blunt.equals2D p p).2 rfl
  boxes := hs.blunt.boxes
  reach nd hk := by
    intro c hcm
    obtain ⟨g, -, e1, e2⟩ := hs.indexed.mem hcm
    obtain ⟨⟨hne, -⟩, -, -, -⟩ := hs.blunt.known hk
    obtain ⟨t1, -, t2, t3⟩ := hs.tol
    obtain ⟨d, hd, hd'⟩ := hs.blunt.distance nd.geom (.ctx g) hne (hs.blunt.nonempty g)
    simp only [e1, hd]
    refine ⟨by simp, fun a ha => within_le (by linarith) ha, fun b ts hts hit hb => ?_⟩
    have hsub : shape pos region (.ctx g) ⊆ boxSet b := (hs.blunt.bounds (.ctx g) (hs.blunt.nonempty g) b).1 (e2 ▸ (hb b).1 (Box.le_refl' b) c hts)
    obtain ⟨gs, hgs, hbg⟩ := hs.around ts hit
    obtain ⟨x, hx, hx'⟩ := hs.blunt.boxDistance nd.geom b gs hne (by rintro rfl; cases ts <;> cases hts <;> cases hgs)
      (fun c => (hb c).trans (hbg c))
    rw [hx]
    refine ⟨by simp, fun a ha => ?_⟩
    have h1 := gap_mono (s := shape pos region nd.geom) (fun _ h => h) hsub hne (hs.blunt.nonempty g)
    have h2 := abs_le.1 hd'
    have h3 := abs_le.1 hx'
    cases a <;> simp_all [within, Fl.le]
    linarith
  away nd hk g' hg hl := by
    obtain ⟨g, -, rfl⟩ := List.mem_map.1 ((hs.indexed.geoms.mem_iff).1 hg)
    have hgap := hs.left_out hk hl
    obtain ⟨-, k2, k3, k4⟩ := hs.blunt.known hk
    have ht := hs.tol.2.2.2
    have hfar : ∀ a : Geo P C, shape pos region a ⊆ hullSet (places pos (pts h) nd.range.I nd.range.J) → env.lib.intersects a (.ctx g) = false := by
      intro a ha
      rw [Bool.eq_false_iff, ne_eq]
      intro hn
      obtain ⟨z, hz, hzo⟩ := hs.blunt.only a g hn
      obtain ⟨w, hw, hd⟩ := hs.blunt.near g z hzo
      have := hgap z (ha hz) w hw
      linarith
    refine ⟨hfar _ ?_, hfar _ ?_, fun x hx y hy z hz => hfar _ ?_⟩
    · rw [k3]; exact chordSet_subset_hullSet _
    · rw [k2]; exact lineSet_subset_hullSet _
    · rw [triangle_shape]
      refine hullSet_mono (fun w hw => ?_)
      simp only [List.mem_cons, List.not_mem_nil, or_false] at hw
      rcases hw with rfl | rfl | rfl <;> exact List.mem_map_of_mem (by assumption)

/-- a piece whose computed hull has two corners only is flat -/
theorem BluntSetting.flat (hs : BluntSetting pos inner outer region env h cs τ σ ε ρ m) {c : Coords P} (hw : WellIndexed c) (h2 : (env.lib.convexHull c).len = 2) :
    Flat inner outer cs (τ + 2 * σ + 4 * ε) (c.points.map pos) := by
  obtain ⟨t1, t2, t3, -⟩ := hs.tol
  have hl := (hs.blunt.hullIndexed c hw).length
  have h2' : (env.lib.convexHull c).points.length = 2 := by omega
  obtain ⟨p, q, hpq⟩ := List.length_eq_two.1 h2'
  have hsub := hs.blunt.hullVertices c hw
  have hset : {z | z ∈ [pos p, pos q]} = ({pos p, pos q} : Set ℂ) := by ext z; simp
  have hn := hs.blunt.hullNear c hw
  rw [hpq] at hsub hn
  simp only [List.map_cons, List.map_nil] at hsub hn
  rw [show hullSet [pos p, pos q] = segment ℝ (pos p) (pos q) by rw [hullSet, hset, convexHull_pair]] at hn
  exact ⟨2 * σ, by linarith, hull_near_line (hsub _ (by simp)) (hsub _ (by simp)) hn, fun g _ z hz w hd => hs.blunt.sub g z hz w hd⟩

theorem BluntSetting.judged (hs : BluntSetting pos inner outer region env h cs τ σ ε ρ m) (hi : InstOK env h (pts h)) :
    JudgedUp pos inner outer region env pts h cs (τ + 2 * σ + 4 * ε) (m + ε) := by
  obtain ⟨t1, t2, t3, t4⟩ := hs.tol
  refine ⟨hs.blunt.nonempty, fun g z hz => hs.blunt.sub g z hz z (by rw [dist_self]; linarith), by linarith, fun nd hk hn => ?_⟩
  have hins : nd.inst = h := by simpa using hk.inst
  have hpc := hk.piece
  have hhi := hk.hi
  rw [hins] at hpc hhi
  have hp := points_sub (pts h) hk.lo hk.lt.le hhi
  obtain ⟨-, k2, k3, k4⟩ := hs.blunt.known hk
  refine (hn.respects_rough hi hs.ctxRough hk).imp_right (fun hn => ?_)
  rcases hn with hn | hn
  · left
    have hw := wellIndexed_sub (pts := pts h) hk.lo hhi
    rw [hpc.coords] at hn
    have := hs.flat hw hn
    rwa [hp] at this
  · right
    have hgm : ∀ g ∈ cs, Geo.ctx g ∈ (Hdb.contents (env.inst h).ctxdb).map Node.geom :=
      fun g hg => (hs.indexed.geoms.mem_iff).2 (List.mem_map_of_mem hg)
    refine ⟨fun ho g hg hm => ?_, fun hd g hg => ?_, fun hd x y hx hy => ?_⟩
    · have := hn.geom ho _ (hgm g hg)
      rw [hs.blunt.seen (.seg nd.coords) g (by rw [k3]; exact hm)] at this
      have := hs.blunt.only (.line nd.coords) g this.symm
      rwa [k2] at this
    · have hd := hn.dist hd _ (hgm g hg)
      have hne := hs.blunt.nonempty g
      obtain ⟨x, ex, hx⟩ := hs.blunt.distance (.seg nd.coords) (.ctx g) (by rw [k3]; exact chordSet_nonempty k4) hne
      obtain ⟨y, ey, hy⟩ := hs.blunt.distance (.line nd.coords) (.ctx g) (by rw [k2]; exact lineSet_nonempty k4) hne
      rw [k3] at hx
      rw [k2] at hy
      simp only [shape] at hx hy
      have hx := abs_le.1 hx
      have hy := abs_le.1 hy
      rw [hs.minDist, ex, ey] at hd
      rcases hd with hd | hd | hd
      · rw [Fl.fin_le_fin, decide_eq_true_eq] at hd
        left; linarith
      · right
        have hd : y < m := by simpa [Fl.lt] using hd
        linarith
      · left
        have h1 := hs.left_out hk hd
        obtain ⟨w, hw⟩ := chordSet_nonempty k4
        obtain ⟨w', hw'⟩ := hne
        refine le_csInf ⟨_, w, hw, w', hw', rfl⟩ ?_
        rintro r ⟨z, hz, v, hv, rfl⟩
        linarith [h1 z (chordSet_subset_hullSet _ hz) v hv]
    · obtain ⟨h1, h2⟩ := hn.side hd
      rw [places, List.head?_map] at hx
      rw [places, List.getLast?_map] at hy
      obtain ⟨p, hp1, rfl⟩ := Option.map_eq_some_iff.1 hx
      obtain ⟨q, hq1, rfl⟩ := Option.map_eq_some_iff.1 hy
      refine (h2 p q hp1 hq1).map pos (fun a b c hf => ?_)
      intro z hz g hg hdis hzg
      have hl : env.lib.intersects (.line nd.coords) (.ctx g) = false := by
        rw [Bool.eq_false_iff, ne_eq]
        intro hn
        have := hs.blunt.only _ _ hn
        rw [k2] at this
        exact disjoint_iff_not.1 hdis this
      have := hf _ (hgm g hg) (by rw [h1 _ (hgm g hg)]; exact hl) hl
      rw [hs.blunt.seen _ g (by rw [triangle_shape]; exact ⟨z, hz, hzg⟩)] at this
      cases this

variable {ids : Nat → Int} {cv : List Int} {dirty d : Int → Bool} {fuel : Nat} {out : Out P C EReal}

/-- **C116** for one line: with hulls that miss up to `σ`, distances with errors up to `ε` and tests for common points that may err between the inner and the outer part of a
constraint, the relations of C113 are kept, the distances up to `2 σ` more. -/
theorem C116_line (he : EnvOK env) (hl : LnrOK env.lnr) (hi : InstOK env h (pts h)) (hinj : Function.Injective ids)
    (hcv : ∀ i ∈ cv, 0 ≤ i ∧ i < (pts h).length) (hs : BluntSetting pos inner outer region env h cs τ σ ε ρ m)
    (hr : simplify env ids h cv dirty fuel = .ok (out, d)) :
    BlurredResult pos inner outer region cs (env.inst h).opts (τ + 2 * σ + 4 * ε) (m + ε) (pts h) (verticesAt (pts h) out.simple) := by
  obtain ⟨h1, ⟨g', h2⟩, h3, -⟩ := simplify_result he hl hi hinj hcv hr
  rw [h1]
  exact (hs.judged hi).result hi h2 h3

/-- C116 for the lines of a feature class -/
theorem C116_feature_class {idsOf : Int → Nat → Int} {handles : List Int} {o : Opts ℝ} {res : List (Int × Out P C EReal)}
    (hs : BluntSetting pos inner outer region env h cs τ σ ε ρ m) (hc : ClassOK env pts ids idsOf handles)
    (hr : simplifyFeatureClass env ids idsOf handles o dirty fuel = .ok res) (hm : (h, out) ∈ res) :
    BlurredResult pos inner outer region cs (env.inst h).opts (τ + 2 * σ + 4 * ε) (m + ε) (pts h) (verticesAt (pts h) out.simple) := by
  obtain ⟨h1, js, -, h2⟩ := fc_result hc hr
  have hh : h ∈ handles := by rw [← h1]; exact List.mem_map.2 ⟨_, hm, rfl⟩
  obtain ⟨src, ids', g, hp⟩ := (h2 _ hm).pieces
  have hi := hc.inst h hh
  rw [(h2 _ hm).simple]
  exact (hs.judged hi).result hi hp (h2 _ hm).settled

end

end Planar

section
variable {P C : Type}
open Planar

theorem Engine.respects_blunt {E : Engine P C EReal ℝ} {o : Opts ℝ} {kind : Io.OffsetKind} {ctx : List C} {lines : List (List P)} (h : E.OK o kind lines)
    {pos : P → ℂ} {inner outer region : C → Set ℂ} {τ σ ε ρ m : ℝ} (hx : Blunt σ ε ρ pos inner outer region E.lib) (hh : E.heap.Legal (within τ))
    (hτ : 0 ≤ τ ∧ 0 ≤ σ ∧ 0 ≤ ε ∧ τ + σ + 3 * ε + ρ ≤ m) (hm : o.minDist = .fin m) :
    E.Guarantees o kind ctx lines (BlurredResult pos inner outer region ctx o (τ + 2 * σ + 4 * ε) (m + ε)) := by
  refine h.guarantees _ (fun fs hf hc k l hl hlk hp hmem hi hinj => ?_)
  obtain ⟨e1, -, -, e4⟩ := hf.inst hlk
  have hs : BluntSetting pos inner outer region (E.env o kind fs) k ctx τ σ ε ρ m := by
    refine ⟨hx, hh, hτ, by rw [e1]; exact hm, ?_⟩
    have := e4.map (fun nd : Node P C EReal => (nd.geom, nd.mbr))
    rw [List.map_map] at this
    exact this
  refine ⟨fun dirty fuel out d hr hk => ?_, fun dirty fuel res out hr hm' hk => ?_⟩
  · have := C116_line (pts := fun _ => l) hc.envOK hc.lnrOK hi hinj (by simp) hs hr
    rwa [e1] at this
  · have := C116_feature_class hs hc hr hm'
    simp only [] at hp
    rwa [hp, e1] at this

end

namespace Io

open Verif.Text Verif.Planar

section
variable {P C Props : Type}

/-- **C116** for the saved file -/
theorem C116_program (w : World (Fl ℝ) P Props C) (E : Engine P C EReal ℝ) (b f : Str) {obj : ArgObj (Fl ℝ)} {kind : OffsetKind}
    {docs : List (Doc (Fl ℝ))} {ctx : List C} (hr : Reads w b f obj kind docs ctx) (hord : ∀ l, (w.enc.ord l).Perm l) (hlen : docs.length ≤ maxInt)
    (hd : ∀ d ∈ docs, HasGeometry d ∧ docParts d ≠ [] ∧ ∀ x ∈ docParts d, x.1 ≤ maxInt ∧ (x.2.1 = ['n', 'u', 'l', 'l'] ∨ (w.enc.unmarshal x.2.1).isSome))
    (hE : E.OK (E.opts (optsFromCfg obj)) kind (docs.flatMap (fun d => (docParts d).map (fun x => x.2.2.map E.toPoint))))
    {pos : P → ℂ} {inner outer region : C → Set ℂ} {τ σ ε ρ m : ℝ} (hx : Blunt σ ε ρ pos inner outer region E.lib) (hh : E.heap.Legal (within τ))
    (hτ : 0 ≤ τ ∧ 0 ≤ σ ∧ 0 ≤ ε ∧ τ + σ + 3 * ε + ρ ≤ m) (hm : obj.minDist = .fin m) :
    ∃ out N, (∀ fuel ≥ N, main (program w E fuel) b f = .saved (trim obj.output) (out.map w.marshal)) ∧
      List.Forall₂ (WrittenAs (BlurredResult pos inner outer region ctx (asked (E.mul obj.threshold obj.threshold) obj) (τ + 2 * σ + 4 * ε) (m + ε)) w.enc E.toPoint) docs out :=
  program_lines w E b f hr hord hlen hd hE (Engine.respects_blunt hE hx hh hτ hm)

end

end Io

namespace Planar

/-! ### concrete case: a hull that leaves out corners standing out by 1/20 -/

/-- a segment between two of the points is within 1/20 of the whole hull -/
def Thin (l : List ℂ) : Prop := ∃ x : ℂ × ℂ, x.1 ∈ l ∧ x.2 ∈ l ∧ ∀ z ∈ hullSet l, ∃ w ∈ segment ℝ x.1 x.2, dist z w ≤ 1 / 20

open Classical in
/-- the library of C113, with thin hulls taken for segments -/
noncomputable def bluntLib : Lib ℂ Region EReal ℝ :=
  { blurredLib with convexHull := fun c => if h : Thin c.points then ⟨[h.choose.1, h.choose.2], [0, 1]⟩ else exactLib.convexHull c }

/-- the points within 1/10 of a region -/
def wide (g : Region) : Set ℂ := {z | ∃ w ∈ g.1, dist z w ≤ 1 / 10}

theorem bluntLib_blunt : Blunt (1 / 20) (1 / 20) (1 / 10) id (fun r : Region => r.1) wide (fun r : Region => r.1) bluntLib := by
  have h := blurredLib_blurred
  have hb := h.blunt
  have two : ∀ a b : ℂ, (⟨[a, b], [0, 1]⟩ : Coords ℂ).points = [a, b] := fun _ _ => rfl
  refine ⟨h.nonempty, fun g z hz w hd => ⟨z, hz, by rw [dist_comm]; linarith⟩, fun g z hz => hz, h.seen, fun a g hm => ?_, h.boxes, h.distance, h.boxDistance, h.bounds,
    fun c hc => ?_, fun c hc => ?_, fun c hc => ?_, h.equals2D⟩
  · obtain ⟨z, h1, w, h2, h3⟩ := h.only a g hm
    exact ⟨z, h1, w, h2, h3.trans (by norm_num)⟩
  · simp only [bluntLib]
    split_ifs with ht
    · intro k hk
      simp only [List.mem_cons, List.not_mem_nil, or_false] at hk
      rcases hk with rfl | rfl <;> simp
    · exact exactLib_exact.hullIndexed c hc
  · simp only [bluntLib]
    split_ifs with ht
    · rw [two]
      intro z hz
      simp only [List.map_cons, List.map_nil, id_eq, List.mem_cons, List.not_mem_nil, or_false] at hz
      rw [List.map_id]
      rcases hz with rfl | rfl
      · exact ht.choose_spec.1
      · exact ht.choose_spec.2.1
    · exact hb.hullVertices c hc
  · simp only [bluntLib]
    split_ifs with ht
    · rw [two, List.map_id, List.map_id]
      have hset : {z | z ∈ [ht.choose.1, ht.choose.2]} = ({ht.choose.1, ht.choose.2} : Set ℂ) := by ext z; simp
      have e : hullSet [ht.choose.1, ht.choose.2] = segment ℝ ht.choose.1 ht.choose.2 := by rw [hullSet, hset, convexHull_pair]
      show ∀ z ∈ hullSet c.points, ∃ w ∈ hullSet [ht.choose.1, ht.choose.2], dist z w ≤ 1 / 20
      rw [e]
      exact ht.choose_spec.2.2
    · intro z hz
      obtain ⟨w, h1, h2⟩ := hb.hullNear c hc z hz
      exact ⟨w, h1, h2.trans (by norm_num)⟩

/-- a line with a small step in it -/
noncomputable def step : List ℂ := [0, ⟨1, 1 / 20⟩, 2]

theorem step_thin : Thin step := by
  refine ⟨(0, 2), by simp [step], by simp [step], fun z hz => ?_⟩
  have hsub : hullSet step ⊆ {z | (0 ≤ z.re ∧ z.re ≤ 2) ∧ 0 ≤ z.im ∧ z.im ≤ 1 / 20} := by
    refine convexHull_min (fun z hz => ?_) ?_
    · simp only [step, List.mem_cons, List.not_mem_nil, or_false, Set.mem_ofPred_eq] at hz ⊢
      rcases hz with rfl | rfl | rfl <;> norm_num
    · rintro x ⟨⟨x1, x2⟩, x3, x4⟩ y ⟨⟨y1, y2⟩, y3, y4⟩ a b ha hb hab
      simp only [Set.mem_ofPred_eq, Complex.add_re, Complex.add_im, Complex.real_smul, Complex.re_ofReal_mul, Complex.im_ofReal_mul]
      have e : a = 1 - b := by linarith
      subst e
      exact ⟨⟨by nlinarith, by nlinarith⟩, by nlinarith, by nlinarith⟩
  obtain ⟨⟨h1, h2⟩, h3, h4⟩ := hsub hz
  refine ⟨(z.re : ℂ), ?_, ?_⟩
  · rw [segment_eq_image']
    refine ⟨z.re / 2, ⟨by linarith, by linarith⟩, ?_⟩
    apply Complex.ext <;> simp
  · rw [Complex.dist_of_re_eq (by simp), Complex.ofReal_im, Real.dist_eq, sub_zero, abs_of_nonneg h3]
    exact h4

noncomputable def bluntEnv (lines : Int → Demo.Line ℂ Region ℝ) : Env ℂ Region EReal ℝ :=
  Demo.env bluntLib exactLnr (fun a b p => .fin (gap {p} (segment ℝ a b))) (.fin 0) lines

/-- the hull computed for the step is a segment, and it is simplified without touching the two half planes -/
example : (bluntLib.convexHull (coordsOf step)).len = 2 ∧ ∃ fuel out d,
    simplify (bluntEnv (fun _ => ⟨step, [above, below], peakOpts⟩)) (fun n => n) 0 [] (fun _ => false) fuel = .ok (out, d) ∧
    BlurredResult id (fun r : Region => r.1) wide (fun r : Region => r.1) [above, below] peakOpts (3 / 10) (11 / 20) step (verticesAt step out.simple) := by
  have ht : Thin (coordsOf step).points := by rw [coordsOf_points]; exact step_thin
  refine ⟨by simp only [bluntLib]; rw [dif_pos ht]; rfl, ?_⟩
  have he : EnvOK (bluntEnv (fun _ => ⟨step, [above, below], peakOpts⟩)) := Demo.env_ok exactLib_point
  have hl : LnrOK (bluntEnv (fun _ => ⟨step, [above, below], peakOpts⟩)).lnr := exactLnr_ok (lines := fun _ => peakLine)
  have hi : InstOK (bluntEnv (fun _ => ⟨step, [above, below], peakOpts⟩)) 0 ((fun _ => step) (0 : Int)) :=
    Demo.inst_ok (lines := fun _ => ⟨step, [above, below], peakOpts⟩) (by simp [step]) (fun a b p => by simp [Fl.fin_le_fin, gap_nonneg])
      (by simp [peakOpts, Fl.fin_le_fin]) (bluntLib_blunt.hulls _)
  have hinj : Function.Injective (fun n : Nat => (n : Int)) := fun a b h => by simpa using h
  have hs : BluntSetting id (fun r : Region => r.1) wide (fun r : Region => r.1) (bluntEnv (fun _ => ⟨step, [above, below], peakOpts⟩)) 0 [above, below] 0 (1 / 20) (1 / 20)
      (1 / 10) (1 / 2) := by
    refine ⟨bluntLib_blunt, (exactSetting (lines := fun _ => peakLine) (h := 0) (m := 1 / 2) (by norm_num) rfl).heap, by norm_num, rfl, ?_⟩
    have := (Demo.ctxdb_spec bluntLib 0 [above, below]).2.map (fun nd : Node ℂ Region EReal => (nd.geom, nd.mbr))
    rw [List.map_map] at this
    exact this
  obtain ⟨⟨out, d⟩, N, hy⟩ := C10_terminates (pts := fun _ => step) (cv := []) he hl hi hinj (by simp) (fun _ => false)
  have := C116_line (pts := fun _ => step) he hl hi hinj (by simp) hs (hy N le_rfl)
  norm_num at this
  exact ⟨N, out, d, hy N le_rfl, this⟩

end Planar
end Verif
