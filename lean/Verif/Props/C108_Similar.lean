import Verif.Lemmas.PlanarMove
import Verif.Props.C107_FullSpec
import Verif.Props.C76_Crossings
import Verif.Props.C73_Deformation

/-! C108: moving, turning, mirroring or scaling the line together with its constraints does not change which vertices are kept. -/

set_option linter.unusedSectionVars false

namespace Verif
namespace Planar

section
variable {P C : Type} {pos : P → ℂ} {region : C → Set ℂ} {env : Env P C EReal ℝ} {pts : Int → List P} {h : Int} {cs : List C} {t m : ℝ}

/-- One run in exact plane geometry: the constraints `cs`, the minimum distance `m`, an exact queue, and scores that compare as the distances from the chord do
(the distance itself, its square, …) with the threshold `t`. -/
structure ExactRun (pos : P → ℂ) (region : C → Set ℂ) (env : Env P C EReal ℝ) (h : Int) (cs : List C) (t m : ℝ) : Prop where
  exact : Exact pos region env.lib
  lnr : ExactLnr pos env.lnr
  heap : env.heap.Legal Hdb.nearLe
  eps : ∃ e : ℝ, 0 ≤ e ∧ env.eps = .fin e
  minDist : (env.inst h).opts.minDist = .fin m ∧ 0 ≤ m
  indexed : Constraints env h cs
  score : ∃ w : ℝ → ℝ, w 0 = 0 ∧ (∀ x y, 0 ≤ x → 0 ≤ y → (w x ≤ w y ↔ x ≤ y)) ∧ (∀ x, 0 ≤ x → ((env.inst h).rel (.fin (w x)) = true ↔ x ≤ t)) ∧
    (env.inst h).scoreFn = maxOffset (fun a b p => .fin (w (gap {pos p} (segment ℝ (pos a) (pos b)))))

theorem ExactRun.within (hr : ExactRun pos region env h cs t m) : env.heap.Legal (within 0) :=
  ⟨hr.heap.push, hr.heap.pop_none, hr.heap.pop_perm, fun q x r h1 h2 y hy => within_zero (hr.heap.pop_min q x r h1 h2 y hy)⟩

theorem ExactRun.setting (hr : ExactRun pos region env h cs t m) : Setting pos region env h cs 0 m :=
  ⟨hr.exact, hr.within, ⟨le_rfl, hr.minDist.2⟩, hr.minDist.1, hr.indexed⟩

theorem ExactRun.touching (hr : ExactRun pos region env h cs t m) : Touching env pts h := by
  obtain ⟨e, h0, he⟩ := hr.eps
  exact hr.exact.touching he h0

theorem ExactRun.splittable (hr : ExactRun pos region env h cs t m) (hi : InstOK env h (pts h)) {cv : List Int} (hcv : ∀ i ∈ cv, 0 ≤ i ∧ i < (pts h).length) :
    Splittable env pts h cv := by
  obtain ⟨e, h0, he⟩ := hr.eps
  exact (hr.exact.hullNear hr.lnr hr.within le_rfl h0 he).splittable hi hcv

/-- the vertices of a piece -/
theorem known_points {nd : Node P C EReal} (hk : Known env pts [h] nd) : nd.coords.points = between (pts h) nd.range.I nd.range.J ∧ WellIndexed nd.coords := by
  have hins : nd.inst = h := by simpa using hk.inst
  have hpc := hk.piece
  have hhi := hk.hi
  rw [hins] at hpc hhi
  rw [hpc.coords]
  exact ⟨points_sub (pts h) hk.lo hk.lt.le hhi, wellIndexed_sub hk.lo hhi⟩

/-- the verdict on a piece: the requested relations to all constraints -/
theorem ExactRun.verdict (hr : ExactRun pos region env h cs t m) (hi : InstOK env h (pts h)) {nd : Node P C EReal} (hk : Known env pts [h] nd) :
    ∃ b, Yields (validateContextRelation env nd (env.inst h)) b ∧ (b = true ↔
      ((env.inst h).opts.geomRelation = true → ∀ g ∈ cs, (chordSet (places pos (pts h) nd.range.I nd.range.J) ∩ region g).Nonempty ↔
        (lineSet (places pos (pts h) nd.range.I nd.range.J) ∩ region g).Nonempty) ∧
      ((env.inst h).opts.distRelation = true → ∀ g ∈ cs, m ≤ gap (chordSet (places pos (pts h) nd.range.I nd.range.J)) (region g) ∨
        gap (lineSet (places pos (pts h) nd.range.I nd.range.J)) (region g) < m) ∧
      ((env.inst h).opts.dirRelation = true → Yields (isDirRelateValid env.lib nd (cs.map Geo.ctx)) true)) := by
  have hcs := hr.setting.ctxSound (pts := pts)
  obtain ⟨k1, k2, k3, k4, -⟩ := hr.exact.known hk
  obtain ⟨p1, p2⟩ := known_points hk
  have hins : nd.inst = h := by simpa using hk.inst
  have hhi := hk.hi
  have hlo := hk.lo
  have hlt := hk.lt
  rw [hins] at hhi
  have hlen := p2.length
  have hpl : nd.coords.points.length = (nd.range.J + 1 - nd.range.I).toNat := by
    rw [p1, between, List.length_take, List.length_drop]; omega
  have hmem : ∀ g, g ∈ (Hdb.contents (env.inst h).ctxdb).map Node.geom ↔ g ∈ cs.map Geo.ctx := fun g => hr.indexed.geoms.mem_iff
  obtain ⟨b, hb, hbt⟩ := C32_validate env hr.heap (env.inst h) hi.ctx nd (ps := nd.coords.points) (by simpa [p1] using hcs.hull nd hk) (hcs.bound nd hk) hlen (by omega)
    (fun k hk => p2.pt_get hk) hr.exact.eqLike_refl hcs.minDist
  refine ⟨b, hb, hbt.trans ?_⟩
  refine and_congr (imp_congr_right fun _ => ?_) (and_congr (imp_congr_right fun _ => ?_) (imp_congr_right fun _ => ?_))
  · rw [C26_geom_iff]
    simp only [hmem, List.mem_map, forall_exists_index, and_imp, forall_apply_eq_imp_iff₂]
    refine forall₂_congr fun g _ => ?_
    rw [Bool.eq_iff_iff, hr.exact.intersects, hr.exact.intersects, k2, k3]
    rfl
  · rw [C27_dist_iff]
    simp only [hmem, List.mem_map, forall_exists_index, and_imp, forall_apply_eq_imp_iff₂]
    refine forall₂_congr fun g _ => ?_
    have hne := hr.exact.nonempty g
    rw [hr.minDist.1, hr.exact.distance (.seg nd.coords) (.ctx g) (by rw [k3]; exact chordSet_nonempty k4) hne,
      hr.exact.distance (.line nd.coords) (.ctx g) (by rw [k2]; exact lineSet_nonempty k4) hne, k2, k3]
    exact or_congr decide_eq_true_iff decide_eq_true_iff
  · have : ∀ fuel, isDirRelateValid env.lib nd ((Hdb.contents (env.inst h).ctxdb).map Node.geom) fuel = isDirRelateValid env.lib nd (cs.map Geo.ctx) fuel := by
      intro fuel
      refine Homotopy.homotopy_pair hlen (fun k hk => p2.pt_get hk) hlen (fun k hk => p2.pt_get hk) hr.exact.boxSound hr.exact.boxSound rfl (by omega) ?_ ?_ ?_ fuel
      · intro i j p q p' q' a b c d
        rw [a] at c; rw [b] at d; cases c; cases d; rfl
      all_goals
        intro g hg
        refine ⟨g, by first | exact (hmem g).1 hg | exact (hmem g).2 hg, rfl, rfl, ?_⟩
        intro i j k x y z x' y' z' a b c a' b' c'
        rw [a] at a'; rw [b] at b'; rw [c] at c'
        cases a'; cases b'; cases c'; rfl
    rw [funext this]

end

section
variable {P C P' C' : Type} {pos : P → ℂ} {region : C → Set ℂ} {env : Env P C EReal ℝ} {pts : Int → List P} {h : Int} {cs : List C} {t m : ℝ}
variable {pos' : P' → ℂ} {region' : C' → Set ℂ} {env' : Env P' C' EReal ℝ} {pts' : Int → List P'} {h' : Int} {cs' : List C'} {f : ℂ →ᵃ[ℝ] ℂ} {r : ℝ}

/-- The second line with its constraints is the image of the first under `f`, vertex by vertex, constraint by constraint. -/
structure Moved (f : ℂ →ᵃ[ℝ] ℂ) (pos : P → ℂ) (region : C → Set ℂ) (ps : List P) (cs : List C) (pos' : P' → ℂ) (region' : C' → Set ℂ) (ps' : List P') (cs' : List C') :
    Prop where
  line : ps'.map pos' = (ps.map pos).map f
  image : ∀ g ∈ cs, ∃ g' ∈ cs', region' g' = f '' region g
  back : ∀ g' ∈ cs', ∃ g ∈ cs, region' g' = f '' region g

theorem Moved.length {ps : List P} {ps' : List P'} (hm : Moved f pos region ps cs pos' region' ps' cs') : ps.length = ps'.length := by
  have := congrArg List.length hm.line
  simpa using this.symm

theorem Moved.places {ps : List P} {ps' : List P'} (hm : Moved f pos region ps cs pos' region' ps' cs') (i j : Int) :
    places pos' ps' i j = (places pos ps i j).map f := by
  simp only [Planar.places, between, List.map_take, List.map_drop, hm.line]

theorem Moved.get {ps : List P} {ps' : List P'} (hm : Moved f pos region ps cs pos' region' ps' cs') {k : Nat} {p : P} {p' : P'} (h1 : ps[k]? = some p)
    (h2 : ps'[k]? = some p') : pos' p' = f (pos p) := by
  have := congrArg (fun l => l[k]?) hm.line
  simpa [h1, h2] using this

theorem Moved.getBetween {ps : List P} {ps' : List P'} (hm : Moved f pos region ps cs pos' region' ps' cs') {i j : Int} {k : Nat} {p : P} {p' : P'}
    (h1 : (between ps i j)[k]? = some p) (h2 : (between ps' i j)[k]? = some p') : pos' p' = f (pos p) := by
  have := congrArg (fun l => l[k]?) (hm.places i j)
  simpa [Planar.places, h1, h2] using this

/-- pieces with the same range get the same verdict -/
theorem Moved.verdict (hm : Moved f pos region (pts h) cs pos' region' (pts' h') cs') (hf : Scales f r)
    (hr : ExactRun pos region env h cs t m) (hi : InstOK env h (pts h)) (hr' : ExactRun pos' region' env' h' cs' (r * t) (r * m)) (hi' : InstOK env' h' (pts' h'))
    (hg : (env'.inst h').opts.geomRelation = (env.inst h).opts.geomRelation) (hd : (env'.inst h').opts.distRelation = (env.inst h).opts.distRelation)
    (hs : (env'.inst h').opts.dirRelation = (env.inst h).opts.dirRelation) {nd : Node P C EReal} (hk : Known env pts [h] nd) {nd' : Node P' C' EReal}
    (hk' : Known env' pts' [h'] nd') (hrng : nd'.range = nd.range) (b : Bool) :
    Yields (validateContextRelation env nd (env.inst h)) b ↔ Yields (validateContextRelation env' nd' (env'.inst h')) b := by
  obtain ⟨x, hx, hxt⟩ := hr.verdict hi hk
  obtain ⟨y, hy, hyt⟩ := hr'.verdict hi' hk'
  obtain ⟨p1, p2⟩ := known_points hk
  obtain ⟨p1', p2'⟩ := known_points hk'
  have hpl : ∀ i j, Planar.places pos' (pts' h') i j = (Planar.places pos (pts h) i j).map f := hm.places
  have hpos : nd.coords.points ≠ [] := by
    obtain ⟨-, -, -, k4, -⟩ := hr.exact.known hk
    rw [p1]; simpa [Planar.places] using k4
  have hlenE : nd.coords.points.length = nd'.coords.points.length := by
    have := congrArg List.length (hpl nd.range.I nd.range.J)
    rw [p1, p1', hrng]
    simpa [Planar.places] using this.symm
  have hdir : ∀ fuel, isDirRelateValid env.lib nd (cs.map Geo.ctx) fuel = isDirRelateValid env'.lib nd' (cs'.map Geo.ctx) fuel := by
    intro fuel
    obtain ⟨-, k2, k3, -, -⟩ := hr.exact.known hk
    obtain ⟨-, k2', k3', -, -⟩ := hr'.exact.known hk'
    have hget : ∀ {k : Nat} {p : P} {p' : P'}, nd.coords.points[k]? = some p → nd'.coords.points[k]? = some p' → pos' p' = f (pos p) := by
      intro k p p' a b
      rw [p1] at a
      rw [p1', hrng] at b
      exact hm.getBetween a b
    have hans : ∀ (g : C) (g' : C'), region' g' = f '' region g → Homotopy.AnswersAlike env.lib nd.coords nd.coords.points env'.lib nd'.coords nd'.coords.points (.ctx g) (.ctx g') := by
      intro g g' e
      refine ⟨?_, ?_, ?_⟩
      · rw [Bool.eq_iff_iff, hr.exact.intersects, hr'.exact.intersects, k3, k3', hrng, hpl, chordSet_map]
        simp only [shape, e, hf.meet]
      · rw [Bool.eq_iff_iff, hr.exact.intersects, hr'.exact.intersects, k2, k2', hrng, hpl, lineSet_map]
        simp only [shape, e, hf.meet]
      · intro i j k a b c a' b' c' ha hb hc ha' hb' hc'
        rw [Bool.eq_iff_iff, hr.exact.intersects, hr'.exact.intersects, triangle_shape, triangle_shape, hget ha ha', hget hb hb', hget hc hc']
        have := hullSet_map f [pos a, pos b, pos c]
        simp only [List.map_cons, List.map_nil] at this
        simp only [shape, e, this, hf.meet]
    refine Homotopy.homotopy_pair p2.length (fun k hk => p2.pt_get hk) p2'.length (fun k hk => p2'.pt_get hk) hr.exact.boxSound hr'.exact.boxSound hlenE
      (List.length_pos_iff.2 hpos) ?_ ?_ ?_ fuel
    · intro i j p q p' q' a b c d
      rw [Bool.eq_iff_iff, hr.exact.equals2D, hr'.exact.equals2D, hget a c, hget b d]
      exact hf.injective.eq_iff.symm
    · intro g0 hg0
      obtain ⟨g, hg, rfl⟩ := List.mem_map.1 hg0
      obtain ⟨g', hg', e⟩ := hm.image g hg
      exact ⟨.ctx g', List.mem_map_of_mem hg', hans g g' e⟩
    · intro g0 hg0
      obtain ⟨g', hg', rfl⟩ := List.mem_map.1 hg0
      obtain ⟨g, hg, e⟩ := hm.back g' hg'
      exact ⟨.ctx g, List.mem_map_of_mem hg, hans g g' e⟩
  have hxy : x = true ↔ y = true := by
    rw [hxt, hyt, hg, hd, hs, hrng, hpl, chordSet_map, lineSet_map, ← funext hdir]
    refine and_congr (imp_congr_right fun _ => ?_) (and_congr (imp_congr_right fun _ => ?_) Iff.rfl)
    · constructor
      · intro H g' hg'
        obtain ⟨g, hg, e⟩ := hm.back g' hg'
        rw [e, hf.meet, hf.meet]; exact H g hg
      · intro H g hg
        obtain ⟨g', hg', e⟩ := hm.image g hg
        have := H g' hg'
        rwa [e, hf.meet, hf.meet] at this
    · have key : ∀ a : ℝ, (r * m ≤ r * a ↔ m ≤ a) ∧ (r * a < r * m ↔ a < m) := fun a => ⟨mul_le_mul_iff_right₀ hf.1, mul_lt_mul_iff_right₀ hf.1⟩
      constructor
      · intro H g' hg'
        obtain ⟨g, hg, e⟩ := hm.back g' hg'
        rw [e, hf.gap, hf.gap, (key _).1, (key _).2]; exact H g hg
      · intro H g hg
        obtain ⟨g', hg', e⟩ := hm.image g hg
        have := H g' hg'
        rwa [e, hf.gap, hf.gap, (key _).1, (key _).2] at this
  have hxy' : x = y := by cases x <;> cases y <;> simp_all
  exact ⟨fun hb => by rw [hb.unique hx, hxy']; exact hy, fun hb => by rw [hb.unique hy, ← hxy']; exact hx⟩


/-- hulls are lines alike -/
theorem Moved.isLine (hm : Moved f pos region (pts h) cs pos' region' (pts' h') cs') (hf : Scales f r) (he : Exact pos region env.lib) (he' : Exact pos' region' env'.lib)
    {nd : Node P C EReal} (hk : Known env pts [h] nd) {nd' : Node P' C' EReal} (hk' : Known env' pts' [h'] nd') (hrng : nd'.range = nd.range) :
    nd.geom.isLineString = nd'.geom.isLineString := by
  have key : ∀ {P C : Type} {c : Coords P} {g : Geo P C}, hullGeometry c = .ok g → (g.isLineString = true ↔ c.len = 2) := by
    intro P C c g hg
    unfold hullGeometry at hg
    split at hg
    · cases hg; simp only [Geo.isLineString, Bool.false_eq_true, false_iff]; omega
    · split at hg
      · cases hg; simpa [Geo.isLineString]
      · obtain ⟨p, -, hp⟩ := Res.bind_eq_ok.1 hg
        cases hp
        simp only [Geo.isLineString, Bool.false_eq_true, false_iff]; assumption
  obtain ⟨p1, p2⟩ := known_points hk
  obtain ⟨p1', p2'⟩ := known_points hk'
  have hg := hk.piece.geom
  have hg' := hk'.piece.geom
  rw [← hk.piece.coords] at hg
  rw [← hk'.piece.coords] at hg'
  rw [Bool.eq_iff_iff, key hg, key hg', (he.hullIndexed _ p2).length, (he'.hullIndexed _ p2').length]
  have e1 := he.hullCorners _ p2
  have e2 := he'.hullCorners _ p2'
  have n1 := he.hullOnce _ p2
  have n2 := he'.hullOnce _ p2'
  have hpl : nd'.coords.points.map pos' = (nd.coords.points.map pos).map f := by
    rw [p1, p1', hrng]; exact hm.places _ _
  rw [hpl, hullSet_map, extremePoints_image hf.injective, ← e1] at e2
  have hperm : ((env'.lib.convexHull nd'.coords).points.map pos').Perm (((env.lib.convexHull nd.coords).points.map pos).map f) := by
    refine (List.perm_ext_iff_of_nodup n2 (n1.map hf.injective)).2 (fun z => ?_)
    have := Set.ext_iff.1 e2 z
    simpa using this
  have := hperm.length_eq
  simp only [List.length_map] at this
  omega

/-- the search for the farthest vertex finds the same vertex -/
theorem maxLoop_pair {dist dist' : Int → Res (Fl ℝ)} {w w' : ℝ → ℝ} (hw : ∀ x y, 0 ≤ x → 0 ≤ y → (w x ≤ w y ↔ x ≤ y)) (hw' : ∀ x y, 0 ≤ x → 0 ≤ y → (w' x ≤ w' y ↔ x ≤ y))
    (hr : 0 < r) : ∀ (todo : Nat) (k : Int) (_ : ∀ i : Int, k ≤ i → i < k + todo → ∃ x, 0 ≤ x ∧ dist i = .ok (.fin (w x)) ∧ dist' i = .ok (.fin (w' (r * x)))) (idx : Int) (x : ℝ), 0 ≤ x →
    ∃ a y, 0 ≤ y ∧ maxLoop dist todo k idx (.fin (w x)) = .ok (a, .fin (w y)) ∧ maxLoop dist' todo k idx (.fin (w' (r * x))) = .ok (a, .fin (w' (r * y))) := by
  intro todo
  induction todo with
  | zero => intro k _ idx x hx; exact ⟨idx, x, hx, rfl, rfl⟩
  | succ n ih =>
    intro k hd idx x hx
    obtain ⟨z, hz, d1, d2⟩ := hd k (Int.le_refl _) (by omega)
    have hc : (Fl.fin (w z)).ge (.fin (w x)) = (Fl.fin (w' (r * z))).ge (.fin (w' (r * x))) := by
      simp only [Fl.ge, Fl.le]
      rw [decide_eq_decide, hw x z hx hz, hw' _ _ (mul_nonneg hr.le hx) (mul_nonneg hr.le hz), mul_le_mul_iff_right₀ hr]
    have hd' : ∀ i : Int, k + 1 ≤ i → i < k + 1 + n → ∃ x, 0 ≤ x ∧ dist i = .ok (.fin (w x)) ∧ dist' i = .ok (.fin (w' (r * x))) :=
      fun i h1 h2 => hd i (by omega) (by omega)
    simp only [maxLoop, d1, d2, Res.ok_bind, hc]
    split
    · exact ih (k + 1) hd' k z hz
    · exact ih (k + 1) hd' idx x hx

/-- scores point to the same vertex and compare alike with the thresholds -/
theorem Moved.score (hm : Moved f pos region (pts h) cs pos' region' (pts' h') cs') (hf : Scales f r) (hr : ExactRun pos region env h cs t m)
    (hr' : ExactRun pos' region' env' h' cs' (r * t) (r * m)) {i j : Int} (h0 : 0 ≤ i) (h1 : i < j) (h2 : j < (pts h).length) :
    ∃ k v v', (env.inst h).scoreFn (Coords.sub (pts h) i j) = .ok (k, v) ∧ (env'.inst h').scoreFn (Coords.sub (pts' h') i j) = .ok (k, v') ∧
      (env.inst h).rel v = (env'.inst h').rel v' := by
  obtain ⟨w, w0, hw, hrel, hsc⟩ := hr.score
  obtain ⟨w', w0', hw', hrel', hsc'⟩ := hr'.score
  have hlen := hm.length
  have p1 := points_sub (pts h) h0 h1.le h2
  have p2 := wellIndexed_sub (pts := pts h) h0 h2
  have p1' := points_sub (pts' h') h0 h1.le (by omega)
  have p2' := wellIndexed_sub (pts := pts' h') (i := i) (j := j) h0 (by omega)
  have l1 : (Coords.sub (pts h) i j).len = j - i + 1 := by
    rw [p2.length, p1, between, List.length_take, List.length_drop]; omega
  have l2 : (Coords.sub (pts' h') i j).len = j - i + 1 := by
    rw [p2'.length, p1', between, List.length_take, List.length_drop]; omega
  have hget : ∀ k : Int, 0 ≤ k → k ≤ j - i → ∃ p p', (Coords.sub (pts h) i j).pt k = .ok p ∧ (Coords.sub (pts' h') i j).pt k = .ok p' ∧ pos' p' = f (pos p) := by
    intro k k0 k1
    obtain ⟨n, rfl⟩ := Int.eq_ofNat_of_zero_le k0
    have a1 : n < (Coords.sub (pts h) i j).points.length := by have := p2.length; omega
    have a2 : n < (Coords.sub (pts' h') i j).points.length := by have := p2'.length; omega
    refine ⟨_, _, p2.pt_get a1, p2'.pt_get a2, hm.getBetween (i := i) (j := j) (k := n) ?_ ?_⟩
    · rw [← p1]; exact List.getElem?_eq_getElem a1
    · rw [← p1']; exact List.getElem?_eq_getElem a2
  have hres : ∀ y, 0 ≤ y → (env.inst h).rel (.fin (w y)) = (env'.inst h').rel (.fin (w' (r * y))) := by
    intro y hy
    rw [Bool.eq_iff_iff, hrel y hy, hrel' _ (mul_nonneg hf.1.le hy), mul_le_mul_iff_right₀ hf.1]
  rw [hsc, hsc']
  by_cases hn : j - i + 1 - 1 ≤ 1
  · refine ⟨j - i + 1 - 1, .fin 0, .fin 0, ?_, ?_, ?_⟩
    · simp only [maxOffset, l1, if_pos hn]; rfl
    · simp only [maxOffset, l2, if_pos hn]; rfl
    · have := hres 0 le_rfl
      rwa [mul_zero, w0, w0'] at this
  · obtain ⟨a, a', a1, a2, a3⟩ := hget 0 (Int.le_refl _) (by omega)
    obtain ⟨b, b', b1, b2, b3⟩ := hget (j - i + 1 - 1) (by omega) (by omega)
    obtain ⟨k, y, hy, e1, e2⟩ := maxLoop_pair (r := r)
      (dist := fun k => do return Fl.fin (w (gap {pos (← (Coords.sub (pts h) i j).pt k)} (segment ℝ (pos a) (pos b)))))
      (dist' := fun k => do return Fl.fin (w' (gap {pos' (← (Coords.sub (pts' h') i j).pt k)} (segment ℝ (pos' a') (pos' b'))))) hw hw' hf.1 (j - i + 1 - 1 - 1).toNat 1
      (fun k k0 k1 => by
        obtain ⟨p, p', q1, q2, q3⟩ := hget k (by omega) (by omega)
        have hgap : gap {pos' p'} (segment ℝ (pos' a') (pos' b')) = r * gap {pos p} (segment ℝ (pos a) (pos b)) := by
          rw [q3, a3, b3, ← image_segment, ← hf.gap, Set.image_singleton]
        refine ⟨gap {pos p} (segment ℝ (pos a) (pos b)), gap_nonneg _ _, ?_, ?_⟩
        · simp only [q1, Res.ok_bind]; rfl
        · simp only [q2, Res.ok_bind, hgap]; rfl) (j - i + 1 - 1) 0 le_rfl
    refine ⟨k, .fin (w y), .fin (w' (r * y)), ?_, ?_, hres y hy⟩
    · rw [w0] at e1
      simp only [maxOffset, l1, if_neg hn, a1, b1, Res.ok_bind]
      exact e1
    · rw [mul_zero, w0'] at e2
      simp only [maxOffset, l2, if_neg hn, a2, b2, Res.ok_bind]
      exact e2

/-- a piece for a range -/
theorem known_of_range (hi : InstOK env h (pts h)) {i j : Int} (h0 : 0 ≤ i) (h1 : i < j) (h2 : j < (pts h).length) :
    ∃ nd : Node P C EReal, Known env pts [h] nd ∧ IsPiece env.lib (pts h) h nd ∧ nd.range = ⟨i, j⟩ := by
  obtain ⟨g, hg⟩ := hi.hull i j h0 h1 h2
  have : IsPiece env.lib (pts h) h ⟨0, Coords.sub (pts h) i j, ⟨i, j⟩, env.lib.bounds g, g, h⟩ := ⟨rfl, hg, rfl, rfl⟩
  exact ⟨_, ⟨by simp, this, h0, h1, h2⟩, this, rfl⟩

theorem known_of_piece {nd : Node P C EReal} (hp : IsPiece env.lib (pts h) h nd) {i j : Int} (hr : nd.range = ⟨i, j⟩) (h0 : 0 ≤ i) (h1 : i < j) (h2 : j < (pts h).length) :
    Known env pts [h] nd := by
  have hn := hp.inst
  refine ⟨by simp [hn], by rw [hn]; exact hp, by rw [hr]; exact h0, by rw [hr]; exact h1, by rw [hr, hn]; exact h2⟩

/-- the vertices fixed by self-intersections, in terms of places -/
theorem fixed_places (he : ∀ p q, env.lib.equals2D p q = true ↔ pos p = pos q) (hl : ExactLnr pos env.lnr) (hi : InstOK env h (pts h)) {cv : List Int} {v : Int} : FixedVertex env h cv v ↔
    (env.inst h).opts.planarSelf = true ∧ (v ∈ cv ∨ ∃ k : Nat, v = k ∧ (Revisited pos (pts h) k ∨ ((env.inst h).opts.nonPlanarSelf = true ∧ Crossed pos (pts h) k))) := by
  refine and_congr_right fun hpl => or_congr_right ?_
  obtain ⟨ip, top, e1, ht, h3, -, h5⟩ := C23_planar_partial (hl.sorts he) hi.two
  obtain ⟨pairs, e2, -, hpairs⟩ := C25_nonplanar (lnr := env.lnr) hl.search hi.two
  have hself : selfIntersection env.lib env.lnr (env.inst h).pln (env.inst h).opts.planarSelf (env.inst h).opts.nonPlanarSelf =
      .ok (ip ++ if (env.inst h).opts.nonPlanarSelf = true then pairs.flatMap (segReports env.lnr (pts h)) else []) := by
    rw [hi.pln, hpl]
    simp only [selfIntersection, if_true, e1, Res.ok_bind]
    cases (env.inst h).opts.nonPlanarSelf with
    | true => simp only [if_true, e2, Res.ok_bind]; rfl
    | false => simp only [Bool.false_eq_true, if_false]; rfl
  have htop : ∀ r ∈ pts h, LexLe (pos r) (pos top.pt) := by
    intro r hrm
    obtain ⟨i, hi', hri⟩ := List.mem_iff_getElem.1 hrm
    exact hl.top ht (v := ⟨r, i, nullFId⟩) (mem_lineVertices.2 ⟨i, by rw [List.getElem?_eq_getElem hi', hri], rfl, rfl⟩)
  have htm : top.pt ∈ pts h := by
    obtain ⟨k, hk, -⟩ := mem_lineVertices.1 ((hl.perm _).mem_iff.1 (List.mem_of_getLast? ht))
    exact List.mem_of_getElem? hk
  rw [hself]
  constructor
  · rintro ⟨inters, e, i, hi', hv⟩
    cases e
    rcases List.mem_append.1 hi' with hip | hin
    · obtain ⟨k1, k2, k3, k4, -, k6⟩ := h3 i hip
      simp only [Inter.splitIdxs, k1, if_true] at hv
      obtain ⟨k, q, rfl, hq, heq⟩ := (k6 v).1 hv
      refine ⟨k, rfl, .inl ?_⟩
      obtain ⟨u, hu, huk⟩ : ∃ u ∈ i.planar, u ≠ (k : Int) := by
        by_contra hc
        push Not at hc
        match hpl : i.planar, k3 with
        | a :: b :: l, _ =>
          rw [hpl] at hc k2
          have ha := hc a (by simp)
          have hb := hc b (by simp)
          have := (List.pairwise_cons.1 k2).1 b (by simp)
          omega
      obtain ⟨l, q', rfl, hq', heq'⟩ := (k6 u).1 hu
      have p1 := (he _ _).1 heq
      have p2 := (he _ _).1 heq'
      refine ⟨l, q, q', top.pt, fun hkl => huk (by rw [hkl]), hq, hq', by rw [← p1, ← p2], htm, fun hle => ?_⟩
      have := lexLe_antisymm (htop q (List.mem_of_getElem? hq)) hle
      rw [← p1] at this
      rw [(he _ _).2 this] at k4
      cases k4
    · split at hin
      · rename_i hnp
        obtain ⟨⟨a, b⟩, hab, hrep⟩ := List.mem_flatMap.1 hin
        obtain ⟨k1, -, k3⟩ := C25_ends env.lnr (pts h) a b i hrep
        simp only [Inter.splitIdxs, k1, reduceCtorEq, if_false, if_true] at hv
        have hv' := (k3 v).1 hv
        have hab' := (hpairs a b).1 hab
        obtain ⟨hlt, s, s', hs, hs', -⟩ := hab'
        simp only [segReports, hs, hs', List.mem_map, List.mem_filter] at hrep
        obtain ⟨x, ⟨hx, hfl⟩, rfl⟩ := hrep
        have hflag := (hl.flag _ _ _ _ x hx).1 hfl
        have hz : pos x.1 ∈ (segment ℝ (pos s.1) (pos s.2) ∩ segment ℝ (pos s'.1) (pos s'.2)).extremePoints ℝ := by
          rw [← hl.segSeg]; exact ⟨x, hx, rfl⟩
        have hseg : ∀ {a : Nat} {s : P × P}, seg (pts h) a = some s → (pts h)[a]? = some s.1 ∧ (pts h)[a + 1]? = some s.2 := by
          intro a s hs
          unfold seg at hs
          split at hs
          · cases hs; constructor <;> assumption
          · cases hs
        obtain ⟨n, hn⟩ : ∃ n : Nat, v = n := ⟨v.toNat, by omega⟩
        subst hn
        exact ⟨n, rfl, .inr ⟨hnp, a, b, s.1, s.2, s'.1, s'.2, pos x.1, hlt, (hseg hs).1, (hseg hs).2, (hseg hs').1, (hseg hs').2, hz, hflag, by omega⟩⟩
      · cases hin
  · rintro ⟨k, rfl, hrev | ⟨hnp, hcr⟩⟩
    · obtain ⟨l, p, q, r, hkl, hp, hq, hpq, hrm, hlt⟩ := hrev
      obtain ⟨i, hi', heq⟩ := h5 k l p q hkl hp hq ((he p q).2 hpq) (by
        rw [Bool.eq_false_iff, ne_eq, he]
        intro hpt
        exact hlt (by rw [hpt]; exact htop r hrm))
      obtain ⟨k1, -, -, -, -, k6⟩ := h3 i hi'
      refine ⟨_, rfl, i, List.mem_append_left _ hi', ?_⟩
      simp only [Inter.splitIdxs, k1, if_true]
      exact (k6 k).2 ⟨k, p, rfl, hp, heq⟩
    · obtain ⟨i, hi', hk⟩ := crossed_report hl hi.two e2 hcr
      refine ⟨_, rfl, i, List.mem_append_right _ (by rw [if_pos hnp]; exact hi'), ?_⟩
      obtain ⟨⟨a, b⟩, hab, hrep⟩ := List.mem_flatMap.1 hi'
      simp only [Inter.splitIdxs, (C25_ends env.lnr (pts h) a b i hrep).1, reduceCtorEq, if_false, if_true]
      exact hk

theorem ExactRun.fixed (hr : ExactRun pos region env h cs t m) (hi : InstOK env h (pts h)) {cv : List Int} {v : Int} : FixedVertex env h cv v ↔
    (env.inst h).opts.planarSelf = true ∧ (v ∈ cv ∨ ∃ k : Nat, v = k ∧ (Revisited pos (pts h) k ∨ ((env.inst h).opts.nonPlanarSelf = true ∧ Crossed pos (pts h) k))) :=
  fixed_places hr.exact.equals2D hr.lnr hi

/-- crossings stay crossings -/
theorem Moved.crossed {ps : List P} {ps' : List P'} (hm : Moved f pos region ps cs pos' region' ps' cs') (hf : Scales f r) (k : Nat) :
    Crossed pos ps k ↔ Crossed pos' ps' k := by
  have hlen := hm.length
  have get : ∀ {a : Nat} {p : P}, ps[a]? = some p → ∃ p', ps'[a]? = some p' ∧ pos' p' = f (pos p) := by
    intro a p hp
    have ha := (List.getElem?_eq_some_iff.1 hp).1
    exact ⟨_, List.getElem?_eq_getElem (by omega), hm.get hp (List.getElem?_eq_getElem (by omega))⟩
  have get' : ∀ {a : Nat} {p' : P'}, ps'[a]? = some p' → ∃ p, ps[a]? = some p ∧ pos' p' = f (pos p) := by
    intro a p' hp
    have ha := (List.getElem?_eq_some_iff.1 hp).1
    exact ⟨_, List.getElem?_eq_getElem (by omega), hm.get (List.getElem?_eq_getElem (by omega)) hp⟩
  have hex : ∀ a b c d : ℂ, (segment ℝ (f a) (f b) ∩ segment ℝ (f c) (f d)).extremePoints ℝ = f '' (segment ℝ a b ∩ segment ℝ c d).extremePoints ℝ := by
    intro a b c d
    rw [← image_segment, ← image_segment, ← Set.image_inter hf.injective, extremePoints_image hf.injective]
  constructor
  · rintro ⟨a, b, p, p', q, q', z, hab, h1, h2, h3, h4, hz, hn, hk⟩
    obtain ⟨x1, y1, e1⟩ := get h1
    obtain ⟨x2, y2, e2⟩ := get h2
    obtain ⟨x3, y3, e3⟩ := get h3
    obtain ⟨x4, y4, e4⟩ := get h4
    refine ⟨a, b, x1, x2, x3, x4, f z, hab, y1, y2, y3, y4, ?_, ?_, hk⟩
    · rw [e1, e2, e3, e4, hex]; exact ⟨z, hz, rfl⟩
    · rwa [e1, e2, e3, e4, hf.injective.eq_iff, hf.injective.eq_iff, hf.injective.eq_iff, hf.injective.eq_iff]
  · rintro ⟨a, b, p, p', q, q', z, hab, h1, h2, h3, h4, hz, hn, hk⟩
    obtain ⟨x1, y1, e1⟩ := get' h1
    obtain ⟨x2, y2, e2⟩ := get' h2
    obtain ⟨x3, y3, e3⟩ := get' h3
    obtain ⟨x4, y4, e4⟩ := get' h4
    rw [e1, e2, e3, e4, hex] at hz
    obtain ⟨z, hz, rfl⟩ := hz
    refine ⟨a, b, x1, x2, x3, x4, z, hab, y1, y2, y3, y4, hz, ?_, hk⟩
    rwa [e1, e2, e3, e4, hf.injective.eq_iff, hf.injective.eq_iff, hf.injective.eq_iff, hf.injective.eq_iff] at hn

/-- a map that keeps the order of the sort keeps the repeated places that are found -/
theorem Moved.revisited {ps : List P} {ps' : List P'} (hm : Moved f pos region ps cs pos' region' ps' cs') (hf : Scales f r) (ho : ∀ z w, LexLe (f z) (f w) ↔ LexLe z w) (k : Nat) :
    Revisited pos ps k ↔ Revisited pos' ps' k := by
  have hlen := hm.length
  have get : ∀ {a : Nat} {p : P}, ps[a]? = some p → ∃ p', ps'[a]? = some p' ∧ pos' p' = f (pos p) := by
    intro a p hp
    have ha := (List.getElem?_eq_some_iff.1 hp).1
    exact ⟨_, List.getElem?_eq_getElem (by omega), hm.get hp (List.getElem?_eq_getElem (by omega))⟩
  have get' : ∀ {a : Nat} {p' : P'}, ps'[a]? = some p' → ∃ p, ps[a]? = some p ∧ pos' p' = f (pos p) := by
    intro a p' hp
    have ha := (List.getElem?_eq_some_iff.1 hp).1
    exact ⟨_, List.getElem?_eq_getElem (by omega), hm.get (List.getElem?_eq_getElem (by omega)) hp⟩
  constructor
  · rintro ⟨l, p, q, s, hkl, h1, h2, h3, h4, h5⟩
    obtain ⟨n, hn⟩ := List.getElem?_of_mem h4
    obtain ⟨x1, y1, e1⟩ := get h1
    obtain ⟨x2, y2, e2⟩ := get h2
    obtain ⟨x3, y3, e3⟩ := get hn
    exact ⟨l, x1, x2, x3, hkl, y1, y2, by rw [e1, e2, h3], List.mem_of_getElem? y3, by rwa [e1, e3, ho]⟩
  · rintro ⟨l, p, q, s, hkl, h1, h2, h3, h4, h5⟩
    obtain ⟨n, hn⟩ := List.getElem?_of_mem h4
    obtain ⟨x1, y1, e1⟩ := get' h1
    obtain ⟨x2, y2, e2⟩ := get' h2
    obtain ⟨x3, y3, e3⟩ := get' hn
    rw [e1, e2] at h3
    rw [e1, e3, ho] at h5
    exact ⟨l, x1, x2, x3, hkl, y1, y2, hf.injective h3, List.mem_of_getElem? y3, h5⟩

variable {ids ids' : Nat → Int}

/-- C108, the part that holds.  A line and its constraints moved, turned, mirrored or scaled together, with threshold and minimum distance scaled as well and the same
switches: the same vertices are kept — provided the search for repeated places finds the same ones (`hrev`).  That holds when the line need not keep its
self-intersections, when no place is repeated, and when the map keeps the order in which vertices are sorted (`C108_shift`).  Missing for the full statement: `hrev` is not
always met, `C108_refuted`. -/
theorem C108_similar_partial (he : EnvOK env) (hl : LnrOK env.lnr) (hi : InstOK env h (pts h)) (hinj : Function.Injective ids) (hr : ExactRun pos region env h cs t m)
    (he' : EnvOK env') (hl' : LnrOK env'.lnr) (hi' : InstOK env' h' (pts' h')) (hinj' : Function.Injective ids') (hr' : ExactRun pos' region' env' h' cs' (r * t) (r * m))
    (hf : Scales f r) (hm : Moved f pos region (pts h) cs pos' region' (pts' h') cs')
    (hav : (env.inst h).opts.avoidNewSelfIntersects = false) (hav' : (env'.inst h').opts.avoidNewSelfIntersects = false)
    (hg : (env'.inst h').opts.geomRelation = (env.inst h).opts.geomRelation) (hd : (env'.inst h').opts.distRelation = (env.inst h).opts.distRelation)
    (hs : (env'.inst h').opts.dirRelation = (env.inst h).opts.dirRelation) (hp : (env'.inst h').opts.planarSelf = (env.inst h).opts.planarSelf)
    (hnp : (env'.inst h').opts.nonPlanarSelf = (env.inst h).opts.nonPlanarSelf)
    (hrev : (env.inst h).opts.planarSelf = true → ∀ k, Revisited pos (pts h) k ↔ Revisited pos' (pts' h') k)
    {cv : List Int} (hcv : ∀ i ∈ cv, 0 ≤ i ∧ i < (pts h).length)
    {d1 d1' d2 d2' : Int → Bool} {n1 n2 : Nat} {o1 : Out P C EReal} {o2 : Out P' C' EReal}
    (e1 : simplify env ids h cv d1 n1 = .ok (o1, d1')) (e2 : simplify env' ids' h' cv d2 n2 = .ok (o2, d2')) :
    o1.simple = o2.simple ∧ (o1.hulls.map Node.range).Perm (o2.hulls.map Node.range) := by
  have hlen := hm.length
  have hcv' : ∀ i ∈ cv, 0 ≤ i ∧ i < ((pts' h').length : Int) := by rw [← hlen]; exact hcv
  refine C107_alike he hl hi hr.touching hinj hav hcv (fun _ => hr.splittable hi hcv) he' hl' hi' hr'.touching hinj' hav' hcv' (fun _ => hr'.splittable hi' hcv') ?_ e1 e2
  refine ⟨hlen, ?_, ?_, ?_, ?_⟩
  · intro i j h0 h1 h2 k v hkv
    obtain ⟨k', x, x', s1, s2, s3⟩ := hm.score hf hr hr' h0 h1 h2
    rw [hkv] at s1
    cases s1
    exact ⟨x', s2, s3⟩
  · intro v _ _
    rw [hr.fixed hi, hr'.fixed hi', hp, hnp]
    refine and_congr_right fun hpl => or_congr_right (exists_congr fun k => and_congr_right fun _ => or_congr (hrev hpl k) (and_congr_right fun _ => hm.crossed hf k))
  · intro i j h0 h1 h2
    refine and_congr_right fun _ => ?_
    constructor
    · rintro ⟨nd, q1, q2, q3, q4⟩
      have hk := known_of_piece q1 q2 h0 h1 h2
      obtain ⟨nd', hk', q1', q2'⟩ := known_of_range hi' h0 h1 (by omega)
      have hrng : nd'.range = nd.range := by rw [q2, q2']
      exact ⟨nd', q1', q2', by rw [← hm.isLine hf hr.exact hr'.exact hk hk' hrng]; exact q3, (hm.verdict hf hr hi hr' hi' hg hd hs hk hk' hrng _).1 q4⟩
    · rintro ⟨nd', q1, q2, q3, q4⟩
      have hk' := known_of_piece q1 q2 h0 h1 (by omega)
      obtain ⟨nd, hk, q1', q2'⟩ := known_of_range hi h0 h1 h2
      have hrng : nd'.range = nd.range := by rw [q2, q2']
      exact ⟨nd, q1', q2', by rw [hm.isLine hf hr.exact hr'.exact hk hk' hrng]; exact q3, (hm.verdict hf hr hi hr' hi' hg hd hs hk hk' hrng _).2 q4⟩
  · intro i j h0 h1 h2
    obtain ⟨k', x, x', s1, s2, s3⟩ := hm.score hf hr hr' h0 h1 h2
    refine and_congr ?_ ?_
    · rw [s1, s2]
      constructor
      · rintro ⟨k, v, a, b⟩; cases a; exact ⟨k', x', rfl, by rw [← s3]; exact b⟩
      · rintro ⟨k, v, a, b⟩; cases a; exact ⟨k', x, rfl, by rw [s3]; exact b⟩
    · constructor
      · rintro ⟨nd, q2, q1, q4⟩
        have hk := known_of_piece q1 q2 h0 h1 h2
        obtain ⟨nd', hk', q1', q2'⟩ := known_of_range hi' h0 h1 (by omega)
        have hrng : nd'.range = nd.range := by rw [q2, q2']
        exact ⟨nd', q2', q1', (hm.verdict hf hr hi hr' hi' hg hd hs hk hk' hrng _).1 q4⟩
      · rintro ⟨nd', q2, q1, q4⟩
        have hk' := known_of_piece q1 q2 h0 h1 (by omega)
        obtain ⟨nd, hk, q1', q2'⟩ := known_of_range hi h0 h1 h2
        have hrng : nd'.range = nd.range := by rw [q2, q2']
        exact ⟨nd, q2', q1', (hm.verdict hf hr hi hr' hi' hg hd hs hk hk' hrng _).2 q4⟩

end

/-! ### the maps -/

/-- multiply by `a` (rotate and scale), then shift by `b` -/
noncomputable def rotate (a b : ℂ) : ℂ →ᵃ[ℝ] ℂ := (LinearMap.mulLeft ℝ a).toAffineMap + AffineMap.const ℝ ℂ b

/-- mirror at the first axis, multiply by `a`, then shift by `b` -/
noncomputable def reflect (a b : ℂ) : ℂ →ᵃ[ℝ] ℂ := (rotate a b).comp Complex.conjAe.toLinearMap.toAffineMap

theorem rotate_apply (a b z : ℂ) : rotate a b z = a * z + b := rfl

theorem reflect_apply (a b z : ℂ) : reflect a b z = a * (starRingEnd ℂ) z + b := rfl

theorem rotate_scales {a : ℂ} (ha : a ≠ 0) (b : ℂ) : Scales (rotate a b) ‖a‖ := by
  refine ⟨norm_pos_iff.2 ha, fun x y => ?_⟩
  rw [rotate_apply, rotate_apply, dist_add_right, dist_eq_norm, dist_eq_norm, ← mul_sub, norm_mul]

theorem reflect_scales {a : ℂ} (ha : a ≠ 0) (b : ℂ) : Scales (reflect a b) ‖a‖ := by
  refine ⟨norm_pos_iff.2 ha, fun x y => ?_⟩
  rw [reflect_apply, reflect_apply, dist_add_right, dist_eq_norm, dist_eq_norm, ← mul_sub, norm_mul, ← map_sub, Complex.norm_conj]

/-- shifting and enlarging keep the order in which vertices are sorted -/
theorem rotate_order {c : ℝ} (hc : 0 < c) (b z w : ℂ) : LexLe (rotate c b z) (rotate c b w) ↔ LexLe z w := by
  simp only [LexLe, rotate_apply, Complex.add_re, Complex.add_im, Complex.re_ofReal_mul, Complex.im_ofReal_mul, add_lt_add_iff_right, add_left_inj, add_le_add_iff_right,
    mul_lt_mul_iff_right₀ hc, mul_le_mul_iff_right₀ hc, mul_right_inj' hc.ne']

section
variable {P C P' C' : Type} {pos : P → ℂ} {region : C → Set ℂ} {env : Env P C EReal ℝ} {pts : Int → List P} {h : Int} {cs : List C} {t m : ℝ}
variable {pos' : P' → ℂ} {region' : C' → Set ℂ} {env' : Env P' C' EReal ℝ} {pts' : Int → List P'} {h' : Int} {cs' : List C'} {ids ids' : Nat → Int}

/-- C108, shifting and enlarging or reducing, with whatever switches: the same vertices are kept, self-intersections included. -/
theorem C108_shift (he : EnvOK env) (hl : LnrOK env.lnr) (hi : InstOK env h (pts h)) (hinj : Function.Injective ids) (hr : ExactRun pos region env h cs t m)
    (he' : EnvOK env') (hl' : LnrOK env'.lnr) (hi' : InstOK env' h' (pts' h')) (hinj' : Function.Injective ids') {c : ℝ} (hc : 0 < c) {b : ℂ}
    (hr' : ExactRun pos' region' env' h' cs' (c * t) (c * m)) (hm : Moved (rotate c b) pos region (pts h) cs pos' region' (pts' h') cs')
    (hav : (env.inst h).opts.avoidNewSelfIntersects = false) (hav' : (env'.inst h').opts.avoidNewSelfIntersects = false)
    (hg : (env'.inst h').opts.geomRelation = (env.inst h).opts.geomRelation) (hd : (env'.inst h').opts.distRelation = (env.inst h).opts.distRelation)
    (hs : (env'.inst h').opts.dirRelation = (env.inst h).opts.dirRelation) (hp : (env'.inst h').opts.planarSelf = (env.inst h).opts.planarSelf)
    (hnp : (env'.inst h').opts.nonPlanarSelf = (env.inst h).opts.nonPlanarSelf) {cv : List Int} (hcv : ∀ i ∈ cv, 0 ≤ i ∧ i < (pts h).length)
    {d1 d1' d2 d2' : Int → Bool} {n1 n2 : Nat} {o1 : Out P C EReal} {o2 : Out P' C' EReal}
    (e1 : simplify env ids h cv d1 n1 = .ok (o1, d1')) (e2 : simplify env' ids' h' cv d2 n2 = .ok (o2, d2')) :
    o1.simple = o2.simple ∧ (o1.hulls.map Node.range).Perm (o2.hulls.map Node.range) := by
  have hf : Scales (rotate c b) c := by
    have := rotate_scales (a := c) (by exact_mod_cast hc.ne') b
    rwa [Complex.norm_real, Real.norm_of_nonneg hc.le] at this
  exact C108_similar_partial he hl hi hinj hr he' hl' hi' hinj' hr' hf hm hav hav' hg hd hs hp hnp (fun _ => hm.revisited hf (rotate_order hc b)) hcv e1 e2

end

/-! ### concrete cases: every line of the exact plane -/

/-- the exact plane as a run -/
theorem exactRun {lines : Int → Demo.Line ℂ Region ℝ} {h : Int} {t m : ℝ} (ht : (lines h).opts.sqThreshold = .fin t) (hm : (lines h).opts.minDist = .fin m) (h0 : 0 ≤ m) :
    ExactRun id (fun r : Region => r.1) (exactEnv lines) h (lines h).ctx t m where
  exact := exactLib_exact
  lnr := exactLnr_exact
  heap := Hdb.listHeap_legal
  eps := ⟨0, le_rfl, rfl⟩
  minDist := ⟨hm, h0⟩
  indexed := (exactSetting h0 hm).indexed
  score := by
    refine ⟨id, rfl, fun _ _ _ _ => Iff.rfl, fun x _ => ?_, rfl⟩
    show (Fl.fin x).le (lines h).opts.sqThreshold = true ↔ x ≤ t
    rw [ht]
    exact decide_eq_true_iff

/-- the image of a region -/
def imageRegion (f : ℂ →ᵃ[ℝ] ℂ) (g : Region) : Region := ⟨f '' g.1, g.2.image f⟩

/-- the image of a line with its constraints, options in the other scale -/
noncomputable def imageLine (f : ℂ →ᵃ[ℝ] ℂ) (t m : ℝ) (l : Demo.Line ℂ Region ℝ) : Demo.Line ℂ Region ℝ :=
  ⟨l.pts.map f, l.ctx.map (imageRegion f), { l.opts with sqThreshold := .fin t, minDist := .fin m }⟩

theorem imageLine_moved (f : ℂ →ᵃ[ℝ] ℂ) (t m : ℝ) (l : Demo.Line ℂ Region ℝ) :
    Moved f id (fun r : Region => r.1) l.pts l.ctx id (fun r : Region => r.1) (imageLine f t m l).pts (imageLine f t m l).ctx where
  line := by simp [imageLine]
  image g hg := ⟨imageRegion f g, List.mem_map_of_mem hg, rfl⟩
  back g' hg' := by
    obtain ⟨g, hg, rfl⟩ := List.mem_map.1 hg'
    exact ⟨g, hg, rfl⟩

/-- Every line of the exact plane that need not keep its self-intersections, with any constraints and relations, and every similarity of the plane: the line and its
image are simplified to the same vertices. -/
theorem C108_exact {l : Demo.Line ℂ Region ℝ} {f : ℂ →ᵃ[ℝ] ℂ} {r t m : ℝ} (hf : Scales f r) (h2 : 2 ≤ l.pts.length) (ht : l.opts.sqThreshold = .fin t) (h0 : 0 ≤ t)
    (hm : l.opts.minDist = .fin m) (h1 : 0 ≤ m) (hp : l.opts.planarSelf = false) (ha : l.opts.avoidNewSelfIntersects = false) :
    ∃ fuel o1 d1 o2 d2, simplify (exactEnv (fun _ => l)) (fun n => n) 0 [] (fun _ => false) fuel = .ok (o1, d1) ∧
      simplify (exactEnv (fun _ => imageLine f (r * t) (r * m) l)) (fun n => n) 0 [] (fun _ => false) fuel = .ok (o2, d2) ∧ o1.simple = o2.simple := by
  have hinj : Function.Injective (fun n : Nat => (n : Int)) := fun a b h => by simpa using h
  have hi : InstOK (exactEnv (fun _ => l)) 0 l.pts := exactInst_ok (lines := fun _ => l) (h := 0) h2 (by rw [ht, Fl.fin_le_fin]; simpa using h0)
  have hi' : InstOK (exactEnv (fun _ => imageLine f (r * t) (r * m) l)) 0 (imageLine f (r * t) (r * m) l).pts :=
    exactInst_ok (lines := fun _ => imageLine f (r * t) (r * m) l) (h := 0) (by simpa [imageLine] using h2)
      (by simp only [imageLine, Fl.fin_le_fin]; simpa using mul_nonneg hf.1.le h0)
  obtain ⟨⟨o1, d1⟩, N1, y1⟩ := C10_terminates (pts := fun _ => l.pts) (cv := []) exactEnv_ok exactLnr_ok hi hinj (by simp) (fun _ => false)
  obtain ⟨⟨o2, d2⟩, N2, y2⟩ := C10_terminates (pts := fun _ => (imageLine f (r * t) (r * m) l).pts) (cv := []) exactEnv_ok exactLnr_ok hi' hinj (by simp) (fun _ => false)
  have e1 := y1 (max N1 N2) (Nat.le_max_left _ _)
  have e2 := y2 (max N1 N2) (Nat.le_max_right _ _)
  refine ⟨max N1 N2, o1, d1, o2, d2, e1, e2, ?_⟩
  exact (C108_similar_partial (pts := fun _ => l.pts) (pts' := fun _ => (imageLine f (r * t) (r * m) l).pts) (cs := l.ctx) (cs' := (imageLine f (r * t) (r * m) l).ctx)
    (t := t) (m := m) (f := f) (r := r) exactEnv_ok exactLnr_ok hi hinj (exactRun (lines := fun _ => l) (h := 0) ht hm h1) exactEnv_ok exactLnr_ok hi' hinj
    (exactRun (lines := fun _ => imageLine f (r * t) (r * m) l) (h := 0) rfl rfl (mul_nonneg hf.1.le h1)) hf (imageLine_moved f (r * t) (r * m) l)
    ha ha rfl rfl rfl rfl rfl (fun hh => by
      have : l.opts.planarSelf = true := hh
      rw [hp] at this; cases this) (cv := []) (by simp) e1 e2).1

/-- the peak between two half planes, turned by a right angle, mirrored, doubled and shifted -/
example : ∃ fuel o1 d1 o2 d2, simplify (exactEnv (fun _ => peakLine)) (fun n => n) 0 [] (fun _ => false) fuel = .ok (o1, d1) ∧
    simplify (exactEnv (fun _ => imageLine (reflect (2 * Complex.I) 7) (‖2 * Complex.I‖ * 25) (‖2 * Complex.I‖ * (1 / 2)) peakLine)) (fun n => n) 0 [] (fun _ => false) fuel = .ok (o2, d2) ∧
    o1.simple = o2.simple :=
  C108_exact (l := peakLine) (reflect_scales (by simp) 7) (by simp [peakLine, peak]) rfl (by norm_num) rfl (by norm_num) rfl rfl

end Planar

/-! ### the witness -/

/-- a line with a spike that ends and begins at the place (10, 0), the greatest in the order of the sort; `s = -1` turns it by half a turn -/
def spike (s : ℚ) : Demo.Line Plane.Pt (List Plane.Pt) ℚ :=
  ⟨[(0, 1), (10, 0), (8, 2), (10, 0), (0, -1)].map (fun p => (s * p.1, s * p.2)), [], { Plane.opts 100 0 with planarSelf := true }⟩

/-- C108 refuted.  The line is to keep its self-intersections.  Turned by half a turn it keeps the vertices 1 and 3, which have the same place; as it was, it loses them,
because the place that sorts last is never reported (lnr/self.go). -/
theorem C108_refuted : ∃ o1 d1 o2 d2, Plane.run (spike 1) [] = .ok (o1, d1) ∧ Plane.run (spike (-1)) [] = .ok (o2, d2) ∧
    (spike (-1)).pts = (spike 1).pts.map (fun p => (-p.1, -p.2)) ∧ (spike (-1)).opts = (spike 1).opts ∧ o1.simple = [0, 4] ∧ o2.simple = [0, 1, 3, 4] := by
  have key : ∀ {r : Res (Out Plane.Pt (List Plane.Pt) Plane.Bx × (Int → Bool))} {l : List Int}, (match r with | .ok (o, _) => o.simple | _ => []) = l → l ≠ [] →
      ∃ o d, r = .ok (o, d) ∧ o.simple = l := by
    intro r l h1 h2
    cases r with
    | ok r => exact ⟨r.1, r.2, rfl, h1⟩
    | panic => exact absurd h1.symm h2
    | timeout => exact absurd h1.symm h2
  obtain ⟨o1, d1, e1, h1⟩ := key (r := Plane.run (spike 1) []) (l := [0, 4]) (by decide +kernel) (by simp)
  obtain ⟨o2, d2, e2, h2⟩ := key (r := Plane.run (spike (-1)) []) (l := [0, 1, 3, 4]) (by decide +kernel) (by simp)
  exact ⟨o1, d1, o2, d2, e1, e2, by decide +kernel, rfl, h1, h2⟩

end Verif
