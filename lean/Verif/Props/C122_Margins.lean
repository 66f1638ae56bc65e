import Verif.Props.C113_Blurred
import Verif.Props.C121_Symmetry

/-! C122: rounding errors smaller than the margins of the decisions do not change what the program saves. -/

set_option linter.unusedSectionVars false

namespace Verif
namespace Planar

/-! ### specification -/

section
variable {C : Type}

/-- Specification: the relations of the line `zs` to the constraints are clear: segments, sub-lines and triangles of vertices that come near a constraint really meet it (`outer` and
`inner`); no segment or sub-line has nearly the minimum distance from a constraint. -/
structure ClearOf (μ : ℝ) (inner outer region : C → Set ℂ) (cs : List C) (R : Rules) (zs : List ℂ) : Prop where
  meets : R.geom = true ∨ R.side = true → ∀ g ∈ cs, ∀ i j : Int, 0 ≤ i → i < j → j < zs.length →
    ((chordSet (between zs i j) ∩ outer g).Nonempty → (chordSet (between zs i j) ∩ inner g).Nonempty) ∧
    ((lineSet (between zs i j) ∩ outer g).Nonempty → (lineSet (between zs i j) ∩ inner g).Nonempty)
  triangles : R.side = true → ∀ g ∈ cs, ∀ x ∈ zs, ∀ y ∈ zs, ∀ z ∈ zs,
    (convexHull ℝ {x, y, z} ∩ outer g).Nonempty → (convexHull ℝ {x, y, z} ∩ inner g).Nonempty
  distances : R.dist = true → ∀ g ∈ cs, ∀ i j : Int, 0 ≤ i → i < j → j < zs.length →
    (gap (chordSet (between zs i j)) (region g) < R.minDist - μ ∨ R.minDist + μ ≤ gap (chordSet (between zs i j)) (region g)) ∧
    (gap (lineSet (between zs i j)) (region g) < R.minDist - μ ∨ R.minDist + μ ≤ gap (lineSet (between zs i j)) (region g))

/-- Specification: all decisions on the line `zs` are made with room to spare: its relations to the constraints are clear, no sub-line is between `t - δ` and `t + δ` far from its
segment; where a sub-line has to be cut, the farthest vertex is more than `2 δ` farther than the others. -/
structure Decided (δ μ : ℝ) (inner outer region : C → Set ℂ) (cs : List C) (R : Rules) (zs : List ℂ) : Prop extends ClearOf μ inner outer region cs R zs where
  tolerance : ∀ i j : Int, 0 ≤ i → i + 1 < j → j < zs.length → Near (R.tolerance - δ) zs i j ∨ ¬ Near (R.tolerance + δ) zs i j
  farthest : ∀ i j : Int, 0 ≤ i → i + 1 < j → j < zs.length → ¬ Near R.tolerance zs i j ∨ (¬ Straight (between zs i j) ∧ ¬ Allowed R (between zs i j)) →
    ∃ k, i < k ∧ k < j ∧ ∀ l, i < l → l < j → l ≠ k → offsetOf zs i j l + 2 * δ < offsetOf zs i j k

end

section
variable {P C : Type} {pos : P → ℂ} {inner outer region : C → Set ℂ} {env : Env P C EReal ℝ} {pts : Int → List P} {h : Int} {cs : List C} {t m τ ε ρ δ : ℝ}

/-- the code decides on the sub-lines of a line as the procedure does -/
structure Follows (R : Rules) (zs : List ℂ) (env : Env P C EReal ℝ) (pts : Int → List P) (h : Int) : Prop where
  length : (pts h).length = zs.length
  scores : ∀ i j : Int, 0 ≤ i → i < j → j < zs.length → ∃ k v, (env.inst h).scoreFn (Coords.sub (pts h) i j) = .ok (k, v) ∧
    ((env.inst h).rel v = true ↔ Near R.tolerance zs i j) ∧
    (i + 1 < j → ¬ Near R.tolerance zs i j ∨ (¬ Straight (between zs i j) ∧ ¬ Allowed R (between zs i j)) → FarthestAt zs i j (i + k))
  straight : ∀ nd, Known env pts [h] nd → (nd.geom.isLineString = true ↔ Straight (between zs nd.range.I nd.range.J))
  allowed : ∀ nd, Known env pts [h] nd → ∃ b, Yields (validateContextRelation env nd (env.inst h)) b ∧ (b = true ↔ Allowed R (between zs nd.range.I nd.range.J))

theorem Follows.bad {R : Rules} {zs : List ℂ} (hf : Follows R zs env pts h) (hi : InstOK env h (pts h)) {i j : Int} (h0 : 0 ≤ i) (h1 : i < j) (h2 : j < zs.length) :
    Rejected env pts h i j ↔ i + 1 < j ∧ ¬ Straight (between zs i j) ∧ ¬ Allowed R (between zs i j) := by
  rw [← hf.length] at h2
  refine and_congr_right fun _ => ?_
  constructor
  · rintro ⟨nd, q1, q2, q3, q4⟩
    have hk := known_of_piece q1 q2 h0 h1 h2
    obtain ⟨b, y1, y2⟩ := hf.allowed nd hk
    have e1 := hf.straight nd hk
    simp only [q2] at e1 y2
    rw [← e1, ← y2, ← q4.unique y1]
    simp [q3]
  · rintro ⟨q3, q4⟩
    obtain ⟨nd, hk, q1, q2⟩ := known_of_range hi h0 h1 h2
    obtain ⟨b, y1, y2⟩ := hf.allowed nd hk
    have e1 := hf.straight nd hk
    simp only [q2] at e1 y2
    rw [← e1] at q3
    rw [← y2] at q4
    refine ⟨nd, q1, q2, by simpa using q3, ?_⟩
    cases b with
    | false => exact y1
    | true => exact absurd rfl q4

theorem Follows.ok {R : Rules} {zs : List ℂ} (hf : Follows R zs env pts h) (hi : InstOK env h (pts h)) {i j : Int} (h0 : 0 ≤ i) (h1 : i < j) (h2 : j < zs.length) :
    Joinable env pts h i j ↔ Near R.tolerance zs i j ∧ Allowed R (between zs i j) := by
  obtain ⟨k, v, s1, s2, -⟩ := hf.scores i j h0 h1 h2
  rw [← hf.length] at h2
  refine and_congr ?_ ?_
  · rw [← s2]
    constructor
    · rintro ⟨k', v', a, b⟩; rw [s1] at a; cases a; exact b
    · intro b; exact ⟨k, v, s1, b⟩
  · constructor
    · rintro ⟨nd, q2, q1, q4⟩
      have hk := known_of_piece q1 q2 h0 h1 h2
      obtain ⟨b, y1, y2⟩ := hf.allowed nd hk
      simp only [q2] at y2
      exact y2.1 (y1.unique q4)
    · intro q4
      obtain ⟨nd, hk, q1, q2⟩ := known_of_range hi h0 h1 h2
      obtain ⟨b, y1, y2⟩ := hf.allowed nd hk
      simp only [q2] at y2
      rw [y2.2 q4] at y1
      exact ⟨nd, q2, q1, y1⟩

theorem Follows.thin {R : Rules} {zs : List ℂ} (hf : Follows R zs env pts h) {i j : Int} {rs : List Rng}
    (hd : RecDP (env.inst h).scoreFn (env.inst h).rel (pts h) i j rs) : 0 ≤ i → i < j → j < zs.length → Thinned R.tolerance zs i j rs := by
  induction hd with
  | keep i j k v hs hv =>
    intro h0 h1 h2
    obtain ⟨k', v', s1, s2, -⟩ := hf.scores i j h0 h1 h2
    rw [hs] at s1
    cases s1
    exact .keep i j (s2.1 hv)
  | cut i j k v xs ys hs hv hx hy ihx ihy =>
    intro h0 h1 h2
    obtain ⟨k', v', s1, s2, s3⟩ := hf.scores i j h0 h1 h2
    rw [hs] at s1
    cases s1
    have hn : ¬ Near R.tolerance zs i j := fun hn => by rw [s2.2 hn] at hv; cases hv
    have hlt : i + 1 < j := by
      by_contra hc
      exact hn (fun k k0 k1 => by omega)
    have hf := s3 hlt (.inl hn)
    exact .cut i j (i + k) xs ys hn hf (ihx h0 hf.1 (by have := hf.2.1; omega)) (ihy (by have := hf.1; omega) hf.2.1 h2)

theorem Follows.cut {R : Rules} {zs : List ℂ} (hf : Follows R zs env pts h) (hi : InstOK env h (pts h)) {i j : Int} {rs : List Rng}
    (hd : RecCut (env.inst h).scoreFn (Rejected env pts h) (pts h) i j rs) : 0 ≤ i → i < j → j < zs.length →
      Cut (fun i j => i + 1 < j ∧ ¬ Straight (between zs i j) ∧ ¬ Allowed R (between zs i j)) zs i j rs := by
  induction hd with
  | keep i j hb => intro h0 h1 h2; exact .keep i j (fun hb' => hb ((hf.bad hi h0 h1 h2).2 hb'))
  | cut i j k v xs ys hb hs hx hy ihx ihy =>
    intro h0 h1 h2
    obtain ⟨k', v', s1, s2, s3⟩ := hf.scores i j h0 h1 h2
    rw [hs] at s1
    cases s1
    have hb' := (hf.bad hi h0 h1 h2).1 hb
    have hf := s3 hb.1 (.inr hb'.2)
    exact .cut i j (i + k) xs ys hb' hf (ihx h0 hf.1 (by have := hf.2.1; omega)) (ihy (by have := hf.1; omega) hf.2.1 h2)

/-- then the procedure of C107 is the plane procedure -/
theorem Follows.procedure {R : Rules} {zs : List ℂ} (hf : Follows R zs env pts h) (hi : InstOK env h (pts h)) {cv : List Int} {junction : Int → Prop}
    (hfix : ∀ v, FixedVertex env h cv v ↔ Must R junction zs v) {rs : List Rng}
    (hs : SimplifySpec (env.inst h).scoreFn (env.inst h).rel (FixedVertex env h cv) (Rejected env pts h) (Joinable env pts h) (pts h) rs) :
    Procedure R junction zs rs := by
  have h2 := hi.two
  have hlen := hf.length
  obtain ⟨ls, hls, hm⟩ := hs
  have hch := hls.chain (rejected_inside hi)
  obtain ⟨ds, ms, a1, a2, a3, a4⟩ := hls
  refine ⟨ds, ms, ls, ?_, ?_, ?_, ?_, ?_⟩
  · rw [← hlen]; exact hf.thin a1 le_rfl (by omega) (by omega)
  · rw [← hlen]; exact a2
  · intro v; rw [a3 v, hfix]
  · refine a4.imp (fun r hrm l hl => ?_)
    have := a2.mem hrm
    exact hf.cut hi hl (by omega) (by omega) (by omega)
  · refine hm.alike (a := 0) (b := (pts h).length - 1) (fun v _ _ => hfix v) (fun i j i0 ij jn => ?_) (by simpa using hch)
    exact hf.ok hi i0 ij (by omega)

/-! ### a run with rounding errors -/

/-- A run in blurred geometry with computed offsets: `ε` bounds the error of distances to constraints, `δ` that of offsets, `τ` is the tolerance of the queue, `inner` and `outer` are
what the test for common points is sure to report and what it may report. -/
structure RoundRun (pos : P → ℂ) (inner outer region : C → Set ℂ) (env : Env P C EReal ℝ) (h : Int) (cs : List C) (τ ε ρ δ t m : ℝ) : Prop where
  setting : BlurredSetting pos inner outer region env h cs τ ε ρ m
  inside : ∀ g, inner g ⊆ region g ∧ region g ⊆ outer g
  eps : ∃ e : ℝ, ε ≤ e ∧ env.eps = .fin e
  rel : ∀ x : ℝ, (env.inst h).rel (.fin x) = true ↔ x ≤ t
  tol : 0 ≤ t ∧ 0 ≤ δ
  score : ∃ d : P → P → P → ℝ, (∀ a b p, 0 ≤ d a b p ∧ |d a b p - gap {pos p} (segment ℝ (pos a) (pos b))| ≤ δ) ∧
    (env.inst h).scoreFn = maxOffset (fun a b p => .fin (d a b p))

theorem RoundRun.touching (hr : RoundRun pos inner outer region env h cs τ ε ρ δ t m) : Touching env pts h := by
  obtain ⟨e, h0, heps⟩ := hr.eps
  have hx := hr.setting.blurred
  have he : Exact pos region ({ env with lib := sharpest pos region env.lib } : Env P C EReal ℝ).lib := hx.exact
  intro a b ka kb hab
  obtain ⟨a1, -, -, a4, a5⟩ := hx.known ka
  obtain ⟨b1, -, -, b4, b5⟩ := hx.known kb
  have hai := List.mem_singleton.1 ka.inst
  have l1 := ka.lo; have l2 := ka.lt; have l3 := ka.hi; have l4 := kb.lt
  rw [hai] at l3
  obtain ⟨q, hq⟩ : ∃ q, (pts h)[a.range.J.toNat]? = some q := ⟨_, List.getElem?_eq_getElem (by omega)⟩
  have ma : pos q ∈ shape pos region a.geom := by
    rw [a1]; exact subset_convexHull ℝ _ (mem_places hq ka.lo (by omega) (by omega))
  have mb : pos q ∈ shape pos region b.geom := by
    rw [b1]; exact subset_convexHull ℝ _ (mem_places hq kb.lo (by omega) (by omega))
  have na : (shape pos region a.geom).Nonempty := ⟨_, ma⟩
  have nb : (shape pos region b.geom).Nonempty := ⟨_, mb⟩
  obtain ⟨x1, x2, x3, x4⟩ := he.bounds_subset na ma
  obtain ⟨y1, y2, y3, y4⟩ := he.bounds_subset nb mb
  have box : ∀ {s t : Box EReal} {x y : EReal}, s.minX ≤ x → x ≤ s.maxX → s.minY ≤ y → y ≤ s.maxY → t.minX ≤ x → x ≤ t.maxX → t.minY ≤ y → y ≤ t.maxY →
      s.intersects t = true := by
    intro s t x y p1 p2 p3 p4 q1 q2 q3 q4
    simp only [Box.intersects, gt_iff_lt, Bool.not_eq_true', Bool.or_eq_false_iff, decide_eq_false_iff_not, not_lt]
    exact ⟨⟨⟨q1.trans p2, p1.trans q2⟩, q3.trans p4⟩, p3.trans q4⟩
  have dist : ∀ {s t : Geo P C}, pos q ∈ shape pos region s → pos q ∈ shape pos region t → (env.lib.distance s t).le env.eps = true := by
    intro s t p1 p2
    obtain ⟨d, e1, e2⟩ := hx.distance s t ⟨_, p1⟩ ⟨_, p2⟩
    rw [gap_meet ⟨_, p1, p2⟩] at e2
    rw [e1, heps, Fl.fin_le_fin, decide_eq_true_eq]
    have := (abs_le.1 e2).2
    linarith
  rw [a5, b5]
  exact ⟨⟨box x1 x2 x3 x4 y1 y2 y3 y4, dist mb ma⟩, box y1 y2 y3 y4 x1 x2 x3 x4, dist ma mb⟩

/-- what the test for common points reports, for sets that meet a constraint if they come near it -/
theorem RoundRun.sees (hr : RoundRun pos inner outer region env h cs τ ε ρ δ t m) {a : Geo P C} {g : C}
    (hd : (shape pos region a ∩ outer g).Nonempty → (shape pos region a ∩ inner g).Nonempty) :
    env.lib.intersects a (.ctx g) = true ↔ (shape pos region a ∩ region g).Nonempty := by
  constructor
  · intro hi
    exact (hd (hr.setting.blurred.only a g hi)).mono (Set.inter_subset_inter_right _ (hr.inside g).1)
  · intro hi
    exact hr.setting.blurred.seen a g (hd (hi.mono (Set.inter_subset_inter_right _ (hr.inside g).2)))

theorem RoundRun.scores (hr : RoundRun pos inner outer region env h cs τ ε ρ δ t m)
    (hd : Decided δ (τ + 4 * ε) inner outer region cs (rulesOf region (env.inst h).opts cs t m) ((pts h).map pos)) {i j : Int} (h0 : 0 ≤ i) (h1 : i < j)
    (h2 : j < (pts h).length) :
    ∃ k v, (env.inst h).scoreFn (Coords.sub (pts h) i j) = .ok (k, v) ∧ ((env.inst h).rel v = true ↔ Near t ((pts h).map pos) i j) ∧
      (i + 1 < j → ¬ Near t ((pts h).map pos) i j ∨ (¬ Straight (between ((pts h).map pos) i j) ∧
        ¬ Allowed (rulesOf region (env.inst h).opts cs t m) (between ((pts h).map pos) i j)) → FarthestAt ((pts h).map pos) i j (i + k)) := by
  obtain ⟨w, hw, hsc⟩ := hr.score
  obtain ⟨ht, hδ⟩ := hr.tol
  have p1 := points_sub (pts h) h0 h1.le h2
  have p2 := wellIndexed_sub (pts := pts h) h0 h2
  have l1 : (Coords.sub (pts h) i j).len = j - i + 1 := by
    rw [p2.length, p1, between, List.length_take, List.length_drop]; omega
  rw [hsc]
  by_cases hn : i + 1 < j
  · obtain ⟨p0⟩ : Nonempty P := ⟨(pts h)[0]'(by omega)⟩
    let q : Int → P := fun k => (pts h)[(i + k).toNat]?.getD p0
    have hq : ∀ k, 0 ≤ k → k < (Coords.sub (pts h) i j).len → (Coords.sub (pts h) i j).pt k = .ok (q k) := by
      intro k k0 k1
      rw [l1] at k1
      obtain ⟨n, rfl⟩ := Int.eq_ofNat_of_zero_le k0
      have a1 : n < (Coords.sub (pts h) i j).points.length := by have := p2.length; omega
      rw [p2.pt_get a1]
      have e1 : (Coords.sub (pts h) i j).points[n]? = (pts h)[(i + (n : Int)).toNat]? := by
        rw [p1, between, List.getElem?_take, if_pos (by omega), List.getElem?_drop]
        congr 1; omega
      rw [List.getElem?_eq_getElem a1] at e1
      simp only [q, ← e1, Option.getD_some]
    have hv : ∀ k, 0 ≤ k → k ≤ j - i → pos (q k) = vtx ((pts h).map pos) (i + k) := by
      intro k k0 k1
      have : (i + k).toNat < (pts h).length := by omega
      simp only [q, vtx, List.getElem?_map, List.getElem?_eq_getElem this, Option.getD_some, Option.map_some]
    obtain ⟨k, e, k0, k1, k2, k3⟩ := C03_maxOffset (fun a b p => Fl.fin (w a b p)) (Coords.sub (pts h) i j) q (by omega) hq
      (fun s _ _ => by rw [Fl.fin_le_fin]; exact decide_eq_true (hw _ _ _).1)
    have hoff : ∀ s, 0 < s → s < j - i → |w (q 0) (q ((Coords.sub (pts h) i j).len - 1)) (q s) - offsetOf ((pts h).map pos) i j (i + s)| ≤ δ := by
      intro s s0 s1
      have := (hw (q 0) (q ((Coords.sub (pts h) i j).len - 1)) (q s)).2
      rw [hv s s0.le (by omega), hv 0 le_rfl (by omega), hv _ (by omega) (by omega), l1, show i + (j - i + 1 - 1) = j by omega, show i + 0 = i by omega] at this
      rw [l1]
      exact this
    have hle : ∀ s, 0 < s → s < j - i → w (q 0) (q ((Coords.sub (pts h) i j).len - 1)) (q s) ≤ w (q 0) (q ((Coords.sub (pts h) i j).len - 1)) (q k) := by
      intro s s0 s1
      have := k2 s s0 (by omega)
      rwa [Fl.fin_le_fin, decide_eq_true_iff] at this
    have hk := abs_le.1 (hoff k (by omega) (by omega))
    refine ⟨k, _, e, ?_, fun _ hc => ?_⟩
    · rw [hr.rel]
      rcases hd.tolerance i j h0 hn (by simpa using h2) with hc | hc
      · have hnt : Near t ((pts h).map pos) i j := fun l l0 l1 => (hc l l0 l1).trans (by simp only [rulesOf]; linarith)
        refine ⟨fun _ => hnt, fun _ => ?_⟩
        have := hc (i + k) (by omega) (by omega)
        simp only [rulesOf] at this
        linarith
      · have hnt : ¬ Near t ((pts h).map pos) i j := fun hnt => hc (fun l l0 l1 => (hnt l l0 l1).trans (by simp only [rulesOf]; linarith))
        refine ⟨fun hwk => absurd (fun l l0 l1 => ?_) hc, fun hnt' => absurd hnt' hnt⟩
        have h3 := hle (l - i) (by omega) (by omega)
        have h4 := abs_le.1 (hoff (l - i) (by omega) (by omega))
        rw [show i + (l - i) = l by omega] at h4
        simp only [rulesOf]
        linarith
    · obtain ⟨b, b0, b1, b2⟩ := hd.farthest i j h0 hn (by simpa using h2) hc
      have hkb : i + k = b := by
        by_contra hne
        have h3 := hle (b - i) (by omega) (by omega)
        have h4 := abs_le.1 (hoff (b - i) (by omega) (by omega))
        rw [show i + (b - i) = b by omega] at h4
        have := b2 (i + k) (by omega) (by omega) hne
        linarith
      rw [hkb]
      refine ⟨b0, b1, fun l l0 l1 => ?_, fun l l0 l1 => ?_⟩
      · by_cases hlb : l = b
        · rw [hlb]
        · have := b2 l l0 l1 hlb; linarith
      · have := b2 l (by omega) l1 (by omega); linarith
  · refine ⟨_, _, C03_maxOffset_short _ _ (by omega), ?_, fun hc => absurd hc hn⟩
    exact ⟨fun _ k k0 k1 => by omega, fun _ => (hr.rel 0).2 ht⟩

/-- the test for sidedness -/
theorem RoundRun.side (hr : RoundRun pos inner outer region env h cs τ ε ρ δ t m)
    (hd : ClearOf (τ + 4 * ε) inner outer region cs (rulesOf region (env.inst h).opts cs t m) ((pts h).map pos)) (hside : (env.inst h).opts.dirRelation = true)
    {nd : Node P C EReal} (hk : Known env pts [h] nd) {ctx : List (Geo P C)} (hctx : ∀ g, g ∈ ctx ↔ g ∈ cs.map Geo.ctx) :
    Yields (isDirRelateValid env.lib nd ctx) true ↔ SideOK {s | ∃ g ∈ cs, region g = s} (between ((pts h).map pos) nd.range.I nd.range.J) := by
  obtain ⟨p1, p2⟩ := known_points hk
  have hx := hr.setting.blurred
  obtain ⟨-, k2, k3, -, -⟩ := hx.known hk
  have hbet : between ((pts h).map pos) nd.range.I nd.range.J = places pos (pts h) nd.range.I nd.range.J := by
    simp only [places, between, List.map_take, List.map_drop]
  have hz : nd.coords.points.map pos = places pos (pts h) nd.range.I nd.range.J := by rw [p1]; rfl
  have hlo := hk.lo
  have hlt := hk.lt
  have hhi := hk.hi
  have hins : nd.inst = h := by simpa using hk.inst
  rw [hins] at hhi
  have hpl : 2 ≤ nd.coords.points.length := by
    rw [p1, between, List.length_take, List.length_drop]; omega
  have hms := fun g hg => hd.meets (.inr hside) g hg nd.range.I nd.range.J hlo hlt (by simpa using hhi)
  simp only [hbet] at hms
  rw [hbet]
  have c1 : ∀ g ∈ cs, (env.lib.intersects (.seg nd.coords) (.ctx g) = true ↔ (chordSet (places pos (pts h) nd.range.I nd.range.J) ∩ region g).Nonempty) := by
    intro g hg
    rw [hr.sees (by rw [k3]; exact (hms g hg).1), k3]
  have c2 : ∀ g ∈ cs, (env.lib.intersects (.line nd.coords) (.ctx g) = true ↔ (lineSet (places pos (pts h) nd.range.I nd.range.J) ∩ region g).Nonempty) := by
    intro g hg
    rw [hr.sees (by rw [k2]; exact (hms g hg).2), k2]
  have hdef : isDirRelateValid env.lib nd ctx = Homotopy.homotopy env.lib nd.coords ctx := rfl
  rw [hdef, Homotopy.homotopy_pull hx.boxes (fun p => (hx.equals2D p p).2 rfl) p2.length hpl (fun k hk => p2.pt_get hk)]
  have hmeet : (∀ g ∈ ctx, env.lib.intersects (.seg nd.coords) g = env.lib.intersects (.line nd.coords) g) ↔
      ∀ s ∈ {s | ∃ g ∈ cs, region g = s}, (chordSet (places pos (pts h) nd.range.I nd.range.J) ∩ s).Nonempty ↔ (lineSet (places pos (pts h) nd.range.I nd.range.J) ∩ s).Nonempty := by
    simp only [hctx, Set.mem_ofPred_eq, List.mem_map, forall_exists_index, and_imp, forall_apply_eq_imp_iff₂]
    refine forall₂_congr fun g hg => ?_
    rw [Bool.eq_iff_iff, c1 g hg, c2 g hg]
  rw [SideOK, hmeet]
  refine and_congr_right fun hm => ?_
  have hvz : ∀ x ∈ nd.coords.points, pos x ∈ (pts h).map pos := by
    intro x hx
    rw [p1] at hx
    exact List.mem_map_of_mem (List.mem_of_mem_drop (List.mem_of_mem_take hx))
  have hfree : ∀ x ∈ nd.coords.points, ∀ y ∈ nd.coords.points, ∀ z ∈ nd.coords.points, (SweepsNothing env.lib nd.coords ctx x y z ↔
      FreeOf {s | ∃ g ∈ cs, region g = s} (places pos (pts h) nd.range.I nd.range.J) (pos x) (pos y) (pos z)) := by
    intro x hx y hy z hz
    simp only [SweepsNothing, hctx, FreeOf, Set.mem_ofPred_eq, List.mem_map, forall_exists_index, and_imp, forall_apply_eq_imp_iff₂]
    refine forall₂_congr fun g hg => ?_
    have e1 : env.lib.intersects (.seg nd.coords) (.ctx g) = false ↔ ¬ (chordSet (places pos (pts h) nd.range.I nd.range.J) ∩ region g).Nonempty := by
      rw [← Bool.not_eq_true, c1 g hg]
    have e2 : env.lib.intersects (.line nd.coords) (.ctx g) = false ↔ ¬ (lineSet (places pos (pts h) nd.range.I nd.range.J) ∩ region g).Nonempty := by
      rw [← Bool.not_eq_true, c2 g hg]
    have e3 : env.lib.intersects (Homotopy.triangle x y z) (.ctx g) = false ↔ ¬ (convexHull ℝ {pos x, pos y, pos z} ∩ region g).Nonempty := by
      have hs : shape pos region (Homotopy.triangle (C := C) x y z) = convexHull ℝ {pos x, pos y, pos z} := by
        rw [triangle_shape, hullSet]; congr 1; ext w; simp
      rw [← Bool.not_eq_true, hr.sees (by rw [hs]; exact hd.triangles hside g hg _ (hvz x hx) _ (hvz y hy) _ (hvz z hz)), hs]
    rw [e1, e2, e3, hm _ ⟨g, hg, rfl⟩]
    tauto
  constructor
  · rintro ⟨x, y, hp⟩
    have := hp.map (free := FreeOf {s | ∃ g ∈ cs, region g = s} (places pos (pts h) nd.range.I nd.range.J)) pos hfree
    rw [hz] at this
    exact ⟨_, _, this⟩
  · rintro ⟨x, y, hp⟩
    obtain ⟨r, hr⟩ := Pull.exists (SweepsNothing env.lib nd.coords ctx) nd.coords.points
    have := hr.map (free := FreeOf {s | ∃ g ∈ cs, region g = s} (places pos (pts h) nd.range.I nd.range.J)) pos hfree
    rw [hz] at this
    have := congrArg List.length (this.unique hp)
    match r, this with
    | [a, b], _ => exact ⟨a, b, hr⟩

/-- the verdict of the code is `Allowed` -/
theorem RoundRun.allowed (hr : RoundRun pos inner outer region env h cs τ ε ρ δ t m)
    (hd : ClearOf (τ + 4 * ε) inner outer region cs (rulesOf region (env.inst h).opts cs t m) ((pts h).map pos)) (hi : InstOK env h (pts h))
    {nd : Node P C EReal} (hk : Known env pts [h] nd) :
    ∃ b, Yields (validateContextRelation env nd (env.inst h)) b ∧
      (b = true ↔ Allowed (rulesOf region (env.inst h).opts cs t m) (between ((pts h).map pos) nd.range.I nd.range.J)) := by
  have hs := hr.setting
  have hrough := hs.ctxRough (pts := pts)
  obtain ⟨p1, p2⟩ := known_points hk
  obtain ⟨t1, t2, t3⟩ := hs.tol
  obtain ⟨-, k2, k3, k4, -⟩ := hs.blurred.known hk
  have hbet : between ((pts h).map pos) nd.range.I nd.range.J = places pos (pts h) nd.range.I nd.range.J := by
    simp only [places, between, List.map_take, List.map_drop]
  have hlo := hk.lo
  have hlt := hk.lt
  have hhi := hk.hi
  have hins : nd.inst = h := by simpa using hk.inst
  rw [hins] at hhi
  have hpl : 2 ≤ nd.coords.points.length := by
    rw [p1, between, List.length_take, List.length_drop]; omega
  have hmem : ∀ g, g ∈ (Hdb.contents (env.inst h).ctxdb).map Node.geom ↔ g ∈ cs.map Geo.ctx := fun g => hs.indexed.geoms.mem_iff
  obtain ⟨b, hb, tested, htest, hleft, hbt⟩ := C32_validate_rough env hs.heap (env.inst h) hi.ctx nd (hrough.reach nd hk) p2.length hpl (fun k hk => p2.pt_get hk) hrough.refl
    (fun g hg hl => by rw [p1]; exact hrough.away nd hk g hg hl)
  refine ⟨b, hb, hbt.trans ?_⟩
  refine and_congr (imp_congr_right fun ho => ?_) (and_congr (imp_congr_right fun ho => ?_) (imp_congr_right fun ho => ?_))
  · rw [C26_geom_iff]
    simp only [hmem, rulesOf, Set.mem_ofPred_eq, List.mem_map, forall_exists_index, and_imp, forall_apply_eq_imp_iff₂]
    refine forall₂_congr fun g hg => ?_
    have hms := hd.meets (.inl ho) g hg nd.range.I nd.range.J hlo hlt (by simpa using hhi)
    rw [hbet] at hms ⊢
    rw [Bool.eq_iff_iff, hr.sees (by rw [k3]; exact hms.1), hr.sees (by rw [k2]; exact hms.2), k2, k3]
  · rw [C27_dist_iff]
    simp only [rulesOf, Set.mem_ofPred_eq, forall_exists_index, and_imp, forall_apply_eq_imp_iff₂]
    have key : ∀ g ∈ cs, ((env.inst h).opts.minDist.le (env.lib.distance (.seg nd.coords) (.ctx g)) = true ∨ (env.lib.distance (.line nd.coords) (.ctx g)).lt (env.inst h).opts.minDist = true) ↔
        (m ≤ gap (chordSet (between ((pts h).map pos) nd.range.I nd.range.J)) (region g) ∨ gap (lineSet (between ((pts h).map pos) nd.range.I nd.range.J)) (region g) < m) := by
      intro g hg
      have hne := hs.blurred.nonempty g
      obtain ⟨x, ex, hx⟩ := hs.blurred.distance (.seg nd.coords) (.ctx g) (by rw [k3]; exact chordSet_nonempty k4) hne
      obtain ⟨y, ey, hy⟩ := hs.blurred.distance (.line nd.coords) (.ctx g) (by rw [k2]; exact lineSet_nonempty k4) hne
      rw [k3] at hx
      rw [k2] at hy
      simp only [shape] at hx hy
      have hx := abs_le.1 hx
      have hy := abs_le.1 hy
      have hds := hd.distances ho g hg nd.range.I nd.range.J hlo hlt (by simpa using hhi)
      rw [hbet] at hds ⊢
      simp only [rulesOf] at hds
      obtain ⟨d1, d2⟩ := hds
      rw [hs.minDist, ex, ey, Fl.fin_le_fin, decide_eq_true_eq]
      have hlty : (Fl.fin y).lt (.fin m) = true ↔ y < m := by simp [Fl.lt]
      rw [hlty]
      refine or_congr ⟨fun h1 => ?_, fun h1 => ?_⟩ ⟨fun h1 => ?_, fun h1 => ?_⟩
      · rcases d1 with d1 | d1 <;> linarith
      · rcases d1 with d1 | d1 <;> linarith
      · rcases d2 with d2 | d2 <;> linarith
      · rcases d2 with d2 | d2 <;> linarith
    constructor
    · intro hv g hg
      by_cases hgt : Geo.ctx g ∈ tested
      · exact (key g hg).1 (hv _ hgt)
      · left
        have hl := hleft _ ((hmem _).2 (List.mem_map_of_mem hg)) hgt
        have h1 := hs.left_out hk (g := g) hl
        have h2 := gap_mono (t := region g) (chordSet_subset_hullSet (places pos (pts h) nd.range.I nd.range.J)) (fun _ h => h) (chordSet_nonempty k4) (hs.blurred.nonempty g)
        have hds := (hd.distances ho g hg nd.range.I nd.range.J hlo hlt (by simpa using hhi)).1
        rw [hbet] at hds ⊢
        simp only [rulesOf] at hds
        rcases hds with hds | hds <;> linarith
    · intro hv g' hg'
      obtain ⟨g, hg, rfl⟩ := List.mem_map.1 ((hmem _).1 (htest _ hg'))
      exact (key g hg).2 (hv g hg)
  · exact hr.side hd ho hk hmem

/-- the code follows the procedure -/
theorem RoundRun.follows (hr : RoundRun pos inner outer region env h cs τ ε ρ δ t m)
    (hd : Decided δ (τ + 4 * ε) inner outer region cs (rulesOf region (env.inst h).opts cs t m) ((pts h).map pos)) (hi : InstOK env h (pts h)) :
    Follows (rulesOf region (env.inst h).opts cs t m) ((pts h).map pos) env pts h where
  length := (List.length_map _).symm
  scores i j h0 h1 h2 := hr.scores hd h0 h1 (by simpa using h2)
  straight nd hk := by
    have := Exact.straight (env := { env with lib := sharpest pos region env.lib }) hr.setting.blurred.exact (pts := pts) (h := h)
      ⟨hk.inst, ⟨hk.piece.coords, hk.piece.geom, hk.piece.mbr, hk.piece.inst⟩, hk.lo, hk.lt, hk.hi⟩
    rw [this]
    simp only [places, between, List.map_take, List.map_drop]
  allowed nd hk := hr.allowed hd.toClearOf hi hk

variable {ids : Nat → Int}

/-- **C122, one run.**  In a run with rounding errors smaller than the margins of the decisions, the vertices kept are those that the procedure of plane geometry prescribes. -/
theorem C122_run (he : EnvOK env) (hl : LnrOK env.lnr) (hi : InstOK env h (pts h)) (hinj : Function.Injective ids)
    (hr : RoundRun pos inner outer region env h cs τ ε ρ δ t m)
    (hd : Decided δ (τ + 4 * ε) inner outer region cs (rulesOf region (env.inst h).opts cs t m) ((pts h).map pos))
    (hself : (env.inst h).opts.planarSelf = false) (hav : (env.inst h).opts.avoidNewSelfIntersects = false) {cv : List Int} (hcv : ∀ i ∈ cv, 0 ≤ i ∧ i < (pts h).length) {dirty dirty' : Int → Bool} {fuel : Nat}
    {out : Out P C EReal} (e : simplify env ids h cv dirty fuel = .ok (out, dirty')) (junction : Int → Prop) :
    ∃ rs, Procedure (rulesOf region (env.inst h).opts cs t m) junction ((pts h).map pos) rs ∧ Chain 0 ((pts h).length - 1) rs ∧
      (out.hulls.map Node.range).Perm rs ∧ out.simple.Pairwise (· < ·) ∧ ∀ v, v ∈ out.simple ↔ EndOf rs v := by
  obtain ⟨rs, h1, h2, h3, h4, h5⟩ := C107_run he hl hi hr.touching hinj hav hcv (fun hp => by rw [hself] at hp; cases hp) e
  refine ⟨rs, (hr.follows hd hi).procedure hi (fun v => ?_) h1, h2, h3, h4, h5⟩
  simp [FixedVertex, Must, rulesOf, hself]

end

end Planar

/-! ### the program -/

section
variable {P C : Type} {pos : P → ℂ} {inner outer region : C → Set ℂ} {τ ε ρ δ t m e : ℝ}
open Planar

theorem Engine.roundRun {E : Engine P C EReal ℝ} {o : Opts ℝ} {kind : Io.OffsetKind} {ctx : List C} {lines : List (List P)} {fs : List (Inst P C EReal ℝ)}
    (hf : Forest E o kind ctx lines fs) (hx : Blurred ε ρ pos inner outer region E.lib) (hin : ∀ g, inner g ⊆ region g ∧ region g ⊆ outer g) (hh : E.heap.Legal (within τ))
    (hτ : 0 ≤ τ ∧ 0 ≤ ε ∧ τ + 3 * ε + ρ ≤ m) (he : ε ≤ e) (heps : E.eps = .fin e)
    (hsc : ∃ d : P → P → P → ℝ, (∀ a b p, 0 ≤ d a b p ∧ |d a b p - gap {pos p} (segment ℝ (pos a) (pos b))| ≤ δ) ∧ E.score kind = maxOffset (fun a b p => .fin (d a b p)))
    (ht : o.threshold = .fin t) (ht0 : 0 ≤ t) (hδ : 0 ≤ δ) (hm : o.minDist = .fin m)
    {k : Nat} {l : List P} (hlk : lines[k]? = some l) : RoundRun pos inner outer region (E.env o kind fs) k ctx τ ε ρ δ t m := by
  obtain ⟨e1, e2, e3, e4⟩ := hf.inst hlk
  obtain ⟨d, hd, hsc⟩ := hsc
  refine ⟨⟨hx, hh, hτ, by rw [e1]; exact hm, ?_⟩, hin, ⟨e, he, heps⟩, fun x => ?_, ⟨ht0, hδ⟩, ⟨d, hd, by rw [e2, hsc]⟩⟩
  · have := e4.map (fun nd => (nd.geom, nd.mbr))
    rw [List.map_map] at this
    exact this
  · rw [e3, ht]
    exact decide_eq_true_iff

/-- the vertices saved of a line are those prescribed, if all decisions on the line are made with room to spare -/
def PrescribedIf (sure : List ℂ → Prop) (pos : P → ℂ) (R : Rules) (l q : List P) : Prop :=
  sure (l.map pos) → q = verticesAt l (Io.prescribed R [] (l.map pos))

theorem Engine.rounded {E : Engine P C EReal ℝ} {o : Opts ℝ} {kind : Io.OffsetKind} {ctx : List C} {lines : List (List P)} (h : E.OK o kind lines)
    (hx : Blurred ε ρ pos inner outer region E.lib) (hin : ∀ g, inner g ⊆ region g ∧ region g ⊆ outer g) (hh : E.heap.Legal (within τ))
    (hτ : 0 ≤ τ ∧ 0 ≤ ε ∧ τ + 3 * ε + ρ ≤ m) (he : ε ≤ e) (heps : E.eps = .fin e)
    (hsc : ∃ d : P → P → P → ℝ, (∀ a b p, 0 ≤ d a b p ∧ |d a b p - gap {pos p} (segment ℝ (pos a) (pos b))| ≤ δ) ∧ E.score kind = maxOffset (fun a b p => .fin (d a b p)))
    (ht : o.threshold = .fin t) (ht0 : 0 ≤ t) (hδ : 0 ≤ δ) (hm : o.minDist = .fin m) (hself : o.planarSelf = false) (hav : o.avoidNewSelfIntersects = false) :
    E.Guarantees o kind ctx lines (PrescribedIf (Decided δ (τ + 4 * ε) inner outer region ctx (rulesOf region o ctx t m)) pos (rulesOf region o ctx t m)) := by
  refine h.guarantees _ (fun fs hf hc k l hl hlk hp hmem hi hinj => ?_)
  have hr := Engine.roundRun (ctx := ctx) hf hx hin hh hτ he heps hsc ht ht0 hδ hm hlk
  obtain ⟨e1, -, -, -⟩ := hf.inst hlk
  have fin : ∀ {s : List Int} {rs : List Rng}, s.Pairwise (· < ·) → Procedure (rulesOf region o ctx t m) (Junction [] (l.map pos)) (l.map pos) rs → (∀ v, v ∈ s ↔ EndOf rs v) →
      verticesAt l s = verticesAt l (Io.prescribed (rulesOf region o ctx t m) [] (l.map pos)) := by
    intro s rs h1 h2 h3
    rw [Io.Prescribes.eq ⟨h1, rs, h2, h3⟩]
  refine ⟨fun dirty fuel out d hs hk hd => ?_, fun dirty fuel res out hs hm' hk hd => ?_⟩
  · obtain ⟨rs, c1, -, -, c3, c2⟩ := C122_run (pts := fun _ => l) (env := E.env o kind fs) hc.envOK hc.lnrOK hi hinj hr (by rw [e1]; exact hd) (by rw [e1]; exact hself) (by rw [e1]; exact hav) (cv := [])
      (by simp) hs (Junction [] (l.map pos))
    rw [e1] at c1
    exact fin c3 c1 c2
  · have hav' : ∀ x ∈ Engine.handles lines.length, ((E.env o kind fs).inst x).opts.avoidNewSelfIntersects = false := by
      intro x hxm
      obtain ⟨n, hn', rfl⟩ := List.mem_map.1 hxm
      rw [(hf.inst (List.getElem?_eq_getElem (List.mem_range.1 hn'))).1]
      exact hav
    obtain ⟨js, j1, j2, j3, j4⟩ := fcJunctions_ok hc.lnrOK hc.inst hc.distinct o.planarSelf
    obtain ⟨-, a2⟩ := C105_alone hc hav' o j1 hs
    obtain ⟨own, y, q, sm⟩ := a2 _ hm'
    obtain ⟨N, y⟩ := y (fun _ => false)
    have y := y N (Nat.le_refl _)
    simp only [] at hp y sm
    have j4' := j4 k hmem
    simp only [hp] at j4'
    obtain ⟨rs, c1, -, -, c3, c2⟩ := C122_run (pts := fun _ => l) (env := E.env o kind fs) hc.envOK hc.lnrOK hi hinj hr (by rw [e1]; exact hd) (by rw [e1]; exact hself) (by rw [e1]; exact hav) j4' y
      (Junction [] (l.map pos))
    rw [e1] at c1
    rw [sm]
    exact fin c3 c1 c2

end

namespace Io

open Verif.Text Verif.Planar

section
variable {P C Props : Type}

/-- **C122 for the program.**  Distances and offsets are computed with errors, the test for common points may go wrong near the border of a constraint, the queue of the index
may hand out a somewhat farther entry first.  Every line on which all decisions are made with room to spare is saved with the vertices that the exact procedure of C120
prescribes. -/
theorem C122_program (w : World (Fl ℝ) P Props C) (E : Engine P C EReal ℝ) (b f : Str) {obj : ArgObj (Fl ℝ)} {kind : OffsetKind}
    {docs : List (Doc (Fl ℝ))} {ctx : List C} (hr : Reads w b f obj kind docs ctx) (hord : ∀ l, (w.enc.ord l).Perm l) (hlen : docs.length ≤ maxInt)
    (hd : ∀ d ∈ docs, HasGeometry d ∧ docParts d ≠ [] ∧ ∀ x ∈ docParts d, x.1 ≤ maxInt ∧ (x.2.1 = ['n', 'u', 'l', 'l'] ∨ (w.enc.unmarshal x.2.1).isSome))
    (hE : E.OK (E.opts (optsFromCfg obj)) kind (docs.flatMap (fun d => (docParts d).map (fun x => x.2.2.map E.toPoint))))
    {pos : P → ℂ} {inner outer region : C → Set ℂ} {τ ε ρ δ t m e : ℝ} (hx : Blurred ε ρ pos inner outer region E.lib) (hin : ∀ g, inner g ⊆ region g ∧ region g ⊆ outer g)
    (hh : E.heap.Legal (within τ)) (hτ : 0 ≤ τ ∧ 0 ≤ ε ∧ τ + 3 * ε + ρ ≤ m) (he : ε ≤ e) (heps : E.eps = .fin e) (hname : trim obj.simplificationType ∈ dpNames)
    (hsc : ∃ d : P → P → P → ℝ, (∀ a b p, 0 ≤ d a b p ∧ |d a b p - gap {pos p} (segment ℝ (pos a) (pos b))| ≤ δ) ∧ E.score .maxOffset = maxOffset (fun a b p => .fin (d a b p)))
    (ht : obj.threshold = .fin t) (ht0 : 0 ≤ t) (hδ : 0 ≤ δ) (hm : obj.minDist = .fin m) (hself : obj.planarSelf = false) (hav : obj.avoidNewSelfIntersects = false) :
    ∃ out N, (∀ fuel ≥ N, main (program w E fuel) b f = .saved (trim obj.output) (out.map w.marshal)) ∧
      List.Forall₂ (WrittenAs (fun l q => Decided δ (τ + 4 * ε) inner outer region ctx (rulesAsked region obj ctx t m) (l.map pos) →
        q = verticesAt l (prescribed (rulesAsked region obj ctx t m) [] (l.map pos))) w.enc E.toPoint) docs out := by
  obtain rfl := hr.dp hname
  exact program_lines w E b f hr hord hlen hd hE (Engine.rounded hE hx hin hh hτ he heps hsc ht ht0 hδ hm hself hav)

end

end Io

/-! ### concrete case: the bump with the obstacle at its top, with wrong distances, wrong offsets and near misses reported -/

namespace Planar

/-- the top of the bump -/
def bumpTop : Region := ⟨{⟨5, 2⟩}, ⟨_, rfl⟩⟩

noncomputable def toppedOpts : Opts ℝ :=
  { threshold := .fin 5, sqThreshold := .fin 5, minDist := .fin (1 / 2), nonPlanarDisplacement := .fin 1, planarSelf := false,
    nonPlanarSelf := false, avoidNewSelfIntersects := false, geomRelation := true, distRelation := false, dirRelation := false }

noncomputable def toppedLine : Demo.Line ℂ Region ℝ := ⟨lowBump, [bumpTop], toppedOpts⟩

/-- the library of C113, and offsets that are too large by 1/10 -/
noncomputable def toppedEnv : Env ℂ Region EReal ℝ :=
  Demo.env blurredLib exactLnr (fun a b p => .fin (gap {p} (segment ℝ a b) + 1 / 10)) (.fin (1 / 20)) (fun _ => toppedLine)

theorem topped_rules : rulesOf (fun r : Region => r.1) toppedOpts [bumpTop] 5 (1 / 2) = topped := by
  simp only [rulesOf, toppedOpts, topped, Rules.mk.injEq, true_and, and_true]
  ext s
  simp [bumpTop, eq_comm]

theorem topped_decided : Decided (1 / 10) (0 + 4 * (1 / 20)) (fun r : Region => r.1) around (fun r : Region => r.1) [bumpTop] topped lowBump := by
  have hij : ∀ i j : Int, 0 ≤ i → i < j → j < lowBump.length → (i = 0 ∧ j = 1) ∨ (i = 1 ∧ j = 2) ∨ (i = 0 ∧ j = 2) := by
    intro i j h0 h1 h2
    simp only [lowBump, List.length_cons, List.length_nil] at h2
    omega
  refine ⟨⟨fun _ g hg i j h0 h1 h2 => ?_, fun h => by simp [topped] at h, fun h => by simp [topped] at h⟩, fun i j h0 h1 h2 => ?_,
    fun i j h0 h1 h2 _ => ⟨i + 1, by omega, by omega, fun l l0 l1 hl => ?_⟩⟩
  rotate_left
  · rcases hij i j h0 (by omega) h2 with ⟨rfl, rfl⟩ | ⟨rfl, rfl⟩ | ⟨rfl, rfl⟩
    · omega
    · omega
    · exact .inl (fun k k0 k1 => (lowBump_near k k0 k1).trans (by norm_num [topped]))
  · rcases hij i j h0 (by omega) h2 with ⟨rfl, rfl⟩ | ⟨rfl, rfl⟩ | ⟨rfl, rfl⟩ <;> omega
  · obtain rfl : g = bumpTop := by simpa using hg
    have far : ∀ S : Set ℂ, S ⊆ {z : ℂ | z.im ≤ 0} → ¬ (S ∩ around bumpTop).Nonempty := by
      rintro S hS ⟨z, hz, w, hw, hd⟩
      obtain rfl : w = ⟨5, 2⟩ := hw
      have h1 := hS hz
      have h2 := Complex.abs_im_le_norm (z - ⟨5, 2⟩)
      rw [← dist_eq_norm] at h2
      have h3 := neg_abs_le (z - (⟨5, 2⟩ : ℂ)).im
      simp only [Complex.sub_im, Set.mem_ofPred_eq] at h1 h2 h3
      linarith
    rcases hij i j h0 (by omega) h2 with ⟨rfl, rfl⟩ | ⟨rfl, rfl⟩ | ⟨rfl, rfl⟩
    · exact ⟨fun _ => ⟨⟨5, 2⟩, ⟨⟨0, 0⟩, ⟨5, 2⟩, rfl, rfl, right_mem_segment ℝ _ _⟩, rfl⟩, fun _ => ⟨⟨5, 2⟩, .inl (right_mem_segment ℝ _ _), rfl⟩⟩
    · exact ⟨fun _ => ⟨⟨5, 2⟩, ⟨⟨5, 2⟩, ⟨10, 0⟩, rfl, rfl, left_mem_segment ℝ _ _⟩, rfl⟩, fun _ => ⟨⟨5, 2⟩, .inl (left_mem_segment ℝ _ _), rfl⟩⟩
    · refine ⟨fun hn => absurd hn (far _ ?_), fun _ => ⟨⟨5, 2⟩, .inl (right_mem_segment ℝ _ _), rfl⟩⟩
      rintro z ⟨a, b, ha, hb, hz⟩
      cases ha; cases hb
      exact (convex_halfSpace_im_le 0).segment_subset (x := ⟨0, 0⟩) (y := ⟨10, 0⟩) (by simp) (by simp) hz

/-- in spite of the errors the bump is cut at its top, as prescribed, and keeps all its vertices -/
example : ∃ fuel out d, simplify toppedEnv (fun n => n) 0 [] (fun _ => false) fuel = .ok (out, d) ∧ out.simple = [0, 1, 2] := by
  have he : EnvOK toppedEnv := Demo.env_ok exactLib_point
  have hl : LnrOK toppedEnv.lnr := exactLnr_ok (lines := fun _ => toppedLine)
  have hi : InstOK toppedEnv 0 ((fun _ => lowBump) (0 : Int)) :=
    Demo.inst_ok (lines := fun _ => toppedLine) (by simp [toppedLine, lowBump])
      (fun a b p => by have := gap_nonneg {p} (segment ℝ a b); simp only [Fl.fin_le_fin, decide_eq_true_eq]; linarith)
      (by simp [toppedLine, toppedOpts, Fl.fin_le_fin]) (Exact.hulls (env := exactEnv (fun _ => toppedLine)) exactLib_exact _)
  have hinj : Function.Injective (fun n : Nat => (n : Int)) := fun a b h => by simpa using h
  have hr : RoundRun id (fun r : Region => r.1) around (fun r : Region => r.1) toppedEnv 0 [bumpTop] 0 (1 / 20) (1 / 20) (1 / 10) 5 (1 / 2) := by
    refine ⟨⟨blurredLib_blurred, (exactSetting (lines := fun _ => peakLine) (h := 0) (m := 1 / 2) (by norm_num) rfl).heap, by norm_num, rfl, ?_⟩,
      fun g => ⟨fun _ h => h, fun z hz => ⟨z, hz, by simp⟩⟩, ⟨1 / 20, le_rfl, rfl⟩, fun x => ?_, by norm_num, ?_⟩
    · have := (Demo.ctxdb_spec blurredLib 0 [bumpTop]).2.map (fun nd : Node ℂ Region EReal => (nd.geom, nd.mbr))
      rw [List.map_map] at this
      exact this
    · simp only [Inst.rel, relationOf, squareScoreRelation, toppedEnv, Demo.env, toppedLine, toppedOpts, Fl.fin_le_fin, decide_eq_true_eq]
    · refine ⟨fun a b p => gap {p} (segment ℝ a b) + 1 / 10, fun a b p => ⟨by have := gap_nonneg {p} (segment ℝ a b); linarith, ?_⟩, rfl⟩
      simp only [id_eq, add_sub_cancel_left]
      norm_num
  obtain ⟨⟨out, d⟩, N, hy⟩ := C10_terminates (pts := fun _ => lowBump) (cv := []) he hl hi hinj (by simp) (fun _ => false)
  have hopt : (toppedEnv.inst 0).opts = toppedOpts := rfl
  have hd : Decided (1 / 10) (0 + 4 * (1 / 20)) (fun r : Region => r.1) around (fun r : Region => r.1) [bumpTop]
      (rulesOf (fun r : Region => r.1) (toppedEnv.inst 0).opts [bumpTop] 5 (1 / 2)) (lowBump.map id) := by
    rw [hopt, topped_rules, List.map_id]; exact topped_decided
  obtain ⟨rs, c1, -, -, c2, c3⟩ := C122_run (pts := fun _ => lowBump) he hl hi hinj hr hd rfl rfl (by simp) (hy N le_rfl) (fun _ => False)
  rw [hopt, topped_rules, List.map_id] at c1
  cases c1.unique (topped_bump _)
  refine ⟨N, out, d, hy N le_rfl, List.Pairwise.eq_of_mem_iff c2 (by decide) (fun v => (c3 v).trans ?_)⟩
  simp only [EndOf, List.mem_cons, List.not_mem_nil, or_false, exists_eq_or_imp, exists_eq_left]
  omega

end Planar

end Verif
