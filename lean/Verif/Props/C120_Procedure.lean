import Verif.Props.C108_Similar
import Verif.Props.C105_ClassAlone
import Verif.Props.C118_Displaced
import Verif.Lemmas.Pull

/-! C120: the saved file is what a procedure of plane geometry prescribes. -/

set_option linter.unusedSectionVars false

namespace Verif
namespace Planar

/-! ### specification -/

/-- what is asked for -/
structure Rules where
  tolerance : ℝ
  minDist : ℝ
  obstacles : Set (Set ℂ)
  /-- keep places the line visits twice -/
  keepSelf : Bool
  /-- keep the segments that cross each other -/
  keepCross : Bool
  geom : Bool
  dist : Bool
  side : Bool

/-- the vertex `k` -/
noncomputable def vtx (zs : List ℂ) (k : Int) : ℂ := zs[k.toNat]?.getD 0

/-- the distance of the vertex `k` from the segment between the vertices `i` and `j` -/
noncomputable def offsetOf (zs : List ℂ) (i j k : Int) : ℝ := gap {vtx zs k} (segment ℝ (vtx zs i) (vtx zs j))

/-- all vertices between `i` and `j` are within `t` of the segment -/
def Near (t : ℝ) (zs : List ℂ) (i j : Int) : Prop := ∀ k, i < k → k < j → offsetOf zs i j k ≤ t

/-- `k` is the last of the vertices between `i` and `j` that are farthest from the segment -/
def FarthestAt (zs : List ℂ) (i j k : Int) : Prop :=
  i < k ∧ k < j ∧ (∀ l, i < l → l < j → offsetOf zs i j l ≤ offsetOf zs i j k) ∧ ∀ l, k < l → l < j → offsetOf zs i j l < offsetOf zs i j k

/-- replace the sub-line by a segment if it is near, cut it at the farthest vertex otherwise -/
inductive Thinned (t : ℝ) (zs : List ℂ) : Int → Int → List Rng → Prop
  | keep (i j : Int) (h : Near t zs i j) : Thinned t zs i j [⟨i, j⟩]
  | cut (i j k : Int) (xs ys : List Rng) (h : ¬ Near t zs i j) (hk : FarthestAt zs i j k) (hx : Thinned t zs i k xs) (hy : Thinned t zs k j ys) : Thinned t zs i j (xs ++ ys)

/-- cut at the farthest vertex what is bad -/
inductive Cut (bad : Int → Int → Prop) (zs : List ℂ) : Int → Int → List Rng → Prop
  | keep (i j : Int) (h : ¬ bad i j) : Cut bad zs i j [⟨i, j⟩]
  | cut (i j k : Int) (xs ys : List Rng) (h : bad i j) (hk : FarthestAt zs i j k) (hx : Cut bad zs i k xs) (hy : Cut bad zs k j ys) : Cut bad zs i j (xs ++ ys)

/-- all places are on one segment, and there are two different ones -/
def Straight (zs : List ℂ) : Prop := ∃ a ∈ zs, ∃ b ∈ zs, a ≠ b ∧ ∀ z ∈ zs, z ∈ segment ℝ a b

/-- no obstacle that the line misses meets the triangle -/
def FreeOf (obstacles : Set (Set ℂ)) (zs : List ℂ) (x y z : ℂ) : Prop := ∀ s ∈ obstacles, ¬ (lineSet zs ∩ s).Nonempty → ¬ (convexHull ℝ {x, y, z} ∩ s).Nonempty

/-- the segment meets the same obstacles as the line, and pulling the line tight over triangles free of the other obstacles leaves only its ends -/
def SideOK (obstacles : Set (Set ℂ)) (zs : List ℂ) : Prop :=
  (∀ s ∈ obstacles, (chordSet zs ∩ s).Nonempty ↔ (lineSet zs ∩ s).Nonempty) ∧ ∃ a b, Pull (FreeOf obstacles zs) zs [a, b]

/-- the segment from the first to the last place may replace the line -/
def Allowed (R : Rules) (zs : List ℂ) : Prop :=
  (R.geom = true → ∀ s ∈ R.obstacles, (chordSet zs ∩ s).Nonempty ↔ (lineSet zs ∩ s).Nonempty) ∧
  (R.dist = true → ∀ s ∈ R.obstacles, R.minDist ≤ gap (chordSet zs) s ∨ gap (lineSet zs) s < R.minDist) ∧
  (R.side = true → SideOK R.obstacles zs)

/-- the vertices that must be kept: junctions, places visited twice, ends of segments that cross -/
def Must (R : Rules) (junction : Int → Prop) (zs : List ℂ) (v : Int) : Prop :=
  R.keepSelf = true ∧ (junction v ∨ ∃ k : Nat, v = k ∧ (Revisited id zs k ∨ (R.keepCross = true ∧ Crossed id zs k)))

/-- Specification: the whole procedure for one line.  Thin the line, keep what must be kept, cut what is not allowed unless it is straight, and then, from the first segment
to the last, join single segments with the next or the previous one where that is near and allowed and no vertex that must be kept is between. -/
def Procedure (R : Rules) (junction : Int → Prop) (zs : List ℂ) (out : List Rng) : Prop :=
  ∃ rs ms ls, Thinned R.tolerance zs 0 (zs.length - 1) rs ∧ Chain 0 (zs.length - 1) ms ∧ (∀ v, EndOf ms v ↔ EndOf rs v ∨ Must R junction zs v) ∧
    Each (fun r l => Cut (fun i j => i + 1 < j ∧ ¬ Straight (between zs i j) ∧ ¬ Allowed R (between zs i j)) zs r.I r.J l) ms ls ∧
    MergeSpec (Must R junction zs) (fun i j => Near R.tolerance zs i j ∧ Allowed R (between zs i j)) [] ls out

theorem FarthestAt.unique {zs : List ℂ} {i j k k' : Int} (h : FarthestAt zs i j k) (h' : FarthestAt zs i j k') : k = k' := by
  obtain ⟨a1, a2, a3, a4⟩ := h
  obtain ⟨b1, b2, b3, b4⟩ := h'
  rcases lt_trichotomy k k' with h | h | h
  · have := a4 k' h b2
    exact absurd (a3 k' b1 b2) (by have := b3 k a1 a2; linarith)
  · exact h
  · exact absurd (a3 k' b1 b2) (by have := b4 k h a2; linarith)

theorem Thinned.unique {t : ℝ} {zs : List ℂ} {i j : Int} {rs rs' : List Rng} (h : Thinned t zs i j rs) (h' : Thinned t zs i j rs') : rs = rs' := by
  induction h generalizing rs' with
  | keep i j h => cases h' with
    | keep => rfl
    | cut _ _ _ _ _ h' => exact absurd h h'
  | cut i j k xs ys h hk hx hy ihx ihy => cases h' with
    | keep _ _ h' => exact absurd h' h
    | cut _ _ k' xs' ys' _ hk' hx' hy' =>
      obtain rfl := hk.unique hk'
      rw [ihx hx', ihy hy']

theorem Cut.unique {bad : Int → Int → Prop} {zs : List ℂ} {i j : Int} {rs rs' : List Rng} (h : Cut bad zs i j rs) (h' : Cut bad zs i j rs') : rs = rs' := by
  induction h generalizing rs' with
  | keep i j h => cases h' with
    | keep => rfl
    | cut _ _ _ _ _ h' => exact absurd h' h
  | cut i j k xs ys h hk hx hy ihx ihy => cases h' with
    | keep _ _ h' => exact absurd h h'
    | cut _ _ k' xs' ys' _ hk' hx' hy' =>
      obtain rfl := hk.unique hk'
      rw [ihx hx', ihy hy']

/-- the procedure is a function of the places -/
theorem Procedure.unique {R : Rules} {junction : Int → Prop} {zs : List ℂ} {out out' : List Rng} (h : Procedure R junction zs out) (h' : Procedure R junction zs out') :
    out = out' := by
  obtain ⟨rs, ms, ls, a1, b1, c1, d1, e1⟩ := h
  obtain ⟨rs', ms', ls', a2, b2, c2, d2, e2⟩ := h'
  cases a1.unique a2
  cases b1.eq_of_ends b2 (fun v => (c1 v).trans (c2 v).symm)
  cases d1.unique (fun _ _ _ h1 h2 => h1.unique h2) d2
  exact e1.unique e2

/-! ### the tests of the code in terms of places -/

section
variable {P C : Type} {pos : P → ℂ} {region : C → Set ℂ} {env : Env P C EReal ℝ} {pts : Int → List P} {h : Int} {cs : List C} {t m : ℝ}

/-- the request of a run -/
def rulesOf (region : C → Set ℂ) (o : Opts ℝ) (cs : List C) (t m : ℝ) : Rules where
  tolerance := t
  minDist := m
  obstacles := {s | ∃ g ∈ cs, region g = s}
  keepSelf := o.planarSelf
  keepCross := o.nonPlanarSelf
  geom := o.geomRelation
  dist := o.distRelation
  side := o.dirRelation

/-- the score names the farthest vertex and is acceptable if the sub-line is near -/
theorem ExactRun.scores (hr : ExactRun pos region env h cs t m) (ht : 0 ≤ t) {i j : Int} (h0 : 0 ≤ i) (h1 : i < j) (h2 : j < (pts h).length) :
    ∃ k v, (env.inst h).scoreFn (Coords.sub (pts h) i j) = .ok (k, v) ∧ ((env.inst h).rel v = true ↔ Near t ((pts h).map pos) i j) ∧
      (i + 1 < j → FarthestAt ((pts h).map pos) i j (i + k)) := by
  obtain ⟨w, w0, hw, hrel, hsc⟩ := hr.score
  have p1 := points_sub (pts h) h0 h1.le h2
  have p2 := wellIndexed_sub (pts := pts h) h0 h2
  have l1 : (Coords.sub (pts h) i j).len = j - i + 1 := by
    rw [p2.length, p1, between, List.length_take, List.length_drop]; omega
  rw [hsc]
  by_cases hn : i + 1 < j
  · obtain ⟨p0⟩ : Nonempty P := ⟨(pts h)[0]'(by omega)⟩
    let q : Int → P := fun k => (pts h)[(i + k).toNat]?.getD p0
    have hq : ∀ k, 0 ≤ k → k < (Coords.sub (pts h) i j).len → (Coords.sub (pts h) i j).pt k = .ok (q k) := by
      intro k k0 k1
      rw [l1] at k1
      obtain ⟨n, rfl⟩ := Int.eq_ofNat_of_zero_le k0
      have a1 : n < (Coords.sub (pts h) i j).points.length := by have := p2.length; omega
      rw [p2.pt_get a1]
      have e1 : (Coords.sub (pts h) i j).points[n]? = (pts h)[(i + (n : Int)).toNat]? := by
        rw [p1, between, List.getElem?_take, if_pos (by omega), List.getElem?_drop]
        congr 1; omega
      rw [List.getElem?_eq_getElem a1] at e1
      simp only [q, ← e1, Option.getD_some]
    have hv : ∀ k, 0 ≤ k → k ≤ j - i → pos (q k) = vtx ((pts h).map pos) (i + k) := by
      intro k k0 k1
      have : (i + k).toNat < (pts h).length := by omega
      simp only [q, vtx, List.getElem?_map, List.getElem?_eq_getElem this, Option.getD_some, Option.map_some]
    have hw0 : ∀ x, 0 ≤ x → (0 : ℝ) ≤ w x := fun x hx => by rw [← w0]; exact (hw 0 x le_rfl hx).2 hx
    obtain ⟨k, e, k0, k1, k2, k3⟩ := C03_maxOffset (fun a b p => Fl.fin (w (gap {pos p} (segment ℝ (pos a) (pos b))))) (Coords.sub (pts h) i j) q (by omega) hq
      (fun s _ _ => by rw [Fl.fin_le_fin]; exact decide_eq_true (hw0 _ (gap_nonneg _ _)))
    have hoff : ∀ s, 0 ≤ s → s ≤ j - i → gap {pos (q s)} (segment ℝ (pos (q 0)) (pos (q ((Coords.sub (pts h) i j).len - 1)))) = offsetOf ((pts h).map pos) i j (i + s) := by
      intro s s0 s1
      rw [offsetOf, hv s s0 s1, hv 0 le_rfl (by omega), hv _ (by omega) (by omega), l1]
      congr 3 <;> omega
    have hle : ∀ s, 0 < s → s < j - i → offsetOf ((pts h).map pos) i j (i + s) ≤ offsetOf ((pts h).map pos) i j (i + k) := by
      intro s s0 s1
      have := k2 s s0 (by omega)
      rw [Fl.fin_le_fin, decide_eq_true_iff, hw _ _ (gap_nonneg _ _) (gap_nonneg _ _), hoff s (by omega) (by omega), hoff k (by omega) (by omega)] at this
      exact this
    refine ⟨k, _, e, ?_, fun _ => ⟨by omega, by omega, fun l hl hl' => ?_, fun l hl hl' => ?_⟩⟩
    · rw [hrel _ (gap_nonneg _ _), hoff k (by omega) (by omega)]
      constructor
      · intro hk l hl hl'
        have := hle (l - i) (by omega) (by omega)
        rw [show i + (l - i) = l by omega] at this
        exact this.trans hk
      · intro hk
        exact hk _ (by omega) (by omega)
    · have := hle (l - i) (by omega) (by omega)
      rwa [show i + (l - i) = l by omega] at this
    · have := k3 (l - i) (by omega) (by omega)
      rw [Fl.lt_iff_not_le (by simp) (by simp), Fl.fin_le_fin] at this
      simp only [Bool.not_eq_true', decide_eq_false_iff_not] at this
      rw [hw _ _ (gap_nonneg _ _) (gap_nonneg _ _), hoff k (by omega) (by omega), hoff (l - i) (by omega) (by omega), show i + (l - i) = l by omega] at this
      exact not_le.1 this
  · refine ⟨_, _, C03_maxOffset_short _ _ (by omega), ?_, fun hc => absurd hc hn⟩
    have h00 := hrel 0 le_rfl
    rw [w0] at h00
    exact ⟨fun _ k k0 k1 => by omega, fun _ => h00.2 ht⟩

theorem left_extreme (a b : ℂ) : a ∈ (segment ℝ a b).extremePoints ℝ := by
  refine ⟨left_mem_segment ℝ a b, fun x hx y hy hxy => ?_⟩
  by_cases hab : a = b
  · subst hab
    simpa using hx
  rw [segment_eq_image'] at hx hy
  obtain ⟨s, ⟨s0, -⟩, rfl⟩ := hx
  obtain ⟨r, ⟨r0, -⟩, rfl⟩ := hy
  obtain ⟨u, v, u0, v0, huv, he⟩ := hxy
  have hz : (u * s + v * r) • (b - a) = 0 := by
    have h1 : u • (a + s • (b - a)) + v • (a + r • (b - a)) = (u + v) • a + (u * s + v * r) • (b - a) := by
      rw [smul_add, smul_add, smul_smul, smul_smul, add_smul, add_smul]; abel
    rw [h1, huv, one_smul] at he
    exact add_eq_left.1 he
  have hz' : u * s + v * r = 0 := (smul_eq_zero.1 hz).resolve_right (sub_ne_zero.2 (Ne.symm hab))
  have hs : s = 0 := by
    have h1 := mul_nonneg u0.le s0
    have h2 := mul_nonneg v0.le r0
    have h3 : u * s = 0 := by linarith
    exact (mul_eq_zero.1 h3).resolve_left u0.ne'
  simp [hs]

theorem mem_segment_extreme {a b z : ℂ} : z ∈ (segment ℝ a b).extremePoints ℝ ↔ z = a ∨ z = b := by
  constructor
  · intro hz
    rw [← convexHull_pair] at hz
    have := extremePoints_convexHull_subset (A := {a, b}) hz
    simpa using this
  · rintro (rfl | rfl)
    · exact left_extreme _ _
    · rw [segment_symm]; exact left_extreme _ _

/-- the hull of a sub-line is a segment if the sub-line is straight -/
theorem Exact.straight (he : Exact pos region env.lib) {nd : Node P C EReal} (hk : Known env pts [h] nd) :
    nd.geom.isLineString = true ↔ Straight (places pos (pts h) nd.range.I nd.range.J) := by
  have key : ∀ {P C : Type} {c : Coords P} {g : Geo P C}, hullGeometry c = .ok g → (g.isLineString = true ↔ c.len = 2) := by
    intro P C c g hg
    unfold hullGeometry at hg
    split at hg
    · cases hg; simp only [Geo.isLineString, Bool.false_eq_true, false_iff]; omega
    · split at hg
      · cases hg; simpa [Geo.isLineString]
      · obtain ⟨p, -, hp⟩ := Res.bind_eq_ok.1 hg
        cases hp
        simp only [Geo.isLineString, Bool.false_eq_true, false_iff]; assumption
  obtain ⟨p1, p2⟩ := known_points hk
  have hg := hk.piece.geom
  rw [← hk.piece.coords] at hg
  rw [key hg, (he.hullIndexed _ p2).length]
  have e1 := he.hullCorners _ p2
  have n1 := he.hullOnce _ p2
  have hz : nd.coords.points.map pos = places pos (pts h) nd.range.I nd.range.J := by rw [p1]; rfl
  have hc := hull_corners e1
  rw [hz] at e1 hc
  generalize places pos (pts h) nd.range.I nd.range.J = zs at *
  generalize (env.lib.convexHull nd.coords).points = hs at *
  constructor
  · intro h2
    obtain ⟨a, b, rfl⟩ := List.length_eq_two.1 (show hs.length = 2 by omega)
    simp only [List.map_cons, List.map_nil, List.nodup_cons, List.mem_singleton] at n1
    have hsub : ∀ z, z ∈ [pos a, pos b] → z ∈ zs := by
      intro z hz
      have : z ∈ (hullSet zs).extremePoints ℝ := by rw [← e1]; exact hz
      exact extremePoints_convexHull_subset (A := {z | z ∈ zs}) this
    refine ⟨pos a, hsub _ (by simp), pos b, hsub _ (by simp), n1.1, fun z hz => ?_⟩
    have : z ∈ hullSet zs := subset_convexHull ℝ _ hz
    rw [← hc] at this
    have hset : {z | z ∈ [pos a, pos b]} = ({pos a, pos b} : Set ℂ) := by ext z; simp
    simpa only [List.map_cons, List.map_nil, hullSet, hset, convexHull_pair] using this
  · rintro ⟨a, ha, b, hb, hab, hall⟩
    have hhull : hullSet zs = segment ℝ a b := by
      refine Set.Subset.antisymm (convexHull_min hall (convex_segment a b)) ?_
      exact (convex_convexHull ℝ _).segment_subset (subset_convexHull ℝ _ ha) (subset_convexHull ℝ _ hb)
    have hx : ∀ z, z ∈ hs.map pos ↔ z = a ∨ z = b := by
      intro z
      have := Set.ext_iff.1 e1 z
      rw [hhull, mem_segment_extreme] at this
      exact this
    have hperm : (hs.map pos).Perm [a, b] := (List.perm_ext_iff_of_nodup n1 (by simpa using hab)).2 (fun z => by rw [hx]; simp)
    have := hperm.length_eq
    simp only [List.length_map, List.length_cons, List.length_nil] at this
    omega

theorem mem_obstacles {o : Opts ℝ} {s : Set ℂ} : s ∈ (rulesOf region o cs t m).obstacles ↔ ∃ g ∈ cs, region g = s := Iff.rfl

/-- the test for sidedness depends on the places alone -/
theorem Exact.side (he : Exact pos region env.lib) {nd : Node P C EReal} (hk : Known env pts [h] nd) :
    Yields (isDirRelateValid env.lib nd (cs.map Geo.ctx)) true ↔ SideOK {s | ∃ g ∈ cs, region g = s} (places pos (pts h) nd.range.I nd.range.J) := by
  obtain ⟨p1, p2⟩ := known_points hk
  obtain ⟨-, k2, k3, -, -⟩ := he.known hk
  have hz : nd.coords.points.map pos = places pos (pts h) nd.range.I nd.range.J := by rw [p1]; rfl
  have hlo := hk.lo
  have hlt := hk.lt
  have hhi := hk.hi
  have hins : nd.inst = h := by simpa using hk.inst
  rw [hins] at hhi
  have hpl : 2 ≤ nd.coords.points.length := by
    rw [p1, between, List.length_take, List.length_drop]; omega
  have hdef : isDirRelateValid env.lib nd (cs.map Geo.ctx) = Homotopy.homotopy env.lib nd.coords (cs.map Geo.ctx) := rfl
  rw [hdef, Homotopy.homotopy_pull he.boxSound he.eqLike_refl p2.length hpl (fun k hk => p2.pt_get hk)]
  have hmeet : (∀ g ∈ cs.map Geo.ctx, env.lib.intersects (.seg nd.coords) g = env.lib.intersects (.line nd.coords) g) ↔
      ∀ s ∈ {s | ∃ g ∈ cs, region g = s}, (chordSet (places pos (pts h) nd.range.I nd.range.J) ∩ s).Nonempty ↔ (lineSet (places pos (pts h) nd.range.I nd.range.J) ∩ s).Nonempty := by
    simp only [Set.mem_ofPred_eq, List.mem_map, forall_exists_index, and_imp, forall_apply_eq_imp_iff₂]
    refine forall₂_congr fun g _ => ?_
    rw [Bool.eq_iff_iff, he.intersects, he.intersects, k2, k3]
    rfl
  rw [SideOK, hmeet]
  refine and_congr_right fun hm => ?_
  have hfree : ∀ x y z, SweepsNothing env.lib nd.coords (cs.map Geo.ctx) x y z ↔
      FreeOf {s | ∃ g ∈ cs, region g = s} (places pos (pts h) nd.range.I nd.range.J) (pos x) (pos y) (pos z) := by
    intro x y z
    simp only [SweepsNothing, FreeOf, Set.mem_ofPred_eq, List.mem_map, forall_exists_index, and_imp, forall_apply_eq_imp_iff₂]
    refine forall₂_congr fun g hg => ?_
    have e1 : env.lib.intersects (.seg nd.coords) (.ctx g) = false ↔ ¬ (chordSet (places pos (pts h) nd.range.I nd.range.J) ∩ region g).Nonempty := by
      rw [← Bool.not_eq_true, he.intersects, k3]; rfl
    have e2 : env.lib.intersects (.line nd.coords) (.ctx g) = false ↔ ¬ (lineSet (places pos (pts h) nd.range.I nd.range.J) ∩ region g).Nonempty := by
      rw [← Bool.not_eq_true, he.intersects, k2]; rfl
    have e3 : env.lib.intersects (Homotopy.triangle x y z) (.ctx g) = false ↔ ¬ (convexHull ℝ {pos x, pos y, pos z} ∩ region g).Nonempty := by
      rw [← Bool.not_eq_true, he.intersects, triangle_shape]
      have : hullSet [pos x, pos y, pos z] = convexHull ℝ {pos x, pos y, pos z} := by
        rw [hullSet]; congr 1; ext w; simp
      rw [this]; rfl
    rw [e1, e2, e3, hm _ ⟨g, hg, rfl⟩]
    tauto
  constructor
  · rintro ⟨x, y, hp⟩
    have := hp.map (free := FreeOf {s | ∃ g ∈ cs, region g = s} (places pos (pts h) nd.range.I nd.range.J)) pos (fun a _ b _ c _ => hfree a b c)
    rw [hz] at this
    exact ⟨_, _, this⟩
  · rintro ⟨x, y, hp⟩
    obtain ⟨r, hr⟩ := Pull.exists (SweepsNothing env.lib nd.coords (cs.map Geo.ctx)) nd.coords.points
    have := hr.map (free := FreeOf {s | ∃ g ∈ cs, region g = s} (places pos (pts h) nd.range.I nd.range.J)) pos (fun a _ b _ c _ => hfree a b c)
    rw [hz] at this
    have := congrArg List.length (this.unique hp)
    match r, this with
    | [a, b], _ => exact ⟨a, b, hr⟩

/-- the verdict of the code is `Allowed` -/
theorem ExactRun.allowed (hr : ExactRun pos region env h cs t m) (hi : InstOK env h (pts h)) {nd : Node P C EReal} (hk : Known env pts [h] nd) :
    ∃ b, Yields (validateContextRelation env nd (env.inst h)) b ∧
      (b = true ↔ Allowed (rulesOf region (env.inst h).opts cs t m) (between ((pts h).map pos) nd.range.I nd.range.J)) := by
  obtain ⟨b, hb, hbt⟩ := hr.verdict hi hk
  have hbet : between ((pts h).map pos) nd.range.I nd.range.J = places pos (pts h) nd.range.I nd.range.J := by
    simp only [places, between, List.map_take, List.map_drop]
  refine ⟨b, hb, hbt.trans ?_⟩
  rw [hr.exact.side hk, hbet]
  simp only [Allowed, rulesOf, Set.mem_ofPred_eq, forall_exists_index, and_imp, forall_apply_eq_imp_iff₂]

theorem revisited_map {ps : List P} {k : Nat} : Revisited pos ps k ↔ Revisited id (ps.map pos) k := by
  constructor
  · rintro ⟨l, p, q, r, hkl, h1, h2, h3, h4, h5⟩
    exact ⟨l, pos p, pos q, pos r, hkl, by simp [h1], by simp [h2], h3, List.mem_map_of_mem h4, h5⟩
  · rintro ⟨l, p, q, r, hkl, h1, h2, h3, h4, h5⟩
    rw [List.getElem?_map, Option.map_eq_some_iff] at h1 h2
    obtain ⟨p, h1, rfl⟩ := h1
    obtain ⟨q, h2, rfl⟩ := h2
    obtain ⟨r, h6, rfl⟩ := List.mem_map.1 h4
    exact ⟨l, p, q, r, hkl, h1, h2, h3, h6, h5⟩

theorem crossed_map {ps : List P} {k : Nat} : Crossed pos ps k ↔ Crossed id (ps.map pos) k := by
  constructor
  · rintro ⟨a, b, p, p', q, q', z, hab, h1, h2, h3, h4, h5⟩
    exact ⟨a, b, pos p, pos p', pos q, pos q', z, hab, by simp [h1], by simp [h2], by simp [h3], by simp [h4], h5⟩
  · rintro ⟨a, b, p, p', q, q', z, hab, h1, h2, h3, h4, h5⟩
    rw [List.getElem?_map, Option.map_eq_some_iff] at h1 h2 h3 h4
    obtain ⟨p, h1, rfl⟩ := h1
    obtain ⟨p', h2, rfl⟩ := h2
    obtain ⟨q, h3, rfl⟩ := h3
    obtain ⟨q', h4, rfl⟩ := h4
    exact ⟨a, b, p, p', q, q', z, hab, h1, h2, h3, h4, h5⟩

/-- the vertices fixed by the code are those that must be kept -/
theorem fixed_must (he : ∀ p q, env.lib.equals2D p q = true ↔ pos p = pos q) (hl : ExactLnr pos env.lnr) (hi : InstOK env h (pts h)) {cv : List Int} {v : Int} :
    FixedVertex env h cv v ↔ Must (rulesOf region (env.inst h).opts cs t m) (· ∈ cv) ((pts h).map pos) v := by
  rw [fixed_places he hl hi]
  simp only [Must, rulesOf, revisited_map (ps := pts h), crossed_map (ps := pts h)]

theorem ExactRun.must (hr : ExactRun pos region env h cs t m) (hi : InstOK env h (pts h)) {cv : List Int} {v : Int} :
    FixedVertex env h cv v ↔ Must (rulesOf region (env.inst h).opts cs t m) (· ∈ cv) ((pts h).map pos) v :=
  fixed_must hr.exact.equals2D hr.lnr hi

theorem ExactRun.bad (hr : ExactRun pos region env h cs t m) (hi : InstOK env h (pts h)) {i j : Int} (h0 : 0 ≤ i) (h1 : i < j) (h2 : j < (pts h).length) :
    Rejected env pts h i j ↔ i + 1 < j ∧ ¬ Straight (between ((pts h).map pos) i j) ∧
      ¬ Allowed (rulesOf region (env.inst h).opts cs t m) (between ((pts h).map pos) i j) := by
  have hbet : between ((pts h).map pos) i j = places pos (pts h) i j := by
    simp only [places, between, List.map_take, List.map_drop]
  refine and_congr_right fun _ => ?_
  constructor
  · rintro ⟨nd, q1, q2, q3, q4⟩
    have hk := known_of_piece q1 q2 h0 h1 h2
    obtain ⟨b, y1, y2⟩ := hr.allowed hi hk
    have e1 := hr.exact.straight hk
    simp only [q2] at e1 y2
    rw [hbet, ← e1, ← hbet, ← y2, ← q4.unique y1]
    simp [q3]
  · rintro ⟨q3, q4⟩
    obtain ⟨nd, hk, q1, q2⟩ := known_of_range hi h0 h1 h2
    obtain ⟨b, y1, y2⟩ := hr.allowed hi hk
    have e1 := hr.exact.straight hk
    simp only [q2] at e1 y2
    rw [hbet, ← e1] at q3
    rw [← y2] at q4
    refine ⟨nd, q1, q2, by simpa using q3, ?_⟩
    cases b with
    | false => exact y1
    | true => exact absurd rfl q4

theorem ExactRun.ok (hr : ExactRun pos region env h cs t m) (ht : 0 ≤ t) (hi : InstOK env h (pts h)) {i j : Int} (h0 : 0 ≤ i) (h1 : i < j) (h2 : j < (pts h).length) :
    Joinable env pts h i j ↔ Near t ((pts h).map pos) i j ∧ Allowed (rulesOf region (env.inst h).opts cs t m) (between ((pts h).map pos) i j) := by
  obtain ⟨k, v, s1, s2, -⟩ := hr.scores ht h0 h1 h2
  refine and_congr ?_ ?_
  · rw [← s2]
    constructor
    · rintro ⟨k', v', a, b⟩; rw [s1] at a; cases a; exact b
    · intro b; exact ⟨k, v, s1, b⟩
  · constructor
    · rintro ⟨nd, q2, q1, q4⟩
      have hk := known_of_piece q1 q2 h0 h1 h2
      obtain ⟨b, y1, y2⟩ := hr.allowed hi hk
      simp only [q2] at y2
      exact y2.1 (y1.unique q4)
    · intro q4
      obtain ⟨nd, hk, q1, q2⟩ := known_of_range hi h0 h1 h2
      obtain ⟨b, y1, y2⟩ := hr.allowed hi hk
      simp only [q2] at y2
      rw [y2.2 q4] at y1
      exact ⟨nd, q2, q1, y1⟩

theorem ExactRun.thin (hr : ExactRun pos region env h cs t m) (ht : 0 ≤ t) {i j : Int} {rs : List Rng}
    (hd : RecDP (env.inst h).scoreFn (env.inst h).rel (pts h) i j rs) : 0 ≤ i → i < j → j < (pts h).length → Thinned t ((pts h).map pos) i j rs := by
  induction hd with
  | keep i j k v hs hv =>
    intro h0 h1 h2
    obtain ⟨k', v', s1, s2, -⟩ := hr.scores ht h0 h1 h2
    rw [hs] at s1
    cases s1
    exact .keep i j (s2.1 hv)
  | cut i j k v xs ys hs hv hx hy ihx ihy =>
    intro h0 h1 h2
    obtain ⟨k', v', s1, s2, s3⟩ := hr.scores ht h0 h1 h2
    rw [hs] at s1
    cases s1
    have hn : ¬ Near t ((pts h).map pos) i j := fun hn => by rw [s2.2 hn] at hv; cases hv
    have hlt : i + 1 < j := by
      by_contra hc
      exact hn (fun k k0 k1 => by omega)
    have hf := s3 hlt
    exact .cut i j (i + k) xs ys hn hf (ihx h0 hf.1 (by have := hf.2.1; omega)) (ihy (by have := hf.1; omega) hf.2.1 h2)

theorem ExactRun.cut (hr : ExactRun pos region env h cs t m) (ht : 0 ≤ t) (hi : InstOK env h (pts h)) {i j : Int} {rs : List Rng}
    (hd : RecCut (env.inst h).scoreFn (Rejected env pts h) (pts h) i j rs) : 0 ≤ i → i < j → j < (pts h).length →
      Cut (fun i j => i + 1 < j ∧ ¬ Straight (between ((pts h).map pos) i j) ∧
        ¬ Allowed (rulesOf region (env.inst h).opts cs t m) (between ((pts h).map pos) i j)) ((pts h).map pos) i j rs := by
  induction hd with
  | keep i j hb => intro h0 h1 h2; exact .keep i j (fun hb' => hb ((hr.bad hi h0 h1 h2).2 hb'))
  | cut i j k v xs ys hb hs hx hy ihx ihy =>
    intro h0 h1 h2
    obtain ⟨k', v', s1, s2, s3⟩ := hr.scores ht h0 h1 h2
    rw [hs] at s1
    cases s1
    have hf := s3 hb.1
    exact .cut i j (i + k) xs ys ((hr.bad hi h0 h1 h2).1 hb) hf (ihx h0 hf.1 (by have := hf.2.1; omega)) (ihy (by have := hf.1; omega) hf.2.1 h2)

/-- the procedure of C107 is the plane procedure -/
theorem ExactRun.procedure (hr : ExactRun pos region env h cs t m) (ht : 0 ≤ t) (hi : InstOK env h (pts h)) {cv : List Int} {rs : List Rng}
    (hs : SimplifySpec (env.inst h).scoreFn (env.inst h).rel (FixedVertex env h cv) (Rejected env pts h) (Joinable env pts h) (pts h) rs) :
    Procedure (rulesOf region (env.inst h).opts cs t m) (· ∈ cv) ((pts h).map pos) rs := by
  have h2 := hi.two
  obtain ⟨ls, hls, hm⟩ := hs
  have hch := hls.chain (rejected_inside hi)
  obtain ⟨ds, ms, a1, a2, a3, a4⟩ := hls
  have hlen : ((pts h).map pos).length = (pts h).length := List.length_map _
  refine ⟨ds, ms, ls, ?_, ?_, ?_, ?_, ?_⟩
  · rw [hlen]; exact hr.thin ht a1 le_rfl (by omega) (by omega)
  · rw [hlen]; exact a2
  · intro v; rw [a3 v, hr.must hi]
  · refine a4.imp (fun r hrm l hl => ?_)
    have := a2.mem hrm
    exact hr.cut ht hi hl (by omega) (by omega) (by omega)
  · refine hm.alike (a := 0) (b := (pts h).length - 1) (fun v _ _ => hr.must hi) (fun i j i0 ij jn => ?_) (by simpa using hch)
    exact hr.ok ht hi i0 ij (by omega)

variable {ids : Nat → Int}

/-- **C120, one run.**  With exact geometry and new self-intersections allowed, the vertices a run keeps are the ends of the segments that the written-down procedure
prescribes for the places of the line. -/
theorem C120_run (he : EnvOK env) (hl : LnrOK env.lnr) (hi : InstOK env h (pts h)) (hinj : Function.Injective ids) (hr : ExactRun pos region env h cs t m) (ht : 0 ≤ t)
    (hav : (env.inst h).opts.avoidNewSelfIntersects = false) {cv : List Int} (hcv : ∀ i ∈ cv, 0 ≤ i ∧ i < (pts h).length) {dirty dirty' : Int → Bool} {fuel : Nat}
    {out : Out P C EReal} (e : simplify env ids h cv dirty fuel = .ok (out, dirty')) :
    ∃ rs, Procedure (rulesOf region (env.inst h).opts cs t m) (· ∈ cv) ((pts h).map pos) rs ∧ Chain 0 ((pts h).length - 1) rs ∧
      (out.hulls.map Node.range).Perm rs ∧ out.simple.Pairwise (· < ·) ∧ ∀ v, v ∈ out.simple ↔ EndOf rs v := by
  obtain ⟨rs, h1, h2, h3, h4, h5⟩ := C107_run he hl hi hr.touching hinj hav hcv (fun _ => hr.splittable hi hcv) e
  exact ⟨rs, hr.procedure ht hi h1, h2, h3, h4, h5⟩

end

/-! ### feature classes -/

/-- the vertices of the line `zs` of the lines `zss` whose place occurs at least twice in all lines together, other than at the place that sorts last -/
def Junction (zss : List (List ℂ)) (zs : List ℂ) (v : Int) : Prop :=
  ∃ (n : Nat) (z : ℂ) (rest : List ℂ), v = n ∧ zs[n]? = some z ∧ zss.flatten.Perm (z :: z :: rest) ∧ ∃ z' ∈ zss.flatten, ¬ LexLe z' z

theorem Procedure.congr {R : Rules} {j j' : Int → Prop} {zs : List ℂ} {rs : List Rng} (h : Procedure R j zs rs) (hj : R.keepSelf = true → ∀ v, j v ↔ j' v) :
    Procedure R j' zs rs := by
  have : Must R j zs = Must R j' zs := by
    funext v
    exact propext (and_congr_right fun hk => or_congr_left (hj hk v))
  unfold Procedure at h ⊢
  rwa [this] at h

section
variable {P C : Type} {pos : P → ℂ} {region : C → Set ℂ} {env : Env P C EReal ℝ}

/-- the junctions the code finds are the junctions of the places -/
theorem junctions_places (he : ∀ p q, env.lib.equals2D p q = true ↔ pos p = pos q) (hl : ExactLnr pos env.lnr) {fs : List (List P × Int)} (hne : ∃ f ∈ fs, f.1 ≠ []) {js : List (Int × Int)}
    (hj : fcPlanarSelfIntersection env.lib env.lnr (fs.map (fun f => (coordsOf f.1, f.2))) = .ok js)
    (hd : ∀ f ∈ fs, ∀ f' ∈ fs, f.2 = f'.2 → f.1 = f'.1) {l : List P} {id : Int} (hm : (l, id) ∈ fs) (v : Int) :
    v ∈ junctionsOf js id ↔ Junction (fs.map (fun f => f.1.map pos)) (l.map pos) v := by
  have hflat : ∀ fs : List (List P × Int), (classVertices fs).map (fun v => pos v.pt) = (fs.map (fun f => f.1.map pos)).flatten := by
    intro fs
    induction fs with
    | nil => rfl
    | cons f fs ih =>
      have hlv : (lineVertices f.2 f.1).map (fun v => pos v.pt) = f.1.map pos := by
        refine List.ext_getElem? (fun n => ?_)
        simp only [lineVertices, List.getElem?_map, List.getElem?_zipIdx]
        cases f.1[n]? <;> simp
      simp only [classVertices, List.flatMap_cons, List.map_append, List.map_cons, List.flatten_cons, hlv] at ih ⊢
      rw [ih]
  have hcv : ∀ v, v ∈ classVertices fs ↔ ∃ f ∈ fs, ∃ n : Nat, f.1[n]? = some v.pt ∧ v.index = n ∧ v.fid = f.2 := by
    intro v
    simp only [classVertices, List.mem_flatMap, mem_lineVertices]
  have hnil : classVertices fs ≠ [] := by
    obtain ⟨f, hf, hf'⟩ := hne
    obtain ⟨p, hp⟩ := List.exists_mem_of_ne_nil _ hf'
    obtain ⟨n, hn⟩ := List.getElem?_of_mem hp
    exact List.ne_nil_of_mem ((hcv ⟨p, n, f.2⟩).2 ⟨f, hf, n, hn, rfl, rfl⟩)
  obtain ⟨top, htop⟩ : ∃ top, (env.lnr.sortV (classVertices fs)).getLast? = some top := by
    have hn : env.lnr.sortV (classVertices fs) ≠ [] := fun h0 => hnil (List.perm_nil.1 ((hl.perm _).symm.trans (by rw [h0])))
    exact ⟨_, List.getLast?_eq_some_getLast hn⟩
  have htop' : ∀ z ∈ (fs.map (fun f => f.1.map pos)).flatten, LexLe z (pos top.pt) := by
    intro z hz
    rw [← hflat] at hz
    obtain ⟨u, hu, rfl⟩ := List.mem_map.1 hz
    exact hl.top htop hu
  have htm : pos top.pt ∈ (fs.map (fun f => f.1.map pos)).flatten := by
    rw [← hflat]
    exact List.mem_map.2 ⟨top, (hl.perm _).mem_iff.1 (List.mem_of_getLast? htop), rfl⟩
  obtain ⟨js', j1, j2⟩ := C24_feature_partial (hl.sorts he) fs htop
  rw [hj] at j1
  cases j1
  rw [j2]
  constructor
  · rintro ⟨u, w, rest, hp, rfl, rfl, h1, h2⟩
    obtain ⟨f, hf, n, q1, q2, q3⟩ := (hcv u).1 (hp.mem_iff.2 (by simp))
    have hfl := hd f hf _ hm q3.symm
    simp only [] at hfl
    rw [hfl] at q1
    have h1' := (he _ _).1 h1
    refine ⟨n, pos u.pt, rest.map (fun v => pos v.pt), q2, by rw [List.getElem?_map, q1]; rfl, ?_, pos top.pt, htm, fun hle => ?_⟩
    · rw [← hflat]
      have := hp.map (fun v => pos v.pt)
      simpa only [List.map_cons, h1'] using this
    · have hu := htop' (pos u.pt) (by rw [← hflat]; exact List.mem_map.2 ⟨u, hp.mem_iff.2 (by simp), rfl⟩)
      have := lexLe_antisymm hu hle
      rw [(he _ _).2 this] at h2
      cases h2
  · rintro ⟨n, z, rest, rfl, hz, hp, z', hz', hlt⟩
    rw [List.getElem?_map, Option.map_eq_some_iff] at hz
    obtain ⟨p, hp1, rfl⟩ := hz
    have hu : (⟨p, n, id⟩ : Vtx P) ∈ classVertices fs := (hcv _).2 ⟨_, hm, n, hp1, rfl, rfl⟩
    obtain ⟨u1, u2, hsplit⟩ := List.append_of_mem hu
    have hperm : (classVertices fs).Perm (⟨p, n, id⟩ :: (u1 ++ u2)) := by rw [hsplit]; exact List.perm_middle
    have hz2 : pos p ∈ (u1 ++ u2).map (fun v => pos v.pt) := by
      have h1 := hperm.map (fun v => pos v.pt)
      rw [hflat] at h1
      have h2 := (hp.symm.trans h1)
      rw [List.map_cons] at h2
      exact h2.cons_inv.mem_iff.1 (by simp)
    obtain ⟨w, hw, hwp⟩ := List.mem_map.1 hz2
    obtain ⟨w1, w2, hsplit'⟩ := List.append_of_mem hw
    refine ⟨_, w, w1 ++ w2, hperm.trans (List.Perm.cons _ (by rw [hsplit']; exact List.perm_middle)), rfl, rfl, (he _ _).2 hwp.symm, ?_⟩
    rw [Bool.eq_false_iff, ne_eq, he]
    intro hpt
    simp only [] at hpt
    rw [hpt] at hlt
    exact hlt (htop' z' hz')

end

end Planar

open Planar

/-! ### the program -/

section
variable {P C : Type} {pos : P → ℂ} {region : C → Set ℂ} {e t m : ℝ}

/-- the line `q` consists of the vertices of `l` that the procedure prescribes -/
def Prescribed (pos : P → ℂ) (R : Rules) (junction : List ℂ → Int → Prop) (l q : List P) : Prop :=
  ∃ s rs, KeptIndices l.length s ∧ q = verticesAt l s ∧ Procedure R (junction (l.map pos)) (l.map pos) rs ∧ ∀ v, v ∈ s ↔ EndOf rs v

/-- the junctions that count: those of all lines in a feature class, none otherwise -/
def ClassJunction (fc : Bool) (zss : List (List ℂ)) (zs : List ℂ) (v : Int) : Prop := fc = true ∧ Junction zss zs v

theorem Engine.exactRun {E : Engine P C EReal ℝ} {o : Opts ℝ} {kind : Io.OffsetKind} {ctx : List C} {lines : List (List P)} {fs : List (Inst P C EReal ℝ)}
    (hf : Forest E o kind ctx lines fs) (hx : Planar.Exact pos region E.lib) (hn : ExactLnr pos E.lnr) (hh : E.heap.Legal Hdb.nearLe) (h0 : 0 ≤ e) (heps : E.eps = .fin e)
    (hsc : E.score kind = maxOffset (fun a b p => .fin (gap {pos p} (segment ℝ (pos a) (pos b))))) (ht : o.threshold = .fin t) (hm : o.minDist = .fin m) (hm0 : 0 ≤ m)
    {k : Nat} {l : List P} (hlk : lines[k]? = some l) : ExactRun pos region (E.env o kind fs) k ctx t m := by
  obtain ⟨e1, e2, e3, e4⟩ := hf.inst hlk
  refine ⟨hx, hn, hh, ⟨e, h0, heps⟩, ⟨by rw [e1]; exact hm, hm0⟩, ?_, id, rfl, fun _ _ _ _ => Iff.rfl, fun x _ => ?_, by rw [e2, hsc]; rfl⟩
  · have := e4.map (fun nd => (nd.geom, nd.mbr))
    rw [List.map_map] at this
    exact this
  · rw [e3, ht]
    exact decide_eq_true_iff

theorem Engine.prescribed {E : Engine P C EReal ℝ} {o : Opts ℝ} {kind : Io.OffsetKind} {ctx : List C} {lines : List (List P)} (h : E.OK o kind lines)
    (hx : Planar.Exact pos region E.lib) (hn : ExactLnr pos E.lnr) (hh : E.heap.Legal Hdb.nearLe) (h0 : 0 ≤ e) (heps : E.eps = .fin e)
    (hsc : E.score kind = maxOffset (fun a b p => .fin (gap {pos p} (segment ℝ (pos a) (pos b))))) (ht : o.threshold = .fin t) (ht0 : 0 ≤ t) (hm : o.minDist = .fin m)
    (hm0 : 0 ≤ m) (hav : o.avoidNewSelfIntersects = false) (fc : Bool) :
    E.GuaranteesIn fc o kind ctx lines (Prescribed pos (rulesOf region o ctx t m) (ClassJunction fc (lines.map (fun l => l.map pos)))) := by
  refine h.guaranteesIn fc _ (fun fs hf hc k l hl hlk hp hmem hi hinj => ?_)
  have hr := Engine.exactRun (ctx := ctx) hf hx hn hh h0 heps hsc ht hm hm0 hlk
  obtain ⟨e1, -, -, -⟩ := hf.inst hlk
  refine ⟨?_, ?_⟩
  · rintro rfl dirty fuel out d hs hk
    obtain ⟨rs, c1, -, -, -, c2⟩ := C120_run (pts := fun _ => l) (env := E.env o kind fs) hc.envOK hc.lnrOK hi hinj hr ht0 (by rw [e1]; exact hav) (cv := []) (by simp) hs
    rw [e1] at c1
    exact ⟨_, rs, hk, rfl, c1.congr (fun _ v => by simp [ClassJunction]), c2⟩
  · rintro rfl dirty fuel res out hs hm' hk
    have hav' : ∀ x ∈ Engine.handles lines.length, ((E.env o kind fs).inst x).opts.avoidNewSelfIntersects = false := by
      intro x hxm
      obtain ⟨n, hn', rfl⟩ := List.mem_map.1 hxm
      rw [(hf.inst (List.getElem?_eq_getElem (List.mem_range.1 hn'))).1]
      exact hav
    obtain ⟨js, j1, j2, j3, j4⟩ := fcJunctions_ok hc.lnrOK hc.inst hc.distinct o.planarSelf
    obtain ⟨-, a2⟩ := C105_alone hc hav' o j1 hs
    obtain ⟨own, y, q, sm⟩ := a2 _ hm'
    obtain ⟨N, y⟩ := y (fun _ => false)
    have y := y N (Nat.le_refl _)
    simp only [] at hp y sm
    have j4' := j4 k hmem
    simp only [hp] at j4'
    obtain ⟨rs, c1, -, -, -, c2⟩ := C120_run (pts := fun _ => l) (env := E.env o kind fs) hc.envOK hc.lnrOK hi hinj hr ht0 (by rw [e1]; exact hav) j4' y
    rw [e1] at c1
    refine ⟨_, rs, hk, rfl, c1.congr (fun hks v => ?_), by rw [sm]; exact c2⟩
    have hks : o.planarSelf = true := hks
    rw [ClassJunction]
    simp only [true_and]
    have hls : (Engine.handles lines.length).map (fun x : Int => lines[x.toNat]?.getD []) = lines := by
      refine List.ext_getElem? (fun n => ?_)
      simp only [Engine.handles, List.map_map, List.getElem?_map]
      by_cases hn' : n < lines.length
      · rw [List.getElem?_range hn']; simp [hn']
      · rw [List.getElem?_eq_none (by simpa using hn'), List.getElem?_eq_none (by simpa using hn')]; rfl
    have key := junctions_places (fs := (Engine.handles lines.length).map (fun x : Int => (lines[x.toNat]?.getD [], ((E.env o kind fs).inst x).id))) (env := E.env o kind fs) hx.equals2D hn
      ⟨_, List.mem_map.2 ⟨k, hmem, rfl⟩, by
        have := hi.two
        intro h0
        simp only [hp] at h0
        rw [h0] at this
        simp at this⟩ (j3 hks) (by
        intro f hf' f' hf'' hff
        obtain ⟨a, ha, rfl⟩ := List.mem_map.1 hf'
        obtain ⟨b, hb, rfl⟩ := List.mem_map.1 hf''
        rw [hc.distinct a ha b hb hff]) (l := l) (id := ((E.env o kind fs).inst k).id) (List.mem_map.2 ⟨k, hmem, by rw [hp]⟩) v
    rw [key]
    have : (Engine.handles lines.length).map (fun x : Int => (lines[x.toNat]?.getD []).map pos) = lines.map (fun l => l.map pos) := by
      conv => rhs; rw [← hls]
      rw [List.map_map]; rfl
    simp only [List.map_map, Function.comp_def]
    rw [this]

/-- what is prescribed is a function of the line -/
theorem Prescribed.unique {R : Rules} {junction : List ℂ → Int → Prop} {l q q' : List P} (h : Prescribed pos R junction l q) (h' : Prescribed pos R junction l q') :
    q = q' := by
  obtain ⟨s, rs, k1, rfl, p1, m1⟩ := h
  obtain ⟨s', rs', k2, rfl, p2, m2⟩ := h'
  cases p1.unique p2
  rw [List.Pairwise.eq_of_mem_iff k1.increasing k2.increasing (fun v => (m1 v).trans (m2 v).symm)]

end

namespace Io

open Verif.Text

section
variable {P C Props : Type}

/-- the request made by a configuration with the constraints `ctx` -/
def rulesAsked (region : C → Set ℂ) (obj : ArgObj (Fl ℝ)) (ctx : List C) (t m : ℝ) : Rules where
  tolerance := t
  minDist := m
  obstacles := {s | ∃ g ∈ ctx, region g = s}
  keepSelf := obj.planarSelf
  keepCross := obj.nonPlanarSelf
  geom := obj.geomRelation
  dist := obj.distRelation
  side := obj.sideRelation

/-- **C120 for the program.**  With exact geometry, Douglas–Peucker offsets and new self-intersections allowed, every saved line consists of exactly the vertices that the
written-down procedure prescribes for the places of the line read; in a feature class the vertices that occur more than once in the whole file must be kept as well. -/
theorem C120_program (w : World (Fl ℝ) P Props C) (E : Engine P C EReal ℝ) (b f : Str) {obj : ArgObj (Fl ℝ)} {kind : OffsetKind}
    {docs : List (Doc (Fl ℝ))} {ctx : List C} (hr : Reads w b f obj kind docs ctx) (hord : ∀ l, (w.enc.ord l).Perm l) (hlen : docs.length ≤ maxInt)
    (hd : ∀ d ∈ docs, HasGeometry d ∧ docParts d ≠ [] ∧ ∀ x ∈ docParts d, x.1 ≤ maxInt ∧ (x.2.1 = ['n', 'u', 'l', 'l'] ∨ (w.enc.unmarshal x.2.1).isSome))
    (hE : E.OK (E.opts (optsFromCfg obj)) kind (docs.flatMap (fun d => (docParts d).map (fun x => x.2.2.map E.toPoint))))
    {pos : P → ℂ} {region : C → Set ℂ} {e t m : ℝ} (hx : Planar.Exact pos region E.lib) (hn : ExactLnr pos E.lnr) (hh : E.heap.Legal Hdb.nearLe) (h0 : 0 ≤ e) (heps : E.eps = .fin e)
    (hname : trim obj.simplificationType ∈ dpNames) (hsc : E.score .maxOffset = maxOffset (fun a b p => .fin (gap {pos p} (segment ℝ (pos a) (pos b)))))
    (ht : obj.threshold = .fin t) (ht0 : 0 ≤ t) (hm : obj.minDist = .fin m) (hm0 : 0 ≤ m) (hav : obj.avoidNewSelfIntersects = false) :
    ∃ out N, (∀ fuel ≥ N, main (program w E fuel) b f = .saved (trim obj.output) (out.map w.marshal)) ∧
      List.Forall₂ (WrittenAs (Prescribed pos (rulesAsked region obj ctx t m)
        (ClassJunction obj.isFeatureClass (docs.flatMap (fun d => (docParts d).map (fun x => x.2.2.map (fun p => pos (E.toPoint p))))))) w.enc E.toPoint) docs out := by
  obtain rfl := hr.dp hname
  have := program_lines_in w E b f hr hord hlen hd hE (Engine.prescribed hE hx hn hh h0 heps hsc ht ht0 hm hm0 hav obj.isFeatureClass)
  simp only [List.map_flatMap, List.map_map, Function.comp_def] at this
  exact this

theorem WrittenAs.weaken {R R' : List P → List P → Prop} {lib : EncLib (Fl ℝ) P Props} {toPoint : List (Fl ℝ) → P} {d : Doc (Fl ℝ)} {f : LineFeature (Fl ℝ) Props}
    (h : WrittenAs R lib toPoint d f) (hR : ∀ l q, R l q → R' l q) : WrittenAs R' lib toPoint d f := by
  obtain ⟨parts, qs, h1, h2, h3, h4⟩ := h
  exact ⟨parts, qs, h1.imp (fun x p hp => ⟨hp.1, hp.2.1, hp.2.2.1, hR _ _ hp.2.2.2⟩), h2, h3, h4⟩

end

/-- the indices are in order, and are the ends of the segments that the procedure prescribes -/
def Prescribes (R : Rules) (zss : List (List ℂ)) (zs : List ℂ) (s : List Int) : Prop :=
  s.Pairwise (· < ·) ∧ ∃ rs, Procedure R (Junction zss zs) zs rs ∧ ∀ v, v ∈ s ↔ EndOf rs v

theorem Prescribes.unique {R : Rules} {zss : List (List ℂ)} {zs : List ℂ} {s s' : List Int} (h : Prescribes R zss zs s) (h' : Prescribes R zss zs s') : s = s' := by
  obtain ⟨g1, rs', g2, g3⟩ := h
  obtain ⟨f1, rs2, f2, f3⟩ := h'
  cases f2.unique g2
  exact List.Pairwise.eq_of_mem_iff g1 f1 (fun v => (g3 v).trans (f3 v).symm)

open Classical in
/-- the indices that the procedure prescribes for a line `zs` (with the junctions of the lines `zss`) -/
noncomputable def prescribed (R : Rules) (zss : List (List ℂ)) (zs : List ℂ) : List Int := if h : ∃ s, Prescribes R zss zs s then h.choose else []

theorem Prescribes.eq {R : Rules} {zss : List (List ℂ)} {zs : List ℂ} {s : List Int} (h : Prescribes R zss zs s) : prescribed R zss zs = s := by
  have hex : ∃ s, Prescribes R zss zs s := ⟨s, h⟩
  rw [prescribed, dif_pos hex]
  exact hex.choose_spec.unique h

section
variable {P C Props : Type}

/-- every line is saved with the vertices that are prescribed -/
theorem program_prescribed (w : World (Fl ℝ) P Props C) (E : Engine P C EReal ℝ) (b f : Str)
    {obj : ArgObj (Fl ℝ)} {kind : OffsetKind}
    {docs : List (Doc (Fl ℝ))} {ctx : List C} (hr : Reads w b f obj kind docs ctx) (hord : ∀ l, (w.enc.ord l).Perm l) (hlen : docs.length ≤ maxInt)
    (hd : ∀ d ∈ docs, HasGeometry d ∧ docParts d ≠ [] ∧ ∀ x ∈ docParts d, x.1 ≤ maxInt ∧ (x.2.1 = ['n', 'u', 'l', 'l'] ∨ (w.enc.unmarshal x.2.1).isSome))
    (hE : E.OK (E.opts (optsFromCfg obj)) kind (docs.flatMap (fun d => (docParts d).map (fun x => x.2.2.map E.toPoint))))
    {pos : P → ℂ} {region : C → Set ℂ} {e t m : ℝ} (hx : Planar.Exact pos region E.lib) (hn : ExactLnr pos E.lnr) (hh : E.heap.Legal Hdb.nearLe) (h0 : 0 ≤ e) (heps : E.eps = .fin e)
    (hname : trim obj.simplificationType ∈ dpNames) (hsc : E.score .maxOffset = maxOffset (fun a b p => .fin (gap {pos p} (segment ℝ (pos a) (pos b)))))
    (ht : obj.threshold = .fin t) (ht0 : 0 ≤ t) (hm : obj.minDist = .fin m) (hm0 : 0 ≤ m) (hav : obj.avoidNewSelfIntersects = false) :
    ∃ out N, (∀ fuel ≥ N, main (program w E fuel) b f = .saved (trim obj.output) (out.map w.marshal)) ∧
      List.Forall₂ (WrittenAs (fun l q => q = verticesAt l (prescribed (rulesAsked region obj ctx t m)
        (if obj.isFeatureClass then docs.flatMap (fun d => (docParts d).map (fun x => x.2.2.map (fun p => pos (E.toPoint p)))) else []) (l.map pos))) w.enc E.toPoint) docs out := by
  obtain ⟨out, N, h1, h2⟩ := C120_program w E b f hr hord hlen hd hE hx hn hh h0 heps hname hsc ht ht0 hm hm0 hav
  refine ⟨out, N, h1, h2.imp (fun d o ho => ho.weaken (fun l q hq => ?_))⟩
  obtain ⟨s, rs, k1, rfl, k2, k3⟩ := hq
  generalize docs.flatMap (fun d => (docParts d).map (fun x => x.2.2.map (fun p => pos (E.toPoint p)))) = zss at k2 ⊢
  have hg : Prescribes (rulesAsked region obj ctx t m) (if obj.isFeatureClass then zss else []) (l.map pos) s := by
    refine ⟨k1.increasing, rs, k2.congr (fun _ v => ?_), k3⟩
    cases hfc : obj.isFeatureClass with
    | true => simp [ClassJunction]
    | false =>
      simp only [ClassJunction, Bool.false_eq_true, false_and, if_false, false_iff]
      rintro ⟨n, z, rest, -, -, hp, -⟩
      have := hp.length_eq
      simp at this
  rw [hg.eq]

end

/-- **C120, one function for all runs.**  There is a function `σ` of the request, the places of a line and, in a feature class, the places of all lines, such that every run of
the program on every representation of points and constraints in which the geometry is exact saves for every line the vertices with the indices `σ` gives.  So, outside feature
classes, what is saved for a line does not depend on the other lines of the file, on the order of the file, on identifiers, queues, or the index of the constraints. -/
theorem C120_function : ∃ σ : Rules → List (List ℂ) → List ℂ → List Int, ∀ {P C Props : Type} (w : World (Fl ℝ) P Props C) (E : Engine P C EReal ℝ) (b f : Str)
    {obj : ArgObj (Fl ℝ)} {kind : OffsetKind}
    {docs : List (Doc (Fl ℝ))} {ctx : List C} (_ : Reads w b f obj kind docs ctx) (_ : ∀ l, (w.enc.ord l).Perm l) (_ : docs.length ≤ maxInt)
    (_ : ∀ d ∈ docs, HasGeometry d ∧ docParts d ≠ [] ∧ ∀ x ∈ docParts d, x.1 ≤ maxInt ∧ (x.2.1 = ['n', 'u', 'l', 'l'] ∨ (w.enc.unmarshal x.2.1).isSome))
    (_ : E.OK (E.opts (optsFromCfg obj)) kind (docs.flatMap (fun d => (docParts d).map (fun x => x.2.2.map E.toPoint))))
    {pos : P → ℂ} {region : C → Set ℂ} {e t m : ℝ} (_ : Planar.Exact pos region E.lib) (_ : ExactLnr pos E.lnr) (_ : E.heap.Legal Hdb.nearLe) (_ : 0 ≤ e) (_ : E.eps = .fin e)
    (_ : trim obj.simplificationType ∈ dpNames) (_ : E.score .maxOffset = maxOffset (fun a b p => .fin (gap {pos p} (segment ℝ (pos a) (pos b)))))
    (_ : obj.threshold = .fin t) (_ : 0 ≤ t) (_ : obj.minDist = .fin m) (_ : 0 ≤ m) (_ : obj.avoidNewSelfIntersects = false),
    ∃ out N, (∀ fuel ≥ N, main (program w E fuel) b f = .saved (trim obj.output) (out.map w.marshal)) ∧
      List.Forall₂ (WrittenAs (fun l q => q = verticesAt l (σ (rulesAsked region obj ctx t m)
        (if obj.isFeatureClass then docs.flatMap (fun d => (docParts d).map (fun x => x.2.2.map (fun p => pos (E.toPoint p)))) else []) (l.map pos))) w.enc E.toPoint) docs out :=
  ⟨prescribed, fun w E b f _ _ _ _ hr hord hlen hd hE _ _ _ _ _ hx hn hh h0 heps hname hsc ht ht0 hm hm0 hav =>
    program_prescribed w E b f hr hord hlen hd hE hx hn hh h0 heps hname hsc ht ht0 hm hm0 hav⟩

end Io

/-! ### concrete cases -/

namespace Planar

/-- a bump of height 2 -/
noncomputable def lowBump : List ℂ := [⟨0, 0⟩, ⟨5, 2⟩, ⟨10, 0⟩]

/-- only the tolerance -/
def plain (t : ℝ) : Rules := ⟨t, 0, ∅, false, false, false, false, false⟩

/-- tolerance 5, and intersections with the top of the bump are to be kept -/
noncomputable def topped : Rules := ⟨5, 1 / 2, {{⟨5, 2⟩}}, false, false, true, false, false⟩

theorem lowBump_near : Near 2 lowBump 0 2 := by
  intro k h0 h1
  obtain rfl : k = 1 := by omega
  have : (⟨5, 0⟩ : ℂ) ∈ segment ℝ (⟨0, 0⟩ : ℂ) ⟨10, 0⟩ := ⟨1 / 2, 1 / 2, by norm_num, by norm_num, by norm_num, by apply Complex.ext <;> norm_num⟩
  refine (gap_le (x := ⟨5, 2⟩) (y := ⟨5, 0⟩) (by simp [vtx, lowBump]) (by simpa [vtx, lowBump] using this)).trans ?_
  rw [Complex.dist_eq_re_im, show ((⟨5, 2⟩ : ℂ).re - (⟨5, 0⟩ : ℂ).re) ^ 2 + ((⟨5, 2⟩ : ℂ).im - (⟨5, 0⟩ : ℂ).im) ^ 2 = 2 ^ 2 by norm_num,
    Real.sqrt_sq (by norm_num)]

theorem lowBump_far : ¬ Near 1 lowBump 0 2 := by
  intro h
  have := h 1 (by omega) (by omega)
  have h2 : (2 : ℝ) ≤ offsetOf lowBump 0 2 1 := by
    refine le_csInf ⟨_, _, rfl, _, left_mem_segment ℝ _ _, rfl⟩ ?_
    rintro r ⟨x, hx, y, hy, rfl⟩
    have hx : x = ⟨5, 2⟩ := by simpa [vtx, lowBump] using hx
    subst hx
    have hy : y ∈ segment ℝ (⟨0, 0⟩ : ℂ) ⟨10, 0⟩ := by simpa [vtx, lowBump] using hy
    have h1 := (convex_halfSpace_im_le 0).segment_subset (x := ⟨0, 0⟩) (y := ⟨10, 0⟩) (by simp) (by simp) hy
    simp only [Set.mem_ofPred_eq] at h1
    have h3 := Complex.abs_im_le_norm ((⟨5, 2⟩ : ℂ) - y)
    rw [dist_eq_norm]
    refine le_trans ?_ h3
    rw [le_abs]
    left
    simp
    linarith
  linarith

theorem lowBump_farthest : FarthestAt lowBump 0 2 1 := by
  refine ⟨by omega, by omega, fun l h0 h1 => ?_, fun l h0 h1 => by omega⟩
  obtain rfl : l = 1 := by omega
  exact le_rfl

theorem lowBump_bent : ¬ Straight lowBump := by
  rintro ⟨a, ha, b, hb, hab, hall⟩
  have h0 := hall ⟨0, 0⟩ (by simp [lowBump])
  have h1 := hall ⟨5, 2⟩ (by simp [lowBump])
  have h2 := hall ⟨10, 0⟩ (by simp [lowBump])
  have low : ∀ {a b z : ℂ} {c : ℝ}, a.im ≤ c → b.im ≤ c → z ∈ segment ℝ a b → z.im ≤ c := fun ha hb hz => (convex_halfSpace_im_le _).segment_subset ha hb hz
  have left : ∀ {a b z : ℂ} {c : ℝ}, a.re ≤ c → b.re ≤ c → z ∈ segment ℝ a b → z.re ≤ c := fun ha hb hz => (convex_halfSpace_re_le _).segment_subset ha hb hz
  have right : ∀ {a b z : ℂ} {c : ℝ}, c ≤ a.re → c ≤ b.re → z ∈ segment ℝ a b → c ≤ z.re := fun ha hb hz => (convex_halfSpace_re_ge _).segment_subset ha hb hz
  simp only [lowBump, List.mem_cons, List.not_mem_nil, or_false] at ha hb
  rcases ha with rfl | rfl | rfl <;> rcases hb with rfl | rfl | rfl
  · exact hab rfl
  · have := left (c := 5) (by simp) (by simp) h2; norm_num at this
  · have := low (c := 0) (by simp) (by simp) h1; norm_num at this
  · have := left (c := 5) (by simp) (by simp) h2; norm_num at this
  · exact hab rfl
  · have := right (c := 5) (by simp) (by simp; norm_num) h0; norm_num at this
  · have := low (c := 0) (by simp) (by simp) h1; norm_num at this
  · have := right (c := 5) (by simp; norm_num) (by simp) h0; norm_num at this
  · exact hab rfl

theorem lowBump_between : between lowBump 0 2 = lowBump := rfl

theorem lowBump_refused : ¬ Allowed topped lowBump := by
  rintro ⟨h, -, -⟩
  obtain ⟨z, ⟨a, b, ha, hb, hz⟩, hz'⟩ := (h rfl {⟨5, 2⟩} rfl).2 ⟨⟨5, 2⟩, by
    refine ⟨.inl ?_, rfl⟩
    exact right_mem_segment ℝ _ _⟩
  cases ha; cases hb
  rw [Set.mem_singleton_iff.1 hz'] at hz
  have := (convex_halfSpace_im_le 0).segment_subset (x := ⟨0, 0⟩) (y := ⟨10, 0⟩) (by simp) (by simp) hz
  norm_num at this

theorem near_single (t : ℝ) (zs : List ℂ) (i : Int) : Near t zs i (i + 1) := fun k _ _ => by omega

/-- with tolerance 2 the bump becomes one segment -/
example : Procedure (plain 2) (fun _ => False) lowBump [⟨0, 2⟩] := by
  refine ⟨[⟨0, 2⟩], [⟨0, 2⟩], [⟨0, 2⟩], .keep 0 2 lowBump_near, ⟨rfl, by decide, rfl⟩, fun v => by simp [Must, plain], ?_, ?_⟩
  · refine Each.cons (xs := [(⟨0, 2⟩ : Rng)]) (ys := []) ?_ .nil
    exact (Cut.keep 0 2 (fun h => h.2.2 ⟨by simp [plain], by simp [plain], by simp [plain]⟩))
  · exact .keep _ (fun h => by simp at h) (.done _)

/-- with tolerance 1 it is cut at its top -/
example : Procedure (plain 1) (fun _ => False) lowBump [⟨0, 1⟩, ⟨1, 2⟩] := by
  refine ⟨[⟨0, 1⟩, ⟨1, 2⟩], [⟨0, 1⟩, ⟨1, 2⟩], [⟨0, 1⟩, ⟨1, 2⟩], ?_, ⟨rfl, by decide, rfl, by decide, rfl⟩, fun v => by simp [Must, plain], ?_, ?_⟩
  · exact .cut 0 2 1 [⟨0, 1⟩] [⟨1, 2⟩] lowBump_far lowBump_farthest (.keep 0 1 (near_single 1 lowBump 0)) (.keep 1 2 (near_single 1 lowBump 1))
  · refine Each.cons (xs := [(⟨0, 1⟩ : Rng)]) (ys := [(⟨1, 2⟩ : Rng)] ++ []) ?_ (.cons ?_ .nil)
    · exact Cut.keep 0 1 (fun h => by simp at h)
    · exact Cut.keep 1 2 (fun h => by simp at h)
  · refine .keep _ (fun _ => ⟨fun n hn _ hok => ?_, by simp⟩) (.keep _ (fun _ => ⟨by simp, fun p hp _ hok => ?_⟩) (.done _))
    · cases hn; exact lowBump_far hok.1
    · cases hp; exact lowBump_far hok.1

/-- with tolerance 5 it is cut because of the obstacle, and the halves are not joined again -/
theorem topped_bump (junction : Int → Prop) : Procedure topped junction lowBump [⟨0, 1⟩, ⟨1, 2⟩] := by
  have hn : Near 5 lowBump 0 2 := fun k h0 h1 => (lowBump_near k h0 h1).trans (by norm_num)
  refine ⟨[⟨0, 2⟩], [⟨0, 2⟩], [⟨0, 1⟩, ⟨1, 2⟩], .keep 0 2 hn, ⟨rfl, by decide, rfl⟩, fun v => by simp [Must, topped], ?_, ?_⟩
  · refine Each.cons (xs := [(⟨0, 1⟩ : Rng), ⟨1, 2⟩]) (ys := []) ?_ .nil
    exact Cut.cut 0 2 1 [⟨0, 1⟩] [⟨1, 2⟩] ⟨by decide, lowBump_bent, lowBump_refused⟩ lowBump_farthest (.keep 0 1 (fun h => by simp at h)) (.keep 1 2 (fun h => by simp at h))
  · refine .keep _ (fun _ => ⟨fun n hn _ hok => ?_, by simp⟩) (.keep _ (fun _ => ⟨by simp, fun p hp _ hok => ?_⟩) (.done _))
    · cases hn; exact lowBump_refused hok.2
    · cases hp; exact lowBump_refused hok.2

/-- an obstacle beyond the top does not bind the sides of the bump -/
example : SideOK {{(⟨5, 5⟩ : ℂ)}} lowBump := by
  have hout : ∀ s : Set ℂ, s ⊆ hullSet lowBump → ¬ (s ∩ {(⟨5, 5⟩ : ℂ)}).Nonempty := by
    rintro s hs ⟨z, hz, hz'⟩
    have h5 := hs hz
    rw [Set.mem_singleton_iff.1 hz'] at h5
    have := convexHull_min (s := {z | z ∈ lowBump}) (t := {z : ℂ | z.im ≤ 2}) (by
      intro w hw
      simp only [lowBump, List.mem_cons, List.not_mem_nil, or_false, Set.mem_ofPred_eq] at hw ⊢
      rcases hw with rfl | rfl | rfl <;> simp) (convex_halfSpace_im_le 2) h5
    norm_num at this
  have hch : chordSet lowBump ⊆ hullSet lowBump := by
    rintro z ⟨a, b, ha, hb, hz⟩
    exact (convex_convexHull ℝ {z | z ∈ lowBump}).segment_subset (subset_convexHull ℝ {z | z ∈ lowBump} (List.mem_of_mem_head? ha))
      (subset_convexHull ℝ {z | z ∈ lowBump} (List.mem_of_mem_getLast? hb)) hz
  refine ⟨?_, ⟨0, 0⟩, ⟨10, 0⟩, .go (by simp) (.drop ?_ (.last _ _)) (by simp) (.short (by simp))⟩
  · rintro s rfl
    exact iff_of_false (hout _ hch) (hout _ (lineSet_subset_hullSet _))
  · rintro s rfl -
    refine hout _ (convexHull_mono ?_)
    rintro z (rfl | rfl | rfl) <;> simp [lowBump]

/-- an obstacle under the top does -/
example : ¬ SideOK {{(⟨5, 1⟩ : ℂ)}} lowBump := by
  rintro ⟨-, a, b, hp⟩
  have hmiss : ¬ (lineSet lowBump ∩ {(⟨5, 1⟩ : ℂ)}).Nonempty := by
    rintro ⟨z, hz, hz'⟩
    rw [Set.mem_singleton_iff.1 hz'] at hz
    rcases hz with hz | hz | hz
    · obtain ⟨u, v, -, -, -, e⟩ := hz
      have e1 := congrArg Complex.re e
      have e2 := congrArg Complex.im e
      simp at e1 e2
      linarith
    · obtain ⟨u, v, -, -, huv, e⟩ := hz
      have e1 := congrArg Complex.re e
      have e2 := congrArg Complex.im e
      simp at e1 e2
      linarith
    · have := congrArg Complex.re (Set.mem_singleton_iff.1 hz)
      norm_num at this
  have hin : (⟨5, 1⟩ : ℂ) ∈ convexHull ℝ {(⟨0, 0⟩ : ℂ), ⟨5, 2⟩, ⟨10, 0⟩} := by
    have hs := subset_convexHull ℝ {(⟨0, 0⟩ : ℂ), ⟨5, 2⟩, ⟨10, 0⟩}
    have hc := convex_convexHull ℝ {(⟨0, 0⟩ : ℂ), ⟨5, 2⟩, ⟨10, 0⟩}
    have hm : (⟨5, 0⟩ : ℂ) ∈ convexHull ℝ {(⟨0, 0⟩ : ℂ), ⟨5, 2⟩, ⟨10, 0⟩} := by
      refine hc.segment_subset (hs (.inl rfl)) (hs (.inr (.inr rfl))) ⟨1 / 2, 1 / 2, by norm_num, by norm_num, by norm_num, ?_⟩
      apply Complex.ext <;> simp <;> norm_num
    refine hc.segment_subset hm (hs (.inr (.inl rfl))) ⟨1 / 2, 1 / 2, by norm_num, by norm_num, by norm_num, ?_⟩
    apply Complex.ext <;> simp <;> norm_num
  have hst : Pull (FreeOf {{(⟨5, 1⟩ : ℂ)}} lowBump) lowBump lowBump :=
    .stuck (by simp) (.keep (fun h => h _ rfl hmiss ⟨_, hin, rfl⟩) (.last _ _))
  have := congrArg List.length (hst.unique hp)
  simp [lowBump] at this

end Planar

namespace Real

open Io Text

theorem segDist_gap : segDist (E := ℂ) = fun a b p => .fin (gap {p} (segment ℝ a b)) := by
  funext a b p
  rw [segDist]
  congr 1
  refine le_antisymm (le_csInf ⟨_, p, rfl, a, left_mem_segment ℝ a b, rfl⟩ ?_) ?_
  · rintro r ⟨x, hx, y, hy, rfl⟩
    rw [Set.mem_singleton_iff.1 hx]
    exact Metric.infDist_le_dist_of_mem hy
  · obtain ⟨y, hy, e⟩ := (isCompact_segment a b).exists_infDist_eq_dist ⟨a, left_mem_segment ℝ a b⟩ p
    rw [e]
    exact gap_le rfl hy

/-- new self-intersections allowed -/
noncomputable def freeConfig (fc : Bool) : ArgObj (Fl ℝ) := { config ['d', 'p'] fc with avoidNewSelfIntersects := false }

theorem free_reads (fc : Bool) (a b : Doc (Fl ℝ)) (ctx : List Region) :
    Reads (world ordsC (freeConfig fc) a b ctx) "e30=".toList ['-'] (freeConfig fc) .maxOffset [a, b] ctx where
  config := ⟨"e30=".toList, rfl, by
    have hx : decode64 (trim "e30=".toList) = .ok [123, 125] := by decide +kernel
    simp only [parseInput, hx]; rfl⟩
  kind := by
    have hk : offsetDictionary ((trim ['d', 'p']).map (lowerChar id)) = some .maxOffset := by decide +kernel
    simp only [offsetFn, freeConfig, config, world, hk]; rfl
  docs := ⟨['a', '\n', 'b', '\n'], rfl, rfl⟩
  out := (by decide : trim ['o', ' '] ≠ [])
  ctx := rfl
  save := rfl

/-- C120 for the program on the loop and the side line of C117, with a half plane as constraint and all relations, one by one and as a feature class -/
example (fc : Bool) : ∃ out N, (∀ fuel ≥ N, main (program (world ordsC (freeConfig fc) loopDoc sideDoc [above]) engine fuel) "e30=".toList ['-'] = .saved ['o'] (out.map (fun _ => []))) ∧
    List.Forall₂ (WrittenAs (Prescribed id (rulesAsked (fun r : Region => r.1) (freeConfig fc) [above] 5 (1 / 2)) (ClassJunction fc [loop, side]))
      (world ordsC (freeConfig fc) loopDoc sideDoc [above]).enc engine.toPoint) [loopDoc, sideDoc] out := by
  have := C120_program (t := 5) (m := 1 / 2) _ engine _ _ (free_reads fc loopDoc sideDoc [above]) (fun l => .refl l) (by simp [maxInt])
    (by
      intro d hd
      simp only [List.mem_cons, List.not_mem_nil, or_false] at hd
      rcases hd with rfl | rfl <;> exact line_ok _ _)
    (engine_ok _ (by simp [Engine.opts, optsFromCfg, freeConfig, config, Fl.fin_le_fin]) _ _ (by rw [loop_lines]; simp [loop, side])) exactLib_exact exactLnr_exact Hdb.listHeap_legal le_rfl rfl
    (show trim ['d', 'p'] ∈ dpNames by decide +kernel) (congrArg maxOffset segDist_gap) rfl (by norm_num) rfl (by norm_num) rfl
  simp only [id] at this
  rw [loop_lines] at this
  exact this

end Real
end Verif
