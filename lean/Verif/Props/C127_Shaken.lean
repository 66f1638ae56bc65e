import Verif.Props.C126_RoundedCrossings
import Verif.Props.C124_Clocks
import Verif.Props.C110_Again

/-! C127: places that are known only up to an error. -/

set_option linter.unusedSectionVars false

namespace Verif
namespace Planar

/-! ### specification -/

/-- every place of the one line is within `η` of the corresponding place of the other -/
def Shaken (η : ℝ) (zs zs' : List ℂ) : Prop := List.Forall₂ (fun z z' => dist z z' ≤ η) zs zs'

/-- the segment is more than `η` away from the set, or meets it also after its ends are moved by up to `η` -/
def FirmPair (η : ℝ) (s : Set ℂ) (x y : ℂ) : Prop :=
  η < gap (segment ℝ x y) s ∨ ∀ x' y', dist x x' ≤ η → dist y y' ≤ η → (segment ℝ x' y' ∩ s).Nonempty

/-- the same for a triangle -/
def FirmTriple (η : ℝ) (s : Set ℂ) (x y z : ℂ) : Prop :=
  η < gap (convexHull ℝ {x, y, z}) s ∨ ∀ x' y' z', dist x x' ≤ η → dist y y' ≤ η → dist z z' ≤ η → (convexHull ℝ {x', y', z'} ∩ s).Nonempty

/-- Specification: all decisions on the line `zs` are made with so much room to spare that they come out the same when every place is moved by up to `η` and every offset by up
to `δ`: segments and triangles meet obstacles firmly or stay off them, distances are not near the minimum distance, what is not allowed is not nearly straight, offsets are not near
the tolerance, and where a sub-line has to be cut one vertex is clearly the farthest. -/
structure Firm (off : Int → Int → Int → ℝ) (δ η : ℝ) (R : Rules) (zs : List ℂ) : Prop where
  meets : R.geom = true ∨ R.side = true → ∀ s ∈ R.obstacles, ∀ i j : Int, 0 ≤ i → i < j → j < zs.length → FirmPair η s (vtx zs i) (vtx zs j)
  triangles : R.side = true → ∀ s ∈ R.obstacles, ∀ x ∈ zs, ∀ y ∈ zs, ∀ z ∈ zs, FirmTriple η s x y z
  distances : R.dist = true → ∀ s ∈ R.obstacles, ∀ i j : Int, 0 ≤ i → i < j → j < zs.length →
    (gap (chordSet (between zs i j)) s < R.minDist - η ∨ R.minDist + η ≤ gap (chordSet (between zs i j)) s) ∧
    (gap (lineSet (between zs i j)) s < R.minDist - η ∨ R.minDist + η ≤ gap (lineSet (between zs i j)) s)
  bent : ∀ i j : Int, 0 ≤ i → i + 1 < j → j < zs.length → ¬ Allowed R (between zs i j) →
    ∀ a ∈ between zs i j, ∀ b ∈ between zs i j, ∃ z ∈ between zs i j, 2 * η < gap {z} (segment ℝ a b)
  tolerance : ∀ i j : Int, 0 ≤ i → i + 1 < j → j < zs.length → NearBy off (R.tolerance - δ) i j ∨ ¬ NearBy off (R.tolerance + δ) i j
  farthest : ∀ i j : Int, 0 ≤ i → i + 1 < j → j < zs.length → ¬ NearBy off R.tolerance i j ∨ ¬ Allowed R (between zs i j) →
    ∃ k, i < k ∧ k < j ∧ ∀ l, i < l → l < j → l ≠ k → off i j l + 2 * δ < off i j k

/-! ### requests that the procedure cannot tell apart where it matters -/

section
variable {off off' : Int → Int → Int → ℝ} {R R' : Rules} {zs zs' : List ℂ}

/-- what is to be cut -/
def BadPart (R : Rules) (zs : List ℂ) (i j : Int) : Prop := ¬ Straight (between zs i j) ∧ ¬ Allowed R (between zs i j)

/-- as `AlikeBy`; the farthest vertex counts only where something is cut -/
structure SameCalls (off off' : Int → Int → Int → ℝ) (R R' : Rules) (zs zs' : List ℂ) : Prop where
  length : zs.length = zs'.length
  near : ∀ i j : Int, 0 ≤ i → j < zs.length → (NearBy off R.tolerance i j ↔ NearBy off' R'.tolerance i j)
  bad : ∀ i j : Int, 0 ≤ i → i + 1 < j → j < zs.length → (BadPart R zs i j ↔ BadPart R' zs' i j)
  allowed : ∀ i j : Int, 0 ≤ i → i < j → j < zs.length → (Allowed R (between zs i j) ↔ Allowed R' (between zs' i j))
  farthest : ∀ i j k : Int, 0 ≤ i → i + 1 < j → j < zs.length → ¬ NearBy off R.tolerance i j ∨ BadPart R zs i j → (FarthestBy off i j k ↔ FarthestBy off' i j k)

theorem SameCalls.thin (h : SameCalls off off' R R' zs zs') {i j : Int} {rs : List Rng} (ht : ThinnedBy off R.tolerance i j rs) (h0 : 0 ≤ i) (h1 : j < zs.length) :
    ThinnedBy off' R'.tolerance i j rs := by
  induction ht with
  | keep i j hn => exact .keep i j ((h.near i j h0 h1).1 hn)
  | cut i j k xs ys hn hk _ _ ih1 ih2 =>
    have k1 := hk.1
    have k2 := hk.2.1
    exact .cut i j k xs ys (fun c => hn ((h.near i j h0 h1).2 c)) ((h.farthest i j k h0 (by omega) h1 (.inl hn)).1 hk) (ih1 h0 (by omega)) (ih2 (by omega) h1)

theorem SameCalls.cut (h : SameCalls off off' R R' zs zs') {i j : Int} {rs : List Rng}
    (ht : CutBy off (fun i j => i + 1 < j ∧ ¬ Straight (between zs i j) ∧ ¬ Allowed R (between zs i j)) i j rs) (h0 : 0 ≤ i) (hij : i < j) (h1 : j < zs.length) :
    CutBy off' (fun i j => i + 1 < j ∧ ¬ Straight (between zs' i j) ∧ ¬ Allowed R' (between zs' i j)) i j rs ∧ ∀ r ∈ rs, 0 ≤ r.I ∧ r.I < r.J ∧ r.J < zs.length := by
  induction ht with
  | keep i j hn => exact ⟨.keep i j (fun c => hn ⟨c.1, (h.bad i j h0 c.1 h1).2 c.2⟩), by simp [h0, hij, h1]⟩
  | cut i j k xs ys hn hk _ _ ih1 ih2 =>
    have k1 := hk.1
    have k2 := hk.2.1
    obtain ⟨a1, b1⟩ := ih1 h0 k1 (by omega)
    obtain ⟨a2, b2⟩ := ih2 (by omega) k2 h1
    refine ⟨.cut i j k xs ys ⟨hn.1, (h.bad i j h0 hn.1 h1).1 hn.2⟩ ((h.farthest i j k h0 hn.1 h1 (.inr hn.2)).1 hk) a1 a2, fun r hr => ?_⟩
    rcases List.mem_append.1 hr with hr | hr
    · exact b1 r hr
    · exact b2 r hr

/-- a part without segments: the direction test rejects it, nothing else does -/
theorem allowed_short {l : List ℂ} (h : l.length ≤ 1) : Allowed R l ↔ R.side = false := by
  have he : chordSet l = lineSet l := by
    match l, h with
    | [], _ => ext z; simp [chordSet, lineSet]
    | [a], _ => ext z; simp [chordSet, lineSet]
  constructor
  · intro ha
    cases hs : R.side with
    | false => rfl
    | true =>
      obtain ⟨-, a, b, hp⟩ := ha.2.2 hs
      have := congrArg List.length (hp.unique (.short (by omega)))
      simp at this
      omega
  · intro hs
    refine ⟨fun _ s _ => by rw [he], fun _ s _ => ?_, fun c => by rw [hs] at c; cases c⟩
    rw [he]
    exact le_or_gt _ _

theorem SameCalls.imp (h : SameCalls off off' R R' zs zs') (hs : R'.side = R.side) {j j' : Int → Prop} (hm : ∀ v, Must R j zs v ↔ Must R' j' zs' v) {out : List Rng}
    (hp : ProcedureBy off R j zs out) : ProcedureBy off' R' j' zs' out := by
  obtain ⟨rs, ms, ls, h1, h2, h3, h4, h5⟩ := hp
  have hl := h.length
  have hms : ∀ r ∈ ms, 0 ≤ r.I ∧ r.I < r.J ∧ r.J < zs.length := fun r hr => by
    have := h2.mem hr
    omega
  obtain ⟨a, b⟩ := Each.imp_mem (T := fun r : Rng => 0 ≤ r.I ∧ r.I < r.J ∧ r.J < zs.length) h4 (fun r hr l hc => h.cut hc (hms r hr).1 (hms r hr).2.1 (hms r hr).2.2)
  refine ⟨rs, ms, ls, ?_, ?_, fun v => (h3 v).trans (or_congr_right (hm v)), a, ?_⟩
  · rw [← hl]; exact h.thin h1 le_rfl (by omega)
  · rw [← hl]; exact h2
  · refine MergeSpec.imp (n := zs.length) hm (fun i j h0 h1 => and_congr (h.near i j h0 h1) ?_) h5 (fun r hr => ?_)
    · rcases Int.lt_or_le i j with hij | hij
      · exact h.allowed i j h0 hij h1
      · have hshort : ∀ l : List ℂ, (between l i j).length ≤ 1 := fun l => by
          rw [between, List.length_take]
          omega
        rw [allowed_short (hshort _), allowed_short (hshort _), hs]
    · obtain ⟨b1, -, b2⟩ := b r (by simpa using hr)
      exact ⟨b1, b2⟩

theorem SameCalls.symm (h : SameCalls off off' R R' zs zs') : SameCalls off' off R' R zs' zs where
  length := h.length.symm
  near i j h0 h1 := (h.near i j h0 (by rw [h.length]; exact h1)).symm
  bad i j h0 h1 h2 := (h.bad i j h0 h1 (by rw [h.length]; exact h2)).symm
  allowed i j h0 h1 h2 := (h.allowed i j h0 h1 (by rw [h.length]; exact h2)).symm
  farthest i j k h0 h1 h2 hc := by
    have h2' : j < zs.length := by rw [h.length]; exact h2
    refine (h.farthest i j k h0 h1 h2' ?_).symm
    rwa [h.near i j h0 h2', h.bad i j h0 h1 h2']

theorem SameCalls.iff (h : SameCalls off off' R R' zs zs') (hs : R'.side = R.side) {j j' : Int → Prop} (hm : ∀ v, Must R j zs v ↔ Must R' j' zs' v) {out : List Rng} :
    ProcedureBy off R j zs out ↔ ProcedureBy off' R' j' zs' out := ⟨h.imp hs hm, h.symm.imp hs.symm (fun v => (hm v).symm)⟩

end

/-! ### sets near each other -/

section
variable {η : ℝ} {s : Set ℂ}

open Pointwise in
theorem hull_near {S T : Set ℂ} (h : ∀ x ∈ S, ∃ y ∈ T, dist x y ≤ η) : ∀ z ∈ convexHull ℝ S, ∃ z' ∈ convexHull ℝ T, dist z z' ≤ η := by
  have hsub : convexHull ℝ S ⊆ convexHull ℝ T + Metric.closedBall (0 : ℂ) η := by
    refine convexHull_min (fun x hx => ?_) ((convex_convexHull ℝ T).add (convex_closedBall _ _))
    obtain ⟨y, hy, hd⟩ := h x hx
    exact ⟨y, subset_convexHull ℝ T hy, x - y, by simpa [dist_eq_norm] using hd, by ring⟩
  intro z hz
  obtain ⟨y, hy, e, he, rfl⟩ := hsub hz
  exact ⟨y, hy, by simpa [dist_eq_norm] using he⟩

theorem segment_near {a b a' b' : ℂ} (ha : dist a a' ≤ η) (hb : dist b b' ≤ η) : ∀ z ∈ segment ℝ a b, ∃ z' ∈ segment ℝ a' b', dist z z' ≤ η := by
  rw [← convexHull_pair, ← convexHull_pair]
  refine hull_near (fun x hx => ?_)
  rcases hx with rfl | rfl
  · exact ⟨a', by simp, ha⟩
  · exact ⟨b', by simp, hb⟩

theorem triangle_near {a b c a' b' c' : ℂ} (ha : dist a a' ≤ η) (hb : dist b b' ≤ η) (hc : dist c c' ≤ η) :
    ∀ z ∈ convexHull ℝ {a, b, c}, ∃ z' ∈ convexHull ℝ {a', b', c'}, dist z z' ≤ η := by
  refine hull_near (fun x hx => ?_)
  rcases hx with rfl | rfl | rfl
  · exact ⟨a', by simp, ha⟩
  · exact ⟨b', by simp, hb⟩
  · exact ⟨c', by simp, hc⟩

/-- a set that is near a set off `s` does not meet `s` -/
theorem off_near {S T : Set ℂ} (h : ∀ z ∈ T, ∃ z' ∈ S, dist z z' ≤ η) (hg : η < gap S s) : ¬ (T ∩ s).Nonempty := by
  rintro ⟨z, hz, hs⟩
  obtain ⟨z', hz', hd⟩ := h z hz
  have := gap_le hz' hs
  rw [dist_comm] at this
  linarith

theorem gap_near {S T : Set ℂ} (h : ∀ z ∈ S, ∃ z' ∈ T, dist z z' ≤ η) (h1 : S.Nonempty) (h2 : s.Nonempty) : gap T s - η ≤ gap S s := by
  refine (le_gap_iff h1 h2).2 (fun x hx y hy => ?_)
  obtain ⟨z, hz, hd⟩ := h x hx
  have := gap_le hz hy
  have := dist_triangle z x y
  rw [dist_comm z x] at this
  linarith

theorem FirmPair.iff {x y x' y' : ℂ} (h0 : 0 ≤ η) (h : FirmPair η s x y) (hx : dist x x' ≤ η) (hy : dist y y' ≤ η) : (segment ℝ x y ∩ s).Nonempty ↔ (segment ℝ x' y' ∩ s).Nonempty := by
  rcases h with h | h
  · refine iff_of_false (fun c => ?_) (off_near (segment_near (by rwa [dist_comm]) (by rwa [dist_comm])) h)
    rw [gap_meet c] at h
    linarith
  · exact iff_of_true (h x y (by simpa using h0) (by simpa using h0)) (h x' y' hx hy)

theorem FirmTriple.iff {x y z x' y' z' : ℂ} (h0 : 0 ≤ η) (h : FirmTriple η s x y z) (hx : dist x x' ≤ η) (hy : dist y y' ≤ η) (hz : dist z z' ≤ η) :
    (convexHull ℝ {x, y, z} ∩ s).Nonempty ↔ (convexHull ℝ {x', y', z'} ∩ s).Nonempty := by
  rcases h with h | h
  · refine iff_of_false (fun c => ?_) (off_near (triangle_near (by rwa [dist_comm]) (by rwa [dist_comm]) (by rwa [dist_comm])) h)
    rw [gap_meet c] at h
    linarith
  · exact iff_of_true (h x y z (by simpa using h0) (by simpa using h0) (by simpa using h0)) (h x' y' z' hx hy hz)

end

/-! ### a line that is shaken -/

section
variable {η δ : ℝ} {R : Rules} {w : List (ℂ × ℂ)} {off off' : Int → Int → Int → ℝ}

theorem Shaken.pairs {zs zs' : List ℂ} (h : Shaken η zs zs') : ∃ w : List (ℂ × ℂ), zs = w.map Prod.fst ∧ zs' = w.map Prod.snd ∧ ∀ p ∈ w, dist p.1 p.2 ≤ η := by
  induction h with
  | nil => exact ⟨[], rfl, rfl, by simp⟩
  | @cons a b l l' hab _ ih =>
    obtain ⟨w, rfl, rfl, hw⟩ := ih
    refine ⟨(a, b) :: w, rfl, rfl, fun p hp => ?_⟩
    rcases List.mem_cons.1 hp with rfl | hp
    · exact hab
    · exact hw p hp

theorem pairs_between {Q : Type} (f : Q → ℂ) (w : List Q) (i j : Int) : between (w.map f) i j = (between w i j).map f := by
  simp only [between, List.map_take, List.map_drop]

theorem chord_near {l : List (ℂ × ℂ)} (hw : ∀ p ∈ l, dist p.1 p.2 ≤ η) : ∀ z ∈ chordSet (l.map Prod.fst), ∃ z' ∈ chordSet (l.map Prod.snd), dist z z' ≤ η := by
  rintro z ⟨a, b, ha, hb, hz⟩
  rw [List.head?_map, Option.map_eq_some_iff] at ha
  rw [List.getLast?_map, Option.map_eq_some_iff] at hb
  obtain ⟨p, hp, rfl⟩ := ha
  obtain ⟨q, hq, rfl⟩ := hb
  obtain ⟨z', hz', hd⟩ := segment_near (hw p (List.mem_of_head? hp)) (hw q (List.mem_of_getLast? hq)) z hz
  exact ⟨z', ⟨p.2, q.2, by simp [hp], by simp [hq], hz'⟩, hd⟩

theorem line_near : ∀ {l : List (ℂ × ℂ)}, (∀ p ∈ l, dist p.1 p.2 ≤ η) → ∀ z ∈ lineSet (l.map Prod.fst), ∃ z' ∈ lineSet (l.map Prod.snd), dist z z' ≤ η
  | [], _, z, hz => by simp [lineSet] at hz
  | [p], hw, z, hz => by
    simp only [List.map_cons, List.map_nil, lineSet, Set.mem_singleton_iff] at hz
    subst hz
    exact ⟨p.2, by simp [lineSet], hw p (by simp)⟩
  | p :: q :: l, hw, z, hz => by
    rcases hz with hz | hz
    · obtain ⟨z', hz', hd⟩ := segment_near (hw p (by simp)) (hw q (by simp)) z hz
      exact ⟨z', .inl hz', hd⟩
    · obtain ⟨z', hz', hd⟩ := line_near (l := q :: l) (fun p hp => hw p (List.mem_cons_of_mem _ hp)) z hz
      exact ⟨z', .inr hz', hd⟩

theorem chord_near' {l : List (ℂ × ℂ)} (hw : ∀ p ∈ l, dist p.1 p.2 ≤ η) : ∀ z ∈ chordSet (l.map Prod.snd), ∃ z' ∈ chordSet (l.map Prod.fst), dist z z' ≤ η := by
  have := chord_near (η := η) (l := l.map Prod.swap) (fun p hp => by
    obtain ⟨q, hq, rfl⟩ := List.mem_map.1 hp
    simpa [dist_comm] using hw q hq)
  simpa [List.map_map, Function.comp_def] using this

theorem line_near' {l : List (ℂ × ℂ)} (hw : ∀ p ∈ l, dist p.1 p.2 ≤ η) : ∀ z ∈ lineSet (l.map Prod.snd), ∃ z' ∈ lineSet (l.map Prod.fst), dist z z' ≤ η := by
  have := line_near (η := η) (l := l.map Prod.swap) (fun p hp => by
    obtain ⟨q, hq, rfl⟩ := List.mem_map.1 hp
    simpa [dist_comm] using hw q hq)
  simpa [List.map_map, Function.comp_def] using this

/-- a line all of whose segments meet the set or not, as those of the other line -/
theorem line_meets {s : Set ℂ} : ∀ {l : List (ℂ × ℂ)}, 2 ≤ l.length →
    (∀ u p q v, l = u ++ p :: q :: v → ((segment ℝ p.1 q.1 ∩ s).Nonempty ↔ (segment ℝ p.2 q.2 ∩ s).Nonempty)) →
    ((lineSet (l.map Prod.fst) ∩ s).Nonempty ↔ (lineSet (l.map Prod.snd) ∩ s).Nonempty)
  | [p, q], _, h => by
    have h1 := h [] p q [] rfl
    have e : ∀ a b : ℂ, segment ℝ a b ∪ {b} = segment ℝ a b := fun a b => by
      rw [Set.union_eq_left, Set.singleton_subset_iff]
      exact right_mem_segment ℝ a b
    simpa only [List.map_cons, List.map_nil, lineSet, e] using h1
  | p :: q :: r :: l, _, h => by
    have h1 := h [] p q (r :: l) rfl
    have h2 := line_meets (l := q :: r :: l) (by simp) (fun u a b v e => h (p :: u) a b v (by rw [e]; rfl))
    have h3 : ∀ (a b : Set ℂ), ((a ∪ b) ∩ s).Nonempty ↔ (a ∩ s).Nonempty ∨ (b ∩ s).Nonempty := fun a b => by
      rw [Set.union_inter_distrib_right, Set.union_nonempty]
    have h4 : ∀ f : ℂ × ℂ → ℂ, lineSet ((p :: q :: r :: l).map f) = segment ℝ (f p) (f q) ∪ lineSet ((q :: r :: l).map f) := fun f => rfl
    rw [h4, h4, h3, h3, h1, h2]

variable (h0 : 0 ≤ η) (hw : ∀ p ∈ w, dist p.1 p.2 ≤ η) (hF : Firm off δ η R (w.map Prod.fst))
include h0 hw hF

theorem Firm.pair {s : Set ℂ} (hR : R.geom = true ∨ R.side = true) (hs : s ∈ R.obstacles) {m n : Nat} {p q : ℂ × ℂ} (hp : w[m]? = some p) (hq : w[n]? = some q) (hmn : m < n) :
    (segment ℝ p.1 q.1 ∩ s).Nonempty ↔ (segment ℝ p.2 q.2 ∩ s).Nonempty := by
  have hn := (List.getElem?_eq_some_iff.1 hq).1
  have := hF.meets hR s hs m n (by omega) (by omega) (by simpa using hn)
  simp only [vtx, Int.toNat_natCast, List.getElem?_map, hp, hq, Option.map_some, Option.getD_some] at this
  exact this.iff h0 (hw p (List.mem_of_getElem? hp)) (hw q (List.mem_of_getElem? hq))

theorem Firm.chord {s : Set ℂ} (hR : R.geom = true ∨ R.side = true) (hs : s ∈ R.obstacles) {i j : Int} (hi : 0 ≤ i) (hij : i < j) (hj : j < w.length) :
    (chordSet ((between w i j).map Prod.fst) ∩ s).Nonempty ↔ (chordSet ((between w i j).map Prod.snd) ∩ s).Nonempty := by
  have e1 : (between w i j).head? = some w[i.toNat] := by
    rw [between, List.head?_take, if_neg (by omega), List.head?_drop, List.getElem?_eq_getElem (by omega)]
  have e2 : (between w i j).getLast? = some w[j.toNat] := by
    rw [between, List.getLast?_take, if_neg (by omega), List.getElem?_drop, show i.toNat + ((j + 1 - i).toNat - 1) = j.toNat by omega, List.getElem?_eq_getElem (by omega)]
    rfl
  have e3 : ∀ f : ℂ × ℂ → ℂ, chordSet ((between w i j).map f) = segment ℝ (f w[i.toNat]) (f w[j.toNat]) := fun f => by
    ext z
    simp [chordSet, e1, e2]
  rw [e3, e3]
  exact Firm.pair h0 hw hF hR hs (List.getElem?_eq_getElem (by omega)) (List.getElem?_eq_getElem (by omega)) (by omega)

theorem Firm.line {s : Set ℂ} (hR : R.geom = true ∨ R.side = true) (hs : s ∈ R.obstacles) {i j : Int} (hi : 0 ≤ i) (hij : i < j) (hj : j < w.length) :
    (lineSet ((between w i j).map Prod.fst) ∩ s).Nonempty ↔ (lineSet ((between w i j).map Prod.snd) ∩ s).Nonempty := by
  have hlen : (between w i j).length = (j + 1 - i).toNat := by rw [between, List.length_take, List.length_drop]; omega
  refine line_meets (by rw [hlen]; omega) (fun u p q v e => ?_)
  have hsplit : w = w.take i.toNat ++ (between w i j ++ (w.drop i.toNat).drop (j + 1 - i).toNat) := by
    rw [between, List.take_append_drop, List.take_append_drop]
  rw [e] at hsplit
  have ht : (w.take i.toNat).length = i.toNat := by rw [List.length_take]; omega
  refine Firm.pair h0 hw hF hR hs (m := i.toNat + u.length) (n := i.toNat + u.length + 1) ?_ ?_ (by omega)
  · rw [hsplit, List.getElem?_append_right (by omega), ht]
    simp
  · rw [hsplit, List.getElem?_append_right (by omega), ht]
    simp [show i.toNat + u.length + 1 - i.toNat = u.length + 1 by omega]

theorem Firm.side (hS : R.side = true) {i j : Int} (hi : 0 ≤ i) (hij : i < j) (hj : j < w.length) :
    SideOK R.obstacles ((between w i j).map Prod.fst) ↔ SideOK R.obstacles ((between w i j).map Prod.snd) := by
  have hsub : ∀ p ∈ between w i j, p ∈ w := fun p hp => List.mem_of_mem_drop (List.mem_of_mem_take hp)
  refine and_congr (forall_congr' fun s => imp_congr_right fun hs => ?_) ?_
  · rw [Firm.chord h0 hw hF (.inr hS) hs hi hij hj, Firm.line h0 hw hF (.inr hS) hs hi hij hj]
  · obtain ⟨r, hr⟩ := Pull.exists (fun x y z : ℂ × ℂ => FreeOf R.obstacles ((between w i j).map Prod.fst) x.1 y.1 z.1) (between w i j)
    have hfree : ∀ x ∈ between w i j, ∀ y ∈ between w i j, ∀ z ∈ between w i j,
        (FreeOf R.obstacles ((between w i j).map Prod.fst) x.1 y.1 z.1 ↔ FreeOf R.obstacles ((between w i j).map Prod.snd) x.2 y.2 z.2) := fun x hx y hy z hz => by
      refine forall_congr' fun s => imp_congr_right fun hs => ?_
      rw [Firm.line h0 hw hF (.inr hS) hs hi hij hj]
      refine imp_congr_right fun _ => not_congr ?_
      exact (hF.triangles hS s hs _ (List.mem_map_of_mem (hsub x hx)) _ (List.mem_map_of_mem (hsub y hy)) _ (List.mem_map_of_mem (hsub z hz))).iff h0
        (hw x (hsub x hx)) (hw y (hsub y hy)) (hw z (hsub z hz))
    have h1 := hr.map Prod.fst (free := FreeOf R.obstacles ((between w i j).map Prod.fst)) (fun x _ y _ z _ => Iff.rfl)
    have h2 := hr.map Prod.snd (free := FreeOf R.obstacles ((between w i j).map Prod.snd)) hfree
    constructor
    · rintro ⟨a, b, h⟩
      have := congrArg List.length (h1.unique h)
      match r, this with
      | [a, b], _ => exact ⟨_, _, h2⟩
    · rintro ⟨a, b, h⟩
      have := congrArg List.length (h2.unique h)
      match r, this with
      | [a, b], _ => exact ⟨_, _, h1⟩

/-- what is allowed for the line is allowed for the shaken line -/
theorem Firm.allowed {i j : Int} (hi : 0 ≤ i) (hij : i < j) (hj : j < w.length) : Allowed R (between (w.map Prod.fst) i j) ↔ Allowed R (between (w.map Prod.snd) i j) := by
  have hd := fun hD s hs => hF.distances hD s hs i j hi hij (by simpa using hj)
  rw [pairs_between] at hd
  rw [pairs_between, pairs_between]
  have hsub : ∀ p ∈ between w i j, dist p.1 p.2 ≤ η := fun p hp => hw p (List.mem_of_mem_drop (List.mem_of_mem_take hp))
  have hne : between w i j ≠ [] := fun c => by
    have := congrArg List.length c
    rw [between, List.length_take, List.length_drop, List.length_nil] at this
    omega
  refine and_congr (imp_congr_right fun hG => forall_congr' fun s => imp_congr_right fun hs => ?_)
    (and_congr (imp_congr_right fun hD => forall_congr' fun s => imp_congr_right fun hs => ?_) (imp_congr_right fun hS => Firm.side h0 hw hF hS hi hij hj))
  · rw [Firm.chord h0 hw hF (.inl hG) hs hi hij hj, Firm.line h0 hw hF (.inl hG) hs hi hij hj]
  · obtain ⟨d1, d2⟩ := hd hD s hs
    rcases s.eq_empty_or_nonempty with rfl | hsn
    · have e : ∀ t : Set ℂ, gap t ∅ = 0 := fun t => by simp [gap]
      simp only [e]
    have n1 := gap_near (s := s) (chord_near hsub) (chordSet_nonempty (by simpa using hne)) hsn
    have n2 := gap_near (s := s) (chord_near' hsub) (chordSet_nonempty (by simpa using hne)) hsn
    have n3 := gap_near (s := s) (line_near hsub) (lineSet_nonempty (by simpa using hne)) hsn
    have n4 := gap_near (s := s) (line_near' hsub) (lineSet_nonempty (by simpa using hne)) hsn
    have c1 : R.minDist ≤ gap (chordSet ((between w i j).map Prod.fst)) s ↔ R.minDist ≤ gap (chordSet ((between w i j).map Prod.snd)) s := by
      rcases d1 with d1 | d1
      · exact iff_of_false (by linarith) (by linarith)
      · exact iff_of_true (by linarith) (by linarith)
    have c2 : gap (lineSet ((between w i j).map Prod.fst)) s < R.minDist ↔ gap (lineSet ((between w i j).map Prod.snd)) s < R.minDist := by
      rcases d2 with d2 | d2
      · exact iff_of_true (by linarith) (by linarith)
      · exact iff_of_false (by linarith) (by linarith)
    rw [c1, c2]

/-- what is not allowed is straight neither before nor after -/
theorem Firm.crooked {i j : Int} (hi : 0 ≤ i) (hij : i + 1 < j) (hj : j < w.length) (hn : ¬ Allowed R (between (w.map Prod.fst) i j)) :
    ¬ Straight (between (w.map Prod.fst) i j) ∧ ¬ Straight (between (w.map Prod.snd) i j) := by
  have hb := hF.bent i j hi hij (by simpa using hj) hn
  have hsub : ∀ p ∈ between w i j, dist p.1 p.2 ≤ η := fun p hp => hw p (List.mem_of_mem_drop (List.mem_of_mem_take hp))
  rw [pairs_between] at hb ⊢
  rw [pairs_between]
  constructor
  · rintro ⟨a, ha, b, hb', -, h⟩
    obtain ⟨z, hz, hg⟩ := hb a ha b hb'
    rw [gap_meet (s := {z}) ⟨z, rfl, h z hz⟩] at hg
    linarith
  · rintro ⟨a', ha, b', hb', -, h⟩
    obtain ⟨a, ma, rfl⟩ := List.mem_map.1 ha
    obtain ⟨b, mb, rfl⟩ := List.mem_map.1 hb'
    obtain ⟨z, hz, hg⟩ := hb a.1 (List.mem_map_of_mem ma) b.1 (List.mem_map_of_mem mb)
    obtain ⟨p, mp, rfl⟩ := List.mem_map.1 hz
    obtain ⟨y, hy, hd⟩ := segment_near (η := η) (by rw [dist_comm]; exact hsub a ma) (by rw [dist_comm]; exact hsub b mb) p.2 (h p.2 (List.mem_map_of_mem mp))
    have h1 := gap_le (s := {p.1}) rfl hy
    have h2 := dist_triangle p.1 p.2 y
    have h3 := hsub p mp
    linarith

/-- **C127, the decisions.**  They are the same for the shaken line, if the offsets differ by at most `δ`. -/
theorem Firm.sameCalls (hδ : 0 ≤ δ) (hoff : ∀ i j k : Int, 0 ≤ i → i < k → k < j → j < w.length → |off' i j k - off i j k| ≤ δ) :
    SameCalls off off' R R (w.map Prod.fst) (w.map Prod.snd) where
  length := by simp
  near i j hi hj := by
    rw [List.length_map] at hj
    rcases Int.lt_or_le (i + 1) j with hij | hij
    · rcases hF.tolerance i j hi hij (by simpa using hj) with h | h
      · refine iff_of_true (fun k h1 h2 => ?_) (fun k h1 h2 => ?_)
        · have := h k h1 h2; linarith
        · have := h k h1 h2; have := abs_le.1 (hoff i j k hi h1 h2 hj); linarith
      · refine iff_of_false (fun c => h fun k h1 h2 => ?_) (fun c => h fun k h1 h2 => ?_)
        · have := c k h1 h2; linarith
        · have := c k h1 h2; have := abs_le.1 (hoff i j k hi h1 h2 hj); linarith
    · exact iff_of_true (fun k h1 h2 => by omega) (fun k h1 h2 => by omega)
  bad i j hi hij hj := by
    rw [List.length_map] at hj
    have ha := Firm.allowed h0 hw hF hi (by omega : i < j) hj
    by_cases hn : Allowed R (between (w.map Prod.fst) i j)
    · exact iff_of_false (fun c => c.2 hn) (fun c => c.2 (ha.1 hn))
    · obtain ⟨c1, c2⟩ := Firm.crooked h0 hw hF hi hij hj hn
      exact iff_of_true ⟨c1, hn⟩ ⟨c2, fun c => hn (ha.2 c)⟩
  allowed i j hi hij hj := Firm.allowed h0 hw hF hi hij (by simpa using hj)
  farthest i j k hi hij hj hc := by
    rw [List.length_map] at hj
    obtain ⟨m, m1, m2, hm⟩ := hF.farthest i j hi hij (by simpa using hj) (hc.imp id (fun c => c.2))
    have hm' : ∀ l, i < l → l < j → l ≠ m → off' i j l < off' i j m := fun l l1 l2 hl => by
      have := hm l l1 l2 hl
      have := abs_le.1 (hoff i j l hi l1 l2 hj)
      have := abs_le.1 (hoff i j m hi m1 m2 hj)
      linarith
    have only : ∀ {o : Int → Int → Int → ℝ}, (∀ l, i < l → l < j → l ≠ m → o i j l < o i j m) → (FarthestBy o i j k ↔ k = m) := by
      intro o ho
      constructor
      · rintro ⟨k1, k2, k3, -⟩
        by_contra hk
        have := ho k k1 k2 hk
        have := k3 m m1 m2
        linarith
      · rintro rfl
        refine ⟨m1, m2, fun l l1 l2 => ?_, fun l l1 l2 => ho l (by omega) l2 (by omega)⟩
        by_cases hl : l = k
        · rw [hl]
        · exact (ho l l1 l2 hl).le
    rw [only (fun l l1 l2 hl => by have := hm l l1 l2 hl; linarith), only hm']

end

/-! ### offsets -/

section
variable {η : ℝ} {w : List (ℂ × ℂ)}

theorem gap_shaken {p p' a a' b b' : ℂ} (hp : dist p p' ≤ η) (ha : dist a a' ≤ η) (hb : dist b b' ≤ η) :
    gap {p'} (segment ℝ a' b') - 2 * η ≤ gap {p} (segment ℝ a b) := by
  refine (le_gap_iff (s := {p}) ⟨p, rfl⟩ ⟨a, left_mem_segment ℝ a b⟩).2 (fun x hx y hy => ?_)
  obtain rfl := hx
  obtain ⟨y', hy', hd⟩ := segment_near ha hb y hy
  have h1 := gap_le (s := {p'}) rfl hy'
  have h2 := dist_triangle p' x y'
  have h3 := dist_triangle x y y'
  rw [dist_comm p' x] at h2
  linarith

theorem vtx_pairs {k : Int} (h0 : 0 ≤ k) (h1 : k < w.length) : ∃ p ∈ w, vtx (w.map Prod.fst) k = p.1 ∧ vtx (w.map Prod.snd) k = p.2 := by
  have : k.toNat < w.length := by omega
  exact ⟨w[k.toNat], List.getElem_mem _, by simp [vtx, List.getElem?_eq_getElem this], by simp [vtx, List.getElem?_eq_getElem this]⟩

theorem offsetOf_shaken (hw : ∀ p ∈ w, dist p.1 p.2 ≤ η) (i j k : Int) (h0 : 0 ≤ i) (h1 : i < k) (h2 : k < j) (h3 : j < w.length) :
    |offsetOf (w.map Prod.snd) i j k - offsetOf (w.map Prod.fst) i j k| ≤ 2 * η := by
  obtain ⟨a, ma, a1, a2⟩ := vtx_pairs (w := w) h0 (by omega : i < w.length)
  obtain ⟨b, mb, b1, b2⟩ := vtx_pairs (w := w) (by omega : 0 ≤ j) h3
  obtain ⟨p, mp, p1, p2⟩ := vtx_pairs (w := w) (by omega : 0 ≤ k) (by omega : k < w.length)
  rw [offsetOf, offsetOf, a1, a2, b1, b2, p1, p2, abs_le]
  have h4 := gap_shaken (hw p mp) (hw a ma) (hw b mb)
  have h5 := gap_shaken (η := η) (by rw [dist_comm]; exact hw p mp) (by rw [dist_comm]; exact hw a ma) (by rw [dist_comm]; exact hw b mb)
  constructor <;> linarith

/-- **C127, the procedure.**  Let every place of a line be known up to an error `η`, and let all decisions on the line be made with room to spare.  If the vertices that must be kept
are the same, the procedure prescribes the same for the line and for what is known of it. -/
theorem C127_procedure {R : Rules} {zs zs' : List ℂ} (h0 : 0 ≤ η) (hs : Shaken η zs zs') (hF : Firm (offsetOf zs) (2 * η) η R zs) {j j' : Int → Prop}
    (hm : ∀ v, Must R j zs v ↔ Must R j' zs' v) {out : List Rng} : Procedure R j zs out ↔ Procedure R j' zs' out := by
  obtain ⟨w, rfl, rfl, hw⟩ := hs.pairs
  rw [← procedureBy_offsetOf, ← procedureBy_offsetOf]
  exact (Firm.sameCalls h0 hw hF (by linarith) (offsetOf_shaken hw)).iff rfl hm

/-- the same motion with places known up to `η` -/
def ShakenMotion (η : ℝ) (ms ms' : List (ℂ × ℝ)) : Prop := List.Forall₂ (fun q q' => dist q.1 q'.1 ≤ η ∧ q.2 = q'.2) ms ms'

theorem ShakenMotion.pairs {ms ms' : List (ℂ × ℝ)} (h : ShakenMotion η ms ms') : ∃ u : List ((ℂ × ℂ) × ℝ), ms = u.map (fun q => (q.1.1, q.2)) ∧
    ms' = u.map (fun q => (q.1.2, q.2)) ∧ ∀ q ∈ u, dist q.1.1 q.1.2 ≤ η := by
  induction h with
  | nil => exact ⟨[], rfl, rfl, by simp⟩
  | @cons a b l l' hab _ ih =>
    obtain ⟨u, rfl, rfl, hu⟩ := ih
    refine ⟨((a.1, b.1), a.2) :: u, rfl, ?_, fun p hp => ?_⟩
    · rw [List.map_cons, hab.2]
    · rcases List.mem_cons.1 hp with rfl | hp
      · exact hab.1
      · exact hu p hp

theorem along_shaken {a b : ℂ × ℂ} {s t x : ℝ} (ha : dist a.1 a.2 ≤ η) (hb : dist b.1 b.2 ≤ η) (h1 : s < x) (h2 : x < t) :
    dist (along (a.1, s) (b.1, t) x) (along (a.2, s) (b.2, t) x) ≤ η := by
  have hst : 0 < t - s := by linarith
  have l0 : 0 ≤ (x - s) / (t - s) := div_nonneg (by linarith) hst.le
  have l1 : (x - s) / (t - s) ≤ 1 := (div_le_one hst).2 (by linarith)
  simp only [along]
  generalize (x - s) / (t - s) = c at l0 l1
  rw [dist_eq_norm] at ha hb ⊢
  have e : a.1 + c • (b.1 - a.1) - (a.2 + c • (b.2 - a.2)) = (1 - c) • (a.1 - a.2) + c • (b.1 - b.2) := by
    simp only [Complex.real_smul, Complex.ofReal_sub, Complex.ofReal_one]; ring
  rw [e]
  calc ‖(1 - c) • (a.1 - a.2) + c • (b.1 - b.2)‖ ≤ ‖(1 - c) • (a.1 - a.2)‖ + ‖c • (b.1 - b.2)‖ := norm_add_le _ _
    _ = (1 - c) * ‖a.1 - a.2‖ + c * ‖b.1 - b.2‖ := by rw [norm_smul, norm_smul, Real.norm_of_nonneg (by linarith), Real.norm_of_nonneg l0]
    _ ≤ (1 - c) * η + c * η := add_le_add (mul_le_mul_of_nonneg_left ha (by linarith)) (mul_le_mul_of_nonneg_left hb l0)
    _ = η := by ring

theorem syncOffset_shaken {u : List ((ℂ × ℂ) × ℝ)} (hu : ∀ q ∈ u, dist q.1.1 q.1.2 ≤ η) (ht : Timed (u.map (fun q => (q.1.1, q.2)))) (i j k : Int) (h0 : 0 ≤ i) (h1 : i < k)
    (h2 : k < j) (h3 : j < u.length) : |syncOffset (u.map (fun q => (q.1.2, q.2))) i j k - syncOffset (u.map (fun q => (q.1.1, q.2))) i j k| ≤ 2 * η := by
  have bi : i.toNat < u.length := by omega
  have bj : j.toNat < u.length := by omega
  have bk : k.toNat < u.length := by omega
  have tl : ∀ m n (hm : m < u.length) (hn : n < u.length), m < n → u[m].2 < u[n].2 := fun m n hm hn hmn => by
    have := List.pairwise_iff_getElem.1 ht m n (by simpa using hm) (by simpa using hn) hmn
    simpa using this
  have t1 := tl _ _ bi bk (by omega)
  have t2 := tl _ _ bk bj (by omega)
  simp only [syncOffset, stop, List.getElem?_map, List.getElem?_eq_getElem bi, List.getElem?_eq_getElem bj, List.getElem?_eq_getElem bk, Option.map_some, Option.getD_some]
  have d1 := along_shaken (hu _ (List.getElem_mem bi)) (hu _ (List.getElem_mem bj)) t1 t2
  have d2 := hu _ (List.getElem_mem bk)
  simp only [← dist_eq_norm]
  generalize along _ _ _ = y at d1
  generalize along _ _ _ = y' at d1 ⊢
  have e1 := dist_triangle4 u[k.toNat].1.1 u[k.toNat].1.2 y' y
  have e2 := dist_triangle4 u[k.toNat].1.2 u[k.toNat].1.1 y y'
  rw [dist_comm u[k.toNat].1.2 u[k.toNat].1.1] at e2
  rw [dist_comm y' y] at e1
  rw [abs_le]
  constructor <;> linarith

/-- **C127, the procedure for motions.** -/
theorem C127_motionProcedure {R : Rules} {ms ms' : List (ℂ × ℝ)} (h0 : 0 ≤ η) (hs : ShakenMotion η ms ms') (ht : Timed ms) (hF : Firm (syncOffset ms) (2 * η) η R (ms.map Prod.fst))
    {j j' : Int → Prop} (hm : ∀ v, Must R j (ms.map Prod.fst) v ↔ Must R j' (ms'.map Prod.fst) v) {out : List Rng} : MotionProcedure R j ms out ↔ MotionProcedure R j' ms' out := by
  obtain ⟨u, rfl, rfl, hu⟩ := hs.pairs
  unfold MotionProcedure
  have e1 : (u.map (fun q => (q.1.1, q.2))).map Prod.fst = (u.map Prod.fst).map Prod.fst := by simp [Function.comp_def]
  have e2 : (u.map (fun q => (q.1.2, q.2))).map Prod.fst = (u.map Prod.fst).map Prod.snd := by simp [Function.comp_def]
  rw [e1] at hF hm ⊢
  rw [e2] at hm ⊢
  refine (Firm.sameCalls h0 (w := u.map Prod.fst) (fun p hp => ?_) hF (by linarith) (fun i j k a b c d => syncOffset_shaken hu ht i j k a b c (by simpa using d))).iff rfl hm
  obtain ⟨q, hq, rfl⟩ := List.mem_map.1 hp
  exact hu q hq

end

end Planar

namespace Io
open Verif.Text Verif.Planar

/-- **C127, what is prescribed.** -/
theorem C127_prescribed {η : ℝ} {R : Rules} {zs zs' : List ℂ} {zss zss' : List (List ℂ)} (h0 : 0 ≤ η) (hs : Shaken η zs zs') (hF : Firm (offsetOf zs) (2 * η) η R zs)
    (hm : ∀ v, Must R (Junction zss zs) zs v ↔ Must R (Junction zss' zs') zs' v) : prescribed R zss zs = prescribed R zss' zs' :=
  prescribed_congr fun _ => C127_procedure h0 hs hF hm

theorem C127_prescribedStops {η : ℝ} {R : Rules} {ms ms' : List (ℂ × ℝ)} {zss zss' : List (List ℂ)} (h0 : 0 ≤ η) (hs : ShakenMotion η ms ms') (ht : Timed ms)
    (hF : Firm (syncOffset ms) (2 * η) η R (ms.map Prod.fst))
    (hm : ∀ v, Must R (Junction zss (ms.map Prod.fst)) (ms.map Prod.fst) v ↔ Must R (Junction zss' (ms'.map Prod.fst)) (ms'.map Prod.fst) v) :
    prescribedStops R zss ms = prescribedStops R zss' ms' :=
  prescribedStops_congr fun _ => C127_motionProcedure h0 hs ht hF hm

section
variable {P C Props P' C' Props' : Type}

/-- **C127 for the program.**  Two runs with the same request; the places in the second file are those of the first, up to an error `η`.  A line of the second file is saved with the
same vertex numbers as the line `zs` of the first that it is near to, if all decisions on `zs` are made with room to spare and the same vertices must be kept. -/
theorem C127_program {w : World (Fl ℝ) P Props C} {E : Engine P C EReal ℝ} {b f : Str} {obj : ArgObj (Fl ℝ)} {docs : List (Doc (Fl ℝ))} {ctx : List C} {pos : P → ℂ}
    {region : C → Set ℂ} {t m : ℝ} (X : ExactProgram w E b f obj docs ctx pos region t m)
    {w' : World (Fl ℝ) P' Props' C'} {E' : Engine P' C' EReal ℝ} {b' f' : Str} {obj' : ArgObj (Fl ℝ)} {docs' : List (Doc (Fl ℝ))} {ctx' : List C'} {pos' : P' → ℂ}
    {region' : C' → Set ℂ} {t' m' : ℝ} (X' : ExactProgram w' E' b' f' obj' docs' ctx' pos' region' t' m')
    {η : ℝ} (h0 : 0 ≤ η) (hR : rulesAsked region' obj' ctx' t' m' = rulesAsked region obj ctx t m) :
    ∃ (κ : List ℂ → List Int) (out : List (LineFeature (Fl ℝ) Props)) (out' : List (LineFeature (Fl ℝ) Props')) (N : Nat),
      (∀ fuel ≥ N, main (program w E fuel) b f = .saved (trim obj.output) (out.map w.marshal) ∧
        main (program w' E' fuel) b' f' = .saved (trim obj'.output) (out'.map w'.marshal)) ∧
      List.Forall₂ (WrittenAs (fun l q => q = verticesAt l (κ (l.map pos))) w.enc E.toPoint) docs out ∧
      List.Forall₂ (WrittenAs (fun l q => ∀ zs, Shaken η zs (l.map pos') → Firm (offsetOf zs) (2 * η) η (rulesAsked region obj ctx t m) zs →
        (∀ v, Must (rulesAsked region obj ctx t m) (Junction (if obj.isFeatureClass then placesOf pos E.toPoint docs else []) zs) zs v ↔
          Must (rulesAsked region obj ctx t m) (Junction (if obj'.isFeatureClass then placesOf pos' E'.toPoint docs' else []) (l.map pos')) (l.map pos') v) →
        q = verticesAt l (κ zs)) w'.enc E'.toPoint) docs' out' := by
  obtain ⟨out, N, h1, h2⟩ := X.prescribed
  obtain ⟨out', N', h1', h2'⟩ := X'.prescribed
  refine ⟨_, out, out', max N N', fun fuel hf => ⟨h1 fuel (le_trans (le_max_left _ _) hf), h1' fuel (le_trans (le_max_right _ _) hf)⟩, h2,
    h2'.imp (fun d o hw => hw.weaken (fun l q hq zs hz hF hm => ?_))⟩
  rw [hq, hR, C127_prescribed h0 hz hF hm]

/-- **C127 for the program on motions.** -/
theorem C127_sed {w : World (Fl ℝ) Pt3 Props C} {E : Engine Pt3 C EReal ℝ} {b f : Str} {obj : ArgObj (Fl ℝ)} {docs : List (Doc (Fl ℝ))} {ctx : List C}
    {region : C → Set ℂ} {t m : ℝ} (X : SedProgram w E b f obj docs ctx region t m)
    {w' : World (Fl ℝ) Pt3 Props' C'} {E' : Engine Pt3 C' EReal ℝ} {b' f' : Str} {obj' : ArgObj (Fl ℝ)} {docs' : List (Doc (Fl ℝ))} {ctx' : List C'}
    {region' : C' → Set ℂ} {t' m' : ℝ} (X' : SedProgram w' E' b' f' obj' docs' ctx' region' t' m')
    {η : ℝ} (h0 : 0 ≤ η) (hR : rulesAsked region' obj' ctx' t' m' = rulesAsked region obj ctx t m) :
    ∃ (κ : List (ℂ × ℝ) → List Int) (out : List (LineFeature (Fl ℝ) Props)) (out' : List (LineFeature (Fl ℝ) Props')) (N : Nat),
      (∀ fuel ≥ N, main (program w E fuel) b f = .saved (trim obj.output) (out.map w.marshal) ∧
        main (program w' E' fuel) b' f' = .saved (trim obj'.output) (out'.map w'.marshal)) ∧
      List.Forall₂ (WrittenAs (fun l q => ∀ ms, l = ms.map timed → Timed ms → q = (verticesAt ms (κ ms)).map timed) w.enc E.toPoint) docs out ∧
      List.Forall₂ (WrittenAs (fun l q => ∀ ms ms', l = ms'.map timed → ShakenMotion η ms ms' → Timed ms → Firm (syncOffset ms) (2 * η) η (rulesAsked region obj ctx t m) (ms.map Prod.fst) →
        (∀ v, Must (rulesAsked region obj ctx t m) (Junction (classPlaces E obj docs) (ms.map Prod.fst)) (ms.map Prod.fst) v ↔
          Must (rulesAsked region obj ctx t m) (Junction (classPlaces E' obj' docs') (ms'.map Prod.fst)) (ms'.map Prod.fst) v) →
        q = (verticesAt ms' (κ ms)).map timed) w'.enc E'.toPoint) docs' out' := by
  obtain ⟨out, N, h1, h2⟩ := X.prescribed
  obtain ⟨out', N', h1', h2'⟩ := X'.prescribed
  refine ⟨_, out, out', max N N', fun fuel hf => ⟨h1 fuel (le_trans (le_max_left _ _) hf), h1' fuel (le_trans (le_max_right _ _) hf)⟩, h2,
    h2'.imp (fun d o hw => hw.weaken (fun l q hq ms ms' hl hz ht hF hm => ?_))⟩
  have ht' : Timed ms' := by
    obtain ⟨u, rfl, rfl, -⟩ := hz.pairs
    unfold Timed at ht ⊢
    rw [List.pairwise_map] at ht ⊢
    exact ht
  rw [hq ms' hl ht', hR, C127_prescribedStops h0 hz ht hF hm]

end
end Io

/-! ### concrete cases -/

namespace Real
open Io Text Planar

theorem gap_farPoint {A : Set ℂ} (h1 : A.Nonempty) (h : A ⊆ Metric.closedBall 0 2) : 900 ≤ gap A farPoint.1 := by
  refine (le_gap_iff h1 farPoint.2).2 (fun x hx y hy => ?_)
  obtain rfl : y = ⟨1000, 0⟩ := hy
  have h2 : ‖x‖ ≤ 2 := by simpa using h hx
  have h3 := Complex.abs_re_le_norm x
  have h4 := Complex.abs_re_le_norm (x - ⟨1000, 0⟩)
  rw [dist_eq_norm]
  rw [Complex.sub_re] at h4
  have h5 := abs_le.1 (h3.trans h2)
  have h6 := neg_abs_le (x.re - (⟨1000, 0⟩ : ℂ).re)
  have : (⟨1000, 0⟩ : ℂ).re = 1000 := rfl
  linarith

/-- near the origin everything is firm with respect to a constraint far away, if the offsets are -/
theorem far_firm {off : Int → Int → Int → ℝ} {δ η : ℝ} (hη : 0 ≤ η ∧ η ≤ 1) {R : Rules} (hR : R.obstacles = {s | ∃ g ∈ [farPoint], g.1 = s}) (hm : R.minDist ≤ 1) {zs : List ℂ}
    (hz : ∀ z ∈ zs, ‖z‖ ≤ 2)
    (tol : ∀ i j : Int, 0 ≤ i → i + 1 < j → j < zs.length → NearBy off (R.tolerance - δ) i j ∨ ¬ NearBy off (R.tolerance + δ) i j)
    (far : ∀ i j : Int, 0 ≤ i → i + 1 < j → j < zs.length → ∃ k, i < k ∧ k < j ∧ ∀ l, i < l → l < j → l ≠ k → off i j l + 2 * δ < off i j k) :
    Firm off δ η R zs := by
  have hs : ∀ s ∈ R.obstacles, s = farPoint.1 := fun s hs => by
    rw [hR] at hs
    obtain ⟨g, hg, rfl⟩ := hs
    rw [List.mem_singleton.1 hg]
  have hull : ∀ S : Set ℂ, (∀ z ∈ S, z ∈ zs) → convexHull ℝ S ⊆ Metric.closedBall 0 2 := fun S hS =>
    convexHull_min (fun z h => by simpa using hz z (hS z h)) (convex_closedBall 0 2)
  have hv : ∀ k : Int, 0 ≤ k → k < zs.length → vtx zs k ∈ zs := fun k h0 h1 => by
    have : k.toNat < zs.length := by omega
    simp [vtx, List.getElem?_eq_getElem this]
  have hb : ∀ i j : Int, ∀ z ∈ between zs i j, z ∈ zs := fun i j z h => List.mem_of_mem_drop (List.mem_of_mem_take h)
  have hc : ∀ i j : Int, chordSet (between zs i j) ⊆ Metric.closedBall 0 2 := fun i j => (chordSet_subset_hullSet _).trans (hull _ (hb i j))
  have hl : ∀ i j : Int, lineSet (between zs i j) ⊆ Metric.closedBall 0 2 := fun i j => (lineSet_subset_hullSet _).trans (hull _ (hb i j))
  have len : ∀ i j : Int, 0 ≤ i → i < j → j < zs.length → (between zs i j).length = (j + 1 - i).toNat := fun i j h0 h1 h2 => by
    rw [between, List.length_take, List.length_drop]; omega
  have hne : ∀ i j : Int, 0 ≤ i → i < j → j < zs.length → between zs i j ≠ [] := fun i j h0 h1 h2 c => by
    have := len i j h0 h1 h2
    rw [c] at this
    simp at this
    omega
  have miss : ∀ {A : Set ℂ}, A ⊆ Metric.closedBall 0 2 → ¬ (A ∩ farPoint.1).Nonempty := fun {A} hA c => by
    have h1 := gap_farPoint ⟨_, c.some_mem.1⟩ hA
    rw [gap_meet c] at h1
    norm_num at h1
  refine ⟨fun _ s h i j h0 h1 h2 => .inl ?_, fun _ s h x hx y hy z hz' => .inl ?_, fun _ s h i j h0 h1 h2 => ⟨.inr ?_, .inr ?_⟩, fun i j h0 h1 h2 hn => absurd ?_ hn, tol,
    fun i j h0 h1 h2 _ => far i j h0 h1 h2⟩
  · rw [hs s h, ← convexHull_pair]
    have := gap_farPoint (A := convexHull ℝ {vtx zs i, vtx zs j}) ⟨_, subset_convexHull ℝ _ (Set.mem_insert _ _)⟩ (hull _ (fun z hz => by
      rcases hz with rfl | rfl
      · exact hv i h0 (by omega)
      · exact hv j (by omega) h2))
    linarith [hη.2]
  · rw [hs s h]
    have := gap_farPoint (A := convexHull ℝ {x, y, z}) ⟨_, subset_convexHull ℝ _ (Set.mem_insert _ _)⟩ (hull _ (fun w hw => by
      rcases hw with rfl | rfl | rfl
      · exact hx
      · exact hy
      · exact hz'))
    linarith [hη.2]
  · rw [hs s h]
    have := gap_farPoint (chordSet_nonempty (hne i j h0 h1 h2)) (hc i j)
    linarith [hη.2]
  · rw [hs s h]
    have := gap_farPoint (lineSet_nonempty (hne i j h0 h1 h2)) (hl i j)
    linarith [hη.2]
  · have both : ∀ s ∈ R.obstacles, (chordSet (between zs i j) ∩ s).Nonempty ↔ (lineSet (between zs i j) ∩ s).Nonempty := fun s h => by
      rw [hs s h]
      exact iff_of_false (miss (hc i j)) (miss (hl i j))
    refine ⟨fun _ => both, fun _ s h => .inl ?_, fun _ => ⟨both, ?_⟩⟩
    · rw [hs s h]
      have := gap_farPoint (chordSet_nonempty (hne i j h0 (by omega) h2)) (hc i j)
      linarith
    · have hlen := len i j h0 (by omega) h2
      have hmem := hb i j
      generalize between zs i j = l at hlen hmem
      match l, hlen with
      | a :: b :: l, hlen =>
        rcases List.eq_nil_or_concat (b :: l) with e | ⟨w, z, e⟩
        · cases e
        rw [List.concat_eq_append] at e
        rw [e] at hmem ⊢
        refine ⟨a, z, (Pull.all (free := fun _ _ _ => True) (fun _ _ _ => trivial) w a z).congr (fun x hx y hy z hz' => iff_of_true trivial (fun s h _ => ?_))⟩
        rw [hs s h]
        refine miss (hull _ (fun u hu => ?_))
        rcases hu with rfl | rfl | rfl
        · exact hmem _ hx
        · exact hmem _ hy
        · exact hmem _ hz'
      | [a], hlen => simp at hlen; omega
      | [], hlen => simp at hlen; omega

/-- a tent, and what is known of it -/
noncomputable def tent : List ℂ := [⟨0, 0⟩, ⟨1, 1⟩, ⟨2, 0⟩]
noncomputable def tentNear : List ℂ := [⟨0, 1 / 100⟩, ⟨1, 1⟩, ⟨2, 0⟩]

noncomputable def coordsOf' (zs : List ℂ) : List (List (Fl ℝ)) := zs.map (fun z => [.fin z.re, .fin z.im])

theorem tent_offset : offsetOf tent 0 2 1 = 1 := by
  simp only [offsetOf, vtx, tent]
  refine le_antisymm ?_ ?_
  · have h : (⟨1, 0⟩ : ℂ) ∈ segment ℝ (⟨0, 0⟩ : ℂ) ⟨2, 0⟩ := ⟨1 / 2, 1 / 2, by norm_num, by norm_num, by norm_num, by apply Complex.ext <;> simp⟩
    have := gap_le (s := {(⟨1, 1⟩ : ℂ)}) rfl h
    have e : dist (⟨1, 1⟩ : ℂ) ⟨1, 0⟩ = 1 := (Complex.dist_of_re_eq (z := ⟨1, 1⟩) (w := ⟨1, 0⟩) rfl).trans (by norm_num [Real.dist_eq])
    rw [e] at this
    exact this
  · refine (le_gap_iff (s := {(⟨1, 1⟩ : ℂ)}) ⟨_, rfl⟩ ⟨_, left_mem_segment ℝ _ _⟩).2 (fun x hx y hy => ?_)
    obtain rfl := hx
    obtain ⟨a, b, ha, hb, hab, rfl⟩ := hy
    have h4 := Complex.abs_im_le_norm ((⟨1, 1⟩ : ℂ) - (a • (⟨0, 0⟩ : ℂ) + b • (⟨2, 0⟩ : ℂ)))
    rw [dist_eq_norm]
    refine le_trans ?_ h4
    simp

theorem tent_norm : ∀ z ∈ tent, ‖z‖ ≤ 2 := by
  intro z hz
  simp only [tent, List.mem_cons, List.not_mem_nil, or_false] at hz
  have h := Complex.norm_le_abs_re_add_abs_im z
  refine h.trans ?_
  rcases hz with rfl | rfl | rfl <;> norm_num

theorem tent_firm (fc : Bool) : Firm (offsetOf tent) (2 * (1 / 100)) (1 / 100) (rulesAsked (fun r : Region => r.1) (scaledConfig fc (1 / 4) (1 / 2)) [farPoint] (1 / 4) (1 / 2)) tent := by
  refine far_firm (by norm_num) rfl (by simp only [rulesAsked]; norm_num) tent_norm (fun i j h0 h1 h2 => .inr (fun h => ?_)) (fun i j h0 h1 h2 => ?_)
  · simp only [tent, List.length_cons, List.length_nil] at h2
    obtain rfl : i = 0 := by omega
    obtain rfl : j = 2 := by omega
    have := h 1 (by norm_num) (by norm_num)
    rw [tent_offset] at this
    simp only [rulesAsked] at this
    norm_num at this
  · simp only [tent, List.length_cons, List.length_nil] at h2
    exact ⟨1, by omega, by omega, fun l l0 l1 hl => by omega⟩

theorem tent_shaken : Shaken (1 / 100) tent tentNear := by
  refine .cons ?_ (.cons ?_ (.cons ?_ .nil))
  · exact (Complex.dist_of_re_eq (z := ⟨0, 0⟩) (w := ⟨0, 1 / 100⟩) rfl).trans_le (by norm_num [Real.dist_eq])
  · simp
  · simp

/-- places that go to the right are not visited twice -/
theorem not_must {R : Rules} (hc : R.keepCross = false) {zs : List ℂ} (hz : zs.Pairwise (fun a b => a.re < b.re)) (v : Int) : ¬ Must R (Junction [] zs) zs v := by
  rintro ⟨-, ⟨n, z, rest, -, -, hp, -⟩ | ⟨k, -, ⟨l, p, q, r, hkl, hk, hl, e, -⟩ | ⟨h, -⟩⟩⟩
  · simp at hp
  · obtain ⟨b1, rfl⟩ := List.getElem?_eq_some_iff.1 hk
    obtain ⟨b2, rfl⟩ := List.getElem?_eq_some_iff.1 hl
    simp only [id] at e
    rcases Nat.lt_or_gt_of_ne hkl with h | h
    · have := List.pairwise_iff_getElem.1 hz _ _ b1 b2 h
      rw [e] at this
      exact lt_irrefl _ this
    · have := List.pairwise_iff_getElem.1 hz _ _ b2 b1 h
      rw [e] at this
      exact lt_irrefl _ this
  · rw [hc] at h
    cases h

/-- C127 for the program: a tent known up to an error of 1/100 is saved with the same vertex numbers; all relations to a constraint and self-intersections are asked for -/
example : ∃ (κ : List ℂ → List Int) (out out' : List (LineFeature (Fl ℝ) Str)) (N : Nat),
    (∀ fuel ≥ N, main (program (world ordsC (scaledConfig false (1 / 4) (1 / 2)) (.geometry (.line (coordsOf' tent))) (.geometry (.line (coordsOf' tent))) [farPoint]) engine fuel)
        "e30=".toList ['-'] = .saved ['o'] (out.map (fun _ => [])) ∧
      main (program (world ordsC (scaledConfig false (1 / 4) (1 / 2)) (.geometry (.line (coordsOf' tentNear))) (.geometry (.line (coordsOf' tent))) [farPoint]) engine fuel)
        "e30=".toList ['-'] = .saved ['o'] (out'.map (fun _ => []))) ∧
    List.Forall₂ (WrittenAs (fun l q => q = verticesAt l (κ (l.map id)))
      (world ordsC (scaledConfig false (1 / 4) (1 / 2)) (.geometry (.line (coordsOf' tent))) (.geometry (.line (coordsOf' tent))) [farPoint]).enc engine.toPoint)
      [.geometry (.line (coordsOf' tent)), .geometry (.line (coordsOf' tent))] out ∧
    List.Forall₂ (WrittenAs (fun l q => l = tentNear → q = verticesAt l (κ tent))
      (world ordsC (scaledConfig false (1 / 4) (1 / 2)) (.geometry (.line (coordsOf' tentNear))) (.geometry (.line (coordsOf' tent))) [farPoint]).enc engine.toPoint)
      [.geometry (.line (coordsOf' tentNear)), .geometry (.line (coordsOf' tent))] out' := by
  obtain ⟨κ, out, out', N, h1, h2, h3⟩ := C127_program
    (scaled_program false (t := 1 / 4) (m := 1 / 2) (by norm_num) (by norm_num) (coordsOf' tent) (coordsOf' tent) (by simp [coordsOf', tent]) (by simp [coordsOf', tent]) [farPoint])
    (scaled_program false (t := 1 / 4) (m := 1 / 2) (by norm_num) (by norm_num) (coordsOf' tentNear) (coordsOf' tent) (by simp [coordsOf', tentNear]) (by simp [coordsOf', tent]) [farPoint])
    (η := 1 / 100) (by norm_num) rfl
  refine ⟨κ, out, out', N, h1, h2, h3.imp (fun d o hw => hw.weaken (fun l q hq hl => ?_))⟩
  subst hl
  refine hq tent (by rw [List.map_id]; exact tent_shaken) (tent_firm false) (fun v => ?_)
  rw [List.map_id]
  exact iff_of_false (not_must rfl (by simp [tent]) v) (not_must rfl (by simp [tentNear]) v)

/-- the motion there and back, and what is known of it -/
noncomputable def shuttleNear : List (ℂ × ℝ) := [(⟨-1, 1 / 100⟩, 0), (⟨1, 0⟩, 1), (⟨-1, 0⟩, 2)]

theorem shuttle_firm (fc : Bool) : Firm (syncOffset shuttle) (2 * (1 / 100)) (1 / 100) (rulesAsked (fun r : Region => r.1) (shuttleConfig fc) [farPoint] (1 / 2) (1 / 2))
    (shuttle.map Prod.fst) := by
  refine far_firm (by norm_num) rfl (by simp only [rulesAsked]; norm_num) (fun z hz => ?_) (fun i j h0 h1 h2 => .inr (fun h => ?_)) (fun i j h0 h1 h2 => ?_)
  · simp only [shuttle, List.map_cons, List.map_nil, List.mem_cons, List.not_mem_nil, or_false] at hz
    have h := Complex.norm_le_abs_re_add_abs_im z
    refine h.trans ?_
    rcases hz with rfl | rfl | rfl <;> norm_num
  · simp only [shuttle, List.map_cons, List.map_nil, List.length_cons, List.length_nil] at h2
    obtain rfl : i = 0 := by omega
    obtain rfl : j = 2 := by omega
    have := h 1 (by norm_num) (by norm_num)
    rw [shuttle_offset] at this
    simp only [rulesAsked] at this
    norm_num at this
  · simp only [shuttle, List.map_cons, List.map_nil, List.length_cons, List.length_nil] at h2
    exact ⟨1, by omega, by omega, fun l l0 l1 hl => by omega⟩

theorem shuttle_shaken : ShakenMotion (1 / 100) shuttle shuttleNear := by
  refine .cons ⟨?_, rfl⟩ (.cons ⟨?_, rfl⟩ (.cons ⟨?_, rfl⟩ .nil))
  · exact (Complex.dist_of_re_eq (z := ⟨-1, 0⟩) (w := ⟨-1, 1 / 100⟩) rfl).trans_le (by norm_num [Real.dist_eq])
  · simp
  · simp

/-- C127 for the program on motions -/
example (fc : Bool) : ∃ (κ : List (ℂ × ℝ) → List Int) (out out' : List (LineFeature (Fl ℝ) Str)) (N : Nat),
    (∀ fuel ≥ N, main (program (world id (shuttleConfig fc) (coordsOfMotion shuttle) (coordsOfMotion shuttle) [farPoint]) stopEngine fuel) "e30=".toList ['-'] =
        .saved ['o'] (out.map (fun _ => [])) ∧
      main (program (world id (shuttleConfig fc) (coordsOfMotion shuttleNear) (coordsOfMotion shuttle) [farPoint]) stopEngine fuel) "e30=".toList ['-'] =
        .saved ['o'] (out'.map (fun _ => []))) ∧
    List.Forall₂ (WrittenAs (fun l q => l = shuttle.map timed → q = (verticesAt shuttle (κ shuttle)).map timed)
      (world id (shuttleConfig fc) (coordsOfMotion shuttle) (coordsOfMotion shuttle) [farPoint]).enc stopEngine.toPoint) [coordsOfMotion shuttle, coordsOfMotion shuttle] out ∧
    List.Forall₂ (WrittenAs (fun l q => l = shuttleNear.map timed → q = (verticesAt shuttleNear (κ shuttle)).map timed)
      (world id (shuttleConfig fc) (coordsOfMotion shuttleNear) (coordsOfMotion shuttle) [farPoint]).enc stopEngine.toPoint)
      [coordsOfMotion shuttleNear, coordsOfMotion shuttle] out' := by
  have ht : 2 ≤ shuttle.length ∧ Timed shuttle := ⟨by simp [shuttle], by simp [shuttle, Timed]⟩
  have ht' : 2 ≤ shuttleNear.length ∧ Timed shuttleNear := ⟨by simp [shuttleNear], by simp [shuttleNear, Timed]⟩
  obtain ⟨κ, out, out', N, h1, h2, h3⟩ := C127_sed
    (sed_program (shuttleConfig fc) ⟨rfl, rfl, rfl, rfl, rfl⟩ (t := 1 / 2) (m := 1 / 2) ⟨rfl, by norm_num⟩ ⟨rfl, by norm_num⟩ shuttle shuttle ht ht [farPoint])
    (sed_program (shuttleConfig fc) ⟨rfl, rfl, rfl, rfl, rfl⟩ (t := 1 / 2) (m := 1 / 2) ⟨rfl, by norm_num⟩ ⟨rfl, by norm_num⟩ shuttleNear shuttle ht' ht [farPoint])
    (η := 1 / 100) (by norm_num) rfl
  refine ⟨κ, out, out', N, h1, h2.imp (fun d o hw => hw.weaken (fun l q hq hl => hq shuttle hl ht.2)), h3.imp (fun d o hw => hw.weaken (fun l q hq hl => ?_))⟩
  refine hq shuttle shuttleNear hl shuttle_shaken ht.2 (shuttle_firm fc) (fun v => ?_)
  exact iff_of_false (fun h => by have := h.1; cases this) (fun h => by have := h.1; cases this)

end Real

end Verif
