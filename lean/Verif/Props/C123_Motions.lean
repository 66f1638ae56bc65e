import Verif.Props.C122_Margins
import Verif.Props.C94_Program
import Verif.Demo.Represented
import Verif.Demo.RealProgram

/-! C123: the saved motions (type sed) are what a procedure of plane geometry and time prescribes. -/

set_option linter.unusedSectionVars false

namespace Verif
namespace Planar

/-! ### specification -/

/-- the stop `k` of a motion: a place and a time -/
noncomputable def stop (ms : List (ℂ × ℝ)) (k : Int) : ℂ × ℝ := ms[k.toNat]?.getD 0

/-- how far the stop `k` is from where something that moves uniformly from the stop `i` to the stop `j` is at the time of `k` -/
noncomputable def syncOffset (ms : List (ℂ × ℝ)) (i j k : Int) : ℝ := ‖(stop ms k).1 - along (stop ms i) (stop ms j) (stop ms k).2‖

/-- all offsets of vertices between `i` and `j` are at most `t` -/
def NearBy (off : Int → Int → Int → ℝ) (t : ℝ) (i j : Int) : Prop := ∀ k, i < k → k < j → off i j k ≤ t

/-- `k` is the last of the vertices between `i` and `j` with the largest offset -/
def FarthestBy (off : Int → Int → Int → ℝ) (i j k : Int) : Prop :=
  i < k ∧ k < j ∧ (∀ l, i < l → l < j → off i j l ≤ off i j k) ∧ ∀ l, k < l → l < j → off i j l < off i j k

/-- replace the sub-line by a segment if it is near, cut it at the farthest vertex otherwise -/
inductive ThinnedBy (off : Int → Int → Int → ℝ) (t : ℝ) : Int → Int → List Rng → Prop
  | keep (i j : Int) (h : NearBy off t i j) : ThinnedBy off t i j [⟨i, j⟩]
  | cut (i j k : Int) (xs ys : List Rng) (h : ¬ NearBy off t i j) (hk : FarthestBy off i j k) (hx : ThinnedBy off t i k xs) (hy : ThinnedBy off t k j ys) :
    ThinnedBy off t i j (xs ++ ys)

/-- cut at the farthest vertex what is bad -/
inductive CutBy (off : Int → Int → Int → ℝ) (bad : Int → Int → Prop) : Int → Int → List Rng → Prop
  | keep (i j : Int) (h : ¬ bad i j) : CutBy off bad i j [⟨i, j⟩]
  | cut (i j k : Int) (xs ys : List Rng) (h : bad i j) (hk : FarthestBy off i j k) (hx : CutBy off bad i k xs) (hy : CutBy off bad k j ys) : CutBy off bad i j (xs ++ ys)

/-- Specification: the procedure of C120 with the offsets `off`.  Thin the line, keep what must be kept, cut what is not allowed unless it is straight, and then, from the first
segment to the last, join single segments with the next or the previous one where that is near and allowed and no vertex that must be kept is between. -/
def ProcedureBy (off : Int → Int → Int → ℝ) (R : Rules) (junction : Int → Prop) (zs : List ℂ) (out : List Rng) : Prop :=
  ∃ rs ms ls, ThinnedBy off R.tolerance 0 (zs.length - 1) rs ∧ Chain 0 (zs.length - 1) ms ∧ (∀ v, EndOf ms v ↔ EndOf rs v ∨ Must R junction zs v) ∧
    Each (fun r l => CutBy off (fun i j => i + 1 < j ∧ ¬ Straight (between zs i j) ∧ ¬ Allowed R (between zs i j)) r.I r.J l) ms ls ∧
    MergeSpec (Must R junction zs) (fun i j => NearBy off R.tolerance i j ∧ Allowed R (between zs i j)) [] ls out

/-- Specification: the procedure for a motion.  Offsets take the times into account, everything else is about the places. -/
def MotionProcedure (R : Rules) (junction : Int → Prop) (ms : List (ℂ × ℝ)) (out : List Rng) : Prop :=
  ProcedureBy (syncOffset ms) R junction (ms.map Prod.fst) out

theorem FarthestBy.unique {off : Int → Int → Int → ℝ} {i j k k' : Int} (h : FarthestBy off i j k) (h' : FarthestBy off i j k') : k = k' := by
  obtain ⟨a1, a2, a3, a4⟩ := h
  obtain ⟨b1, b2, b3, b4⟩ := h'
  rcases lt_trichotomy k k' with h | h | h
  · have := a4 k' h b2
    exact absurd (a3 k' b1 b2) (by have := b3 k a1 a2; linarith)
  · exact h
  · exact absurd (a3 k' b1 b2) (by have := b4 k h a2; linarith)

theorem ThinnedBy.unique {off : Int → Int → Int → ℝ} {t : ℝ} {i j : Int} {rs rs' : List Rng} (h : ThinnedBy off t i j rs) (h' : ThinnedBy off t i j rs') : rs = rs' := by
  induction h generalizing rs' with
  | keep i j h => cases h' with
    | keep => rfl
    | cut _ _ _ _ _ h' => exact absurd h h'
  | cut i j k xs ys h hk hx hy ihx ihy => cases h' with
    | keep _ _ h' => exact absurd h' h
    | cut _ _ k' xs' ys' _ hk' hx' hy' =>
      obtain rfl := hk.unique hk'
      rw [ihx hx', ihy hy']

theorem CutBy.unique {off : Int → Int → Int → ℝ} {bad : Int → Int → Prop} {i j : Int} {rs rs' : List Rng} (h : CutBy off bad i j rs) (h' : CutBy off bad i j rs') : rs = rs' := by
  induction h generalizing rs' with
  | keep i j h => cases h' with
    | keep => rfl
    | cut _ _ _ _ _ h' => exact absurd h' h
  | cut i j k xs ys h hk hx hy ihx ihy => cases h' with
    | keep _ _ h' => exact absurd h h'
    | cut _ _ k' xs' ys' _ hk' hx' hy' =>
      obtain rfl := hk.unique hk'
      rw [ihx hx', ihy hy']

/-- the procedure is a function of the places and offsets -/
theorem ProcedureBy.unique {off : Int → Int → Int → ℝ} {R : Rules} {junction : Int → Prop} {zs : List ℂ} {out out' : List Rng} (h : ProcedureBy off R junction zs out) (h' : ProcedureBy off R junction zs out') :
    out = out' := by
  obtain ⟨rs, ms, ls, a1, b1, c1, d1, e1⟩ := h
  obtain ⟨rs', ms', ls', a2, b2, c2, d2, e2⟩ := h'
  cases a1.unique a2
  cases b1.eq_of_ends b2 (fun v => (c1 v).trans (c2 v).symm)
  cases d1.unique (fun _ _ _ h1 h2 => h1.unique h2) d2
  exact e1.unique e2

/-! ### a run -/

section
variable {P C : Type} {motion : P → ℂ × ℝ} {good : P → Prop} {region : C → Set ℂ} {env : Env P C EReal ℝ} {pts : Int → List P} {h : Int} {cs : List C} {t m : ℝ}

/-- the code decides on the sub-lines of a line as the procedure with the offsets `off` does -/
structure FollowsBy (off : Int → Int → Int → ℝ) (R : Rules) (zs : List ℂ) (env : Env P C EReal ℝ) (pts : Int → List P) (h : Int) : Prop where
  length : (pts h).length = zs.length
  scores : ∀ i j : Int, 0 ≤ i → i < j → j < zs.length → ∃ k v, (env.inst h).scoreFn (Coords.sub (pts h) i j) = .ok (k, v) ∧
    ((env.inst h).rel v = true ↔ NearBy off R.tolerance i j) ∧
    (i + 1 < j → ¬ NearBy off R.tolerance i j ∨ (¬ Straight (between zs i j) ∧ ¬ Allowed R (between zs i j)) → FarthestBy off i j (i + k))
  straight : ∀ nd, Known env pts [h] nd → (nd.geom.isLineString = true ↔ Straight (between zs nd.range.I nd.range.J))
  allowed : ∀ nd, Known env pts [h] nd → ∃ b, Yields (validateContextRelation env nd (env.inst h)) b ∧ (b = true ↔ Allowed R (between zs nd.range.I nd.range.J))

theorem FollowsBy.bad {off : Int → Int → Int → ℝ} {R : Rules} {zs : List ℂ} (hf : FollowsBy off R zs env pts h) (hi : InstOK env h (pts h)) {i j : Int} (h0 : 0 ≤ i) (h1 : i < j) (h2 : j < zs.length) :
    Rejected env pts h i j ↔ i + 1 < j ∧ ¬ Straight (between zs i j) ∧ ¬ Allowed R (between zs i j) := by
  rw [← hf.length] at h2
  refine and_congr_right fun _ => ?_
  constructor
  · rintro ⟨nd, q1, q2, q3, q4⟩
    have hk := known_of_piece q1 q2 h0 h1 h2
    obtain ⟨b, y1, y2⟩ := hf.allowed nd hk
    have e1 := hf.straight nd hk
    simp only [q2] at e1 y2
    rw [← e1, ← y2, ← q4.unique y1]
    simp [q3]
  · rintro ⟨q3, q4⟩
    obtain ⟨nd, hk, q1, q2⟩ := known_of_range hi h0 h1 h2
    obtain ⟨b, y1, y2⟩ := hf.allowed nd hk
    have e1 := hf.straight nd hk
    simp only [q2] at e1 y2
    rw [← e1] at q3
    rw [← y2] at q4
    refine ⟨nd, q1, q2, by simpa using q3, ?_⟩
    cases b with
    | false => exact y1
    | true => exact absurd rfl q4

theorem FollowsBy.ok {off : Int → Int → Int → ℝ} {R : Rules} {zs : List ℂ} (hf : FollowsBy off R zs env pts h) (hi : InstOK env h (pts h)) {i j : Int} (h0 : 0 ≤ i) (h1 : i < j) (h2 : j < zs.length) :
    Joinable env pts h i j ↔ NearBy off R.tolerance i j ∧ Allowed R (between zs i j) := by
  obtain ⟨k, v, s1, s2, -⟩ := hf.scores i j h0 h1 h2
  rw [← hf.length] at h2
  refine and_congr ?_ ?_
  · rw [← s2]
    constructor
    · rintro ⟨k', v', a, b⟩; rw [s1] at a; cases a; exact b
    · intro b; exact ⟨k, v, s1, b⟩
  · constructor
    · rintro ⟨nd, q2, q1, q4⟩
      have hk := known_of_piece q1 q2 h0 h1 h2
      obtain ⟨b, y1, y2⟩ := hf.allowed nd hk
      simp only [q2] at y2
      exact y2.1 (y1.unique q4)
    · intro q4
      obtain ⟨nd, hk, q1, q2⟩ := known_of_range hi h0 h1 h2
      obtain ⟨b, y1, y2⟩ := hf.allowed nd hk
      simp only [q2] at y2
      rw [y2.2 q4] at y1
      exact ⟨nd, q2, q1, y1⟩

theorem FollowsBy.thin {off : Int → Int → Int → ℝ} {R : Rules} {zs : List ℂ} (hf : FollowsBy off R zs env pts h) {i j : Int} {rs : List Rng}
    (hd : RecDP (env.inst h).scoreFn (env.inst h).rel (pts h) i j rs) : 0 ≤ i → i < j → j < zs.length → ThinnedBy off R.tolerance i j rs := by
  induction hd with
  | keep i j k v hs hv =>
    intro h0 h1 h2
    obtain ⟨k', v', s1, s2, -⟩ := hf.scores i j h0 h1 h2
    rw [hs] at s1
    cases s1
    exact .keep i j (s2.1 hv)
  | cut i j k v xs ys hs hv hx hy ihx ihy =>
    intro h0 h1 h2
    obtain ⟨k', v', s1, s2, s3⟩ := hf.scores i j h0 h1 h2
    rw [hs] at s1
    cases s1
    have hn : ¬ NearBy off R.tolerance i j := fun hn => by rw [s2.2 hn] at hv; cases hv
    have hlt : i + 1 < j := by
      by_contra hc
      exact hn (fun k k0 k1 => by omega)
    have hf := s3 hlt (.inl hn)
    exact .cut i j (i + k) xs ys hn hf (ihx h0 hf.1 (by have := hf.2.1; omega)) (ihy (by have := hf.1; omega) hf.2.1 h2)

theorem FollowsBy.cut {off : Int → Int → Int → ℝ} {R : Rules} {zs : List ℂ} (hf : FollowsBy off R zs env pts h) (hi : InstOK env h (pts h)) {i j : Int} {rs : List Rng}
    (hd : RecCut (env.inst h).scoreFn (Rejected env pts h) (pts h) i j rs) : 0 ≤ i → i < j → j < zs.length →
      CutBy off (fun i j => i + 1 < j ∧ ¬ Straight (between zs i j) ∧ ¬ Allowed R (between zs i j)) i j rs := by
  induction hd with
  | keep i j hb => intro h0 h1 h2; exact .keep i j (fun hb' => hb ((hf.bad hi h0 h1 h2).2 hb'))
  | cut i j k v xs ys hb hs hx hy ihx ihy =>
    intro h0 h1 h2
    obtain ⟨k', v', s1, s2, s3⟩ := hf.scores i j h0 h1 h2
    rw [hs] at s1
    cases s1
    have hb' := (hf.bad hi h0 h1 h2).1 hb
    have hf := s3 hb.1 (.inr hb'.2)
    exact .cut i j (i + k) xs ys hb' hf (ihx h0 hf.1 (by have := hf.2.1; omega)) (ihy (by have := hf.1; omega) hf.2.1 h2)

/-- then the procedure of C107 is the plane procedure -/
theorem FollowsBy.procedure {off : Int → Int → Int → ℝ} {R : Rules} {zs : List ℂ} (hf : FollowsBy off R zs env pts h) (hi : InstOK env h (pts h)) {cv : List Int} {junction : Int → Prop}
    (hfix : ∀ v, FixedVertex env h cv v ↔ Must R junction zs v) {rs : List Rng}
    (hs : SimplifySpec (env.inst h).scoreFn (env.inst h).rel (FixedVertex env h cv) (Rejected env pts h) (Joinable env pts h) (pts h) rs) :
    ProcedureBy off R junction zs rs := by
  have h2 := hi.two
  have hlen := hf.length
  obtain ⟨ls, hls, hm⟩ := hs
  have hch := hls.chain (rejected_inside hi)
  obtain ⟨ds, ms, a1, a2, a3, a4⟩ := hls
  refine ⟨ds, ms, ls, ?_, ?_, ?_, ?_, ?_⟩
  · rw [← hlen]; exact hf.thin a1 le_rfl (by omega) (by omega)
  · rw [← hlen]; exact a2
  · intro v; rw [a3 v, hfix]
  · refine a4.imp (fun r hrm l hl => ?_)
    have := a2.mem hrm
    exact hf.cut hi hl (by omega) (by omega) (by omega)
  · refine hm.alike (a := 0) (b := (pts h).length - 1) (fun v _ _ => hfix v) (fun i j i0 ij jn => ?_) (by simpa using hch)
    exact hf.ok hi i0 ij (by omega)

/-- One run in exact plane geometry with the synchronised score: as `ExactRun`, but the score of a vertex compares as its distance from
the uniform motion does.  Scores are right for `good` points (those with finite coordinates). -/
structure MotionRun (motion : P → ℂ × ℝ) (good : P → Prop) (region : C → Set ℂ) (env : Env P C EReal ℝ) (h : Int) (cs : List C) (t m : ℝ) : Prop where
  exact : Exact (fun p => (motion p).1) region env.lib
  lnr : ExactLnr (fun p => (motion p).1) env.lnr
  heap : env.heap.Legal Hdb.nearLe
  eps : ∃ e : ℝ, 0 ≤ e ∧ env.eps = .fin e
  minDist : (env.inst h).opts.minDist = .fin m ∧ 0 ≤ m
  indexed : Constraints env h cs
  score : ∃ (w : ℝ → ℝ) (d : P → P → P → Fl ℝ), w 0 = 0 ∧ (∀ x y, 0 ≤ x → 0 ≤ y → (w x ≤ w y ↔ x ≤ y)) ∧
    (∀ x, 0 ≤ x → ((env.inst h).rel (.fin (w x)) = true ↔ x ≤ t)) ∧
    (∀ a b p, good a → good b → good p → (motion a).2 < (motion b).2 → d a b p = .fin (w ‖(motion p).1 - along (motion a) (motion b) (motion p).2‖)) ∧
    (env.inst h).scoreFn = maxOffset d

/-- the same instances, but with distances from the chord as scores; the relations do not look at scores -/
noncomputable def chordEnv (motion : P → ℂ × ℝ) (t : ℝ) (env : Env P C EReal ℝ) : Env P C EReal ℝ :=
  { env with inst := fun k => { env.inst k with
      opts := { (env.inst k).opts with threshold := .fin t }
      score := maxOffset (fun a b p => .fin (gap {(motion p).1} (segment ℝ (motion a).1 (motion b).1)))
      square := none } }

theorem MotionRun.chord (hr : MotionRun motion good region env h cs t m) : ExactRun (fun p => (motion p).1) region (chordEnv motion t env) h cs t m :=
  ⟨hr.exact, hr.lnr, hr.heap, hr.eps, hr.minDist, hr.indexed, id, rfl, fun _ _ _ _ => Iff.rfl, fun x _ => by
    simp only [Inst.rel, relationOf, scoreRelation, chordEnv, id_eq, Fl.fin_le_fin, decide_eq_true_eq], rfl⟩

theorem MotionRun.chord_instOK (hr : MotionRun motion good region env h cs t m) (ht : 0 ≤ t) (hi : InstOK env h (pts h)) : InstOK (chordEnv motion t env) h (pts h) :=
  ⟨hi.pln, hi.two, hi.hull, hi.box, maxOffset_splitsInside _ _ (by
    simp only [Inst.rel, relationOf, scoreRelation, chordEnv, Fl.fin_le_fin, decide_eq_true_eq]; exact ht) _, fun i j h0 h1 h2 => by
    obtain ⟨k, v, s1, -, s3⟩ := hr.chord.scores ht (pts := pts) h0 (by omega) h2
    have := s3 h1
    exact ⟨k, v, s1, by have := this.1; omega, by have := this.2.1; omega⟩, hi.ctx⟩

theorem MotionRun.scores (hr : MotionRun motion good region env h cs t m) (ht : 0 ≤ t) (hg : ∀ p ∈ pts h, good p) (htime : Timed ((pts h).map motion)) {i j : Int} (h0 : 0 ≤ i) (h1 : i < j)
    (h2 : j < (pts h).length) :
    ∃ k v, (env.inst h).scoreFn (Coords.sub (pts h) i j) = .ok (k, v) ∧ ((env.inst h).rel v = true ↔ NearBy (syncOffset ((pts h).map motion)) t i j) ∧
      (i + 1 < j → FarthestBy (syncOffset ((pts h).map motion)) i j (i + k)) := by
  obtain ⟨w, d, w0, hw, hrel, hd, hsc⟩ := hr.score
  have p1 := points_sub (pts h) h0 h1.le h2
  have p2 := wellIndexed_sub (pts := pts h) h0 h2
  have l1 : (Coords.sub (pts h) i j).len = j - i + 1 := by
    rw [p2.length, p1, between, List.length_take, List.length_drop]; omega
  rw [hsc]
  by_cases hn : i + 1 < j
  · obtain ⟨p0⟩ : Nonempty P := ⟨(pts h)[0]'(by omega)⟩
    let q : Int → P := fun k => (pts h)[(i + k).toNat]?.getD p0
    have hq : ∀ k, 0 ≤ k → k < (Coords.sub (pts h) i j).len → (Coords.sub (pts h) i j).pt k = .ok (q k) := by
      intro k k0 k1
      rw [l1] at k1
      obtain ⟨n, rfl⟩ := Int.eq_ofNat_of_zero_le k0
      have a1 : n < (Coords.sub (pts h) i j).points.length := by have := p2.length; omega
      rw [p2.pt_get a1]
      have e1 : (Coords.sub (pts h) i j).points[n]? = (pts h)[(i + (n : Int)).toNat]? := by
        rw [p1, between, List.getElem?_take, if_pos (by omega), List.getElem?_drop]
        congr 1; omega
      rw [List.getElem?_eq_getElem a1] at e1
      simp only [q, ← e1, Option.getD_some]
    have hv : ∀ k, 0 ≤ k → k ≤ j - i → motion (q k) = stop ((pts h).map motion) (i + k) := by
      intro k k0 k1
      have : (i + k).toNat < (pts h).length := by omega
      simp only [q, stop, List.getElem?_map, List.getElem?_eq_getElem this, Option.getD_some, Option.map_some]
    have hgq : ∀ k, 0 ≤ k → k ≤ j - i → good (q k) := by
      intro k k0 k1
      have : (i + k).toNat < (pts h).length := by omega
      simp only [q, List.getElem?_eq_getElem this, Option.getD_some]
      exact hg _ (List.getElem_mem _)
    have hw0 : ∀ x, 0 ≤ x → (0 : ℝ) ≤ w x := fun x hx => by rw [← w0]; exact (hw 0 x le_rfl hx).2 hx
    have hlt : (motion (q 0)).2 < (motion (q ((Coords.sub (pts h) i j).len - 1))).2 := by
      rw [hv 0 le_rfl (by omega), hv _ (by omega) (by omega), l1]
      have b1 : (i + 0).toNat < ((pts h).map motion).length := by rw [List.length_map]; omega
      have b2 : (i + (j - i + 1 - 1)).toNat < ((pts h).map motion).length := by rw [List.length_map]; omega
      simp only [stop, List.getElem?_eq_getElem b1, List.getElem?_eq_getElem b2, Option.getD_some]
      exact List.pairwise_iff_getElem.1 htime _ _ b1 b2 (by omega)
    have hoff : ∀ s, 0 ≤ s → s ≤ j - i → d (q 0) (q ((Coords.sub (pts h) i j).len - 1)) (q s) = .fin (w (syncOffset ((pts h).map motion) i j (i + s))) := by
      intro s s0 s1
      rw [hd _ _ _ (hgq 0 le_rfl (by omega)) (hgq _ (by omega) (by omega)) (hgq s s0 s1) hlt, syncOffset, hv s s0 s1, hv 0 le_rfl (by omega), hv _ (by omega) (by omega), l1, show i + 0 = i by omega, show i + (j - i + 1 - 1) = j by omega]
    have h0' : ∀ s, 0 ≤ syncOffset ((pts h).map motion) i j s := fun s => norm_nonneg _
    obtain ⟨k, e, k0, k1, k2, k3⟩ := C03_maxOffset d (Coords.sub (pts h) i j) q (by omega) hq
      (fun s s0 s1 => by rw [hoff s (by omega) (by omega), Fl.fin_le_fin]; exact decide_eq_true (hw0 _ (h0' _)))
    have hle : ∀ s, 0 < s → s < j - i → syncOffset ((pts h).map motion) i j (i + s) ≤ syncOffset ((pts h).map motion) i j (i + k) := by
      intro s s0 s1
      have := k2 s s0 (by omega)
      rw [hoff s (by omega) (by omega), hoff k (by omega) (by omega), Fl.fin_le_fin, decide_eq_true_iff, hw _ _ (h0' _) (h0' _)] at this
      exact this
    refine ⟨k, _, e, ?_, fun _ => ⟨by omega, by omega, fun l hl hl' => ?_, fun l hl hl' => ?_⟩⟩
    · rw [hoff k (by omega) (by omega), hrel _ (h0' _)]
      constructor
      · intro hk l hl hl'
        have := hle (l - i) (by omega) (by omega)
        rw [show i + (l - i) = l by omega] at this
        exact this.trans hk
      · intro hk
        exact hk _ (by omega) (by omega)
    · have := hle (l - i) (by omega) (by omega)
      rwa [show i + (l - i) = l by omega] at this
    · have := k3 (l - i) (by omega) (by omega)
      rw [hoff k (by omega) (by omega), hoff (l - i) (by omega) (by omega), Fl.lt_iff_not_le (by simp) (by simp), Fl.fin_le_fin] at this
      simp only [Bool.not_eq_true', decide_eq_false_iff_not] at this
      rw [hw _ _ (h0' _) (h0' _), show i + (l - i) = l by omega] at this
      exact not_le.1 this
  · refine ⟨_, _, C03_maxOffset_short _ _ (by omega), ?_, fun hc => absurd hc hn⟩
    have h00 := hrel 0 le_rfl
    rw [w0] at h00
    exact ⟨fun _ k k0 k1 => by omega, fun _ => h00.2 ht⟩

/-- the code follows the procedure for motions -/
theorem MotionRun.follows (hr : MotionRun motion good region env h cs t m) (ht : 0 ≤ t) (hg : ∀ p ∈ pts h, good p) (htime : Timed ((pts h).map motion)) (hi : InstOK env h (pts h)) :
    FollowsBy (syncOffset ((pts h).map motion)) (rulesOf region (env.inst h).opts cs t m) (((pts h).map motion).map Prod.fst) env pts h where
  length := by simp
  scores i j h0 h1 h2 := by
    obtain ⟨k, v, s1, s2, s3⟩ := hr.scores ht hg htime h0 h1 (by simpa using h2)
    exact ⟨k, v, s1, s2, fun hlt _ => s3 hlt⟩
  straight nd hk := by
    rw [Exact.straight hr.exact hk]
    simp only [places, between, List.map_take, List.map_drop, List.map_map, Function.comp_def]
  allowed nd hk := by
    have := hr.chord.allowed (hr.chord_instOK ht hi) (nd := nd) ⟨hk.inst, ⟨hk.piece.coords, hk.piece.geom, hk.piece.mbr, hk.piece.inst⟩, hk.lo, hk.lt, hk.hi⟩
    rw [List.map_map]
    exact this

variable {ids : Nat → Int}

/-- **C123, one run.**  With exact geometry, the synchronised score, increasing times and new self-intersections allowed, the vertices a run keeps are the ends of the segments
that the procedure for motions prescribes. -/
theorem C123_run (he : EnvOK env) (hl : LnrOK env.lnr) (hi : InstOK env h (pts h)) (hinj : Function.Injective ids) (hr : MotionRun motion good region env h cs t m) (ht : 0 ≤ t)
    (hg : ∀ p ∈ pts h, good p) (htime : Timed ((pts h).map motion))
    (hav : (env.inst h).opts.avoidNewSelfIntersects = false) {cv : List Int} (hcv : ∀ i ∈ cv, 0 ≤ i ∧ i < (pts h).length) {dirty dirty' : Int → Bool} {fuel : Nat}
    {out : Out P C EReal} (e : simplify env ids h cv dirty fuel = .ok (out, dirty')) :
    ∃ rs, MotionProcedure (rulesOf region (env.inst h).opts cs t m) (· ∈ cv) ((pts h).map motion) rs ∧ Chain 0 ((pts h).length - 1) rs ∧
      (out.hulls.map Node.range).Perm rs ∧ out.simple.Pairwise (· < ·) ∧ ∀ v, v ∈ out.simple ↔ EndOf rs v := by
  obtain ⟨e0, h0, heps⟩ := hr.eps
  obtain ⟨rs, h1, h2, h3, h4, h5⟩ := C107_run he hl hi (hr.exact.touching heps h0) hinj hav hcv
    (fun _ => (hr.exact.hullNear hr.lnr hr.chord.within le_rfl h0 heps).splittable hi hcv) e
  refine ⟨rs, (hr.follows ht hg htime hi).procedure hi (fun v => ?_) h1, h2, h3, h4, h5⟩
  have := hr.chord.must (hr.chord_instOK ht hi) (cv := cv) (v := v)
  rw [List.map_map]
  exact this

end

theorem ProcedureBy.congr {off : Int → Int → Int → ℝ} {R : Rules} {j j' : Int → Prop} {zs : List ℂ} {rs : List Rng} (h : ProcedureBy off R j zs rs)
    (hj : R.keepSelf = true → ∀ v, j v ↔ j' v) : ProcedureBy off R j' zs rs := by
  have : Must R j zs = Must R j' zs := by
    funext v
    exact propext (and_congr_right fun hk => or_congr_left (hj hk v))
  unfold ProcedureBy at h ⊢
  rwa [this] at h

/-- with distances from the chord it is the procedure of C120 -/
theorem procedureBy_offsetOf {R : Rules} {j : Int → Prop} {zs : List ℂ} {rs : List Rng} : ProcedureBy (offsetOf zs) R j zs rs ↔ Procedure R j zs rs := by
  have h1 : ∀ {t : ℝ} {i j : Int} {rs : List Rng}, ThinnedBy (offsetOf zs) t i j rs ↔ Thinned t zs i j rs := by
    intro t i j rs
    constructor <;> intro h <;> induction h with
    | keep i j h => exact .keep i j h
    | cut i j k xs ys h hk _ _ ihx ihy => exact .cut i j k xs ys h hk ihx ihy
  have h2 : ∀ {bad : Int → Int → Prop} {i j : Int} {rs : List Rng}, CutBy (offsetOf zs) bad i j rs ↔ Cut bad zs i j rs := by
    intro bad i j rs
    constructor <;> intro h <;> induction h with
    | keep i j h => exact .keep i j h
    | cut i j k xs ys h hk _ _ ihx ihy => exact .cut i j k xs ys h hk ihx ihy
  simp only [ProcedureBy, Procedure, h1, h2]
  rfl

end Planar

/-! ### the program -/

section
variable {P C : Type} {motion : P → ℂ × ℝ} {good : P → Prop} {region : C → Set ℂ} {e t m : ℝ}
open Planar

/-- the motion `q` consists of the stops of `l` that the procedure prescribes, if the times of `l` increase -/
def PrescribedMotion (motion : P → ℂ × ℝ) (good : P → Prop) (R : Rules) (junction : List ℂ → Int → Prop) (l q : List P) : Prop :=
  (∀ p ∈ l, good p) → Timed (l.map motion) → ∃ s rs, KeptIndices l.length s ∧ q = verticesAt l s ∧
    MotionProcedure R (junction ((l.map motion).map Prod.fst)) (l.map motion) rs ∧ ∀ v, v ∈ s ↔ EndOf rs v

theorem Engine.motionRun {E : Engine P C EReal ℝ} {o : Opts ℝ} {kind : Io.OffsetKind} {ctx : List C} {lines : List (List P)} {fs : List (Inst P C EReal ℝ)}
    (hf : Forest E o kind ctx lines fs) (hx : Planar.Exact (fun p => (motion p).1) region E.lib) (hn : ExactLnr (fun p => (motion p).1) E.lnr) (hh : E.heap.Legal Hdb.nearLe)
    (h0 : 0 ≤ e) (heps : E.eps = .fin e) {d : P → P → P → Fl ℝ}
    (hd : ∀ a b p, good a → good b → good p → (motion a).2 < (motion b).2 → d a b p = .fin ‖(motion p).1 - along (motion a) (motion b) (motion p).2‖)
    (hsc : E.score kind = maxOffset d) (ht : o.threshold = .fin t) (hm : o.minDist = .fin m) (hm0 : 0 ≤ m)
    {k : Nat} {l : List P} (hlk : lines[k]? = some l) : MotionRun motion good region (E.env o kind fs) k ctx t m := by
  obtain ⟨e1, e2, e3, e4⟩ := hf.inst hlk
  refine ⟨hx, hn, hh, ⟨e, h0, heps⟩, ⟨by rw [e1]; exact hm, hm0⟩, ?_, id, d, rfl, fun _ _ _ _ => Iff.rfl, fun x _ => ?_, hd, by rw [e2, hsc]⟩
  · have := e4.map (fun nd => (nd.geom, nd.mbr))
    rw [List.map_map] at this
    exact this
  · rw [e3, ht]
    exact decide_eq_true_iff

theorem Engine.prescribedMotion {E : Engine P C EReal ℝ} {o : Opts ℝ} {kind : Io.OffsetKind} {ctx : List C} {lines : List (List P)} (h : E.OK o kind lines)
    (hx : Planar.Exact (fun p => (motion p).1) region E.lib) (hn : ExactLnr (fun p => (motion p).1) E.lnr) (hh : E.heap.Legal Hdb.nearLe) (h0 : 0 ≤ e) (heps : E.eps = .fin e)
    {d : P → P → P → Fl ℝ}
    (hd : ∀ a b p, good a → good b → good p → (motion a).2 < (motion b).2 → d a b p = .fin ‖(motion p).1 - along (motion a) (motion b) (motion p).2‖) (hsc : E.score kind = maxOffset d) (ht : o.threshold = .fin t) (ht0 : 0 ≤ t) (hm : o.minDist = .fin m)
    (hm0 : 0 ≤ m) (hav : o.avoidNewSelfIntersects = false) (fc : Bool) :
    E.GuaranteesIn fc o kind ctx lines (PrescribedMotion motion good (rulesOf region o ctx t m) (ClassJunction fc (lines.map (fun l => l.map (fun p => (motion p).1))))) := by
  refine h.guaranteesIn fc _ (fun fs hf hc k l hl hlk hp hmem hi hinj => ?_)
  have hr := Engine.motionRun (ctx := ctx) hf hx hn hh h0 heps hd hsc ht hm hm0 hlk
  obtain ⟨e1, -, -, -⟩ := hf.inst hlk
  refine ⟨?_, ?_⟩
  · rintro rfl dirty fuel out dd hs hk hg htime
    obtain ⟨rs, c1, -, -, -, c2⟩ := C123_run (pts := fun _ => l) (env := E.env o kind fs) hc.envOK hc.lnrOK hi hinj hr ht0 hg htime (by rw [e1]; exact hav) (cv := []) (by simp) hs
    rw [e1] at c1
    exact ⟨_, rs, hk, rfl, c1.congr (fun _ v => by simp [ClassJunction]), c2⟩
  · rintro rfl dirty fuel res out hs hm' hk hg htime
    have hav' : ∀ x ∈ Engine.handles lines.length, ((E.env o kind fs).inst x).opts.avoidNewSelfIntersects = false := by
      intro x hxm
      obtain ⟨n, hn', rfl⟩ := List.mem_map.1 hxm
      rw [(hf.inst (List.getElem?_eq_getElem (List.mem_range.1 hn'))).1]
      exact hav
    obtain ⟨js, j1, j2, j3, j4⟩ := fcJunctions_ok hc.lnrOK hc.inst hc.distinct o.planarSelf
    obtain ⟨-, a2⟩ := C105_alone hc hav' o j1 hs
    obtain ⟨own, y, q, sm⟩ := a2 _ hm'
    obtain ⟨N, y⟩ := y (fun _ => false)
    have y := y N (Nat.le_refl _)
    simp only [] at hp y sm
    have j4' := j4 k hmem
    simp only [hp] at j4'
    obtain ⟨rs, c1, -, -, -, c2⟩ := C123_run (pts := fun _ => l) (env := E.env o kind fs) hc.envOK hc.lnrOK hi hinj hr ht0 hg htime (by rw [e1]; exact hav) j4' y
    rw [e1] at c1
    refine ⟨_, rs, hk, rfl, c1.congr (fun hks v => ?_), by rw [sm]; exact c2⟩
    have hks : o.planarSelf = true := hks
    rw [ClassJunction]
    simp only [true_and]
    have hls : (Engine.handles lines.length).map (fun x : Int => lines[x.toNat]?.getD []) = lines := by
      refine List.ext_getElem? (fun n => ?_)
      simp only [Engine.handles, List.map_map, List.getElem?_map]
      by_cases hn' : n < lines.length
      · rw [List.getElem?_range hn']; simp [hn']
      · rw [List.getElem?_eq_none (by simpa using hn'), List.getElem?_eq_none (by simpa using hn')]; rfl
    have key := junctions_places (fs := (Engine.handles lines.length).map (fun x : Int => (lines[x.toNat]?.getD [], ((E.env o kind fs).inst x).id))) (env := E.env o kind fs) hx.equals2D hn
      ⟨_, List.mem_map.2 ⟨k, hmem, rfl⟩, by
        have := hi.two
        intro h0
        simp only [hp] at h0
        rw [h0] at this
        simp at this⟩ (j3 hks) (by
        intro f hf' f' hf'' hff
        obtain ⟨a, ha, rfl⟩ := List.mem_map.1 hf'
        obtain ⟨b, hb, rfl⟩ := List.mem_map.1 hf''
        rw [hc.distinct a ha b hb hff]) (l := l) (id := ((E.env o kind fs).inst k).id) (List.mem_map.2 ⟨k, hmem, by rw [hp]⟩) v
    rw [List.map_map]
    refine Iff.trans key ?_
    have : (Engine.handles lines.length).map (fun x : Int => (lines[x.toNat]?.getD []).map (fun p => (motion p).1)) = lines.map (fun l => l.map (fun p => (motion p).1)) := by
      conv => rhs; rw [← hls]
      rw [List.map_map]; rfl
    simp only [List.map_map, Function.comp_def]
    rw [this]

end

namespace Io

open Verif.Text Verif.Planar

section
variable {P C Props : Type}

/-- **C123 for the program.**  With exact geometry, synchronised offsets and new self-intersections allowed, every motion with increasing times is saved with exactly the
stops that the written-down procedure prescribes; in a feature class the vertices whose place occurs more than once in the whole file must be kept as well. -/
theorem C123_program (w : World (Fl ℝ) P Props C) (E : Engine P C EReal ℝ) (b f : Str) {obj : ArgObj (Fl ℝ)} {kind : OffsetKind}
    {docs : List (Doc (Fl ℝ))} {ctx : List C} (hr : Reads w b f obj kind docs ctx) (hord : ∀ l, (w.enc.ord l).Perm l) (hlen : docs.length ≤ maxInt)
    (hd : ∀ d ∈ docs, HasGeometry d ∧ docParts d ≠ [] ∧ ∀ x ∈ docParts d, x.1 ≤ maxInt ∧ (x.2.1 = ['n', 'u', 'l', 'l'] ∨ (w.enc.unmarshal x.2.1).isSome))
    (hE : E.OK (E.opts (optsFromCfg obj)) kind (docs.flatMap (fun d => (docParts d).map (fun x => x.2.2.map E.toPoint))))
    {motion : P → ℂ × ℝ} {good : P → Prop} {region : C → Set ℂ} {e t m : ℝ} (hx : Planar.Exact (fun p => (motion p).1) region E.lib) (hn : ExactLnr (fun p => (motion p).1) E.lnr)
    (hh : E.heap.Legal Hdb.nearLe) (h0 : 0 ≤ e) (heps : E.eps = .fin e) (hname : trim obj.simplificationType ∈ sedNames) {d : P → P → P → Fl ℝ}
    (hdist : ∀ a b p, good a → good b → good p → (motion a).2 < (motion b).2 → d a b p = .fin ‖(motion p).1 - along (motion a) (motion b) (motion p).2‖) (hsc : E.score .maxSEDOffset = maxOffset d)
    (ht : obj.threshold = .fin t) (ht0 : 0 ≤ t) (hm : obj.minDist = .fin m) (hm0 : 0 ≤ m) (hav : obj.avoidNewSelfIntersects = false) :
    ∃ out N, (∀ fuel ≥ N, main (program w E fuel) b f = .saved (trim obj.output) (out.map w.marshal)) ∧
      List.Forall₂ (WrittenAs (PrescribedMotion motion good (rulesAsked region obj ctx t m)
        (ClassJunction obj.isFeatureClass (docs.flatMap (fun d => (docParts d).map (fun x => x.2.2.map (fun p => (motion (E.toPoint p)).1)))))) w.enc E.toPoint) docs out := by
  obtain rfl := hr.sed hname
  have := program_lines_in w E b f hr hord hlen hd hE (Engine.prescribedMotion hE hx hn hh h0 heps hdist hsc ht ht0 hm hm0 hav obj.isFeatureClass)
  simp only [List.map_flatMap, List.map_map, Function.comp_def] at this
  exact this

/-- the number of a finite value -/
def flReal : Fl ℝ → ℝ
  | .fin x => x
  | _ => 0

/-- place and time of a point (x, y, time) -/
def stopOf (p : Fl ℝ × Fl ℝ × Fl ℝ) : ℂ × ℝ := (⟨flReal p.1, flReal p.2.1⟩, flReal p.2.2)

theorem stopOf_timed (q : ℂ × ℝ) : stopOf (timed q) = q := rfl

/-- **C123 for the program with the score function of offset/sed.go**, in exact arithmetic: a motion `ms` that was read is saved with the stops that the procedure prescribes. -/
theorem C123_sed {A : Arith ℝ} (hA : A.Exact) (w : World (Fl ℝ) (Fl ℝ × Fl ℝ × Fl ℝ) Props C) (E : Engine (Fl ℝ × Fl ℝ × Fl ℝ) C EReal ℝ) (b f : Str)
    {obj : ArgObj (Fl ℝ)} {kind : OffsetKind}
    {docs : List (Doc (Fl ℝ))} {ctx : List C} (hr : Reads w b f obj kind docs ctx) (hord : ∀ l, (w.enc.ord l).Perm l) (hlen : docs.length ≤ maxInt)
    (hd : ∀ d ∈ docs, HasGeometry d ∧ docParts d ≠ [] ∧ ∀ x ∈ docParts d, x.1 ≤ maxInt ∧ (x.2.1 = ['n', 'u', 'l', 'l'] ∨ (w.enc.unmarshal x.2.1).isSome))
    (hE : E.OK (E.opts (optsFromCfg obj)) kind (docs.flatMap (fun d => (docParts d).map (fun x => x.2.2.map E.toPoint))))
    {region : C → Set ℂ} {e t m : ℝ} (hx : Planar.Exact (fun p => (stopOf p).1) region E.lib) (hn : ExactLnr (fun p => (stopOf p).1) E.lnr)
    (hh : E.heap.Legal Hdb.nearLe) (h0 : 0 ≤ e) (heps : E.eps = .fin e) (hname : trim obj.simplificationType ∈ sedNames)
    (hsc : E.score .maxSEDOffset = maxOffset (sedDist A (hypot A (.fin 1))))
    (ht : obj.threshold = .fin t) (ht0 : 0 ≤ t) (hm : obj.minDist = .fin m) (hm0 : 0 ≤ m) (hav : obj.avoidNewSelfIntersects = false) :
    ∃ out N, (∀ fuel ≥ N, main (program w E fuel) b f = .saved (trim obj.output) (out.map w.marshal)) ∧
      List.Forall₂ (WrittenAs (fun l q => ∀ ms : List (ℂ × ℝ), l = ms.map timed → Timed ms → ∃ s rs, KeptIndices ms.length s ∧ q = (verticesAt ms s).map timed ∧
        MotionProcedure (rulesAsked region obj ctx t m)
          (ClassJunction obj.isFeatureClass (docs.flatMap (fun d => (docParts d).map (fun x => x.2.2.map (fun p => (stopOf (E.toPoint p)).1)))) (ms.map Prod.fst)) ms rs ∧
        ∀ v, v ∈ s ↔ EndOf rs v) w.enc E.toPoint) docs out := by
  obtain ⟨out, N, h1, h2⟩ := C123_program (motion := stopOf) (good := fun p => ∃ q, p = timed q) w E b f hr hord hlen hd hE hx hn hh h0 heps hname (by
    rintro _ _ _ ⟨a, rfl⟩ ⟨b, rfl⟩ ⟨p, rfl⟩ hlt
    exact (sed_norm hA hlt).1) hsc ht ht0 hm hm0 hav
  refine ⟨out, N, h1, h2.imp (fun d o ho => ho.weaken (fun l q hq ms hl hms => ?_))⟩
  subst hl
  have hid : (ms.map timed).map stopOf = ms := by
    rw [List.map_map]
    exact (List.map_congr_left (fun q _ => stopOf_timed q)).trans (List.map_id ms)
  have := hq (fun p hp => by obtain ⟨q, -, rfl⟩ := List.mem_map.1 hp; exact ⟨q, rfl⟩) (by rw [hid]; exact hms)
  rw [hid, List.length_map] at this
  obtain ⟨s, rs, k1, k2, k3, k4⟩ := this
  refine ⟨s, rs, k1, ?_, k3, k4⟩
  rw [k2, verticesAt, verticesAt, List.map_filterMap]
  simp only [List.getElem?_map]

end

end Io

/-! ### concrete cases -/

namespace Planar

/-- on a straight road, but late half way -/
noncomputable def late : List (ℂ × ℝ) := [(⟨0, 0⟩, 0), (⟨20, 0⟩, 30), (⟨40, 0⟩, 40)]

theorem late_timed : Timed late := by simp [Timed, late]; norm_num

theorem late_offset : syncOffset late 0 2 1 = 10 := by
  have : (stop late 1).1 - along (stop late 0) (stop late 2) (stop late 1).2 = ((-10 : ℝ) : ℂ) := by
    simp only [stop, late, along]
    apply Complex.ext <;> simp
    norm_num
  rw [syncOffset, this, Complex.norm_real]
  norm_num

/-- The procedure for motions keeps the stop, -/
theorem late_kept (R : Rules) (h10 : R.tolerance < 10) (hs : R.keepSelf = false) (junction : Int → Prop) :
    MotionProcedure R junction late [⟨0, 1⟩, ⟨1, 2⟩] := by
  have hm : ∀ v, ¬ Must R junction (late.map Prod.fst) v := fun v h => by have := h.1; rw [hs] at this; cases this
  have hfar : ¬ NearBy (syncOffset late) R.tolerance 0 2 := fun h => by
    have := h 1 (by norm_num) (by norm_num)
    rw [late_offset] at this
    linarith
  have hcut : FarthestBy (syncOffset late) 0 2 1 := ⟨by norm_num, by norm_num, fun l l0 l1 => by rw [show l = 1 by omega], fun l l0 l1 => by omega⟩
  have one : ∀ i : Int, NearBy (syncOffset late) R.tolerance i (i + 1) := fun i k _ _ => by omega
  refine ⟨[⟨0, 1⟩, ⟨1, 2⟩], [⟨0, 1⟩, ⟨1, 2⟩], [⟨0, 1⟩, ⟨1, 2⟩], ?_, ⟨rfl, by decide, rfl, by decide, rfl⟩, fun v => by simp [hm v], ?_, ?_⟩
  · exact .cut 0 2 1 [⟨0, 1⟩] [⟨1, 2⟩] hfar hcut (.keep 0 1 (one 0)) (.keep 1 2 (one 1))
  · refine Each.cons (xs := [(⟨0, 1⟩ : Rng)]) (ys := [(⟨1, 2⟩ : Rng)] ++ []) ?_ (.cons ?_ .nil)
    · exact .keep 0 1 (fun h => by omega)
    · exact .keep 1 2 (fun h => by omega)
  · refine .keep _ (fun _ => ⟨fun n hn _ hok => ?_, by simp⟩) (.keep _ (fun _ => ⟨by simp, fun p hp _ hok => ?_⟩) (.done _))
    · cases hn; exact hfar hok.1
    · cases hp; exact hfar hok.1

/-- that for lines drops it. -/
theorem late_dropped : Procedure (plain 5) (fun _ => False) (late.map Prod.fst) [⟨0, 2⟩] := by
  refine ⟨[⟨0, 2⟩], [⟨0, 2⟩], [⟨0, 2⟩], .keep 0 2 (fun k k0 k1 => ?_), ⟨rfl, by decide, rfl⟩, fun v => by simp [Must, plain], ?_, ?_⟩
  · obtain rfl : k = 1 := by omega
    have : (⟨20, 0⟩ : ℂ) ∈ segment ℝ (⟨0, 0⟩ : ℂ) ⟨40, 0⟩ := ⟨1 / 2, 1 / 2, by norm_num, by norm_num, by norm_num, by apply Complex.ext <;> norm_num⟩
    refine (gap_le (x := ⟨20, 0⟩) (y := ⟨20, 0⟩) (by simp [vtx, late]) (by simpa [vtx, late] using this)).trans ?_
    rw [dist_self]
    norm_num [plain]
  · refine Each.cons (xs := [(⟨0, 2⟩ : Rng)]) (ys := []) ?_ .nil
    exact (Cut.keep 0 2 (fun h => h.2.2 ⟨by simp [plain], by simp [plain], by simp [plain]⟩))
  · exact .keep _ (fun h => by simp at h) (.done _)

end Planar

namespace Real

open Io Text Planar

/-- points (x, y, time), exact geometry in the plane, the score function of offset/sed.go in exact arithmetic -/
noncomputable def stopEngine : Engine (Fl ℝ × Fl ℝ × Fl ℝ) Region EReal ℝ where
  lib := repLib (fun p => (stopOf p).1) (fun z => timed (z, 0))
  lnr := repLnr (fun p => (stopOf p).1) (fun z => timed (z, 0))
  heur := Demo.heur
  heap := Hdb.listHeap
  ord _ l := l
  ordRm _ l := l
  eps := .fin 0
  score _ := maxOffset (sedDist realArith (hypot realArith (.fin 1)))
  mul a _ := a
  toPoint l := match l with | x :: y :: t :: _ => (x, y, t) | _ => (.fin 0, .fin 0, .fin 0)
  instId n := n
  idsOf h k := (Nat.pair (h.toNat + 1) k : Int)
  ids k := (Nat.pair 0 k : Int)

theorem stop_section (z : ℂ) : (stopOf (timed (z, 0))).1 = z := rfl

theorem stopEngine_ok (o : Opts ℝ) (ho : (Fl.fin 0).le o.threshold = true) (kind : OffsetKind) (lines : List (List (ℂ × ℝ)))
    (two : ∀ l ∈ lines, 2 ≤ l.length ∧ Timed l) : stopEngine.OK o kind (lines.map (fun l => l.map timed)) := by
  have he : EnvOK (Demo.env stopEngine.lib stopEngine.lnr (fun _ _ _ => .fin 0) (.fin 0) (fun _ => ⟨[], [], o⟩)) := Demo.env_ok repLib_point
  have hm : ∀ l ∈ lines.map (fun l => l.map timed), ∃ ps, l = ps.map timed ∧ 2 ≤ ps.length ∧ Timed ps := by
    intro l hl
    obtain ⟨ps, hps, rfl⟩ := List.mem_map.1 hl
    exact ⟨ps, rfl, two ps hps⟩
  have hh := fun l : List (Fl ℝ × Fl ℝ × Fl ℝ) => Exact.hulls (env := Demo.env stopEngine.lib stopEngine.lnr (fun _ _ _ => .fin 0) (.fin 0) (fun _ => ⟨[], [], o⟩))
    (repLib_exact (pos := fun p => (stopOf p).1) (sec := fun z => timed (z, 0)) stop_section) l
  exact ⟨he.heur, he.heap, he.ord, he.ordRm, he.point, repLnr_ok (pos := fun p => (stopOf p).1) (sec := fun z => timed (z, 0)) stop_section, fun a b h => by
    have : (a : Int) = b := h
    omega, streams _, fun l h => by obtain ⟨ps, rfl, h2, -⟩ := hm l h; simpa using h2, fun l h i j h1 h2 h3 => (hh l i j h1 h2 h3).imp (fun _ h => h.1),
    fun l h i j h1 h2 h3 g hg => by
      obtain ⟨g', e, v⟩ := hh l i j h1 h2 h3
      have hg : hullGeometry (stopEngine.lib.convexHull (Coords.sub l i j)) = .ok g := hg
      have e : hullGeometry (stopEngine.lib.convexHull (Coords.sub l i j)) = .ok g' := e
      rw [hg] at e
      cases e
      exact v,
    fun l h => maxOffset_splitsInside _ _ ho _, fun l h i j h1 h2 h3 => by obtain ⟨ps, rfl, -, ht⟩ := hm l h; exact motion_score ht i j h1 h2 h3⟩

/-- type sed, tolerance 5, self-intersections neither kept nor avoided -/
noncomputable def lateConfig (fc : Bool) : ArgObj (Fl ℝ) := { config "sed".toList fc with planarSelf := false, avoidNewSelfIntersects := false }

theorem late_reads (fc : Bool) (a b : Doc (Fl ℝ)) (ctx : List Region) :
    Reads (world id (lateConfig fc) a b ctx) "e30=".toList ['-'] (lateConfig fc) .maxSEDOffset [a, b] ctx where
  config := ⟨"e30=".toList, rfl, by
    have hx : decode64 (trim "e30=".toList) = .ok [123, 125] := by decide +kernel
    simp only [parseInput, hx]; rfl⟩
  kind := by
    have hk : offsetDictionary ((trim "sed".toList).map (lowerChar id)) = some .maxSEDOffset := by decide +kernel
    simp only [offsetFn, lateConfig, config, world, hk]; rfl
  docs := ⟨['a', '\n', 'b', '\n'], rfl, rfl⟩
  out := (by decide : trim ['o', ' '] ≠ [])
  ctx := rfl
  save := rfl

noncomputable def lateDoc : Doc (Fl ℝ) := .geometry (.line [[.fin 0, .fin 0, .fin 0], [.fin 20, .fin 0, .fin 30], [.fin 40, .fin 0, .fin 40]])

theorem late_lines : [lateDoc, docN].flatMap (fun d => (docParts d).map (fun x => x.2.2.map stopEngine.toPoint)) =
    [late, [(⟨7, 0⟩, 2), (⟨8, 1⟩, 5), (⟨9, 0⟩, 6)]].map (fun l => l.map timed) := by
  simp [lateDoc, late, docN, docParts, featParts, geomParts, stopEngine, timed, tpt]

/-- the program keeps the stop on the straight road, because of its time -/
example (fc : Bool) : ∃ out N, (∀ fuel ≥ N, main (program (world id (lateConfig fc) lateDoc docN [above]) stopEngine fuel) "e30=".toList ['-'] = .saved ['o'] (out.map (fun _ => []))) ∧
    List.Forall₂ (WrittenAs (fun l q => l = late.map timed → q = late.map timed) (world id (lateConfig fc) lateDoc docN [above]).enc stopEngine.toPoint) [lateDoc, docN] out := by
  obtain ⟨out, N, h1, h2⟩ := C123_sed (t := 5) (m := 1 / 2) realArith_exact _ stopEngine _ _ (late_reads fc lateDoc docN [above]) (fun l => .refl l) (by simp [maxInt])
    (fun d hd => by
      simp only [List.mem_cons, List.not_mem_nil, or_false] at hd
      rcases hd with rfl | rfl
      · refine ⟨trivial, by simp [lateDoc, docParts, geomParts], fun x hx => ⟨?_, .inr rfl⟩⟩
        simp only [lateDoc, docParts, geomParts, List.mem_singleton] at hx
        subst hx; exact Nat.zero_le _
      · refine ⟨by simp [docN, HasGeometry], by simp [docN, docParts, featParts, geomParts], fun x hx => ⟨?_, .inr rfl⟩⟩
        simp only [docN, docParts, featParts, geomParts, List.mem_singleton] at hx
        subst hx; exact Nat.zero_le _)
    (by
      rw [late_lines]
      refine stopEngine_ok _ (by simp [Engine.opts, optsFromCfg, lateConfig, config, Fl.fin_le_fin]) _ _ (fun l hl => ?_)
      simp only [List.mem_cons, List.not_mem_nil, or_false] at hl
      rcases hl with rfl | rfl
      · exact ⟨by simp [late], late_timed⟩
      · exact ⟨by simp, by simp [Timed]; norm_num⟩)
    (repLib_exact (pos := fun p => (stopOf p).1) (sec := fun z => timed (z, 0)) stop_section) (repLnr_exact (pos := fun p => (stopOf p).1) (sec := fun z => timed (z, 0)) stop_section) Hdb.listHeap_legal le_rfl rfl (show trim "sed".toList ∈ sedNames by decide +kernel) rfl rfl (by norm_num) rfl (by norm_num) rfl
  refine ⟨out, N, h1, h2.imp (fun d o ho => ho.weaken (fun l q hq hl => ?_))⟩
  obtain ⟨s, rs, k1, k2, k3, k4⟩ := hq late hl late_timed
  cases ProcedureBy.unique k3 (late_kept _ (by simp [rulesAsked]; norm_num) rfl _)
  have : s = [0, 1, 2] := List.Pairwise.eq_of_mem_iff k1.increasing (by decide) (fun v => (k4 v).trans (by
    simp only [EndOf, List.mem_cons, List.not_mem_nil, or_false, exists_eq_or_imp, exists_eq_left]
    omega))
  rw [k2, this]
  rfl

end Real
end Verif
