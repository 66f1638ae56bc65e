import Verif.Props.C115_RoundedProgram
import Verif.Props.C124_Clocks

/-! C125: rounding errors smaller than the margins of the decisions do not change which stops of a motion are saved; the rounding errors are those of offset/sed.go. -/

set_option linter.unusedSectionVars false

namespace Verif
namespace Planar

/-! ### specification -/

section
variable {P C : Type}

/-- Specification: all decisions on the motion `ms` are made with room to spare: the relations of its places to the constraints are clear, no part of it is between `t - δ` and
`t + δ` far from a uniform motion; where a part has to be cut, the farthest stop is more than `2 δ` farther than the others. -/
structure MotionDecided (δ μ : ℝ) (inner outer region : C → Set ℂ) (cs : List C) (R : Rules) (ms : List (ℂ × ℝ)) : Prop
    extends ClearOf μ inner outer region cs R (ms.map Prod.fst) where
  tolerance : ∀ i j : Int, 0 ≤ i → i + 1 < j → j < ms.length → NearBy (syncOffset ms) (R.tolerance - δ) i j ∨ ¬ NearBy (syncOffset ms) (R.tolerance + δ) i j
  farthest : ∀ i j : Int, 0 ≤ i → i + 1 < j → j < ms.length → ¬ NearBy (syncOffset ms) R.tolerance i j ∨
    (¬ Straight (between (ms.map Prod.fst) i j) ∧ ¬ Allowed R (between (ms.map Prod.fst) i j)) →
    ∃ k, i < k ∧ k < j ∧ ∀ l, i < l → l < j → l ≠ k → syncOffset ms i j l + 2 * δ < syncOffset ms i j k

/-- the scores of stops between two others are computed with an error of at most `δ` -/
def Computed (d : P → P → P → Fl ℝ) (δ : ℝ) (motion : P → ℂ × ℝ) (l : List P) : Prop :=
  ∀ i k j : Nat, i < k → k < j → ∀ a p b, l[i]? = some a → l[k]? = some p → l[j]? = some b →
    ∃ r, d a b p = .fin r ∧ 0 ≤ r ∧ |r - ‖(motion p).1 - along (motion a) (motion b) (motion p).2‖| ≤ δ

end

/-! ### a run with rounding errors -/

section
variable {P C : Type} {motion : P → ℂ × ℝ} {inner outer region : C → Set ℂ} {env : Env P C EReal ℝ} {pts : Int → List P} {h : Int} {cs : List C} {t m τ ε ρ δ : ℝ}
  {d : P → P → P → Fl ℝ}

/-- A run in blurred geometry with the scores `d`. -/
structure RoundMotionRun (motion : P → ℂ × ℝ) (inner outer region : C → Set ℂ) (env : Env P C EReal ℝ) (h : Int) (cs : List C) (τ ε ρ t m : ℝ) (d : P → P → P → Fl ℝ) : Prop where
  setting : BlurredSetting (fun p => (motion p).1) inner outer region env h cs τ ε ρ m
  inside : ∀ g, inner g ⊆ region g ∧ region g ⊆ outer g
  eps : ∃ e : ℝ, ε ≤ e ∧ env.eps = .fin e
  rel : ∀ x : ℝ, (env.inst h).rel (.fin x) = true ↔ x ≤ t
  tol : 0 ≤ t
  score : (env.inst h).scoreFn = maxOffset d

theorem RoundMotionRun.chord (hr : RoundMotionRun motion inner outer region env h cs τ ε ρ t m d) :
    RoundRun (fun p => (motion p).1) inner outer region (chordEnv motion t env) h cs τ ε ρ 0 t m :=
  ⟨⟨hr.setting.blurred, hr.setting.heap, hr.setting.tol, hr.setting.minDist, hr.setting.indexed⟩, hr.inside, hr.eps, fun x => by
    simp only [Inst.rel, relationOf, scoreRelation, chordEnv, Fl.fin_le_fin, decide_eq_true_eq], ⟨hr.tol, le_rfl⟩,
    ⟨fun a b p => gap {(motion p).1} (segment ℝ (motion a).1 (motion b).1), fun a b p => ⟨gap_nonneg _ _, by simp⟩, rfl⟩⟩

theorem chord_score (t : ℝ) (env : Env P C EReal ℝ) (h : Int) {i j : Int} (h0 : 0 ≤ i) (h1 : i + 1 < j) (h2 : j < (pts h).length) :
    ∃ k v, ((chordEnv motion t env).inst h).scoreFn (Coords.sub (pts h) i j) = .ok (k, v) ∧ 0 < k ∧ k < j - i := by
  have p1 := points_sub (pts h) h0 (by omega : i ≤ j) h2
  have p2 := wellIndexed_sub (pts := pts h) h0 h2
  have l1 : (Coords.sub (pts h) i j).len = j - i + 1 := by
    rw [p2.length, p1, between, List.length_take, List.length_drop]; omega
  obtain ⟨p0⟩ : Nonempty P := ⟨(pts h)[0]'(by omega)⟩
  have hq : ∀ k, 0 ≤ k → k < (Coords.sub (pts h) i j).len → (Coords.sub (pts h) i j).pt k = .ok ((pts h)[(i + k).toNat]?.getD p0) := by
    intro k k0 k1
    rw [l1] at k1
    obtain ⟨n, rfl⟩ := Int.eq_ofNat_of_zero_le k0
    have a1 : n < (Coords.sub (pts h) i j).points.length := by have := p2.length; omega
    rw [p2.pt_get a1]
    have e1 : (Coords.sub (pts h) i j).points[n]? = (pts h)[(i + (n : Int)).toNat]? := by
      rw [p1, between, List.getElem?_take, if_pos (by omega), List.getElem?_drop]
      congr 1; omega
    rw [List.getElem?_eq_getElem a1] at e1
    simp only [← e1, Option.getD_some]
  obtain ⟨k, e, k0, k1, -, -⟩ := C03_maxOffset (fun a b p => Fl.fin (gap {(motion p).1} (segment ℝ (motion a).1 (motion b).1))) (Coords.sub (pts h) i j) _ (by omega) hq
    (fun s _ _ => by rw [Fl.fin_le_fin]; exact decide_eq_true (gap_nonneg _ _))
  exact ⟨k, _, e, k0, by omega⟩

theorem RoundMotionRun.chord_instOK (hr : RoundMotionRun motion inner outer region env h cs τ ε ρ t m d) (hi : InstOK env h (pts h)) : InstOK (chordEnv motion t env) h (pts h) :=
  ⟨hi.pln, hi.two, hi.hull, hi.box, maxOffset_splitsInside _ _ (by
    simp only [Inst.rel, relationOf, scoreRelation, chordEnv, Fl.fin_le_fin, decide_eq_true_eq]; exact hr.tol) _, fun i j h0 h1 h2 => chord_score t env h h0 h1 h2, hi.ctx⟩

theorem RoundMotionRun.touching (hr : RoundMotionRun motion inner outer region env h cs τ ε ρ t m d) : Touching env pts h := by
  have := hr.chord.touching (pts := pts)
  intro a b ka kb hab
  exact this a b ⟨ka.inst, ⟨ka.piece.coords, ka.piece.geom, ka.piece.mbr, ka.piece.inst⟩, ka.lo, ka.lt, ka.hi⟩
    ⟨kb.inst, ⟨kb.piece.coords, kb.piece.geom, kb.piece.mbr, kb.piece.inst⟩, kb.lo, kb.lt, kb.hi⟩ hab

theorem RoundMotionRun.scores (hr : RoundMotionRun motion inner outer region env h cs τ ε ρ t m d) (hδ : 0 ≤ δ) (hcomp : Computed d δ motion (pts h)) {μ : ℝ}
    (hd : MotionDecided δ μ inner outer region cs (rulesOf region (env.inst h).opts cs t m) ((pts h).map motion)) {i j : Int} (h0 : 0 ≤ i) (h1 : i < j)
    (h2 : j < (pts h).length) :
    ∃ k v, (env.inst h).scoreFn (Coords.sub (pts h) i j) = .ok (k, v) ∧ ((env.inst h).rel v = true ↔ NearBy (syncOffset ((pts h).map motion)) t i j) ∧
      (i + 1 < j → ¬ NearBy (syncOffset ((pts h).map motion)) t i j ∨ (¬ Straight (between (((pts h).map motion).map Prod.fst) i j) ∧
        ¬ Allowed (rulesOf region (env.inst h).opts cs t m) (between (((pts h).map motion).map Prod.fst) i j)) → FarthestBy (syncOffset ((pts h).map motion)) i j (i + k)) := by
  have ht := hr.tol
  have p1 := points_sub (pts h) h0 h1.le h2
  have p2 := wellIndexed_sub (pts := pts h) h0 h2
  have l1 : (Coords.sub (pts h) i j).len = j - i + 1 := by
    rw [p2.length, p1, between, List.length_take, List.length_drop]; omega
  rw [hr.score]
  by_cases hn : i + 1 < j
  · obtain ⟨p0⟩ : Nonempty P := ⟨(pts h)[0]'(by omega)⟩
    let q : Int → P := fun k => (pts h)[(i + k).toNat]?.getD p0
    have hget : ∀ k, 0 ≤ k → k ≤ j - i → (pts h)[(i + k).toNat]? = some (q k) := by
      intro k k0 k1
      have : (i + k).toNat < (pts h).length := by omega
      simp only [q, List.getElem?_eq_getElem this, Option.getD_some]
    have hq : ∀ k, 0 ≤ k → k < (Coords.sub (pts h) i j).len → (Coords.sub (pts h) i j).pt k = .ok (q k) := by
      intro k k0 k1
      rw [l1] at k1
      obtain ⟨n, rfl⟩ := Int.eq_ofNat_of_zero_le k0
      have a1 : n < (Coords.sub (pts h) i j).points.length := by have := p2.length; omega
      rw [p2.pt_get a1]
      have e1 : (Coords.sub (pts h) i j).points[n]? = (pts h)[(i + (n : Int)).toNat]? := by
        rw [p1, between, List.getElem?_take, if_pos (by omega), List.getElem?_drop]
        congr 1; omega
      rw [List.getElem?_eq_getElem a1, hget n k0 (by omega)] at e1
      rw [Option.some.inj e1]
    have hv : ∀ k, 0 ≤ k → k ≤ j - i → motion (q k) = stop ((pts h).map motion) (i + k) := by
      intro k k0 k1
      rw [stop, List.getElem?_map, hget k k0 k1, Option.map_some, Option.getD_some]
    have hoff : ∀ s, 0 < s → s < j - i → ∃ r, d (q 0) (q ((Coords.sub (pts h) i j).len - 1)) (q s) = .fin r ∧ 0 ≤ r ∧ |r - syncOffset ((pts h).map motion) i j (i + s)| ≤ δ := by
      intro s s0 s1
      obtain ⟨r, r1, r2, r3⟩ := hcomp (i + 0).toNat (i + s).toNat (i + (j - i)).toNat (by omega) (by omega) _ _ _ (hget 0 le_rfl (by omega)) (hget s s0.le s1.le)
        (hget (j - i) (by omega) le_rfl)
      rw [hv 0 le_rfl (by omega), hv s s0.le s1.le, hv _ (by omega) le_rfl, show i + (j - i) = j by omega, show i + 0 = i by omega] at r3
      exact ⟨r, by rw [l1, show j - i + 1 - 1 = j - i by omega]; exact r1, r2, r3⟩
    obtain ⟨k, e, k0, k1, k2, k3⟩ := C03_maxOffset d (Coords.sub (pts h) i j) q (by omega) hq
      (fun s s0 s1 => by
        obtain ⟨r, r1, r2, -⟩ := hoff s s0 (by omega)
        rw [r1, Fl.fin_le_fin]; exact decide_eq_true r2)
    obtain ⟨x, x1, x2, x3⟩ := hoff k k0 (by omega)
    have hk := abs_le.1 x3
    have hle : ∀ s, 0 < s → s < j - i → ∀ r, d (q 0) (q ((Coords.sub (pts h) i j).len - 1)) (q s) = .fin r → r ≤ x := by
      intro s s0 s1 r hr'
      have := k2 s s0 (by omega)
      rwa [hr', x1, Fl.fin_le_fin, decide_eq_true_iff] at this
    rw [x1] at e
    refine ⟨k, _, e, ?_, fun _ hc => ?_⟩
    · rw [hr.rel]
      rcases hd.tolerance i j h0 hn (by simpa using h2) with hc | hc
      · have hnt : NearBy (syncOffset ((pts h).map motion)) t i j := fun l l0 l1 => (hc l l0 l1).trans (by simp only [rulesOf]; linarith)
        refine ⟨fun _ => hnt, fun _ => ?_⟩
        have := hc (i + k) (by omega) (by omega)
        simp only [rulesOf] at this
        linarith
      · have hnt : ¬ NearBy (syncOffset ((pts h).map motion)) t i j := fun hnt => hc (fun l l0 l1 => (hnt l l0 l1).trans (by simp only [rulesOf]; linarith))
        refine ⟨fun hwk => absurd (fun l l0 l1 => ?_) hc, fun hnt' => absurd hnt' hnt⟩
        obtain ⟨r, r1, -, r3⟩ := hoff (l - i) (by omega) (by omega)
        have h3 := hle (l - i) (by omega) (by omega) r r1
        have h4 := abs_le.1 r3
        rw [show i + (l - i) = l by omega] at h4
        simp only [rulesOf]
        linarith
    · obtain ⟨b, b0, b1, b2⟩ := hd.farthest i j h0 hn (by simpa using h2) hc
      have hkb : i + k = b := by
        by_contra hne
        obtain ⟨r, r1, -, r3⟩ := hoff (b - i) (by omega) (by omega)
        have h3 := hle (b - i) (by omega) (by omega) r r1
        have h4 := abs_le.1 r3
        rw [show i + (b - i) = b by omega] at h4
        have := b2 (i + k) (by omega) (by omega) hne
        linarith
      rw [hkb]
      refine ⟨b0, b1, fun l l0 l1 => ?_, fun l l0 l1 => ?_⟩
      · by_cases hlb : l = b
        · rw [hlb]
        · have := b2 l l0 l1 hlb; linarith
      · have := b2 l (by omega) l1 (by omega); linarith
  · refine ⟨_, _, C03_maxOffset_short _ _ (by omega), ?_, fun hc => absurd hc hn⟩
    exact ⟨fun _ k k0 k1 => by omega, fun _ => (hr.rel 0).2 ht⟩

/-- the code follows the procedure for motions -/
theorem RoundMotionRun.follows (hr : RoundMotionRun motion inner outer region env h cs τ ε ρ t m d) (hδ : 0 ≤ δ) (hcomp : Computed d δ motion (pts h))
    (hd : MotionDecided δ (τ + 4 * ε) inner outer region cs (rulesOf region (env.inst h).opts cs t m) ((pts h).map motion)) (hi : InstOK env h (pts h)) :
    FollowsBy (syncOffset ((pts h).map motion)) (rulesOf region (env.inst h).opts cs t m) (((pts h).map motion).map Prod.fst) env pts h where
  length := by simp
  scores i j h0 h1 h2 := hr.scores hδ hcomp hd h0 h1 (by simpa using h2)
  straight nd hk := by
    have := Exact.straight (env := { env with lib := sharpest (fun p => (motion p).1) region env.lib }) hr.setting.blurred.exact (pts := pts) (h := h)
      ⟨hk.inst, ⟨hk.piece.coords, hk.piece.geom, hk.piece.mbr, hk.piece.inst⟩, hk.lo, hk.lt, hk.hi⟩
    rw [this]
    simp only [places, between, List.map_take, List.map_drop, List.map_map, Function.comp_def]
  allowed nd hk := by
    have hcl := hd.toClearOf
    rw [List.map_map] at hcl
    have := hr.chord.allowed (pts := pts) (nd := nd) hcl (hr.chord_instOK hi) ⟨hk.inst, ⟨hk.piece.coords, hk.piece.geom, hk.piece.mbr, hk.piece.inst⟩, hk.lo, hk.lt, hk.hi⟩
    rw [List.map_map]
    exact this

variable {ids : Nat → Int}

/-- **C125, one run.**  In a run with rounding errors smaller than the margins of the decisions, the stops kept are those that the procedure for motions prescribes. -/
theorem C125_run (he : EnvOK env) (hl : LnrOK env.lnr) (hi : InstOK env h (pts h)) (hinj : Function.Injective ids)
    (hr : RoundMotionRun motion inner outer region env h cs τ ε ρ t m d) (hδ : 0 ≤ δ) (hcomp : Computed d δ motion (pts h))
    (hd : MotionDecided δ (τ + 4 * ε) inner outer region cs (rulesOf region (env.inst h).opts cs t m) ((pts h).map motion))
    (hself : (env.inst h).opts.planarSelf = false) (hav : (env.inst h).opts.avoidNewSelfIntersects = false) {cv : List Int} (hcv : ∀ i ∈ cv, 0 ≤ i ∧ i < (pts h).length) {dirty dirty' : Int → Bool} {fuel : Nat}
    {out : Out P C EReal} (e : simplify env ids h cv dirty fuel = .ok (out, dirty')) (junction : Int → Prop) :
    ∃ rs, MotionProcedure (rulesOf region (env.inst h).opts cs t m) junction ((pts h).map motion) rs ∧ Chain 0 ((pts h).length - 1) rs ∧
      (out.hulls.map Node.range).Perm rs ∧ out.simple.Pairwise (· < ·) ∧ ∀ v, v ∈ out.simple ↔ EndOf rs v := by
  obtain ⟨rs, h1, h2, h3, h4, h5⟩ := C107_run he hl hi hr.touching hinj hav hcv (fun hp => by rw [hself] at hp; cases hp) e
  refine ⟨rs, (hr.follows hδ hcomp hd hi).procedure hi (fun v => ?_) h1, h2, h3, h4, h5⟩
  simp [FixedVertex, Must, rulesOf, hself]

end

end Planar

/-! ### the score function of offset/sed.go with rounding -/

section
variable {κ η Ω : ℝ} {A : Arith ℝ}
open Planar

/-- within the limits the scores of offset/sed.go have an error of at most `sedError` -/
theorem C125_computed {R T τ : ℝ} (hA : A.Rounds κ η Ω) (hs : A.Signs) (hlim : Limits κ η Ω R T τ) {ms : List (ℂ × ℝ)} (hb : Bounded R T τ ms) :
    Computed (sedDist A (hypot A (.fin 1))) (sedError κ η R T) Io.stopOf (ms.map timed) := by
  intro i k j hik hkj a' p' b' ha' hp' hb'
  rw [List.getElem?_map, Option.map_eq_some_iff] at ha' hp' hb'
  obtain ⟨a, ha, rfl⟩ := ha'
  obtain ⟨p, hp, rfl⟩ := hp'
  obtain ⟨b, hbj, rfl⟩ := hb'
  obtain ⟨k0, k1, n0, n1, l1, l2, l3⟩ := hlim
  have mem : ∀ {i : Nat} {x : ℂ × ℝ}, ms[i]? = some x → x ∈ ms := fun h => List.mem_of_getElem? h
  have hlt : ∀ i j : Nat, i < j → ∀ x y, ms[i]? = some x → ms[j]? = some y → τ ≤ y.2 - x.2 := by
    intro i j hij x y hx hy
    obtain ⟨h1, rfl⟩ := List.getElem?_eq_some_iff.1 hx
    obtain ⟨h2, rfl⟩ := List.getElem?_eq_some_iff.1 hy
    exact List.pairwise_iff_getElem.1 hb.apart i j h1 h2 hij
  have t1 := hlt _ _ hik _ _ ha hp
  have t2 := hlt _ _ hkj _ _ hp hbj
  have t3 := hlt _ _ (hik.trans hkj) _ _ ha hbj
  have t4 := hb.span a (mem ha) b (mem hbj)
  have τ0 := hb.pos
  have R0 : 0 ≤ R := (abs_nonneg _).trans (hb.re a (mem ha))
  have nT : η * (b.2 - a.2) ≤ η * T := mul_le_mul_of_nonneg_left t4 n0
  have nT0 : 0 ≤ η * (b.2 - a.2) := mul_nonneg n0 (by linarith)
  have Ω0 : 0 ≤ Ω := by linarith
  have Ωτ := mul_le_mul_of_nonneg_left t3 Ω0
  obtain ⟨⟨r, er, hr⟩, -⟩ := C88_score hA k0 k1 n0 n1 (a := a) (b := b) (p := p) (R := R) (by linarith) (by linarith) (by linarith)
    ⟨hb.re a (mem ha), hb.im a (mem ha)⟩ ⟨hb.re b (mem hbj), hb.im b (mem hbj)⟩ ⟨hb.re p (mem hp), hb.im p (mem hp)⟩ rfl (by linarith) (by linarith)
  have herr : sedError κ η R (b.2 - a.2) ≤ sedError κ η R T := by rw [sedError, sedError]; linarith
  refine ⟨r, er, ?_, ?_⟩
  · have := hs.hypot (.fin 1)
    unfold sedDist at er
    have := this _ _ ▸ congrArg (fun x => Fl.lt x (.fin 0)) er
    simpa [Fl.lt] using this
  · simp only [Io.stopOf_timed]
    exact hr.trans herr

theorem sedError_nonneg {R T τ : ℝ} (hlim : Limits κ η Ω R T τ) (hR : 0 ≤ R) (hT : 0 ≤ T) : 0 ≤ sedError κ η R T := by
  have := hlim.k0
  have := hlim.n0
  rw [sedError]
  positivity

end

/-! ### the program -/

section
variable {P C : Type} {motion : P → ℂ × ℝ} {inner outer region : C → Set ℂ} {τ ε ρ t m e : ℝ} {d : P → P → P → Fl ℝ}
open Planar

theorem Engine.roundMotionRun {E : Engine P C EReal ℝ} {o : Opts ℝ} {kind : Io.OffsetKind} {ctx : List C} {lines : List (List P)} {fs : List (Inst P C EReal ℝ)}
    (hf : Forest E o kind ctx lines fs) (hx : Blurred ε ρ (fun p => (motion p).1) inner outer region E.lib) (hin : ∀ g, inner g ⊆ region g ∧ region g ⊆ outer g)
    (hh : E.heap.Legal (within τ)) (hτ : 0 ≤ τ ∧ 0 ≤ ε ∧ τ + 3 * ε + ρ ≤ m) (he : ε ≤ e) (heps : E.eps = .fin e) (hsc : E.score kind = maxOffset d)
    (ht : o.threshold = .fin t) (ht0 : 0 ≤ t) (hm : o.minDist = .fin m)
    {k : Nat} {l : List P} (hlk : lines[k]? = some l) : RoundMotionRun motion inner outer region (E.env o kind fs) k ctx τ ε ρ t m d := by
  obtain ⟨e1, e2, e3, e4⟩ := hf.inst hlk
  refine ⟨⟨hx, hh, hτ, by rw [e1]; exact hm, ?_⟩, hin, ⟨e, he, heps⟩, fun x => ?_, ht0, by rw [e2, hsc]⟩
  · have := e4.map (fun nd => (nd.geom, nd.mbr))
    rw [List.map_map] at this
    exact this
  · rw [e3, ht]
    exact decide_eq_true_iff

/-- the stops saved of a line are those prescribed, if the scores are computed with an error of at most `δ` and all decisions are made with room to spare -/
def StopsIf (d : P → P → P → Fl ℝ) (sure : ℝ → List (ℂ × ℝ) → Prop) (motion : P → ℂ × ℝ) (R : Rules) (l q : List P) : Prop :=
  ∀ δ, 0 ≤ δ → Computed d δ motion l → sure δ (l.map motion) → q = verticesAt l (Io.prescribedStops R [] (l.map motion))

theorem Engine.roundedMotion {E : Engine P C EReal ℝ} {o : Opts ℝ} {kind : Io.OffsetKind} {ctx : List C} {lines : List (List P)} (h : E.OK o kind lines)
    (hx : Blurred ε ρ (fun p => (motion p).1) inner outer region E.lib) (hin : ∀ g, inner g ⊆ region g ∧ region g ⊆ outer g) (hh : E.heap.Legal (within τ))
    (hτ : 0 ≤ τ ∧ 0 ≤ ε ∧ τ + 3 * ε + ρ ≤ m) (he : ε ≤ e) (heps : E.eps = .fin e) (hsc : E.score kind = maxOffset d)
    (ht : o.threshold = .fin t) (ht0 : 0 ≤ t) (hm : o.minDist = .fin m) (hself : o.planarSelf = false) (hav : o.avoidNewSelfIntersects = false) :
    E.Guarantees o kind ctx lines (StopsIf d (fun δ => MotionDecided δ (τ + 4 * ε) inner outer region ctx (rulesOf region o ctx t m)) motion (rulesOf region o ctx t m)) := by
  refine h.guarantees _ (fun fs hf hc k l hl hlk hp hmem hi hinj => ?_)
  have hr := Engine.roundMotionRun (ctx := ctx) hf hx hin hh hτ he heps hsc ht ht0 hm hlk
  obtain ⟨e1, -, -, -⟩ := hf.inst hlk
  have fin : ∀ {s : List Int} {rs : List Rng}, s.Pairwise (· < ·) → MotionProcedure (rulesOf region o ctx t m) (Junction [] ((l.map motion).map Prod.fst)) (l.map motion) rs →
      (∀ v, v ∈ s ↔ EndOf rs v) → verticesAt l s = verticesAt l (Io.prescribedStops (rulesOf region o ctx t m) [] (l.map motion)) := by
    intro s rs h1 h2 h3
    rw [Io.PrescribesStops.eq ⟨h1, rs, h2, h3⟩]
  refine ⟨fun dirty fuel out d hs hk δ hδ hcomp hd => ?_, fun dirty fuel res out hs hm' hk δ hδ hcomp hd => ?_⟩
  · obtain ⟨rs, c1, -, -, c3, c2⟩ := C125_run (pts := fun _ => l) (env := E.env o kind fs) hc.envOK hc.lnrOK hi hinj hr hδ hcomp (by rw [e1]; exact hd) (by rw [e1]; exact hself) (by rw [e1]; exact hav) (cv := [])
      (by simp) hs (Junction [] ((l.map motion).map Prod.fst))
    rw [e1] at c1
    exact fin c3 c1 c2
  · have hav' : ∀ x ∈ Engine.handles lines.length, ((E.env o kind fs).inst x).opts.avoidNewSelfIntersects = false := by
      intro x hxm
      obtain ⟨n, hn', rfl⟩ := List.mem_map.1 hxm
      rw [(hf.inst (List.getElem?_eq_getElem (List.mem_range.1 hn'))).1]
      exact hav
    obtain ⟨js, j1, j2, j3, j4⟩ := fcJunctions_ok hc.lnrOK hc.inst hc.distinct o.planarSelf
    obtain ⟨-, a2⟩ := C105_alone hc hav' o j1 hs
    obtain ⟨own, y, q, sm⟩ := a2 _ hm'
    obtain ⟨N, y⟩ := y (fun _ => false)
    have y := y N (Nat.le_refl _)
    simp only [] at hp y sm
    have j4' := j4 k hmem
    simp only [hp] at j4'
    obtain ⟨rs, c1, -, -, c3, c2⟩ := C125_run (pts := fun _ => l) (env := E.env o kind fs) hc.envOK hc.lnrOK hi hinj hr hδ hcomp (by rw [e1]; exact hd) (by rw [e1]; exact hself) (by rw [e1]; exact hav) j4' y
      (Junction [] ((l.map motion).map Prod.fst))
    rw [e1] at c1
    rw [sm]
    exact fin c3 c1 c2

end

namespace Io

open Verif.Text Verif.Planar

section
variable {C Props : Type} {κ η Ω : ℝ} {A : Arith ℝ}

/-- **C125 for the program.**  Arithmetic in offset/sed.go rounds with relative error `κ` and absolute error `η` below the limit `Ω`; distances to constraints are computed with
errors, the test for common points may go wrong near the border of a constraint, the queue of the index may hand out a somewhat farther entry first.  Every motion within the
limits on which all decisions are made with room to spare is saved with the stops that the exact procedure of C123 prescribes. -/
theorem C125_program (hA : A.Rounds κ η Ω) (hs : A.Signs) (w : World (Fl ℝ) Pt3 Props C) (E : Engine Pt3 C EReal ℝ) (b f : Str) {obj : ArgObj (Fl ℝ)} {kind : OffsetKind}
    {docs : List (Doc (Fl ℝ))} {ctx : List C} (hr : Reads w b f obj kind docs ctx) (hord : ∀ l, (w.enc.ord l).Perm l) (hlen : docs.length ≤ maxInt)
    (hd : ∀ d ∈ docs, HasGeometry d ∧ docParts d ≠ [] ∧ ∀ x ∈ docParts d, x.1 ≤ maxInt ∧ (x.2.1 = ['n', 'u', 'l', 'l'] ∨ (w.enc.unmarshal x.2.1).isSome))
    (hE : E.OK (E.opts (optsFromCfg obj)) kind (docs.flatMap (fun d => (docParts d).map (fun x => x.2.2.map E.toPoint))))
    {inner outer region : C → Set ℂ} {τ ε ρ t m e : ℝ} (hx : Blurred ε ρ (fun p => (stopOf p).1) inner outer region E.lib) (hin : ∀ g, inner g ⊆ region g ∧ region g ⊆ outer g)
    (hh : E.heap.Legal (within τ)) (hτ : 0 ≤ τ ∧ 0 ≤ ε ∧ τ + 3 * ε + ρ ≤ m) (he : ε ≤ e) (heps : E.eps = .fin e) (hname : trim obj.simplificationType ∈ sedNames)
    (hsc : E.score .maxSEDOffset = maxOffset (sedDist A (hypot A (.fin 1))))
    (ht : obj.threshold = .fin t) (ht0 : 0 ≤ t) (hm : obj.minDist = .fin m) (hself : obj.planarSelf = false) (hav : obj.avoidNewSelfIntersects = false) :
    ∃ out N, (∀ fuel ≥ N, main (program w E fuel) b f = .saved (trim obj.output) (out.map w.marshal)) ∧
      List.Forall₂ (WrittenAs (fun l q => ∀ ms, l = ms.map timed → 2 ≤ ms.length → ∀ R T σ, Limits κ η Ω R T σ → Bounded R T σ ms →
        MotionDecided (sedError κ η R T) (τ + 4 * ε) inner outer region ctx (rulesAsked region obj ctx t m) ms →
        q = (verticesAt ms (prescribedStops (rulesAsked region obj ctx t m) [] ms)).map timed) w.enc E.toPoint) docs out := by
  obtain rfl := hr.sed hname
  obtain ⟨out, N, h1, h2⟩ := program_lines w E b f hr hord hlen hd hE (Engine.roundedMotion (motion := stopOf) hE hx hin hh hτ he heps hsc ht ht0 hm hself hav)
  refine ⟨out, N, h1, h2.imp (fun d o ho => ho.weaken (fun l q hq ms hl h2 R T σ hlim hb hdec => ?_))⟩
  subst hl
  have hid : (ms.map timed).map stopOf = ms := by
    rw [List.map_map]
    exact (List.map_congr_left (fun q _ => stopOf_timed q)).trans (List.map_id ms)
  have := hq (sedError κ η R T) (sedError_nonneg hlim (hb.nonneg h2).1 (hb.nonneg h2).2) (C125_computed hA hs hlim hb) (by rw [hid]; exact hdec)
  rw [hid] at this
  rw [this, map_verticesAt]
  rfl

end

end Io

/-! ### a concrete case -/

namespace Planar

/-- there and back -/
noncomputable def shuttle : List (ℂ × ℝ) := [(⟨-1, 0⟩, 0), (⟨1, 0⟩, 1), (⟨-1, 0⟩, 2)]

theorem shuttle_bounded : Bounded 1 2 1 shuttle := by
  refine ⟨fun p hp => ?_, fun p hp => ?_, fun p hp q hq => ?_, by norm_num, by simp [shuttle]; norm_num⟩
  · simp only [shuttle, List.mem_cons, List.not_mem_nil, or_false] at hp
    rcases hp with rfl | rfl | rfl <;> norm_num
  · simp only [shuttle, List.mem_cons, List.not_mem_nil, or_false] at hp
    rcases hp with rfl | rfl | rfl <;> norm_num
  · simp only [shuttle, List.mem_cons, List.not_mem_nil, or_false] at hp hq
    rcases hp with rfl | rfl | rfl <;> rcases hq with rfl | rfl | rfl <;> norm_num

theorem shuttle_offset : syncOffset shuttle 0 2 1 = 2 := by
  have : (stop shuttle 1).1 - along (stop shuttle 0) (stop shuttle 2) (stop shuttle 1).2 = ((2 : ℝ) : ℂ) := by
    simp only [stop, shuttle, along]
    apply Complex.ext <;> simp
    norm_num
  rw [syncOffset, this, Complex.norm_real]
  norm_num

/-- with errors of one percent all decisions are made with room to spare -/
theorem shuttle_decided {C : Type} (region : C → Set ℂ) (cs : List C) (R : Rules) (ht : R.tolerance = 1 / 2) :
    MotionDecided (sedError (1 / 100) 0 1 2) 0 region region region cs R shuttle := by
  have hs : sedError (1 / 100) 0 1 2 = 23 / 20 := by norm_num [sedError]
  refine ⟨⟨fun _ g hg i j h0 h1 h2 => ⟨id, id⟩, fun _ g hg x hx y hy z hz => id, fun _ g hg i j h0 h1 h2 => ?_⟩, fun i j h0 h1 h2 => .inr (fun h => ?_), fun i j h0 h1 h2 _ => ?_⟩
  · rw [sub_zero, add_zero]
    exact ⟨lt_or_ge _ _, lt_or_ge _ _⟩
  · simp only [shuttle, List.length_cons, List.length_nil] at h2
    obtain rfl : i = 0 := by omega
    obtain rfl : j = 2 := by omega
    have := h 1 (by norm_num) (by norm_num)
    rw [shuttle_offset, hs, ht] at this
    norm_num at this
  · simp only [shuttle, List.length_cons, List.length_nil] at h2
    exact ⟨1, by omega, by omega, fun l l0 l1 hl => by omega⟩

theorem shuttle_kept (R : Rules) (ht : R.tolerance = 1 / 2) (hs : R.keepSelf = false) (junction : Int → Prop) : MotionProcedure R junction shuttle [⟨0, 1⟩, ⟨1, 2⟩] := by
  have hm : ∀ v, ¬ Must R junction (shuttle.map Prod.fst) v := fun v h => by have := h.1; rw [hs] at this; cases this
  have hfar : ¬ NearBy (syncOffset shuttle) R.tolerance 0 2 := fun h => by
    have := h 1 (by norm_num) (by norm_num)
    rw [shuttle_offset, ht] at this
    norm_num at this
  have hcut : FarthestBy (syncOffset shuttle) 0 2 1 := ⟨by norm_num, by norm_num, fun l l0 l1 => by rw [show l = 1 by omega], fun l l0 l1 => by omega⟩
  have one : ∀ i : Int, NearBy (syncOffset shuttle) R.tolerance i (i + 1) := fun i k _ _ => by omega
  refine ⟨[⟨0, 1⟩, ⟨1, 2⟩], [⟨0, 1⟩, ⟨1, 2⟩], [⟨0, 1⟩, ⟨1, 2⟩], ?_, ⟨rfl, by decide, rfl, by decide, rfl⟩, fun v => by simp [hm v], ?_, ?_⟩
  · exact .cut 0 2 1 [⟨0, 1⟩] [⟨1, 2⟩] hfar hcut (.keep 0 1 (one 0)) (.keep 1 2 (one 1))
  · refine Each.cons (xs := [(⟨0, 1⟩ : Rng)]) (ys := [(⟨1, 2⟩ : Rng)] ++ []) ?_ (.cons ?_ .nil)
    · exact .keep 0 1 (fun h => by omega)
    · exact .keep 1 2 (fun h => by omega)
  · refine .keep _ (fun _ => ⟨fun n hn _ hok => ?_, by simp⟩) (.keep _ (fun _ => ⟨by simp, fun p hp _ hok => ?_⟩) (.done _))
    · cases hn; exact hfar hok.1
    · cases hp; exact hfar hok.1

end Planar

namespace Real
open Io Text Planar

/-- exact geometry, scores computed with one percent of error in every operation -/
noncomputable def skewStops : Engine Pt3 Region EReal ℝ := { stopEngine with score := fun _ => maxOffset (sedDist skewArith (hypot skewArith (.fin 1))) }

theorem skewStops_ok (o : Opts ℝ) (ho : (Fl.fin 0).le o.threshold = true) (kind : OffsetKind) (lines : List (List (ℂ × ℝ)))
    {R T τ : ℝ} (two : ∀ l ∈ lines, 2 ≤ l.length ∧ Bounded R T τ l) : skewStops.OK o kind (lines.map (fun l => l.map timed)) := by
  have h := stopEngine_ok o ho kind lines (fun l hl => ⟨(two l hl).1, (two l hl).2.timed⟩)
  refine ⟨h.heur, h.heap, h.ord, h.ordRm, h.point, h.lnr, h.instId, h.streams, h.two, h.hull, h.box, fun l _ => maxOffset_splitsInside _ _ ho _, fun l hl i j h1 h2 h3 => ?_⟩
  obtain ⟨ps, hps, rfl⟩ := List.mem_map.1 hl
  obtain ⟨l2, hb⟩ := two ps hps
  obtain ⟨Ω, hlim⟩ := some_limits (κ := 1 / 100) (by norm_num) (by norm_num) (hb.nonneg l2).1 (hb.nonneg l2).2 hb.pos
  obtain ⟨k, r, e, -, k0, k1⟩ := C115_split_inside (skewArith_rounds Ω) skewArith_signs hlim hb i j h1 h2 h3
  exact ⟨k, _, e, k0, k1⟩

/-- type sed, tolerance 1/2 -/
noncomputable def shuttleConfig (fc : Bool) : ArgObj (Fl ℝ) := { lateConfig fc with threshold := .fin (1 / 2) }

theorem shuttle_reads (fc : Bool) (a b : Doc (Fl ℝ)) (ctx : List Region) :
    Reads (world id (shuttleConfig fc) a b ctx) "e30=".toList ['-'] (shuttleConfig fc) .maxSEDOffset [a, b] ctx where
  config := ⟨"e30=".toList, rfl, by
    have hx : decode64 (trim "e30=".toList) = .ok [123, 125] := by decide +kernel
    simp only [parseInput, hx]; rfl⟩
  kind := by
    have hk : offsetDictionary ((trim "sed".toList).map (lowerChar id)) = some .maxSEDOffset := by decide +kernel
    simp only [offsetFn, shuttleConfig, lateConfig, config, world, hk]; rfl
  docs := ⟨['a', '\n', 'b', '\n'], rfl, rfl⟩
  out := (by decide : trim ['o', ' '] ≠ [])
  ctx := rfl
  save := rfl

/-- C125 for the program: the motion there and back is saved with all its stops, although every operation has an error of one percent; all relations to the constraint are asked for -/
example (fc : Bool) : ∃ (out : List (LineFeature (Fl ℝ) Str)) (N : Nat),
    (∀ fuel ≥ N, main (program (world id (shuttleConfig fc) (coordsOfMotion shuttle) (coordsOfMotion shuttle) [above]) skewStops fuel) "e30=".toList ['-'] =
      .saved ['o'] (out.map (fun _ => []))) ∧
    List.Forall₂ (WrittenAs (fun l q => l = shuttle.map timed → q = shuttle.map timed)
      (world id (shuttleConfig fc) (coordsOfMotion shuttle) (coordsOfMotion shuttle) [above]).enc skewStops.toPoint) [coordsOfMotion shuttle, coordsOfMotion shuttle] out := by
  obtain ⟨Ω, hlim⟩ := some_limits (κ := 1 / 100) (R := 1) (T := 2) (τ := 1) (by norm_num) (by norm_num) (by norm_num) (by norm_num) (by norm_num)
  obtain ⟨out, N, h1, h2⟩ := C125_program (skewArith_rounds Ω) skewArith_signs _ skewStops _ _ (shuttle_reads fc (coordsOfMotion shuttle) (coordsOfMotion shuttle) [above])
    (fun l => .refl l) (by simp [maxInt])
    (fun d hd => by
      simp only [List.mem_cons, List.not_mem_nil, or_false] at hd
      rcases hd with rfl | rfl <;> exact line_ok _ _)
    (by
      show skewStops.OK _ _ ([coordsOfMotion shuttle, coordsOfMotion shuttle].flatMap (fun d => (docParts d).map (fun x => x.2.2.map stopEngine.toPoint)))
      rw [coordsOfMotion_lines]
      refine skewStops_ok (R := 1) (T := 2) (τ := 1) _ (by simp [Engine.opts, optsFromCfg, shuttleConfig, lateConfig, config, Fl.fin_le_fin]) _ _ (fun l hl => ?_)
      simp only [List.mem_cons, List.not_mem_nil, or_false] at hl
      rcases hl with rfl | rfl <;> exact ⟨by simp [shuttle], shuttle_bounded⟩)
    (τ := 0) (ε := 0) (ρ := 0) (t := 1 / 2) (m := 1 / 2) (e := 0)
    (Exact.rough (repLib_exact (pos := fun p => (stopOf p).1) (sec := fun z => timed (z, 0)) stop_section)).blurred (fun g => ⟨subset_rfl, subset_rfl⟩)
    ⟨Hdb.listHeap_legal.push, Hdb.listHeap_legal.pop_none, Hdb.listHeap_legal.pop_perm, fun q x r h1 h2 y hy => within_zero (Hdb.listHeap_legal.pop_min q x r h1 h2 y hy)⟩
    (by norm_num) le_rfl rfl (show trim "sed".toList ∈ sedNames by decide +kernel) rfl rfl (by norm_num) rfl rfl rfl
  refine ⟨out, N, h1, h2.imp (fun d o hw => hw.weaken (fun l q hq hl => ?_))⟩
  rw [hq _ hl (by simp [shuttle]) 1 2 1 hlim shuttle_bounded (by
    have := shuttle_decided (fun r : Region => r.1) [above] (rulesAsked (fun r : Region => r.1) (shuttleConfig fc) [above] (1 / 2) (1 / 2)) rfl
    simpa using this)]
  have hp : PrescribesStops (rulesAsked (fun r : Region => r.1) (shuttleConfig fc) [above] (1 / 2) (1 / 2)) [] shuttle [0, 1, 2] := by
    refine ⟨by decide, _, shuttle_kept _ rfl rfl _, fun v => ?_⟩
    simp only [EndOf, List.mem_cons, List.not_mem_nil, or_false, exists_eq_or_imp, exists_eq_left]
    omega
  rw [hp.eq]
  rfl

end Real

end Verif
