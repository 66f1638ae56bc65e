import Verif.Props.C07_Selected
import Verif.Props.C70_SedDistance
import Verif.Lemmas.Pointers
import Verif.Demo.Axis

/-! C71: simplifying with a squared score and the squared threshold is simplifying with the score and the threshold. -/

set_option linter.unusedSectionVars false

namespace Verif

section
variable {P C B K : Type}

/-- two score functions, each with its acceptance relation, that name the same vertex and accept the same sub-lines -/
def SameChoice (f f' : ScoreFn P K) (r r' : Fl K → Bool) : Prop :=
  ∀ c, Res.Sim (fun x y => x.1 = y.1 ∧ r x.2 = r' y.2) (f c) (f' c)

theorem dpLoop_choice {lib : Lib P C B K} {ids : Nat → Int} {pln : Polyline P} {f f' : ScoreFn P K} {r r' : Fl K → Bool} (h : SameChoice f f' r r') (inst : Int) :
    ∀ (fuel : Nat) (stack : List Rng) (hque : List (Node P C B)) (g : Nat),
      dpLoop lib ids pln f r inst fuel stack hque g = dpLoop lib ids pln f' r' inst fuel stack hque g := by
  intro fuel
  induction fuel with
  | zero => intro stack hque g; cases stack <;> rfl
  | succ fuel ih =>
    intro stack hque g
    cases stack with
    | nil => rfl
    | cons s stack =>
      rw [dpLoop, dpLoop]
      refine Res.Sim.eq (Res.Sim.bind_same (fun c _ => Res.Sim.bind (h c) ?_))
      rintro ⟨k, v⟩ ⟨k', v'⟩ - - ⟨rfl, hv⟩
      simp only [] at hv
      simp only [hv, ih]
      exact Res.Sim.refl (fun _ => rfl)

theorem decompose_choice {lib : Lib P C B K} {ids : Nat → Int} {g : Nat} {pln : Polyline P} {f f' : ScoreFn P K} {r r' : Fl K → Bool}
    (h : SameChoice f f' r r') (inst : Int) (fuel : Nat) : decompose lib ids g pln f r inst fuel = decompose lib ids g pln f' r' inst fuel := by
  unfold decompose
  cases pln.ls with
  | none => rfl
  | some _ => simp only [dpLoop_choice h]

theorem atScoreSelection_choice {lib : Lib P C B K} {ids : Nat → Int} {g : Nat} {f f' : ScoreFn P K} {r r' : Fl K → Bool} (h : SameChoice f f' r r')
    (hull : Node P C B) : atScoreSelection lib ids g f hull = atScoreSelection lib ids g f' hull := by
  unfold atScoreSelection
  refine Res.Sim.eq (Res.Sim.bind (h _) ?_)
  rintro ⟨k, v⟩ ⟨k', v'⟩ - - ⟨rfl, hv⟩
  exact Res.Sim.refl (fun _ => rfl)

theorem fragments_choice {lib : Lib P C B K} {ids : Nat → Int} {g : Nat} {f f' : ScoreFn P K} {r r' : Fl K → Bool} (h : SameChoice f f' r r')
    (a b : Node P C B) : contiguousFragmentsAtThreshold lib ids g f r a b = contiguousFragmentsAtThreshold lib ids g f' r' a b := by
  unfold contiguousFragmentsAtThreshold
  split
  · rfl
  · refine Res.Sim.eq (Res.Sim.bind_same (fun c _ => Res.Sim.bind (h c) ?_))
    rintro ⟨k, v⟩ ⟨k', v'⟩ - - ⟨rfl, hv⟩
    simp only [] at hv
    simp only [hv]
    exact Res.Sim.refl (fun _ => rfl)

variable [LinearOrder B] [BoundedOrder B] [LinearOrder K]

/-- the same instances with other score functions -/
def rescore (env : Env P C B K) (sc : Int → ScoreFn P K) (sq : Int → Option (ScoreFn P K)) : Env P C B K :=
  { env with inst := fun h => { env.inst h with score := sc h, square := sq h } }

variable {env : Env P C B K} {sc : Int → ScoreFn P K} {sq : Int → Option (ScoreFn P K)}

/-- every instance chooses the same with the new score functions -/
def Rescored (env : Env P C B K) (sc : Int → ScoreFn P K) (sq : Int → Option (ScoreFn P K)) : Prop :=
  ∀ h, SameChoice ((rescore env sc sq).inst h).scoreFn (env.inst h).scoreFn ((rescore env sc sq).inst h).rel (env.inst h).rel

theorem deformNodesLoop_rescore (hr : Rescored env sc sq) (ids : Nat → Int) : ∀ (l : List (Node P C B)) (g : Nat) (dirty : Int → Bool),
    deformNodesLoop (rescore env sc sq) ids l g dirty = deformNodesLoop env ids l g dirty := by
  intro l
  induction l with
  | nil => intro g dirty; rfl
  | cons h hs ih =>
    intro g dirty
    rw [deformNodesLoop, deformNodesLoop]
    split
    · rw [atScoreSelection_choice (hr h.inst) h]
      simp only [ih]; rfl
    · simp only [ih]

theorem selectFCLoop_rescore (d : Fl K) (hull : Node P C B) : ∀ l dict,
    selectFCLoop (rescore env sc sq) d hull l dict = selectFCLoop env d hull l dict := by
  intro l
  induction l with
  | nil => intro dict; rfl
  | cons h hs ih => intro dict; rw [selectFCLoop, selectFCLoop]; simp only [ih]; rfl

theorem hullSelections_rescore (dirty : Int → Bool) (db : Db P C B) (h : Node P C B) (fuel : Nat) :
    hullSelections (rescore env sc sq) dirty db h fuel = hullSelections env dirty db h fuel := by
  unfold hullSelections fcSelections selectFeatureClass
  simp only [selectFCLoop_rescore]
  rfl

theorem selectionsOf_rescore (dirty : Int → Bool) (db : Db P C B) (fuel : Nat) : ∀ l,
    selectionsOf (rescore env sc sq) dirty db fuel l = selectionsOf env dirty db fuel l := by
  intro l
  induction l with
  | nil => rfl
  | cons h hs ih => rw [selectionsOf, selectionsOf, ih, hullSelections_rescore]

theorem deformLoop_rescore (hr : Rescored env sc sq) (ids : Nat → Int) : ∀ (fuel : Nat) (l : List (Node P C B)) (st : LoopSt P C B),
    deformLoop (rescore env sc sq) ids fuel l st = deformLoop env ids fuel l st := by
  intro fuel
  induction fuel with
  | zero => intro l st; rfl
  | succ fuel ih =>
    intro l st
    rw [deformLoop, deformLoop]
    unfold findDeformable deformRound
    simp only [ih, deformNodesLoop_rescore hr, selectionsOf_rescore]
    rfl

theorem splitNodes_rescore (ids : Nat → Int) (idxs : List Int) (fuel : Nat) : ∀ l db g,
    splitNodes (rescore env sc sq) ids idxs fuel l db g = splitNodes env ids idxs fuel l db g := by
  intro l
  induction l with
  | nil => intro db g; rfl
  | cons h hs ih => intro db g; rw [splitNodes, splitNodes]; simp only [ih]; rfl

theorem splitAtInters_rescore (ids : Nat → Int) (fuel : Nat) : ∀ l db g,
    splitAtInters (rescore env sc sq) ids fuel l db g = splitAtInters env ids fuel l db g := by
  intro l
  induction l with
  | nil => intro db g; rfl
  | cons h hs ih => intro db g; rw [splitAtInters, splitAtInters]; simp only [ih, splitNodes_rescore]; rfl

theorem toSelfIntersects_rescore (ids : Nat → Int) (g : Nat) (nodes : List (Node P C B)) (h : Int) (cv : List Int) (fuel : Nat) :
    toSelfIntersects (rescore env sc sq) ids g nodes ((rescore env sc sq).inst h) cv fuel = toSelfIntersects env ids g nodes (env.inst h) cv fuel := by
  unfold toSelfIntersects
  simp only [splitAtInters_rescore]
  rfl

theorem tryMerge_rescore (hr : Rescored env sc sq) (ids : Nat → Int) (h : Int) (en : Bool) (a b : Option (Node P C B)) (cache : List (List Int)) (g : Nat) :
    tryMerge (rescore env sc sq) ids ((rescore env sc sq).inst h) en a b cache g = tryMerge env ids (env.inst h) en a b cache g := by
  unfold tryMerge
  split
  · rw [fragments_choice (hr h)]; rfl
  · rfl

theorem aggStep_rescore (hr : Rescored env sc sq) (ids : Nat → Int) (h : Int) (cvs : List Int) (hull : Node P C B) (objects : List (Node P C B))
    (db : Db P C B) (cache : List (List Int)) (g fuel : Nat) :
    aggStep (rescore env sc sq) ids ((rescore env sc sq).inst h) cvs hull objects db cache g fuel =
      aggStep env ids (env.inst h) cvs hull objects db cache g fuel := by
  unfold aggStep
  simp only [tryMerge_rescore hr]
  rfl

theorem aggLoop_rescore (hr : Rescored env sc sq) (ids : Nat → Int) (h : Int) (cvs : List Int) : ∀ (fuel : Nat) (objects : List (Node P C B))
    (db : Db P C B) (cache : List (List Int)) (g : Nat),
    aggLoop (rescore env sc sq) ids ((rescore env sc sq).inst h) cvs fuel objects db cache g = aggLoop env ids (env.inst h) cvs fuel objects db cache g := by
  intro fuel
  induction fuel with
  | zero => intro o db c g; rfl
  | succ fuel ih =>
    intro o db c g
    cases o with
    | nil => rfl
    | cons x o => rw [aggLoop, aggLoop]; simp only [ih, aggStep_rescore hr]

/-- Two sets of score functions that name the same vertices and accept the same sub-lines give the same simplification of an instance. -/
theorem simplify_rescore (hr : Rescored env sc sq) (ids : Nat → Int) (h : Int) (cv : List Int) (dirty : Int → Bool) (fuel : Nat) :
    simplify (rescore env sc sq) ids h cv dirty fuel = simplify env ids h cv dirty fuel := by
  unfold simplify aggregate
  simp only [decompose_choice (hr h), toSelfIntersects_rescore, deformLoop_rescore hr, aggLoop_rescore hr]
  rfl

theorem simplifyInstances_rescore (hr : Rescored env sc sq) (idsOf : Int → Nat → Int) (js : List (Int × Int)) (fuel : Nat) : ∀ (l : List Int) (dirty : Int → Bool),
    simplifyInstances (rescore env sc sq) idsOf js fuel l dirty = simplifyInstances env idsOf js fuel l dirty := by
  intro l
  induction l with
  | nil => intro dirty; rfl
  | cons h hs ih => intro dirty; rw [simplifyInstances, simplifyInstances]; simp only [ih, simplify_rescore hr]; rfl

/-- the same for a feature class -/
theorem simplifyFeatureClass_rescore (hr : Rescored env sc sq) (ids : Nat → Int) (idsOf : Int → Nat → Int) (handles : List Int) (o : Opts K)
    (dirty : Int → Bool) (fuel : Nat) :
    simplifyFeatureClass (rescore env sc sq) ids idsOf handles o dirty fuel = simplifyFeatureClass env ids idsOf handles o dirty fuel := by
  unfold simplifyFeatureClass
  simp only [simplifyInstances_rescore hr, deformLoop_rescore hr]
  rfl

variable [Zero K]

/-- `dist'` orders the vertices of a sub-line like `dist`, and is within the threshold `sq` exactly when `dist` is within `thr`: so it is with squares of
distances when the threshold is not negative (`squares_segDist`, `squares_sed`) -/
structure Squares (dist dist' : P → P → P → Fl K) (thr sq : Fl K) : Prop where
  ge : ∀ a b p q, (dist' a b p).ge (dist' a b q) = (dist a b p).ge (dist a b q)
  zero : ∀ a b p, (dist' a b p).ge (.fin 0) = (dist a b p).ge (.fin 0)
  accept : ∀ a b p, (dist' a b p).le sq = (dist a b p).le thr
  accept0 : (Fl.fin 0).le sq = (Fl.fin 0).le thr

theorem maxLoop_squares {dist dist' : P → P → P → Fl K} {thr sq : Fl K} (hs : Squares dist dist' thr sq) (c : Coords P) (a b : P) :
    ∀ (todo : Nat) (k i : Int) (off off' : Fl K), ((off = .fin 0 ∧ off' = .fin 0) ∨ ∃ p, off = dist a b p ∧ off' = dist' a b p) →
      Res.Sim (fun x y => x.1 = y.1 ∧ x.2.le sq = y.2.le thr)
        (maxLoop (fun k => do return dist' a b (← c.pt k)) todo k i off') (maxLoop (fun k => do return dist a b (← c.pt k)) todo k i off) := by
  intro todo
  induction todo with
  | zero =>
    rintro k i off off' (⟨rfl, rfl⟩ | ⟨p, rfl, rfl⟩)
    · exact .ok ⟨rfl, hs.accept0⟩
    · exact .ok ⟨rfl, hs.accept a b p⟩
  | succ todo ih =>
    intro k i off off' ho
    rw [maxLoop, maxLoop]
    cases hp : c.pt k with
    | panic => exact .panic
    | timeout => exact .timeout
    | ok p =>
      simp only [Res.ok_bind, Res.pure_eq]
      have hg : (dist' a b p).ge off' = (dist a b p).ge off := by
        rcases ho with ⟨rfl, rfl⟩ | ⟨q, rfl, rfl⟩
        · exact hs.zero a b p
        · exact hs.ge a b p q
      rw [hg]
      split
      · exact ih _ _ _ _ (.inr ⟨p, rfl, rfl⟩)
      · exact ih _ _ _ _ ho

/-- the squared score names the same vertex and the squared threshold accepts the same sub-lines -/
theorem Squares.choice {dist dist' : P → P → P → Fl K} {thr sq : Fl K} (hs : Squares dist dist' thr sq) :
    SameChoice (maxOffset dist') (maxOffset dist) (squareScoreRelation sq) (scoreRelation thr) := by
  intro c
  unfold maxOffset
  simp only []
  split
  · exact .ok ⟨rfl, hs.accept0⟩
  · refine Res.Sim.bind_same (fun a _ => Res.Sim.bind_same (fun b _ => ?_))
    exact maxLoop_squares hs c a b _ _ _ _ _ (.inl ⟨rfl, rfl⟩)

/-- instances that use the score without squares, each with thresholds that fit -/
structure Plain (env : Env P C B K) (dist dist' : P → P → P → Fl K) : Prop where
  score : ∀ h, (env.inst h).score = maxOffset dist
  square : ∀ h, (env.inst h).square = none
  squares : ∀ h, Squares dist dist' (env.inst h).opts.threshold (env.inst h).opts.sqThreshold

/-- the instances with the squared score function added -/
def squared (env : Env P C B K) (dist dist' : P → P → P → Fl K) : Env P C B K := rescore env (fun _ => maxOffset dist) (fun _ => some (maxOffset dist'))

theorem Plain.rescored {dist dist' : P → P → P → Fl K} (hp : Plain env dist dist') :
    Rescored env (fun _ => maxOffset dist) (fun _ => some (maxOffset dist')) := by
  intro h
  have h1 : (env.inst h).scoreFn = maxOffset dist := by unfold Inst.scoreFn scoreOf; rw [hp.square, hp.score]; rfl
  have h2 : (env.inst h).rel = scoreRelation (env.inst h).opts.threshold := by unfold Inst.rel relationOf; rw [hp.square]
  rw [h1, h2]
  exact (hp.squares h).choice

/-- **C71**: `dp.Simplify` keeps the same vertices with the squared score and the squared threshold. -/
theorem C71_dp {dist dist' : P → P → P → Fl K} {thr sq : Fl K} (hs : Squares dist dist' thr sq) (lib : Lib P C B K) (ids : Nat → Int) (g : Nat)
    (pln : Polyline P) (inst : Int) (fuel : Nat) :
    dpSimplify lib ids g pln (maxOffset dist) (some (maxOffset dist')) thr sq inst fuel = dpSimplify lib ids g pln (maxOffset dist) none thr sq inst fuel := by
  unfold dpSimplify
  have := decompose_choice (lib := lib) (ids := ids) (g := g) (pln := pln) hs.choice inst fuel
  simp only [scoreOf, relationOf, Option.getD_some, Option.getD_none, this]

/-- **C71**: `ConstDP.Simplify` with the squared score has the outcome of the plain one, for every line, constraint set and option. -/
theorem C71_simplify {dist dist' : P → P → P → Fl K} (hp : Plain env dist dist') (ids : Nat → Int) (h : Int) (cv : List Int) (dirty : Int → Bool) (fuel : Nat) :
    simplify (squared env dist dist') ids h cv dirty fuel = simplify env ids h cv dirty fuel :=
  simplify_rescore hp.rescored ids h cv dirty fuel

/-- **C71**: the same for a feature class. -/
theorem C71_featureClass {dist dist' : P → P → P → Fl K} (hp : Plain env dist dist') (ids : Nat → Int) (idsOf : Int → Nat → Int) (handles : List Int)
    (o : Opts K) (dirty : Int → Bool) (fuel : Nat) :
    simplifyFeatureClass (squared env dist dist') ids idsOf handles o dirty fuel = simplifyFeatureClass env ids idsOf handles o dirty fuel :=
  simplifyFeatureClass_rescore hp.rescored ids idsOf handles o dirty fuel

end

/-! ### the distances of the code -/

theorem squares_of_nonneg {P : Type} {d : P → P → P → ℝ} (hd : ∀ a b p, 0 ≤ d a b p) {ε : ℝ} (hε : 0 ≤ ε) :
    Squares (fun a b p => .fin (d a b p)) (fun a b p => .fin (d a b p ^ 2)) (.fin ε) (.fin (ε * ε)) where
  ge a b p q := by
    simp only [Fl.ge, Fl.fin_le_fin]; congr 1; exact propext (sq_le_sq₀ (hd a b q) (hd a b p))
  zero a b p := by
    simp only [Fl.ge, Fl.fin_le_fin, hd a b p, sq_nonneg]
  accept a b p := by
    simp only [Fl.fin_le_fin]; congr 1; rw [← sq]; exact propext (sq_le_sq₀ (hd a b p) hε)
  accept0 := by simp only [Fl.fin_le_fin, hε, mul_nonneg hε hε]

/-- `MaxOffset` and `SquareMaxOffset` (offset/dp.go) without rounding -/
theorem squares_segDist {E : Type} [NormedAddCommGroup E] [NormedSpace ℝ E] {ε : ℝ} (hε : 0 ≤ ε) :
    Squares (segDist (E := E)) segDistSq (.fin ε) (.fin (ε * ε)) :=
  squares_of_nonneg (d := fun a b p => Metric.infDist p (segment ℝ a b)) (fun _ _ _ => Metric.infDist_nonneg) hε

/-- `MaxSEDOffset` and `SqureMaxSEDOffset` (offset/sed.go) without rounding, also where the times of the ends are equal (NaN) -/
theorem squares_sed {ε : ℝ} (hε : 0 ≤ ε) :
    Squares (P := ℝ × ℝ × ℝ) (fun a b p => sedDist realArith (hypot realArith (.fin 1)) (tpt a.1 a.2.1 a.2.2) (tpt b.1 b.2.1 b.2.2) (tpt p.1 p.2.1 p.2.2))
      (fun a b p => sedDist realArith (squareHypot realArith) (tpt a.1 a.2.1 a.2.2) (tpt b.1 b.2.1 b.2.2) (tpt p.1 p.2.1 p.2.2))
      (.fin ε) (.fin (ε * ε)) := by
  have hnan : ∀ a b p : ℝ × ℝ × ℝ, a.2.2 = b.2.2 →
      sedDist realArith (hypot realArith (.fin 1)) (tpt a.1 a.2.1 a.2.2) (tpt b.1 b.2.1 b.2.2) (tpt p.1 p.2.1 p.2.2) = .nan ∧
      sedDist realArith (squareHypot realArith) (tpt a.1 a.2.1 a.2.2) (tpt b.1 b.2.1 b.2.2) (tpt p.1 p.2.1 p.2.2) = .nan := by
    intro a b p h
    constructor <;>
      simp [sedDist, tpt, realArith, h, hypot, squareHypot]
  have h0 : ∀ (x y : ℝ), 0 ≤ √(x ^ 2 + y ^ 2) := fun x y => Real.sqrt_nonneg _
  constructor
  · intro a b p q
    by_cases h : a.2.2 = b.2.2
    · rw [(hnan a b p h).1, (hnan a b p h).2, (hnan a b q h).1, (hnan a b q h).2]
    · simp only [(C70_distance realArith_exact h).1, (C70_distance realArith_exact h).2, Fl.ge, Fl.fin_le_fin]
      congr 1; exact propext (Real.sqrt_le_sqrt_iff (by positivity)).symm
  · intro a b p
    by_cases h : a.2.2 = b.2.2
    · rw [(hnan a b p h).1, (hnan a b p h).2]
    · simp only [(C70_distance realArith_exact h).1, (C70_distance realArith_exact h).2, Fl.ge, Fl.fin_le_fin, h0]
      congr 1; simp only [eq_iff_iff, iff_true]; positivity
  · intro a b p
    by_cases h : a.2.2 = b.2.2
    · rw [(hnan a b p h).1, (hnan a b p h).2]; simp
    · simp only [(C70_distance realArith_exact h).1, (C70_distance realArith_exact h).2, Fl.fin_le_fin]
      congr 1; rw [← sq]; exact propext (Real.sqrt_le_left hε).symm
  · simp only [Fl.fin_le_fin, hε, mul_nonneg hε hε]

/-- the threshold must not be negative: a negative threshold accepts nothing, its square accepts the distance 0 -/
theorem C71_negative : ¬ Squares (segDist (E := ℝ)) segDistSq (.fin (-1)) (.fin ((-1) * (-1))) := by
  intro h
  have := h.accept0
  simp only [Fl.fin_le_fin] at this
  norm_num at this

namespace Axis

/-- the gap squared -/
def gapSq (a b p : Int) : Fl Int := .fin (gap (p, p) (min a b, max a b) ^ 2)

theorem gap_nonneg (s t : Int × Int) : 0 ≤ gap s t := by unfold gap; omega

/-- lines of integers scored by the gap alone -/
def plainEnv (lines : Int → Demo.Line Int Int Int) : Env Int Int Bx Int :=
  rescore (env lines) (fun _ => maxOffset (fun a b p => .fin (gap (p, p) (min a b, max a b)))) (fun _ => none)

/-- the hypotheses of `C71_simplify` are met by lines of integers -/
theorem plain_env (lines : Int → Demo.Line Int Int Int) (ht : ∀ h, ∃ ε : Int, 0 ≤ ε ∧ (lines h).opts.threshold = .fin ε ∧
    (lines h).opts.sqThreshold = .fin (ε * ε)) : Plain (plainEnv lines) (fun a b p => .fin (gap (p, p) (min a b, max a b))) gapSq where
  score h := rfl
  square h := rfl
  squares h := by
    obtain ⟨ε, h0, h1, h2⟩ := ht h
    have h1' : ((plainEnv lines).inst h).opts.threshold = .fin ε := h1
    have h2' : ((plainEnv lines).inst h).opts.sqThreshold = .fin (ε * ε) := h2
    rw [h1', h2']
    constructor
    · intro a b p q
      simp only [Fl.ge, gapSq, Fl.fin_le_fin]; congr 1; exact propext (sq_le_sq₀ (gap_nonneg _ _) (gap_nonneg _ _))
    · intro a b p
      simp only [Fl.ge, gapSq, Fl.fin_le_fin, gap_nonneg, sq_nonneg]
    · intro a b p
      simp only [gapSq, Fl.fin_le_fin]; congr 1; rw [← sq]; exact propext (sq_le_sq₀ (gap_nonneg _ _) h0)
    · simp only [Fl.fin_le_fin, h0, mul_nonneg h0 h0]

/-- case: a line with two constraints and threshold 3; with squares the scores are compared with 9 -/
def sqLine : Demo.Line Int Int Int := ⟨long.pts, long.ctx, { long.opts with threshold := .fin 3, sqThreshold := .fin 9 }⟩

example : ∃ o d, simplify (squared (plainEnv (fun _ => sqLine)) (fun a b p => .fin (gap (p, p) (min a b, max a b))) gapSq) (fun n => (n : Int)) 0 [7]
      (fun _ => false) 60 = .ok (o, d) ∧ simplify (plainEnv (fun _ => sqLine)) (fun n => (n : Int)) 0 [7] (fun _ => false) 60 = .ok (o, d) ∧
    o.simple = [0, 7, 10, 12] := by
  rw [C71_simplify (plain_env _ (fun _ => ⟨3, by decide, rfl, rfl⟩))]
  have hr : (match simplify (plainEnv (fun _ => sqLine)) (fun n => (n : Int)) 0 [7] (fun _ => false) 60 with | .ok (o, _) => o.simple | _ => []) =
      [0, 7, 10, 12] := by decide +kernel
  cases e : simplify (plainEnv (fun _ => sqLine)) (fun n => (n : Int)) 0 [7] (fun _ => false) 60 with
  | panic => rw [e] at hr; cases hr
  | timeout => rw [e] at hr; cases hr
  | ok x => rw [e] at hr; exact ⟨x.1, x.2, rfl, rfl, hr⟩

end Axis

end Verif
