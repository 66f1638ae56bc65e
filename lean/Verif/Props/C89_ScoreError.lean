import Verif.Props.C86_Constrained

/-! C89: chord distances with an error. -/

set_option linter.unusedSectionVars false

namespace Verif

open Metric Planar

section
variable {C B P : Type} {E : Type} [NormedAddCommGroup E] [NormedSpace ℝ E]

/-- The computed distances are numbers within `δ` of the distances (with `square`: of their squares) between the points at the positions `pos`; asked only for
points of the line. -/
def ErrorLe (δ : ℝ) (square : Bool) (pos : P → E) (pts : List P) (distFn : P → P → P → Fl ℝ) : Prop :=
  ∀ a ∈ pts, ∀ b ∈ pts, ∀ p ∈ pts, ∃ v : ℝ, distFn a b p = .fin v ∧
    |v - (if square then infDist (pos p) (segment ℝ (pos a) (pos b)) ^ 2 else infDist (pos p) (segment ℝ (pos a) (pos b)))| ≤ δ

/-- the tolerance that holds for the positions -/
noncomputable def errorEps (δ : ℝ) (square : Bool) (thr : ℝ) : ℝ := if square then √(thr + δ) else thr + δ

theorem ErrorLe.accepted {δ thr : ℝ} {square : Bool} {pos : P → E} {pts : List P} {distFn : P → P → P → Fl ℝ} (h : ErrorLe δ square pos pts distFn)
    {a b p : P} (ha : a ∈ pts) (hb : b ∈ pts) (hp : p ∈ pts) (hle : distFn a b p ≠ .nan → (distFn a b p).le (.fin thr) = true) :
    infDist (pos p) (segment ℝ (pos a) (pos b)) ≤ errorEps δ square thr := by
  obtain ⟨v, hv, he⟩ := h a ha b hb p hp
  rw [hv] at hle
  have h1 : v ≤ thr := by simpa using hle (by simp)
  have h2 := (abs_le.1 he).1
  cases square with
  | false => simp only [errorEps, Bool.false_eq_true, if_false] at h2 ⊢; linarith
  | true =>
    simp only [errorEps, if_true] at h2 ⊢
    exact Real.le_sqrt_of_sq_le (by linarith)

theorem errorEps_nonneg {δ thr : ℝ} (hδ : 0 ≤ δ) (ht : 0 ≤ thr) (square : Bool) : 0 ≤ errorEps δ square thr := by
  cases square
  · simp only [errorEps, Bool.false_eq_true, if_false]; positivity
  · simp only [errorEps, if_true]; positivity

/-- with the distances themselves and the larger tolerance the pieces would be accepted too -/
theorem Cut.exact {δ thr : ℝ} {square : Bool} {pos : P → E} {pts : List P} {distFn : P → P → P → Fl ℝ} (h : ErrorLe δ square pos pts distFn) {out : List Int}
    (hc : Cut ((pts.length : Int) - 1) pts out distFn (.fin thr)) :
    Cut (((pts.map pos).length : Int) - 1) (pts.map pos) out (if false then segDistSq else segDist)
      (.fin (if false then errorEps δ square thr * errorEps δ square thr else errorEps δ square thr)) := by
  obtain ⟨rs, hc, rfl, htol⟩ := hc
  refine ⟨rs, by rwa [List.length_map], rfl, fun r hr t t1 t2 a b p ha hb hp _ => ?_⟩
  simp only [List.getElem?_map, Option.map_eq_some_iff] at ha hb hp
  obtain ⟨a, ha, rfl⟩ := ha
  obtain ⟨b, hb, rfl⟩ := hb
  obtain ⟨p, hp, rfl⟩ := hp
  have := h.accepted (List.mem_of_getElem? ha) (List.mem_of_getElem? hb) (List.mem_of_getElem? hp) (htol r hr t t1 t2 a b p ha hb hp)
  simpa [segDist] using this

theorem RootCut.exact {δ thr : ℝ} {square : Bool} {pos : P → E} {pts : List P} {distFn : P → P → P → Fl ℝ} (h : ErrorLe δ square pos pts distFn)
    {out : List Int} (hc : RootCut ((pts.length : Int) - 1) pts out distFn (.fin thr)) :
    RootCut (((pts.map pos).length : Int) - 1) (pts.map pos) out (if false then segDistSq else segDist)
      (.fin (if false then errorEps δ square thr * errorEps δ square thr else errorEps δ square thr)) := by
  obtain ⟨rs, hc, rfl, htol⟩ := hc
  rw [List.length_map]
  refine ⟨rs, hc, rfl, fun r hr => ?_⟩
  obtain ⟨s, s0, s1, s2, s3, hs⟩ := htol r hr
  refine ⟨s, s0, s1, s2, s3, fun t t1 t2 a b p ha hb hp _ => ?_⟩
  simp only [List.getElem?_map, Option.map_eq_some_iff] at ha hb hp
  obtain ⟨a, ha, rfl⟩ := ha
  obtain ⟨b, hb, rfl⟩ := hb
  obtain ⟨p, hp, rfl⟩ := hp
  have := h.accepted (List.mem_of_getElem? ha) (List.mem_of_getElem? hb) (List.mem_of_getElem? hp) (hs t t1 t2 a b p ha hb hp)
  simpa [segDist] using this

/-- **C89**: `dp.Simplify(...).Simple()` with distances computed with an error of at most `δ`: input and output lines are within `thr + δ` of each other (with the
squared score: the root of this), part by part and as a whole.  `thr` is the limit the code compares with: the tolerance, or its computed square. -/
theorem C89_simplify {δ thr : ℝ} (hδ : 0 ≤ δ) (hthr : 0 ≤ thr) (square : Bool) (lib : Lib P C B ℝ) (ids : Nat → Int) (g : Nat) (pos : P → E) (pts : List P)
    (d d' : P → P → P → Fl ℝ) (e e' : Fl ℝ) (hd : ErrorLe δ square pos pts (if square then d' else d)) (he : (if square then e' else e) = .fin thr) (inst : Int)
    (hlen : 2 ≤ pts.length) (hhull : HullOk lib pts) (fuel : Nat) (out : List Int)
    (hrun : dpSimplify lib ids g ⟨some (coordsOf pts)⟩ (maxOffset d) (if square then some (maxOffset d') else none) e e' inst fuel = .ok out) :
    Close (errorEps δ square thr) (pts.map pos) out ∧
      hausdorffDist (trace (pts.map pos)) (trace (verticesAt (pts.map pos) out)) ≤ errorEps δ square thr := by
  have := dpSimplify_cut lib ids g pts square _ _ _ _ inst hlen hhull fuel out (by rw [he]; simpa using hthr) hrun
  rw [he] at this
  exact Close.of_cut (errorEps_nonneg hδ hthr square) (this.exact hd)

/-- **C89** for `Simplify` of one line with any constraints: within twice the same number of the part that a segment replaces. -/
theorem C89_constrained [LinearOrder B] [BoundedOrder B] {env : Env P C B ℝ} {pts : Int → List P} {ids : Nat → Int} {h : Int} {cv : List Int}
    {dirty d : Int → Bool} {out : Out P C B} {fuel : Nat} {δ thr : ℝ} (hδ : 0 ≤ δ) (hthr : 0 ≤ thr) (square : Bool) (he : EnvOK env) (hl : LnrOK env.lnr)
    (hi : InstOK env h (pts h)) (hinj : Function.Injective ids) (hcv : ∀ i ∈ cv, 0 ≤ i ∧ i < (pts h).length) {pos : P → E} {distFn : P → P → P → Fl ℝ}
    (hd : ErrorLe δ square pos (pts h) distFn) (hsc : (env.inst h).scoreFn = maxOffset distFn) (hrel : (env.inst h).rel = scoreRelation (.fin thr))
    (hr : simplify env ids h cv dirty fuel = .ok (out, d)) : Covered (2 * errorEps δ square thr) ((pts h).map pos) out.simple :=
  Covered.of_rootCut (errorEps_nonneg hδ hthr square) ((simplify_rootCut he hl hi hinj hcv hsc hrel hr).exact hd)

/-- the same for the lines of a feature class -/
theorem C89_feature_class [LinearOrder B] [BoundedOrder B] {env : Env P C B ℝ} {pts : Int → List P} {ids : Nat → Int} {idsOf : Int → Nat → Int}
    {handles : List Int} {o : Opts ℝ} {dirty : Int → Bool} {fuel : Nat} {res : List (Int × Out P C B)} (hc : ClassOK env pts ids idsOf handles)
    (hr : simplifyFeatureClass env ids idsOf handles o dirty fuel = .ok res) {h : Int} {out : Out P C B} (hm : (h, out) ∈ res) {δ thr : ℝ} (hδ : 0 ≤ δ)
    (hthr : 0 ≤ thr) (square : Bool) {pos : P → E} {distFn : P → P → P → Fl ℝ} (hd : ErrorLe δ square pos (pts h) distFn)
    (hsc : (env.inst h).scoreFn = maxOffset distFn) (hrel : (env.inst h).rel = scoreRelation (.fin thr)) :
    Covered (2 * errorEps δ square thr) ((pts h).map pos) out.simple :=
  Covered.of_rootCut (errorEps_nonneg hδ hthr square) ((fc_rootCut hc hr hm hsc hrel).exact hd)

/-- and with the checks switched off: within the number itself, in both directions -/
theorem C89_unconstrained [LinearOrder B] [BoundedOrder B] {env : Env P C B ℝ} {pts : Int → List P} {ids : Nat → Int} {h : Int} {cv : List Int}
    {dirty d : Int → Bool} {out : Out P C B} {fuel : Nat} {δ thr : ℝ} (hδ : 0 ≤ δ) (hthr : 0 ≤ thr) (square : Bool) (he : EnvOK env) (hl : LnrOK env.lnr)
    (hi : InstOK env h (pts h)) (hinj : Function.Injective ids) (hcv : ∀ i ∈ cv, 0 ≤ i ∧ i < (pts h).length) (ho : Unconstrained (env.inst h).opts)
    {pos : P → E} {distFn : P → P → P → Fl ℝ} (hd : ErrorLe δ square pos (pts h) distFn) (hsc : (env.inst h).scoreFn = maxOffset distFn)
    (hrel : (env.inst h).rel = scoreRelation (.fin thr)) (hr : simplify env ids h cv dirty fuel = .ok (out, d)) :
    Close (errorEps δ square thr) ((pts h).map pos) out.simple ∧
      hausdorffDist (trace ((pts h).map pos)) (trace (verticesAt ((pts h).map pos) out.simple)) ≤ errorEps δ square thr :=
  Close.of_cut (errorEps_nonneg hδ hthr square) ((simplify_cut he hl hi hinj hcv ho hsc hrel hr).exact hd)

end

section
variable {C B P : Type} {E : Type} [NormedAddCommGroup E] [InnerProductSpace ℝ E]

/-- **C89** for lines that do not turn back, with any constraints: the Fréchet distance -/
theorem C89_forward [LinearOrder B] [BoundedOrder B] {env : Env P C B ℝ} {pts : Int → List P} {ids : Nat → Int} {h : Int} {cv : List Int}
    {dirty d : Int → Bool} {out : Out P C B} {fuel : Nat} {δ thr : ℝ} (hδ : 0 ≤ δ) (hthr : 0 ≤ thr) (square : Bool) (he : EnvOK env) (hl : LnrOK env.lnr)
    (hi : InstOK env h (pts h)) (hinj : Function.Injective ids) (hcv : ∀ i ∈ cv, 0 ≤ i ∧ i < (pts h).length) {pos : P → E} {distFn : P → P → P → Fl ℝ}
    (hd : ErrorLe δ square pos (pts h) distFn) (hsc : (env.inst h).scoreFn = maxOffset distFn) (hrel : (env.inst h).rel = scoreRelation (.fin thr))
    (hr : simplify env ids h cv dirty fuel = .ok (out, d)) (hf : Forward ((pts h).map pos)) :
    FrechetLe (2 * errorEps δ square thr) ((pts h).map pos) (verticesAt ((pts h).map pos) out.simple) :=
  Frechet.of_rootCut (errorEps_nonneg hδ hthr square) ((simplify_rootCut he hl hi hinj hcv hsc hrel hr).exact hd) hf

end

/-! ### concrete cases -/

/-- distances cut off to whole numbers -/
noncomputable def floorDist (a b p : ℂ) : Fl ℝ := .fin (⌊infDist p (segment ℝ a b)⌋ : ℤ)

theorem floorDist_error (pts : List ℂ) : ErrorLe 1 false id pts floorDist := by
  intro a _ b _ p _
  refine ⟨_, rfl, ?_⟩
  simp only [Bool.false_eq_true, if_false, id]
  have h1 := Int.floor_le (infDist p (segment ℝ a b))
  have h2 := Int.lt_floor_add_one (infDist p (segment ℝ a b))
  rw [abs_le]; constructor <;> linarith

/-- lines in the plane with cut-off distances -/
noncomputable def floorEnv (pts : List ℂ) : Env ℂ Region EReal ℝ :=
  Demo.env exactLib exactLnr floorDist (.fin 0) (fun _ => ⟨pts, [], { halfOpts with geomRelation := true }⟩)

/-- the run of any line of the plane with two vertices or more returns a line all of whose points are within 3 of the input; the limit is 1/4 -/
example (pts : List ℂ) (h2 : 2 ≤ pts.length) : ∃ fuel out d, simplify (floorEnv pts) (fun n => (n : Int)) 0 [] (fun _ => false) fuel = .ok (out, d) ∧
    Covered 3 pts out.simple := by
  have he : EnvOK (floorEnv pts) := Demo.env_ok exactLib_point
  have hl : LnrOK (floorEnv pts).lnr := ⟨exactLnr_exact.perm, fun _ _ _ ho => List.mem_range.1 (List.mem_filter.1 ho).1⟩
  have hi : InstOK (floorEnv pts) 0 pts := Demo.inst_ok (lines := fun _ => ⟨pts, [], { halfOpts with geomRelation := true }⟩) (h := 0) h2
    (fun a b p => by
      simp only [floorDist, Fl.fin_le_fin, decide_eq_true_eq, Int.cast_nonneg_iff]
      exact Int.floor_nonneg.2 infDist_nonneg)
    (by simp only [halfOpts, Fl.fin_le_fin, decide_eq_true_eq]; norm_num) (Exact.hulls (env := floorEnv pts) exactLib_exact _)
  have hinj : Function.Injective (fun n : Nat => (n : Int)) := fun a b h => by simpa using h
  obtain ⟨⟨out, d⟩, N, hN⟩ := C10_terminates (pts := fun _ => pts) (cv := []) he hl hi hinj (by simp) (fun _ => false)
  refine ⟨N, out, d, hN N le_rfl, ?_⟩
  have := C89_constrained (pts := fun _ => pts) (thr := 1 / 2 * (1 / 2)) zero_le_one (by norm_num) false he hl hi hinj (by simp) (floorDist_error pts) rfl rfl
    (hN N le_rfl)
  rw [List.map_id] at this
  simp only [errorEps, Bool.false_eq_true, if_false] at this
  constructor
  · intro i j hij
    obtain ⟨x, y, hx, hy, h⟩ := this.parts i j hij
    exact ⟨x, y, hx, hy, fun q hq => (h q hq).imp (fun z hz => ⟨hz.1, hz.2.trans (by norm_num)⟩)⟩
  · exact fun q hq => (this.whole q hq).imp (fun z hz => ⟨hz.1, hz.2.trans (by norm_num)⟩)

end Verif
