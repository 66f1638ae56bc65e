import Verif.Lemmas.Trace
import Verif.Lemmas.PlanarLine
import Verif.Props.C07_Selected
import Verif.Props.C31_Limits
import Verif.Demo.Exact

/-! C79: the tolerance holds for all points of the line, in both directions. -/

set_option linter.unusedSectionVars false

namespace Verif

open Metric Planar

section
variable {C B : Type} {E : Type} [NormedAddCommGroup E] [NormedSpace ℝ E]

/-- a piece whose inner vertices are within `ε` of the segment between its ends -/
theorem near_piece {ps : List E} {ε : ℝ} (hε : 0 ≤ ε) {i j : Int} (h0 : 0 ≤ i) (h1 : i < j) {x y : E} (hx : ps[i.toNat]? = some x)
    (hy : ps[j.toNat]? = some y) (hin : ∀ t : Nat, i < t → (t : Int) < j → ∀ p, ps[t]? = some p → infDist p (segment ℝ x y) ≤ ε) :
    SetNear ε (trace (between ps i j)) (segment ℝ x y) := by
  refine near_segment hε (mem_between_of h0 (t := i.toNat) (by omega) (by omega) hx) (mem_between_of h0 (t := j.toNat) (by omega) (by omega) hy) (fun p hp => ?_)
  obtain ⟨t, t1, t2, ht⟩ := mem_between h0 hp
  by_cases e1 : (t : Int) = i
  · rw [show t = i.toNat by omega, hx] at ht
    cases ht
    exact ⟨_, left_mem_segment ℝ _ _, by simpa using hε⟩
  by_cases e2 : (t : Int) = j
  · rw [show t = j.toNat by omega, hy] at ht
    cases ht
    exact ⟨_, right_mem_segment ℝ _ _, by simpa using hε⟩
  exact segment_near (hin t (by omega) (by omega) p ht)

/-- Specification of C79 for the kept indices `out`: each part of the input line between consecutive kept vertices and the segment that replaces it are within
`ε` of each other, and so are the two lines. -/
structure Close (ε : ℝ) (ps : List E) (out : List Int) : Prop where
  parts : ∀ i j, Consecutive out i j → ∃ x y, ps[i.toNat]? = some x ∧ ps[j.toNat]? = some y ∧ SetNear ε (trace (between ps i j)) (segment ℝ x y)
  whole : SetNear ε (trace ps) (trace (verticesAt ps out))

theorem Close.of_chain {ps : List E} {ε : ℝ} (hε : 0 ≤ ε) {rs : List Rng} (hc : Chain 0 ((ps.length : Int) - 1) rs)
    (hin : ∀ r ∈ rs, ∀ x y, ps[r.I.toNat]? = some x → ps[r.J.toNat]? = some y → ∀ t : Nat, r.I < t → (t : Int) < r.J → ∀ p, ps[t]? = some p →
      infDist p (segment ℝ x y) ≤ ε) : Close ε ps (0 :: rs.map Rng.J) := by
  have key : ∀ r ∈ rs, ∀ x y, ps[r.I.toNat]? = some x → ps[r.J.toNat]? = some y → SetNear ε (trace (between ps r.I r.J)) (segment ℝ x y) := by
    intro r hr x y hx hy
    have hb := hc.mem hr
    exact near_piece hε (by omega) (by omega) hx hy (hin r hr x y hx hy)
  constructor
  · intro i j hij
    obtain ⟨r, hr, rfl, rfl⟩ := consecutive_chain rs _ _ hc hij
    have hb := hc.mem hr
    have hi : r.I.toNat < ps.length := by omega
    have hj : r.J.toNat < ps.length := by omega
    exact ⟨_, _, List.getElem?_eq_getElem hi, List.getElem?_eq_getElem hj, key r hr _ _ (List.getElem?_eq_getElem hi) (List.getElem?_eq_getElem hj)⟩
  · have := near_chain hε rs 0 ((ps.length : Int) - 1) (by omega) (by omega) hc key
    rwa [between_all] at this

/-- the Hausdorff distance of Mathlib -/
theorem SetNear.hausdorffDist_le {ε : ℝ} (hε : 0 ≤ ε) {s t : Set E} (h : SetNear ε s t) : hausdorffDist s t ≤ ε :=
  hausdorffDist_le_of_mem_dist hε h.1 (fun y hy => by obtain ⟨x, hx, hd⟩ := h.2 y hy; exact ⟨x, hx, by rwa [dist_comm]⟩)

section
variable {P K : Type} [LinearOrder K]

/-- The kept indices cut the line into ranges; every inner vertex of a range scores at most `bound` against the ends of the range. -/
def Cut (n : Int) (pts : List P) (out : List Int) (distFn : P → P → P → Fl K) (bound : Fl K) : Prop :=
  ∃ rs : List Rng, Chain 0 n rs ∧ out = 0 :: rs.map Rng.J ∧ ∀ r ∈ rs, ∀ t : Nat, r.I < t → (t : Int) < r.J → ∀ a b p,
    pts[r.I.toNat]? = some a → pts[r.J.toNat]? = some b → pts[t]? = some p → distFn a b p ≠ .nan → (distFn a b p).le bound = true

/-- `dp.Simplify(...).Simple()`, with the plain or with the squared score -/
theorem dpSimplify_cut [Zero K] (lib : Lib P C B K) (ids : Nat → Int) (g : Nat) (pts : List P) (square : Bool) (d d' : P → P → P → Fl K) (e e' : Fl K)
    (inst : Int) (hlen : 2 ≤ pts.length) (hhull : HullOk lib pts) (fuel : Nat) (out : List Int) (hthr : (Fl.fin 0).le (if square then e' else e) = true)
    (hrun : dpSimplify lib ids g ⟨some (coordsOf pts)⟩ (maxOffset d) (if square then some (maxOffset d') else none) e e' inst fuel = .ok out) :
    Cut ((pts.length : Int) - 1) pts out (if square then d' else d) (if square then e' else e) := by
  simp only [dpSimplify] at hrun
  obtain ⟨⟨hulls, g'⟩, hr, ho⟩ := Res.bind_eq_ok.1 hrun
  simp only [Res.pure_eq, Res.ok.injEq] at ho
  subst ho
  have hr' : decompose lib ids g ⟨some (coordsOf pts)⟩ (maxOffset (if square then d' else d))
      (scoreRelation (if square then e' else e)) inst fuel = .ok (hulls, g') := by
    cases square
    · simpa [scoreOf, relationOf] using hr
    · have e : squareScoreRelation e' = scoreRelation e' := rfl
      simpa [scoreOf, relationOf, e] using hr
  have hc := (C04_decompose_cover lib ids g pts _ _ inst fuel hlen hhull (maxOffset_splitsInside _ _ hthr pts) hulls g' hr').1
  have htol := C07_piece_tolerance lib ids g pts _ _ inst fuel hlen hhull hthr hulls g' hr'
  have hne : hulls ≠ [] := by
    rintro rfl
    have : (0 : Int) = (pts.length : Int) - 1 := hc
    omega
  refine ⟨_, hc, by rw [simpleSet_chain hc hne, List.map_map]; rfl, fun r hr t t1 t2 a b p ha hb hp hn => ?_⟩
  obtain ⟨nd, hnd, rfl⟩ := List.mem_map.1 hr
  exact htol nd hnd t t1 t2 a b p ha hb (by simpa using hp) hn

/-- the ranges of the pieces in order, and the kept indices -/
theorem Pieces.chain_kept [LinearOrder B] [BoundedOrder B] {env : Env P C B K} {pts : Int → List P} {h : Int} {src : Int → Prop}
    {ids : Nat → Int} {g : Nat} {hulls : List (Node P C B)} (h2 : 2 ≤ (pts h).length) (hp : Pieces env pts [h] src ids g hulls) :
    ∃ rs : List Rng, Chain 0 ((pts h).length - 1) rs ∧ simpleSet hulls = 0 :: rs.map Rng.J ∧ ∀ r ∈ rs, ∃ nd ∈ hulls, nd.range = r := by
  have hc := sortNodes_chain hp
  have hne : sortNodes hulls ≠ [] := by
    intro hn
    rw [hn] at hc
    have : (0 : Int) = (pts h).length - 1 := hc
    omega
  refine ⟨(sortNodes hulls).map Node.range, hc, ?_, fun r hr => ?_⟩
  · have hs : simpleSet hulls = simpleSet (sortNodes hulls) := by
      refine pairwise_lt_ext (simpleSet_pairwise _) (simpleSet_pairwise _) (fun y => ?_)
      rw [mem_simpleSet, mem_simpleSet]
      simp only [(mem_sortNodes (l := hulls)).mem_iff]
    rw [hs, simpleSet_chain hc hne, List.map_map]
    rfl
  · obtain ⟨nd, h1, h2⟩ := List.mem_map.1 hr
    exact ⟨nd, (mem_sortNodes.mem_iff).1 h1, h2⟩

/-- the constrained simplification with the checks switched off: decomposition and merge pass -/
theorem simplify_cut [Zero K] [LinearOrder B] [BoundedOrder B] {env : Env P C B K} {pts : Int → List P} {ids : Nat → Int} {h : Int} {cv : List Int}
    {dirty d : Int → Bool} {out : Out P C B} {fuel : Nat} (he : EnvOK env) (hl : LnrOK env.lnr) (hi : InstOK env h (pts h))
    (hinj : Function.Injective ids) (hcv : ∀ i ∈ cv, 0 ≤ i ∧ i < (pts h).length) (ho : Unconstrained (env.inst h).opts)
    {distFn : P → P → P → Fl K} {bound : Fl K} (hsc : (env.inst h).scoreFn = maxOffset distFn)
    (hrel : (env.inst h).rel = scoreRelation bound) (hr : simplify env ids h cv dirty fuel = .ok (out, d)) :
    Cut (((pts h).length : Int) - 1) (pts h) out.simple distFn bound := by
  obtain ⟨h1, ⟨g', h2⟩, -, -⟩ := simplify_result he hl hi hinj hcv hr
  have htol := C35_tolerance_partial he hi hinj ho hsc hrel hr
  obtain ⟨rs, hc, h3, h4⟩ := h2.chain_kept hi.two
  refine ⟨rs, hc, h1.trans h3, fun r hr t t1 t2 a b p ha hb hp hn => ?_⟩
  obtain ⟨nd, hnd, rfl⟩ := h4 r hr
  exact htol nd hnd t t1 t2 a b p ha hb hp hn

end

theorem Close.of_cut {ps : List E} {out : List Int} {ε : ℝ} (hε : 0 ≤ ε) {square : Bool}
    (h : Cut ((ps.length : Int) - 1) ps out (if square then segDistSq else segDist) (.fin (if square then ε * ε else ε))) :
    Close ε ps out ∧ hausdorffDist (trace ps) (trace (verticesAt ps out)) ≤ ε := by
  suffices h : Close ε ps out from ⟨h, h.whole.hausdorffDist_le hε⟩
  obtain ⟨rs, hc, rfl, htol⟩ := h
  refine Close.of_chain hε hc (fun r hr x y hx hy t t1 t2 p hp => ?_)
  have := htol r hr t t1 t2 x y p hx hy hp (by cases square <;> simp [segDist, segDistSq])
  cases square with
  | false => simpa [segDist] using this
  | true =>
    simp only [segDistSq, if_true, Fl.fin_le_fin, decide_eq_true_eq] at this
    nlinarith [infDist_nonneg (x := p) (s := segment ℝ x y)]

/-- C79.  `dp.Simplify(...).Simple()` with tolerance `ε`, in the plane or any normed space, with the plain or with the squared score: every point of the input
line has a point of the simplified line within `ε` and the other way round, and this holds part by part. -/
theorem C79_simplify (lib : Lib E C B ℝ) (ids : Nat → Int) (g : Nat) (pts : List E) (square : Bool) (ε : ℝ) (hε : 0 ≤ ε)
    (inst : Int) (hlen : 2 ≤ pts.length) (hhull : HullOk lib pts) (fuel : Nat) (out : List Int)
    (hrun : dpSimplify lib ids g ⟨some (coordsOf pts)⟩ (maxOffset segDist) (if square then some (maxOffset segDistSq) else none)
      (.fin ε) (.fin (ε * ε)) inst fuel = .ok out) : Close ε pts out ∧ hausdorffDist (trace pts) (trace (verticesAt pts out)) ≤ ε := by
  refine Close.of_cut hε (square := square) ?_
  have := dpSimplify_cut lib ids g pts square _ _ _ _ inst hlen hhull fuel out (by cases square <;> simp [Fl.fin_le_fin] <;> positivity) hrun
  rwa [← apply_ite] at this

/-- C79 for the constrained simplification with the checks switched off: decomposition and merge pass together still keep the tolerance for all points. -/
theorem C79_constrained [LinearOrder B] [BoundedOrder B] {env : Env E C B ℝ} {pts : Int → List E} {ids : Nat → Int} {h : Int} {cv : List Int}
    {dirty d : Int → Bool} {out : Out E C B} {fuel : Nat} {ε : ℝ} (hε : 0 ≤ ε) (square : Bool) (he : EnvOK env) (hl : LnrOK env.lnr) (hi : InstOK env h (pts h))
    (hinj : Function.Injective ids) (hcv : ∀ i ∈ cv, 0 ≤ i ∧ i < (pts h).length) (ho : Unconstrained (env.inst h).opts)
    (hsc : (env.inst h).scoreFn = maxOffset (if square then segDistSq else segDist))
    (hrel : (env.inst h).rel = scoreRelation (.fin (if square then ε * ε else ε))) (hr : simplify env ids h cv dirty fuel = .ok (out, d)) :
    Close ε (pts h) out.simple ∧ hausdorffDist (trace (pts h)) (trace (verticesAt (pts h) out.simple)) ≤ ε :=
  Close.of_cut hε (simplify_cut he hl hi hinj hcv ho hsc hrel hr)

end

/-! ### concrete cases -/

/-- the run on 0, 3, 1 with tolerance 1/2 returns, and what it returns is within 1/2 in both directions -/
example : ∃ out, dpSimplify realLib (fun n => n) 0 ⟨some (coordsOf [0, 3, 1])⟩ (maxOffset segDist) (if true then some (maxOffset segDistSq) else none)
    (.fin (1 / 2)) (.fin (1 / 2 * (1 / 2))) 9 6 = .ok out ∧ hausdorffDist (trace [(0 : ℝ), 3, 1]) (trace (verticesAt [(0 : ℝ), 3, 1] out)) ≤ 1 / 2 := by
  obtain ⟨out, h, -⟩ := C08_simple realLib (fun n => (n : Int)) 0 [0, 3, 1] (maxOffset segDist) (some (maxOffset segDistSq)) (.fin (1 / 2))
    (.fin (1 / 2 * (1 / 2))) 9 (by decide) (realLib_hullOk _)
    (maxOffset_splitsInside _ _ (by simp only [relationOf, squareScoreRelation, Fl.fin_le_fin, decide_eq_true_eq]; norm_num) _) 6 (by decide)
  exact ⟨out, h, (C79_simplify realLib _ 0 [0, 3, 1] true (1 / 2) (by norm_num) 9 (by decide) (realLib_hullOk _) 6 out h).2⟩

/-- tolerance 1/2 and no constraint -/
noncomputable def halfOpts : Opts ℝ :=
  { threshold := .fin (1 / 2), sqThreshold := .fin (1 / 2 * (1 / 2)), minDist := .fin 0, nonPlanarDisplacement := .fin 1, planarSelf := false,
    nonPlanarSelf := false, avoidNewSelfIntersects := false, geomRelation := false, distRelation := false, dirRelation := false }

/-- lines in the plane, scored by the squared distance from the chord -/
noncomputable def squareEnv (pts : List ℂ) : Env ℂ Region EReal ℝ := Demo.env exactLib exactLnr segDistSq (.fin 0) (fun _ => ⟨pts, [], halfOpts⟩)

/-- the constrained run of any line of the plane with two vertices or more returns a line within 1/2 in both directions -/
example (pts : List ℂ) (h2 : 2 ≤ pts.length) : ∃ fuel out d, simplify (squareEnv pts) (fun n => (n : Int)) 0 [] (fun _ => false) fuel = .ok (out, d) ∧
    hausdorffDist (trace pts) (trace (verticesAt pts out.simple)) ≤ 1 / 2 := by
  have he : EnvOK (squareEnv pts) := Demo.env_ok exactLib_point
  have hl : LnrOK (squareEnv pts).lnr := ⟨exactLnr_exact.perm, fun _ _ _ ho => List.mem_range.1 (List.mem_filter.1 ho).1⟩
  have hi : InstOK (squareEnv pts) 0 pts := Demo.inst_ok (lines := fun _ => ⟨pts, [], halfOpts⟩) (h := 0) h2
    (fun a b p => by simp only [segDistSq, Fl.fin_le_fin, decide_eq_true_eq]; positivity)
    (by simp only [halfOpts, Fl.fin_le_fin, decide_eq_true_eq]; norm_num) (Exact.hulls (env := squareEnv pts) exactLib_exact _)
  have hinj : Function.Injective (fun n : Nat => (n : Int)) := fun a b h => by simpa using h
  obtain ⟨⟨out, d⟩, N, hN⟩ := C10_terminates (pts := fun _ => pts) (cv := []) he hl hi hinj (by simp) (fun _ => false)
  refine ⟨N, out, d, hN N le_rfl, ?_⟩
  exact (C79_constrained (pts := fun _ => pts) (by norm_num) true he hl hi hinj (by simp) ⟨rfl, rfl, rfl, rfl, rfl⟩ rfl rfl (hN N le_rfl)).2

end Verif
