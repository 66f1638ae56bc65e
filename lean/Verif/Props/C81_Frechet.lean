import Verif.Lemmas.Frechet
import Verif.Props.C80_Motion
import Verif.Props.C63_Recursive
import Mathlib.Analysis.InnerProductSpace.Basic

/-! C81: the Fréchet distance of the input line and the simplified line. -/

set_option linter.unusedSectionVars false

namespace Verif

open Metric Planar Set AffineMap

/-- the ends of a piece -/
theorem between_ends {P : Type} {ps : List P} {i j : Int} (h0 : 0 ≤ i) (h1 : i < j) {x y : P} (hx : ps[i.toNat]? = some x) (hy : ps[j.toNat]? = some y) :
    (between ps i j).head? = some x ∧ (between ps i j).getLast? = some y := by
  have hl : j.toNat < ps.length := (List.getElem?_eq_some_iff.1 hy).1
  constructor
  · rw [between, List.head?_eq_getElem?, List.getElem?_take_of_lt (by omega), List.getElem?_drop]; simpa using hx
  · have hlen : (between ps i j).length = (j - i).toNat + 1 := by rw [between, List.length_take, List.length_drop]; omega
    rw [List.getLast?_eq_getElem?, hlen, between, List.getElem?_take_of_lt (by omega), List.getElem?_drop]
    rw [← hy]; congr 1; omega

theorem chain_consecutive : ∀ (rs : List Rng) (a b : Int), Chain a b rs → ∀ r ∈ rs, Consecutive (a :: rs.map Rng.J) r.I r.J
  | r :: rs, a, b, hc, r', hr => by
    obtain ⟨rfl, -, c3⟩ := hc
    rcases List.mem_cons.1 hr with rfl | hr
    · exact ⟨[], rs.map Rng.J, rfl⟩
    · obtain ⟨u, w, e⟩ := chain_consecutive rs _ _ c3 r' hr
      exact ⟨r.I :: u, w, by rw [List.map_cons, e]; rfl⟩

/-! ### the synchronised score -/

section
variable {C B : Type} {A : Arith ℝ}

theorem Frechet.of_sync_cut (hA : A.Exact) {ps : List (ℂ × ℝ)} {out : List Int} {ε : ℝ} (hε : 0 ≤ ε) {square : Bool} (ht : Timed ps)
    (h : Cut ((ps.length : Int) - 1) (ps.map timed) out (if square then sedDist A (squareHypot A) else sedDist A (hypot A (.fin 1)))
      (.fin (if square then ε * ε else ε))) : FrechetLe ε (ps.map Prod.fst) ((verticesAt ps out).map Prod.fst) := by
  obtain ⟨rs, hc, rfl, htol⟩ := h
  have := pieces_induct (ps := ps) (R := fun l m => FrechetLe ε (l.map Prod.fst) (m.map Prod.fst)) (fun x => ?_) (fun u w x t m n1 n2 => ?_) rs 0
    ((ps.length : Int) - 1) le_rfl (by omega) hc (fun r hr x y hx hy => ?_)
  · rwa [between_all] at this
  · exact FrechetLe.single (by simpa using hε)
  · rw [List.map_append, List.map_cons, List.map_cons, List.map_cons]
    rw [List.map_append] at n1
    exact FrechetLe.append (v := [w.1]) n1 n2
  · have hb := hc.mem hr
    have hlt : ∀ i j : Nat, i < j → ∀ x y, ps[i]? = some x → ps[j]? = some y → x.2 < y.2 := by
      intro i j hij x y hx hy
      obtain ⟨h1, rfl⟩ := List.getElem?_eq_some_iff.1 hx
      obtain ⟨h2, rfl⟩ := List.getElem?_eq_some_iff.1 hy
      exact List.pairwise_iff_getElem.1 ht i j h1 h2 hij
    have hxy : x.2 < y.2 := hlt _ _ (by omega) _ _ hx hy
    obtain ⟨e1, e2⟩ := between_ends (by omega) (by omega) hx hy
    have hd : y.2 - x.2 ≠ 0 := by linarith
    refine FrechetLe.param (a := x.1) (b := y.1) (pos := Prod.fst) (τ := fun q => (q.2 - x.2) / (y.2 - x.2)) e1 e2 (by simp) (div_self hd) ?_ (fun p hp => ?_)
    · have : (between ps r.I r.J).Pairwise (fun a b => a.2 < b.2) := (List.Pairwise.sublist (List.drop_sublist _ _) ht).sublist (List.take_sublist _ _)
      refine this.imp (fun {p q} h => ?_)
      have : 0 < y.2 - x.2 := by linarith
      rw [div_le_div_iff_of_pos_right this]
      linarith
    · have hal : lineMap x.1 y.1 ((p.2 - x.2) / (y.2 - x.2)) = along x y p.2 := by
        simp only [lineMap_apply, vsub_eq_sub, vadd_eq_add, along]; rw [add_comm]
      rw [hal, dist_eq_norm]
      obtain ⟨t, t1, t2, hp⟩ := mem_between (by omega) hp
      rcases eq_or_lt_of_le t1 with t1 | t1
      · obtain rfl : t = r.I.toNat := by omega
        rw [hx] at hp; cases hp
        rw [along_left]; simpa using hε
      rcases eq_or_lt_of_le t2 with t2 | t2
      · obtain rfl : t = r.J.toNat := by omega
        rw [hy] at hp; cases hp
        rw [along_right hxy]; simpa using hε
      obtain ⟨e1, e2⟩ := sed_norm hA (p := p) hxy
      have := htol r hr t t1 t2 (timed x) (timed y) (timed p) (by simp [hx]) (by simp [hy]) (by simp [hp]) (by cases square <;> simp [e1, e2])
      cases square with
      | false => simpa [e1] using this
      | true =>
        simp only [e2, if_true, Fl.fin_le_fin, decide_eq_true_eq] at this
        nlinarith [norm_nonneg (p.1 - along x y p.2)]

/-- **C81**, synchronised score: with exact arithmetic and strictly increasing times the Fréchet distance of the two lines in the plane is at most the tolerance. -/
theorem C81_sed (hA : A.Exact) (lib : Lib (Fl ℝ × Fl ℝ × Fl ℝ) C B ℝ) (ids : Nat → Int) (g : Nat) (ps : List (ℂ × ℝ)) (ht : Timed ps) (square : Bool)
    (ε : ℝ) (hε : 0 ≤ ε) (inst : Int) (hlen : 2 ≤ ps.length) (hhull : HullOk lib (ps.map timed)) (fuel : Nat) (out : List Int)
    (hrun : dpSimplify lib ids g ⟨some (coordsOf (ps.map timed))⟩ (maxOffset (sedDist A (hypot A (.fin 1))))
      (if square then some (maxOffset (sedDist A (squareHypot A))) else none) (.fin ε) (.fin (ε * ε)) inst fuel = .ok out) :
    FrechetLe ε (ps.map Prod.fst) ((verticesAt ps out).map Prod.fst) := by
  refine Frechet.of_sync_cut hA hε (square := square) ht ?_
  have := dpSimplify_cut lib ids g (ps.map timed) square _ _ _ _ inst (by simpa using hlen) hhull fuel out
    (by cases square <;> simp [Fl.fin_le_fin] <;> positivity) hrun
  rwa [← apply_ite Fl.fin, List.length_map] at this

/-- **C81**, synchronised score, for the constrained simplification with the checks switched off -/
theorem C81_sed_constrained (hA : A.Exact) [LinearOrder B] [BoundedOrder B] {env : Env (Fl ℝ × Fl ℝ × Fl ℝ) C B ℝ} {ps : List (ℂ × ℝ)} {ids : Nat → Int}
    {h : Int} {cv : List Int} {dirty d : Int → Bool} {out : Out (Fl ℝ × Fl ℝ × Fl ℝ) C B} {fuel : Nat} {ε : ℝ} (hε : 0 ≤ ε) (square : Bool) (he : EnvOK env)
    (hl : LnrOK env.lnr) (hi : InstOK env h (ps.map timed)) (ht : Timed ps)
    (hinj : Function.Injective ids) (hcv : ∀ i ∈ cv, 0 ≤ i ∧ i < ps.length) (ho : Unconstrained (env.inst h).opts)
    (hsc : (env.inst h).scoreFn = maxOffset (if square then sedDist A (squareHypot A) else sedDist A (hypot A (.fin 1))))
    (hrel : (env.inst h).rel = scoreRelation (.fin (if square then ε * ε else ε))) (hr : simplify env ids h cv dirty fuel = .ok (out, d)) :
    FrechetLe ε (ps.map Prod.fst) ((verticesAt ps out.simple).map Prod.fst) := by
  have := simplify_cut (pts := fun _ => ps.map timed) he hl hi hinj (by simpa using hcv) ho hsc hrel hr
  rw [List.length_map] at this
  exact Frechet.of_sync_cut hA hε ht this

end

/-! ### the distance to the chord -/

section
variable {C B : Type} {E : Type} [NormedAddCommGroup E] [InnerProductSpace ℝ E]

open scoped RealInnerProductSpace

/-- a line that never turns back with respect to its chord -/
def Onward (l : List E) : Prop := ∀ a b, l.head? = some a → l.getLast? = some b → l.Pairwise (fun p q => 0 ≤ ⟪q - p, b - a⟫)

/-- the foot of the perpendicular is as near as any point of the segment -/
theorem foot_near {a b p : E} {ε : ℝ} (hab : a ≠ b) (h : infDist p (segment ℝ a b) ≤ ε) :
    dist p (lineMap a b (⟪p - a, b - a⟫ / ‖b - a‖ ^ 2)) ≤ ε := by
  obtain ⟨y, hy, hd⟩ := segment_near h
  refine le_trans ?_ hd
  rw [segment_eq_image_lineMap] at hy
  obtain ⟨σ, -, rfl⟩ := hy
  have hn : ‖b - a‖ ^ 2 ≠ 0 := by
    rw [pow_ne_zero_iff (by decide), norm_ne_zero_iff, sub_ne_zero]; exact hab.symm
  have hn0 : 0 ≤ ‖b - a‖ ^ 2 := sq_nonneg _
  have key : ∀ x : ℝ, dist p (lineMap a b x) ^ 2 = ‖p - a‖ ^ 2 - 2 * (x * ⟪p - a, b - a⟫) + x ^ 2 * ‖b - a‖ ^ 2 := by
    intro x
    rw [dist_eq_norm, show p - lineMap a b x = (p - a) - x • (b - a) by simp only [lineMap_apply, vsub_eq_sub, vadd_eq_add]; abel, norm_sub_sq_real,
      real_inner_smul_right, norm_smul, mul_pow, Real.norm_eq_abs, sq_abs]
  refine abs_le_of_sq_le_sq' ?_ dist_nonneg |>.2
  rw [key, key]
  generalize ⟪p - a, b - a⟫ = w at *
  generalize ‖b - a‖ ^ 2 = n at *
  obtain ⟨τ, rfl⟩ : ∃ τ, w = τ * n := ⟨w / n, by field_simp⟩
  rw [mul_div_cancel_right₀ _ hn]
  nlinarith [mul_nonneg (sq_nonneg (σ - τ)) hn0]

/-- a piece that never turns back -/
theorem frechet_piece {l : List E} {a b : E} {ε : ℝ} (h2 : 2 ≤ l.length) (ha : l.head? = some a) (hb : l.getLast? = some b) (ho : Onward l)
    (hl : ∀ p ∈ l, infDist p (segment ℝ a b) ≤ ε) : FrechetLe ε l [a, b] := by
  by_cases hab : a = b
  · subst hab
    match l, h2 with
    | x :: y :: l, _ =>
      refine FrechetLe.ordered (τ := 0) (τs := List.replicate (l.length + 1) 1) rfl ?_ ?_ ?_
      · rw [List.getLast_cons (by simp), List.getLast_replicate]
      · simp [List.pairwise_replicate]
      · refine List.forall₂_iff_get.2 ⟨by simp, fun i h1 h2 => ?_⟩
        have := hl _ (List.get_mem _ ⟨i, h1⟩)
        rw [segment_same, infDist_singleton] at this
        simpa using this
  · have hn : ‖b - a‖ ^ 2 ≠ 0 := by
      rw [pow_ne_zero_iff (by decide), norm_ne_zero_iff, sub_ne_zero]; exact Ne.symm hab
    have hn0 : 0 < ‖b - a‖ ^ 2 := lt_of_le_of_ne (sq_nonneg _) hn.symm
    have := FrechetLe.param (ε := ε) (a := a) (b := b) (pos := id) (τ := fun p => ⟪p - a, b - a⟫ / ‖b - a‖ ^ 2) ha hb (by simp)
      (by rw [real_inner_self_eq_norm_sq, div_self hn]) ((ho a b ha hb).imp (fun {p q} h => ?_)) (fun p hp => foot_near hab (hl p hp))
    · rwa [List.map_id] at this
    · rw [div_le_div_iff_of_pos_right hn0, ← sub_nonneg, ← inner_sub_left]
      simpa using h

theorem Frechet.of_cut {ps : List E} {out : List Int} {ε : ℝ} (hε : 0 ≤ ε) {square : Bool}
    (h : Cut ((ps.length : Int) - 1) ps out (if square then segDistSq else segDist) (.fin (if square then ε * ε else ε)))
    (ho : ∀ i j, Consecutive out i j → Onward (between ps i j)) : FrechetLe ε ps (verticesAt ps out) := by
  obtain ⟨rs, hc, rfl, htol⟩ := h
  have := pieces_induct (ps := ps) (R := FrechetLe ε) (fun x => FrechetLe.single (by simpa using hε))
    (fun u w x t m n1 n2 => FrechetLe.append (v := [w]) n1 n2) rs 0 ((ps.length : Int) - 1) le_rfl (by omega) hc (fun r hr x y hx hy => ?_)
  · rwa [between_all] at this
  · have hb := hc.mem hr
    obtain ⟨e1, e2⟩ := between_ends (by omega) (by omega) hx hy
    have hj : r.J.toNat < ps.length := (List.getElem?_eq_some_iff.1 hy).1
    refine frechet_piece (by rw [between, List.length_take, List.length_drop]; omega) e1 e2 (ho _ _ (chain_consecutive rs _ _ hc r hr)) (fun p hp => ?_)
    obtain ⟨t, t1, t2, hp⟩ := mem_between (by omega) hp
    rcases eq_or_lt_of_le t1 with t1 | t1
    · obtain rfl : t = r.I.toNat := by omega
      rw [hx] at hp; cases hp
      rw [infDist_zero_of_mem (left_mem_segment ℝ x y)]; exact hε
    rcases eq_or_lt_of_le t2 with t2 | t2
    · obtain rfl : t = r.J.toNat := by omega
      rw [hy] at hp; cases hp
      rw [infDist_zero_of_mem (right_mem_segment ℝ x y)]; exact hε
    have := htol r hr t t1 t2 x y p hx hy hp (by cases square <;> simp [segDist, segDistSq])
    cases square with
    | false => simpa [segDist] using this
    | true =>
      simp only [segDistSq, if_true, Fl.fin_le_fin, decide_eq_true_eq] at this
      nlinarith [infDist_nonneg (x := p) (s := segment ℝ x y)]

/-- **C81**, distance to the chord, the part that holds: if no piece that was replaced by a segment turns back with respect to this segment, the Fréchet distance
of input and output is at most the tolerance.  Missing: lines that turn back, refuted below. -/
theorem C81_simplify_partial (lib : Lib E C B ℝ) (ids : Nat → Int) (g : Nat) (pts : List E) (square : Bool) (ε : ℝ) (hε : 0 ≤ ε)
    (inst : Int) (hlen : 2 ≤ pts.length) (hhull : HullOk lib pts) (fuel : Nat) (out : List Int)
    (hrun : dpSimplify lib ids g ⟨some (coordsOf pts)⟩ (maxOffset segDist) (if square then some (maxOffset segDistSq) else none)
      (.fin ε) (.fin (ε * ε)) inst fuel = .ok out) (ho : ∀ i j, Consecutive out i j → Onward (between pts i j)) : FrechetLe ε pts (verticesAt pts out) := by
  refine Frechet.of_cut hε (square := square) ?_ ho
  have := dpSimplify_cut lib ids g pts square _ _ _ _ inst hlen hhull fuel out (by cases square <;> simp [Fl.fin_le_fin] <;> positivity) hrun
  rwa [← apply_ite] at this

/-- **C81**, distance to the chord, for the constrained simplification with the checks switched off; missing as above -/
theorem C81_constrained_partial [LinearOrder B] [BoundedOrder B] {env : Env E C B ℝ} {pts : Int → List E} {ids : Nat → Int} {h : Int} {cv : List Int}
    {dirty d : Int → Bool} {out : Out E C B} {fuel : Nat} {ε : ℝ} (hε : 0 ≤ ε) (square : Bool) (he : EnvOK env) (hl : LnrOK env.lnr) (hi : InstOK env h (pts h))
    (hinj : Function.Injective ids) (hcv : ∀ i ∈ cv, 0 ≤ i ∧ i < (pts h).length) (hu : Unconstrained (env.inst h).opts)
    (hsc : (env.inst h).scoreFn = maxOffset (if square then segDistSq else segDist))
    (hrel : (env.inst h).rel = scoreRelation (.fin (if square then ε * ε else ε))) (hr : simplify env ids h cv dirty fuel = .ok (out, d))
    (ho : ∀ i j, Consecutive out.simple i j → Onward (between (pts h) i j)) : FrechetLe ε (pts h) (verticesAt (pts h) out.simple) :=
  Frechet.of_cut hε (simplify_cut he hl hi hinj hcv hu hsc hrel hr) ho

end

/-! ### the refutation -/

/-- walks along `0, D, 0, D` and `0, D` are at some moment at least `D / 2` apart -/
theorem not_frechet {D M : ℝ} (h : 2 * M < D) (hM : 0 ≤ M) : ¬ FrechetLe M [(0 : ℝ), D, 0, D] [0, D] := by
  rintro ⟨f, g, s, t, ⟨m1, a1, a2, -, m2, b1, b2, b3, b4⟩, ⟨m, c1, c2, ⟨c, d1, d2⟩, d3⟩, hd⟩
  have f1 : f m1 = D := Walk.start (l := [0, D]) ⟨m2, b1, b2, b3, b4⟩
  have f2 : f m2 = 0 := Walk.start b4
  have e1 := hd m1 ⟨a1, a2⟩
  have e2 := hd m2 ⟨a1.trans b1, b2⟩
  rw [f1, Real.dist_eq, abs_le] at e1
  rw [f2, Real.dist_eq, abs_le] at e2
  by_cases hm : m2 ≤ m
  · have hc := d1.mono ⟨a1, b1.trans hm⟩ ⟨a1.trans b1, hm⟩ b1
    rw [d2 m1 ⟨a1, b1.trans hm⟩] at e1
    rw [d2 m2 ⟨a1.trans b1, hm⟩] at e2
    simp only [lineMap_apply, vsub_eq_sub, vadd_eq_add, smul_eq_mul] at e1 e2
    nlinarith
  · have := d3.2 m2 ⟨(not_le.1 hm).le, b2⟩
    rw [this] at e2
    linarith

/-- **C81** is false for the distance to the chord, whatever the tolerance and whatever bound is asked for: the line `0, D, 0, D` lies on its chord, is replaced by
the segment from `0` to `D`, and is as far from it, in the sense of Fréchet, as one likes. -/
theorem C81_refuted {C B : Type} (lib : Lib ℝ C B ℝ) (ids : Nat → Int) (g : Nat) (ε M : ℝ) (hε : 0 ≤ ε) (hM : 0 ≤ M) (inst : Int)
    (hhull : HullOk lib [(0 : ℝ), 2 * M + 1, 0, 2 * M + 1]) (fuel : Nat) (hf : 8 ≤ fuel) :
    ∃ out, dpSimplify lib ids g ⟨some (coordsOf [0, 2 * M + 1, 0, 2 * M + 1])⟩ (maxOffset segDist) none (.fin ε) (.fin (ε * ε)) inst fuel = .ok out ∧
      ¬ FrechetLe M [0, 2 * M + 1, 0, 2 * M + 1] (verticesAt [0, 2 * M + 1, 0, 2 * M + 1] out) := by
  set pts : List ℝ := [0, 2 * M + 1, 0, 2 * M + 1] with hpts
  have hthr : (Fl.fin (0 : ℝ)).le (.fin ε) = true := by simpa using hε
  obtain ⟨out, h, ho, -, -, hulls, g', hr, hm⟩ := C08_simple lib ids g pts (maxOffset segDist) none (.fin ε) (.fin (ε * ε)) inst (by simp [hpts]) hhull
    (maxOffset_splitsInside _ _ hthr _) fuel (by simpa [hpts] using hf)
  refine ⟨out, h, ?_⟩
  have hrec := C63_decompose_recursive lib ids g pts _ _ inst (by simp [hpts]) fuel hulls g' hr
  have hlen : (Coords.sub pts 0 3).len = 4 := Coords.len_sub _ _ _ (by simp)
  have hq : ∀ k, 0 ≤ k → k < (Coords.sub pts 0 3).len → (Coords.sub pts 0 3).pt k = .ok (pts[k.toNat]?.getD 0) := by
    intro k hk0 hk1
    obtain ⟨p, hp, hp'⟩ := Coords.pt_sub_ok (pts := pts) (i := 0) (j := 3) (k := k) (by omega) (by omega) (by omega) (by simp [hpts])
    rw [zero_add] at hp'
    rw [hp, hp']; rfl
  obtain ⟨k, e, k0, k1, -⟩ := C03_maxOffset segDist _ _ (by omega) hq (fun _ _ _ => by simp [segDist, infDist_nonneg])
  rw [hlen] at e k1
  have hk : k = 1 ∨ k = 2 := by omega
  have hz : infDist (pts[k.toNat]?.getD 0) (segment ℝ (0 : ℝ) (2 * M + 1)) = 0 := by
    rcases hk with rfl | rfl
    · exact infDist_zero_of_mem (right_mem_segment ℝ _ _)
    · exact infDist_zero_of_mem (left_mem_segment ℝ _ _)
  have hkeep : RecDP (maxOffset segDist) (scoreRelation (.fin ε)) pts 0 ((pts.length : Int) - 1) [⟨0, 3⟩] := by
    refine RecDP.keep 0 3 k _ e ?_
    show (Fl.fin (infDist (pts[k.toNat]?.getD 0) (segment ℝ (0 : ℝ) (2 * M + 1)))).le (.fin ε) = true
    rw [hz]; exact hthr
  have hrng : hulls.map Node.range = [⟨0, 3⟩] := hrec.unique hkeep
  have hout : out = [0, 3] := by
    refine pairwise_lt_ext ho (by decide) (fun y => ?_)
    rw [hm]
    have hx : ∀ nd ∈ hulls, nd.range = ⟨0, 3⟩ := fun nd hnd => by
      have := List.mem_map_of_mem (f := Node.range) hnd
      rw [hrng] at this
      exact List.mem_singleton.1 this
    constructor
    · rintro ⟨nd, hnd, hy⟩
      rw [hx nd hnd] at hy
      simpa using hy
    · intro hy
      have : hulls ≠ [] := by rintro rfl; simp at hrng
      obtain ⟨nd, hnd⟩ := List.exists_mem_of_ne_nil _ this
      exact ⟨nd, hnd, by rw [hx nd hnd]; simpa using hy⟩
  subst hout
  exact not_frechet (D := 2 * M + 1) (by linarith) hM

/-! ### concrete cases -/

/-- the refuted statement is about runs that exist -/
example : HullOk realLib [(0 : ℝ), 2 * 3 + 1, 0, 2 * 3 + 1] := realLib_hullOk _

theorem onward_of_sorted {l : List ℝ} (hp : l.Pairwise (· ≤ ·)) : Onward l := by
  intro a b ha hb
  have hab : a ≤ b := by
    match l, ha with
    | x :: l, ha =>
      cases ha
      rcases List.mem_cons.1 (List.mem_of_getLast? hb) with rfl | h
      · exact le_rfl
      · exact List.rel_of_pairwise_cons hp h
  refine hp.imp (fun {p q} h => ?_)
  have h1 : 0 ≤ q - p := by linarith
  have h2 : 0 ≤ b - a := by linarith
  simpa using mul_nonneg h2 h1

/-- a line that does not turn back: 0, 1, 3, whatever is kept -/
example (out : List Int) (h : dpSimplify realLib (fun n => n) 0 ⟨some (coordsOf [0, 1, 3])⟩ (maxOffset segDist) (if false then some (maxOffset segDistSq) else none)
    (.fin (1 / 2)) (.fin (1 / 2 * (1 / 2))) 9 6 = .ok out) : FrechetLe (1 / 2) [(0 : ℝ), 1, 3] (verticesAt [(0 : ℝ), 1, 3] out) :=
  C81_simplify_partial realLib _ 0 [0, 1, 3] false (1 / 2) (by norm_num) 9 (by decide) (realLib_hullOk _) 6 out h (fun i j _ =>
    onward_of_sorted (List.Pairwise.sublist ((List.take_sublist _ _).trans (List.drop_sublist _ _)) (l₂ := [(0 : ℝ), 1, 3]) (by norm_num)))

/-- every motion meets the hypotheses of the synchronised version -/
example (ps : List (ℂ × ℝ)) (h2 : 2 ≤ ps.length) (ht : Timed ps) (out : List Int)
    (h : dpSimplify motionLib (fun n => n) 0 ⟨some (coordsOf (ps.map timed))⟩ (maxOffset (sedDist realArith (hypot realArith (.fin 1))))
      (if true then some (maxOffset (sedDist realArith (squareHypot realArith))) else none) (.fin (1 / 2)) (.fin (1 / 2 * (1 / 2))) 9 (2 * ps.length) = .ok out) :
    FrechetLe (1 / 2) (ps.map Prod.fst) ((verticesAt ps out).map Prod.fst) :=
  C81_sed realArith_exact motionLib _ 0 ps ht true (1 / 2) (by norm_num) 9 h2 (motionLib_hullOk _) _ out h

end Verif
