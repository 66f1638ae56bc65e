import Verif.Lemmas.Motion
import Verif.Props.C70_SedDistance
import Verif.Props.C79_Hausdorff

/-! C80: with the synchronised score the simplified motion is within the tolerance of the input motion at every time. -/

set_option linter.unusedSectionVars false

namespace Verif

open Metric

/-- a place and time as the code stores it: a point with three coordinates -/
def timed (q : ℂ × ℝ) : Fl ℝ × Fl ℝ × Fl ℝ := tpt q.1.re q.1.im q.2

/-- the simplified motion follows the input motion: both are defined at the same times, and at every time they are within `ε` of each other -/
structure Follows (ε : ℝ) (ps qs : List (ℂ × ℝ)) : Prop where
  sync : Sync ε (trace ps) (trace qs)
  same : ∀ t z w, (z, t) ∈ trace ps → (w, t) ∈ trace qs → dist z w ≤ ε

theorem atTime_along (a b : ℂ × ℝ) (t : ℝ) : (along a b t).re = atTime a.1.re b.1.re a.2 b.2 t ∧ (along a b t).im = atTime a.1.im b.1.im a.2 b.2 t := by
  simp only [along, atTime, Complex.add_re, Complex.add_im, Complex.smul_re, Complex.smul_im, Complex.sub_re, Complex.sub_im, smul_eq_mul, mul_comm, and_self]

theorem verticesAt_subset {P : Type} {ps : List P} {is : List Int} : ∀ x ∈ verticesAt ps is, x ∈ ps := by
  intro x hx
  obtain ⟨i, -, hi⟩ := List.mem_filterMap.1 hx
  exact List.mem_of_getElem? hi

section
variable {C B : Type} {A : Arith ℝ}

/-- the score is the distance to the uniform move at the time of the vertex -/
theorem sed_norm (hA : A.Exact) {a b p : ℂ × ℝ} (h : a.2 < b.2) :
    sedDist A (hypot A (.fin 1)) (timed a) (timed b) (timed p) = .fin ‖p.1 - along a b p.2‖ ∧
    sedDist A (squareHypot A) (timed a) (timed b) (timed p) = .fin (‖p.1 - along a b p.2‖ ^ 2) := by
  obtain ⟨h1, h2⟩ := C70_distance hA (ax := a.1.re) (ay := a.1.im) (bx := b.1.re) (by' := b.1.im) (px := p.1.re) (py := p.1.im) (t := p.2) h.ne
  obtain ⟨e1, e2⟩ := atTime_along a b p.2
  have e : ‖p.1 - along a b p.2‖ = √((p.1.re - atTime a.1.re b.1.re a.2 b.2 p.2) ^ 2 + (p.1.im - atTime a.1.im b.1.im a.2 b.2 p.2) ^ 2) := by
    rw [← e1, ← e2, Complex.norm_eq_sqrt_sq_add_sq]
    simp
  refine ⟨by rw [timed, timed, timed, h1, e], ?_⟩
  rw [timed, timed, timed, h2, e, Real.sq_sqrt (by positivity)]

theorem Follows.of_cut (hA : A.Exact) {ps : List (ℂ × ℝ)} {out : List Int} {ε : ℝ} (hε : 0 ≤ ε) {square : Bool} (ht : Timed ps)
    (h : Cut ((ps.length : Int) - 1) (ps.map timed) out (if square then sedDist A (squareHypot A) else sedDist A (hypot A (.fin 1)))
      (.fin (if square then ε * ε else ε))) : Follows ε ps (verticesAt ps out) := by
  obtain ⟨rs, hc, rfl, htol⟩ := h
  have hs : Sync ε (trace ps) (trace (verticesAt ps (0 :: rs.map Rng.J))) := by
    have := pieces_induct (ps := ps) (R := fun l m => Sync ε (trace l) (trace m)) (fun x => ?_) (fun u w x t m n1 n2 => ?_) rs 0 ((ps.length : Int) - 1)
      le_rfl (by omega) hc (fun r hr x y hx hy => ?_)
    · rwa [between_all] at this
    · exact ⟨fun z hz => ⟨z, hz, rfl, by simpa using hε⟩, fun z hz => ⟨z, hz, rfl, by simpa using hε⟩⟩
    · rw [trace_append_cons, trace]
      rw [trace_pair] at n1
      exact n1.union n2
    · have hb := hc.mem hr
      have hlt : ∀ i j : Nat, i < j → ∀ x y, ps[i]? = some x → ps[j]? = some y → x.2 < y.2 := by
        intro i j hij x y hx hy
        obtain ⟨h1, rfl⟩ := List.getElem?_eq_some_iff.1 hx
        obtain ⟨h2, rfl⟩ := List.getElem?_eq_some_iff.1 hy
        exact List.pairwise_iff_getElem.1 ht i j h1 h2 hij
      have hxy : x.2 < y.2 := hlt _ _ (by omega) _ _ hx hy
      refine sync_piece hxy (mem_between_of (by omega) (t := r.I.toNat) (by omega) (by omega) hx)
        (mem_between_of (by omega) (t := r.J.toNat) (by omega) (by omega) hy) (fun p hp => ?_)
      obtain ⟨t, t1, t2, hp⟩ := mem_between (by omega) hp
      have hx' : x ∈ moveTube ε x y := ⟨le_rfl, hxy.le, by rw [along_left]; simpa using hε⟩
      have hy' : y ∈ moveTube ε x y := ⟨hxy.le, le_rfl, by rw [along_right hxy]; simpa using hε⟩
      rcases eq_or_lt_of_le t1 with t1 | t1
      · obtain rfl : t = r.I.toNat := by omega
        rw [hx] at hp; cases hp; exact hx'
      rcases eq_or_lt_of_le t2 with t2 | t2
      · obtain rfl : t = r.J.toNat := by omega
        rw [hy] at hp; cases hp; exact hy'
      refine ⟨(hlt _ _ (by omega) _ _ hx hp).le, (hlt _ _ (by omega) _ _ hp hy).le, ?_⟩
      obtain ⟨e1, e2⟩ := sed_norm hA (p := p) hxy
      have := htol r hr t t1 t2 (timed x) (timed y) (timed p) (by simp [hx]) (by simp [hy]) (by simp [hp]) (by cases square <;> simp [e1, e2])
      cases square with
      | false => simpa [e1] using this
      | true =>
        simp only [e2, if_true, Fl.fin_le_fin, decide_eq_true_eq] at this
        nlinarith [norm_nonneg (p.1 - along x y p.2)]
  refine ⟨hs, fun t z w hz hw => ?_⟩
  obtain ⟨⟨z', t'⟩, hz', e, hd⟩ := hs.2 _ hw
  obtain rfl : t' = t := e
  rwa [trace_unique ht hz hz']

/-- **C80**: with exact arithmetic and strictly increasing times, `dp.Simplify` with the synchronised score (plain or squared) and tolerance `ε` returns a motion
that is within `ε` of the input motion at every time, not only at the times of the vertices. -/
theorem C80_simplify (hA : A.Exact) (lib : Lib (Fl ℝ × Fl ℝ × Fl ℝ) C B ℝ) (ids : Nat → Int) (g : Nat) (ps : List (ℂ × ℝ)) (ht : Timed ps) (square : Bool)
    (ε : ℝ) (hε : 0 ≤ ε) (inst : Int) (hlen : 2 ≤ ps.length) (hhull : HullOk lib (ps.map timed)) (fuel : Nat) (out : List Int)
    (hrun : dpSimplify lib ids g ⟨some (coordsOf (ps.map timed))⟩ (maxOffset (sedDist A (hypot A (.fin 1))))
      (if square then some (maxOffset (sedDist A (squareHypot A))) else none) (.fin ε) (.fin (ε * ε)) inst fuel = .ok out) :
    Follows ε ps (verticesAt ps out) := by
  refine Follows.of_cut hA hε (square := square) ht ?_
  have := dpSimplify_cut lib ids g (ps.map timed) square _ _ _ _ inst (by simpa using hlen) hhull fuel out
    (by cases square <;> simp [Fl.fin_le_fin] <;> positivity) hrun
  rwa [← apply_ite Fl.fin, List.length_map] at this

/-- **C80** for the constrained simplification with the checks switched off -/
theorem C80_constrained (hA : A.Exact) [LinearOrder B] [BoundedOrder B] {env : Env (Fl ℝ × Fl ℝ × Fl ℝ) C B ℝ} {ps : List (ℂ × ℝ)} {ids : Nat → Int} {h : Int}
    {cv : List Int} {dirty d : Int → Bool} {out : Out (Fl ℝ × Fl ℝ × Fl ℝ) C B} {fuel : Nat} {ε : ℝ} (hε : 0 ≤ ε) (square : Bool) (he : EnvOK env)
    (hl : LnrOK env.lnr) (hi : InstOK env h (ps.map timed)) (ht : Timed ps)
    (hinj : Function.Injective ids) (hcv : ∀ i ∈ cv, 0 ≤ i ∧ i < ps.length) (ho : Unconstrained (env.inst h).opts)
    (hsc : (env.inst h).scoreFn = maxOffset (if square then sedDist A (squareHypot A) else sedDist A (hypot A (.fin 1))))
    (hrel : (env.inst h).rel = scoreRelation (.fin (if square then ε * ε else ε))) (hr : simplify env ids h cv dirty fuel = .ok (out, d)) :
    Follows ε ps (verticesAt ps out.simple) := by
  have := simplify_cut (pts := fun _ => ps.map timed) he hl hi hinj (by simpa using hcv) ho hsc hrel hr
  rw [List.length_map] at this
  exact Follows.of_cut hA hε ht this

end

/-! ### concrete cases: the hypotheses hold for every motion, with the squared score and tolerance 1/2 -/

/-- geometry that is not looked at -/
noncomputable def motionLib : Lib (Fl ℝ × Fl ℝ × Fl ℝ) Unit EReal ℝ where
  convexHull c := c
  bounds _ := ⟨0, 0, 0, 0⟩
  intersects _ _ := false
  intersection _ _ := []
  distance _ _ := .fin 0
  boxDistance _ _ := .fin 0
  ptInRing _ _ := false
  equals2D _ _ := false
  ptDistance _ _ := .fin 0

theorem motionLib_hullOk (pts : List (Fl ℝ × Fl ℝ × Fl ℝ)) : HullOk motionLib pts := by
  intro i j hi hij hj
  have hl := Coords.len_sub pts i j (by omega)
  simp only [motionLib, hullGeometry, hl]
  split
  · exact ⟨_, rfl⟩
  · exact ⟨_, if_pos (by omega)⟩

noncomputable def motionEnv (pts : List (ℂ × ℝ)) : Env (Fl ℝ × Fl ℝ × Fl ℝ) Unit EReal ℝ :=
  Demo.env motionLib ⟨id, fun _ _ => ⟨0, 0, 0, 0⟩, fun _ _ _ _ => [], fun _ _ => []⟩ (sedDist realArith (squareHypot realArith)) (.fin 0)
    (fun _ => ⟨pts.map timed, [], halfOpts⟩)

theorem motionEnv_instOk {ps : List (ℂ × ℝ)} (h2 : 2 ≤ ps.length) (ht : Timed ps) : InstOK (motionEnv ps) 0 (ps.map timed) where
  pln := rfl
  two := by simpa using h2
  hull := motionLib_hullOk _
  box i j _ _ _ g _ := ⟨le_rfl, le_rfl⟩
  inside := maxOffset_splitsInside _ _ (by
    show (Fl.fin 0).le (Fl.fin (1 / 2 * (1 / 2) : ℝ)) = true
    simp only [Fl.fin_le_fin, decide_eq_true_eq]; norm_num) _
  score i j h1 h2 h3 := by
    rw [List.length_map] at h3
    have hlen : (Coords.sub (ps.map timed) i j).len = j + 1 - i := Coords.len_sub _ _ _ (by omega)
    have hp : ∀ k : Int, 0 ≤ k → k < (ps.length : Int) → ps[k.toNat]? = some (ps[k.toNat]?.getD 0) := by
      intro k h0 h1
      rw [List.getElem?_eq_getElem (by omega)]; rfl
    have hq : ∀ k, 0 ≤ k → k < (Coords.sub (ps.map timed) i j).len → (Coords.sub (ps.map timed) i j).pt k =
        .ok (timed (ps[(i + k).toNat]?.getD 0)) := by
      intro k hk0 hk1
      obtain ⟨p, hp1, hp'⟩ := Coords.pt_sub_ok (pts := ps.map timed) (i := i) (j := j) (k := k) (by omega) (by omega) h1 (by simp; omega)
      rw [List.getElem?_map, hp (i + k) (by omega) (by omega)] at hp'
      rw [hp1, ← Option.some.inj hp']
    obtain ⟨k, e, k0, k1, -⟩ := C03_maxOffset (sedDist realArith (squareHypot realArith)) _ _ (by omega) hq (fun t t1 t2 => by
      rw [(sed_norm realArith_exact ?_).2]
      · simp only [Fl.fin_le_fin, decide_eq_true_eq]; positivity
      · rw [hlen]
        have h1' := hp (i + 0) (by omega) (by omega)
        have h2' := hp (i + (j + 1 - i - 1)) (by omega) (by omega)
        obtain ⟨b1, e1⟩ := List.getElem?_eq_some_iff.1 h1'
        obtain ⟨b2, e2⟩ := List.getElem?_eq_some_iff.1 h2'
        rw [← e1, ← e2]
        exact List.pairwise_iff_getElem.1 ht _ _ b1 b2 (by omega))
    exact ⟨k, _, e, k0, by omega⟩
  ctx := (Demo.ctxdb_spec motionLib 0 []).1

/-- `dp.Simplify` of any motion with two vertices or more returns, and what it returns is within 1/2 at every time -/
example (ps : List (ℂ × ℝ)) (h2 : 2 ≤ ps.length) (ht : Timed ps) : ∃ out,
    dpSimplify motionLib (fun n => n) 0 ⟨some (coordsOf (ps.map timed))⟩ (maxOffset (sedDist realArith (hypot realArith (.fin 1))))
      (if true then some (maxOffset (sedDist realArith (squareHypot realArith))) else none) (.fin (1 / 2)) (.fin (1 / 2 * (1 / 2))) 9 (2 * ps.length) = .ok out ∧
    Follows (1 / 2) ps (verticesAt ps out) := by
  obtain ⟨out, h, -⟩ := C08_simple motionLib (fun n => (n : Int)) 0 (ps.map timed) (maxOffset (sedDist realArith (hypot realArith (.fin 1))))
    (some (maxOffset (sedDist realArith (squareHypot realArith)))) (.fin (1 / 2))
    (.fin (1 / 2 * (1 / 2))) 9 (by simpa using h2) (motionLib_hullOk _)
    (maxOffset_splitsInside _ _ (by simp only [relationOf, squareScoreRelation, Fl.fin_le_fin, decide_eq_true_eq]; norm_num) _) (2 * ps.length) (by simp)
  exact ⟨out, h, C80_simplify realArith_exact motionLib _ 0 ps ht true (1 / 2) (by norm_num) 9 h2 (motionLib_hullOk _) _ out h⟩

/-- so does the constrained simplification -/
example (ps : List (ℂ × ℝ)) (h2 : 2 ≤ ps.length) (ht : Timed ps) : ∃ fuel out d,
    simplify (motionEnv ps) (fun n => (n : Int)) 0 [] (fun _ => false) fuel = .ok (out, d) ∧ Follows (1 / 2) ps (verticesAt ps out.simple) := by
  have he : EnvOK (motionEnv ps) := Demo.env_ok (fun p g => ⟨by simp [motionLib], by simp [motionLib]⟩)
  have hl : LnrOK (motionEnv ps).lnr := ⟨fun l => List.Perm.refl l, fun _ _ _ ho => by cases ho⟩
  have hi := motionEnv_instOk h2 ht
  have hinj : Function.Injective (fun n : Nat => (n : Int)) := fun a b h => by simpa using h
  obtain ⟨⟨out, d⟩, N, hN⟩ := C10_terminates (pts := fun _ => ps.map timed) (cv := []) he hl hi hinj (by simp) (fun _ => false)
  refine ⟨N, out, d, hN N le_rfl, ?_⟩
  exact C80_constrained realArith_exact (by norm_num) true he hl hi ht hinj (by simp) ⟨rfl, rfl, rfl, rfl, rfl⟩ rfl rfl (hN N le_rfl)

end Verif
