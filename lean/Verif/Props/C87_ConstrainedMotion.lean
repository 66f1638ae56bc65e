import Verif.Props.C86_Constrained

/-! C87: the synchronised score with constraints. -/

set_option linter.unusedSectionVars false

namespace Verif

open Metric Planar Set AffineMap

section
variable {C B : Type} {A : Arith ℝ}

/-- all vertices of the range of an accepted score are near the uniform move between its ends -/
theorem moveTube_of_root (hA : A.Exact) {ps : List (ℂ × ℝ)} {ε : ℝ} (hε : 0 ≤ ε) {square : Bool} (ht : Timed ps) {s : Rng} (s0 : 0 ≤ s.I) (s1 : s.I < s.J)
    (htol : ∀ t : Nat, s.I < t → (t : Int) < s.J → ∀ a b p, (ps.map timed)[s.I.toNat]? = some a → (ps.map timed)[s.J.toNat]? = some b →
      (ps.map timed)[t]? = some p → (if square then sedDist A (squareHypot A) else sedDist A (hypot A (.fin 1))) a b p ≠ .nan →
      ((if square then sedDist A (squareHypot A) else sedDist A (hypot A (.fin 1))) a b p).le (.fin (if square then ε * ε else ε)) = true)
    {a b : ℂ × ℝ} (ha : ps[s.I.toNat]? = some a) (hb : ps[s.J.toNat]? = some b) {p : ℂ × ℝ} (hp : p ∈ between ps s.I s.J) : p ∈ moveTube ε a b := by
  have hlt : ∀ i j : Nat, i < j → ∀ x y, ps[i]? = some x → ps[j]? = some y → x.2 < y.2 := by
    intro i j hij x y hx hy
    obtain ⟨h1, rfl⟩ := List.getElem?_eq_some_iff.1 hx
    obtain ⟨h2, rfl⟩ := List.getElem?_eq_some_iff.1 hy
    exact List.pairwise_iff_getElem.1 ht i j h1 h2 hij
  have hab : a.2 < b.2 := hlt _ _ (by omega) _ _ ha hb
  obtain ⟨t, t1, t2, hp⟩ := mem_between s0 hp
  rcases eq_or_lt_of_le t1 with t1 | t1
  · obtain rfl : t = s.I.toNat := by omega
    rw [ha] at hp; cases hp
    exact ⟨le_rfl, hab.le, by rw [along_left]; simpa using hε⟩
  rcases eq_or_lt_of_le t2 with t2 | t2
  · obtain rfl : t = s.J.toNat := by omega
    rw [hb] at hp; cases hp
    exact ⟨hab.le, le_rfl, by rw [along_right hab]; simpa using hε⟩
  refine ⟨(hlt _ _ (by omega) _ _ ha hp).le, (hlt _ _ (by omega) _ _ hp hb).le, ?_⟩
  obtain ⟨e1, e2⟩ := sed_norm hA (p := p) hab
  have := htol t t1 t2 (timed a) (timed b) (timed p) (by simp [ha]) (by simp [hb]) (by simp [hp]) (by cases square <;> simp [e1, e2])
  cases square with
  | false => simpa [e1] using this
  | true =>
    simp only [e2, if_true, Fl.fin_le_fin, decide_eq_true_eq] at this
    nlinarith [norm_nonneg (p.1 - along a b p.2)]

theorem Follows.of_rootCut (hA : A.Exact) {ps : List (ℂ × ℝ)} {out : List Int} {ε : ℝ} (hε : 0 ≤ ε) {square : Bool} (ht : Timed ps)
    (h : RootCut ((ps.length : Int) - 1) (ps.map timed) out (if square then sedDist A (squareHypot A) else sedDist A (hypot A (.fin 1)))
      (.fin (if square then ε * ε else ε))) :
    Follows (2 * ε) ps (verticesAt ps out) ∧ FrechetLe (2 * ε) (ps.map Prod.fst) ((verticesAt ps out).map Prod.fst) := by
  obtain ⟨rs, hc, rfl, htol⟩ := h
  have hlt : ∀ i j : Nat, i < j → ∀ x y, ps[i]? = some x → ps[j]? = some y → x.2 < y.2 := by
    intro i j hij x y hx hy
    obtain ⟨h1, rfl⟩ := List.getElem?_eq_some_iff.1 hx
    obtain ⟨h2, rfl⟩ := List.getElem?_eq_some_iff.1 hy
    exact List.pairwise_iff_getElem.1 ht i j h1 h2 hij
  -- one piece
  have key : ∀ r ∈ rs, ∀ x y, ps[r.I.toNat]? = some x → ps[r.J.toNat]? = some y → x.2 < y.2 ∧ x ∈ between ps r.I r.J ∧ y ∈ between ps r.I r.J ∧
      (∀ p ∈ between ps r.I r.J, x.2 ≤ p.2 ∧ p.2 ≤ y.2) ∧ ∃ a b, ∀ p ∈ between ps r.I r.J, p ∈ moveTube ε a b := by
    intro r hr x y hx hy
    have hb := hc.mem hr
    obtain ⟨s, s0, s1, s2, s3, htol⟩ := htol r hr
    have hi : s.I.toNat < ps.length := by omega
    have hj : s.J.toNat < ps.length := by omega
    have hxy := hlt _ _ (by omega) _ _ hx hy
    refine ⟨hxy, mem_between_of (by omega) (t := r.I.toNat) (by omega) (by omega) hx, mem_between_of (by omega) (t := r.J.toNat) (by omega) (by omega) hy,
      fun p hp => ?_, ps[s.I.toNat], ps[s.J.toNat], fun p hp =>
      moveTube_of_root hA hε ht s0 (by omega) htol (List.getElem?_eq_getElem hi) (List.getElem?_eq_getElem hj) (between_mono s0 s1 s2 hp)⟩
    obtain ⟨t, t1, t2, hp⟩ := mem_between (by omega) hp
    constructor
    · rcases eq_or_lt_of_le t1 with t1 | t1
      · obtain rfl : t = r.I.toNat := by omega
        rw [hx] at hp; cases hp; exact le_rfl
      · exact (hlt _ _ (by omega) _ _ hx hp).le
    · rcases eq_or_lt_of_le t2 with t2 | t2
      · obtain rfl : t = r.J.toNat := by omega
        rw [hy] at hp; cases hp; exact le_rfl
      · exact (hlt _ _ (by omega) _ _ hp hy).le
  constructor
  · have hs : Sync (2 * ε) (trace ps) (trace (verticesAt ps (0 :: rs.map Rng.J))) := by
      have := pieces_induct (ps := ps) (R := fun l m => Sync (2 * ε) (trace l) (trace m)) (fun x => ?_) (fun u w x t m n1 n2 => ?_) rs 0 ((ps.length : Int) - 1)
        le_rfl (by omega) hc (fun r hr x y hx hy => ?_)
      · rwa [between_all] at this
      · exact ⟨fun z hz => ⟨z, hz, rfl, by simpa using hε⟩, fun z hz => ⟨z, hz, rfl, by simpa using hε⟩⟩
      · rw [trace_append_cons, trace]
        rw [trace_pair] at n1
        exact n1.union n2
      · obtain ⟨hxy, h1, h2, h3, a, b, h4⟩ := key r hr x y hx hy
        exact sync_inner hxy h1 h2 h4 h3
    refine ⟨hs, fun t z w hz hw => ?_⟩
    obtain ⟨⟨z', t'⟩, hz', e, hd⟩ := hs.2 _ hw
    obtain rfl : t' = t := e
    rwa [trace_unique ht hz hz']
  · have := pieces_induct (ps := ps) (R := fun l m => FrechetLe (2 * ε) (l.map Prod.fst) (m.map Prod.fst)) (fun x => ?_) (fun u w x t m n1 n2 => ?_) rs 0
      ((ps.length : Int) - 1) le_rfl (by omega) hc (fun r hr x y hx hy => ?_)
    · rwa [between_all] at this
    · exact FrechetLe.single (by simpa using hε)
    · rw [List.map_append, List.map_cons, List.map_cons, List.map_cons]
      rw [List.map_append] at n1
      exact FrechetLe.append (v := [w.1]) n1 n2
    · have hb := hc.mem hr
      obtain ⟨hxy, h1, h2, h3, a, b, h4⟩ := key r hr x y hx hy
      obtain ⟨e1, e2⟩ := between_ends (by omega) (by omega) hx hy
      have hd : y.2 - x.2 ≠ 0 := by linarith
      refine FrechetLe.param (a := x.1) (b := y.1) (pos := Prod.fst) (τ := fun q => (q.2 - x.2) / (y.2 - x.2)) e1 e2 (by simp) (div_self hd) ?_ (fun p hp => ?_)
      · have : (between ps r.I r.J).Pairwise (fun a b => a.2 < b.2) := (List.Pairwise.sublist (List.drop_sublist _ _) ht).sublist (List.take_sublist _ _)
        refine this.imp (fun {p q} h => ?_)
        have : 0 < y.2 - x.2 := by linarith
        rw [div_le_div_iff_of_pos_right this]
        linarith
      · have hal : lineMap x.1 y.1 ((p.2 - x.2) / (y.2 - x.2)) = along x y p.2 := by
          simp only [lineMap_apply, vsub_eq_sub, vadd_eq_add, along]; rw [add_comm]
        rw [hal, dist_eq_norm]
        exact along_inner hxy (h4 x h1) (h4 y h2) (h4 p hp) (h3 p hp).1 (h3 p hp).2

/-- **C87**: with exact arithmetic, strictly increasing times and the synchronised score (plain or squared), `Simplify` with any constraints returns a motion
that is within `2 * ε` of the input motion at every time; the Fréchet distance of the two lines in the plane is at most `2 * ε`. -/
theorem C87_simplify (hA : A.Exact) [LinearOrder B] [BoundedOrder B] {env : Env (Fl ℝ × Fl ℝ × Fl ℝ) C B ℝ} {ps : List (ℂ × ℝ)} {ids : Nat → Int} {h : Int}
    {cv : List Int} {dirty d : Int → Bool} {out : Out (Fl ℝ × Fl ℝ × Fl ℝ) C B} {fuel : Nat} {ε : ℝ} (hε : 0 ≤ ε) (square : Bool) (he : EnvOK env)
    (hl : LnrOK env.lnr) (hi : InstOK env h (ps.map timed)) (ht : Timed ps)
    (hinj : Function.Injective ids) (hcv : ∀ i ∈ cv, 0 ≤ i ∧ i < ps.length)
    (hsc : (env.inst h).scoreFn = maxOffset (if square then sedDist A (squareHypot A) else sedDist A (hypot A (.fin 1))))
    (hrel : (env.inst h).rel = scoreRelation (.fin (if square then ε * ε else ε))) (hr : simplify env ids h cv dirty fuel = .ok (out, d)) :
    Follows (2 * ε) ps (verticesAt ps out.simple) ∧ FrechetLe (2 * ε) (ps.map Prod.fst) ((verticesAt ps out.simple).map Prod.fst) := by
  have := simplify_rootCut (pts := fun _ => ps.map timed) he hl hi hinj (by simpa using hcv) hsc hrel hr
  rw [List.length_map] at this
  exact Follows.of_rootCut hA hε ht this

/-- **C87** for a feature class -/
theorem C87_feature_class (hA : A.Exact) [LinearOrder B] [BoundedOrder B] {env : Env (Fl ℝ × Fl ℝ × Fl ℝ) C B ℝ} {ps : Int → List (ℂ × ℝ)} {ids : Nat → Int}
    {idsOf : Int → Nat → Int} {handles : List Int} {o : Opts ℝ} {dirty : Int → Bool} {fuel : Nat} {res : List (Int × Out (Fl ℝ × Fl ℝ × Fl ℝ) C B)}
    (hc : ClassOK env (fun h => (ps h).map timed) ids idsOf handles) (hr : simplifyFeatureClass env ids idsOf handles o dirty fuel = .ok res) {h : Int}
    {out : Out (Fl ℝ × Fl ℝ × Fl ℝ) C B} (hm : (h, out) ∈ res) (ht : Timed (ps h)) {ε : ℝ} (hε : 0 ≤ ε) (square : Bool)
    (hsc : (env.inst h).scoreFn = maxOffset (if square then sedDist A (squareHypot A) else sedDist A (hypot A (.fin 1))))
    (hrel : (env.inst h).rel = scoreRelation (.fin (if square then ε * ε else ε))) :
    Follows (2 * ε) (ps h) (verticesAt (ps h) out.simple) ∧ FrechetLe (2 * ε) ((ps h).map Prod.fst) ((verticesAt (ps h) out.simple).map Prod.fst) := by
  have := fc_rootCut hc hr hm hsc hrel
  rw [List.length_map] at this
  exact Follows.of_rootCut hA hε ht this

end

/-! ### concrete cases: every motion, with all constraints switched on and the first two vertices fixed -/

noncomputable def constrainedMotion (pts : List (ℂ × ℝ)) : Env (Fl ℝ × Fl ℝ × Fl ℝ) Unit EReal ℝ :=
  Demo.env motionLib ⟨id, fun _ _ => ⟨0, 0, 0, 0⟩, fun _ _ _ _ => [], fun _ _ => []⟩ (sedDist realArith (squareHypot realArith)) (.fin 0)
    (fun _ => ⟨pts.map timed, [], allOpts⟩)

example (ps : List (ℂ × ℝ)) (h2 : 2 ≤ ps.length) (ht : Timed ps) : ∃ fuel out d,
    simplify (constrainedMotion ps) (fun n => (n : Int)) 0 [0, 1] (fun _ => false) fuel = .ok (out, d) ∧ Follows (2 * (1 / 2)) ps (verticesAt ps out.simple) := by
  have he : EnvOK (constrainedMotion ps) := Demo.env_ok (fun p g => ⟨by simp [motionLib], by simp [motionLib]⟩)
  have hl : LnrOK (constrainedMotion ps).lnr := ⟨fun l => List.Perm.refl l, fun _ _ _ ho => by cases ho⟩
  have hi : InstOK (constrainedMotion ps) 0 (ps.map timed) := by
    have h := motionEnv_instOk h2 ht
    exact ⟨h.pln, h.two, h.hull, h.box, h.inside, h.score, h.ctx⟩
  have hinj : Function.Injective (fun n : Nat => (n : Int)) := fun a b h => by simpa using h
  have hcv : ∀ i ∈ [(0 : Int), 1], 0 ≤ i ∧ i < ps.length := by
    intro i hi
    simp only [List.mem_cons, List.not_mem_nil, or_false] at hi
    omega
  obtain ⟨⟨out, d⟩, N, hN⟩ := C10_terminates (pts := fun _ => ps.map timed) (cv := [0, 1]) he hl hi hinj (by simpa using hcv) (fun _ => false)
  exact ⟨N, out, d, hN N le_rfl, (C87_simplify realArith_exact (by norm_num) true he hl hi ht hinj hcv rfl rfl (hN N le_rfl)).1⟩

end Verif
