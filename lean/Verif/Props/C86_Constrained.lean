import Verif.Props.C81_Frechet
import Verif.Props.C13_FeatureClass

/-! C86, C87: with constraints the tolerance is kept up to a factor of two. -/

set_option linter.unusedSectionVars false

namespace Verif

open Metric Planar Set AffineMap

section
variable {P C B K : Type} [LinearOrder K]

/-- The kept indices cut the line into ranges; every range lies in a range of the line whose inner vertices score at most `bound` against its ends. -/
def RootCut (n : Int) (pts : List P) (out : List Int) (distFn : P → P → P → Fl K) (bound : Fl K) : Prop :=
  ∃ rs : List Rng, Chain 0 n rs ∧ out = 0 :: rs.map Rng.J ∧ ∀ r ∈ rs, ∃ s : Rng, 0 ≤ s.I ∧ s.I ≤ r.I ∧ r.J ≤ s.J ∧ s.J ≤ n ∧
    ∀ t : Nat, s.I < t → (t : Int) < s.J → ∀ a b p, pts[s.I.toNat]? = some a → pts[s.J.toNat]? = some b → pts[t]? = some p →
      distFn a b p ≠ .nan → (distFn a b p).le bound = true

variable [LinearOrder B] [BoundedOrder B] [Zero K] {env : Env P C B K} {pts : Int → List P} {ids : Nat → Int}

theorem Pieces.rootCut {h : Int} {src : Int → Prop} {g : Nat} {hulls : List (Node P C B)} (h2 : 2 ≤ (pts h).length)
    (hp : Pieces env pts [h] src ids g hulls) (hroot : ∀ x ∈ hulls, Rooted env pts x)
    {distFn : P → P → P → Fl K} {bound : Fl K} (hsc : (env.inst h).scoreFn = maxOffset distFn) (hrel : (env.inst h).rel = scoreRelation bound) :
    RootCut (((pts h).length : Int) - 1) (pts h) (simpleSet hulls) distFn bound := by
  obtain ⟨rs, hc, h3, h4⟩ := hp.chain_kept h2
  refine ⟨rs, hc, h3, fun r hr => ?_⟩
  obtain ⟨nd, hnd, rfl⟩ := h4 r hr
  have hins : nd.inst = h := List.mem_singleton.1 (hp.known hnd).inst
  obtain ⟨s, s1, s2, s3, s4, k, v, hs, hv⟩ := hroot nd hnd
  rw [hins] at s4 hs hv
  rw [hsc] at hs
  rw [hrel] at hv
  exact ⟨s, s1, s2, s3, by omega, fun t t1 t2 a b p ha hb hp hn => maxOffset_interior_le distFn (pts h) s1 s4 t1 t2 hs hv ha hb (by simpa using hp) hn⟩

/-- `Simplify` of one line, with any constraints -/
theorem simplify_rootCut {h : Int} {cv : List Int} {dirty d : Int → Bool} {out : Out P C B} {fuel : Nat} (he : EnvOK env) (hl : LnrOK env.lnr)
    (hi : InstOK env h (pts h)) (hinj : Function.Injective ids) (hcv : ∀ i ∈ cv, 0 ≤ i ∧ i < (pts h).length) {distFn : P → P → P → Fl K}
    {bound : Fl K} (hsc : (env.inst h).scoreFn = maxOffset distFn) (hrel : (env.inst h).rel = scoreRelation bound)
    (hr : simplify env ids h cv dirty fuel = .ok (out, d)) : RootCut (((pts h).length : Int) - 1) (pts h) out.simple distFn bound := by
  obtain ⟨out', d', g', hy, h1, h2, -, -, -, h5⟩ := simplify_yields he hl hi hinj hcv dirty
  have := ((simplify_le env ids h cv dirty).yields hr).unique hy
  cases this
  rw [h1]
  exact h2.rootCut hi.two h5 hsc hrel

/-- the lines of a feature class, with any constraints -/
theorem fc_rootCut {idsOf : Int → Nat → Int} {handles : List Int} {o : Opts K} {dirty : Int → Bool} {fuel : Nat} {res : List (Int × Out P C B)}
    (hc : ClassOK env pts ids idsOf handles) (hr : simplifyFeatureClass env ids idsOf handles o dirty fuel = .ok res) {h : Int} {out : Out P C B}
    (hm : (h, out) ∈ res) {distFn : P → P → P → Fl K} {bound : Fl K} (hsc : (env.inst h).scoreFn = maxOffset distFn)
    (hrel : (env.inst h).rel = scoreRelation bound) : RootCut (((pts h).length : Int) - 1) (pts h) out.simple distFn bound := by
  obtain ⟨h1, js, -, h2⟩ := fc_result hc hr
  have hh : h ∈ handles := by rw [← h1]; exact List.mem_map.2 ⟨_, hm, rfl⟩
  have hf := h2 _ hm
  obtain ⟨src, ids', g, hp⟩ := hf.pieces
  rw [hf.simple]
  exact hp.rootCut (hc.inst h hh).two hf.rooted hsc hrel

end

section
variable {C B : Type} {E : Type} [NormedAddCommGroup E] [NormedSpace ℝ E]

/-- Specification of C86 for the kept indices `out`: every point of a segment of the output is within `δ` of the part of the input line between the ends of this
segment, and every point of the output line is within `δ` of the input line. -/
structure Covered (δ : ℝ) (ps : List E) (out : List Int) : Prop where
  parts : ∀ i j, Consecutive out i j → ∃ x y, ps[i.toNat]? = some x ∧ ps[j.toNat]? = some y ∧
    ∀ q ∈ segment ℝ x y, ∃ z ∈ trace (between ps i j), dist q z ≤ δ
  whole : ∀ q ∈ trace (verticesAt ps out), ∃ z ∈ trace ps, dist q z ≤ δ

/-- all vertices of the range of an accepted score are near its chord -/
theorem tube_of_root {ps : List E} {ε : ℝ} (hε : 0 ≤ ε) {square : Bool} {s : Rng} (s0 : 0 ≤ s.I)
    (htol : ∀ t : Nat, s.I < t → (t : Int) < s.J → ∀ a b p, ps[s.I.toNat]? = some a → ps[s.J.toNat]? = some b → ps[t]? = some p →
      (if square then segDistSq else segDist) a b p ≠ .nan → ((if square then segDistSq else segDist) a b p).le (.fin (if square then ε * ε else ε)) = true)
    {a b : E} (ha : ps[s.I.toNat]? = some a) (hb : ps[s.J.toNat]? = some b) {p : E} (hp : p ∈ between ps s.I s.J) : infDist p (segment ℝ a b) ≤ ε := by
  obtain ⟨t, t1, t2, hp⟩ := mem_between s0 hp
  rcases eq_or_lt_of_le t1 with t1 | t1
  · obtain rfl : t = s.I.toNat := by omega
    rw [ha] at hp; cases hp
    rw [infDist_zero_of_mem (left_mem_segment ℝ _ _)]; exact hε
  rcases eq_or_lt_of_le t2 with t2 | t2
  · obtain rfl : t = s.J.toNat := by omega
    rw [hb] at hp; cases hp
    rw [infDist_zero_of_mem (right_mem_segment ℝ _ _)]; exact hε
  have := htol t t1 t2 a b p ha hb hp (by cases square <;> simp [segDist, segDistSq])
  cases square with
  | false => simpa [segDist] using this
  | true =>
    simp only [segDistSq, if_true, Fl.fin_le_fin, decide_eq_true_eq] at this
    nlinarith [infDist_nonneg (x := p) (s := segment ℝ a b)]

theorem between_mono {P : Type} {ps : List P} {i j i' j' : Int} (h0 : 0 ≤ i') (h1 : i' ≤ i) (h2 : j ≤ j') {p : P} (hp : p ∈ between ps i j) :
    p ∈ between ps i' j' := by
  obtain ⟨t, t1, t2, hp⟩ := mem_between (by omega) hp
  exact mem_between_of h0 (by omega) (by omega) hp

theorem Covered.of_rootCut {ps : List E} {out : List Int} {ε : ℝ} (hε : 0 ≤ ε) {square : Bool}
    (h : RootCut ((ps.length : Int) - 1) ps out (if square then segDistSq else segDist) (.fin (if square then ε * ε else ε))) : Covered (2 * ε) ps out := by
  obtain ⟨rs, hc, rfl, htol⟩ := h
  have key : ∀ r ∈ rs, ∀ x y, ps[r.I.toNat]? = some x → ps[r.J.toNat]? = some y → ∀ q ∈ segment ℝ x y, ∃ z ∈ trace (between ps r.I r.J), dist q z ≤ 2 * ε := by
    intro r hr x y hx hy
    obtain ⟨s, s0, s1, s2, s3, htol⟩ := htol r hr
    have hb := hc.mem hr
    have hi : s.I.toNat < ps.length := by omega
    have hj : s.J.toNat < ps.length := by omega
    refine near_inner hε (a := ps[s.I.toNat]) (b := ps[s.J.toNat]) (fun p hp => segment_near
      (tube_of_root hε s0 htol (List.getElem?_eq_getElem hi) (List.getElem?_eq_getElem hj) (between_mono s0 s1 s2 hp)))
      (mem_between_of (by omega) (t := r.I.toNat) (by omega) (by omega) hx) (mem_between_of (by omega) (t := r.J.toNat) (by omega) (by omega) hy)
  constructor
  · intro i j hij
    obtain ⟨r, hr, rfl, rfl⟩ := consecutive_chain rs _ _ hc hij
    have hb := hc.mem hr
    have hi : r.I.toNat < ps.length := by omega
    have hj : r.J.toNat < ps.length := by omega
    exact ⟨_, _, List.getElem?_eq_getElem hi, List.getElem?_eq_getElem hj, key r hr _ _ (List.getElem?_eq_getElem hi) (List.getElem?_eq_getElem hj)⟩
  · have := pieces_induct (ps := ps) (R := fun l m => ∀ q ∈ trace m, ∃ z ∈ trace l, dist q z ≤ 2 * ε) (fun x q hq => ⟨q, hq, by simpa using hε⟩)
      (fun u w x t m n1 n2 => ?_) rs 0 ((ps.length : Int) - 1) le_rfl (by omega) hc (fun r hr x y hx hy => ?_)
    · rwa [between_all] at this
    · rw [trace_append_cons, trace]
      rw [trace_pair] at n1
      rintro q (hq | hq)
      · obtain ⟨z, hz, hd⟩ := n1 q hq; exact ⟨z, .inl hz, hd⟩
      · obtain ⟨z, hz, hd⟩ := n2 q hq; exact ⟨z, .inr hz, hd⟩
    · rw [trace_pair]; exact key r hr x y hx hy

/-- **C86**: `Simplify` with any constraints, exact distances to the chord (plain or squared) and tolerance `ε`: every point of a segment of the output is within
`2 * ε` of the part of the input that the segment replaces. -/
theorem C86_simplify [LinearOrder B] [BoundedOrder B] {env : Env E C B ℝ} {pts : Int → List E} {ids : Nat → Int} {h : Int} {cv : List Int}
    {dirty d : Int → Bool} {out : Out E C B} {fuel : Nat} {ε : ℝ} (hε : 0 ≤ ε) (square : Bool) (he : EnvOK env) (hl : LnrOK env.lnr) (hi : InstOK env h (pts h))
    (hinj : Function.Injective ids) (hcv : ∀ i ∈ cv, 0 ≤ i ∧ i < (pts h).length)
    (hsc : (env.inst h).scoreFn = maxOffset (if square then segDistSq else segDist))
    (hrel : (env.inst h).rel = scoreRelation (.fin (if square then ε * ε else ε))) (hr : simplify env ids h cv dirty fuel = .ok (out, d)) :
    Covered (2 * ε) (pts h) out.simple :=
  Covered.of_rootCut hε (simplify_rootCut he hl hi hinj hcv hsc hrel hr)

/-- **C86** for a feature class -/
theorem C86_feature_class [LinearOrder B] [BoundedOrder B] {env : Env E C B ℝ} {pts : Int → List E} {ids : Nat → Int} {idsOf : Int → Nat → Int}
    {handles : List Int} {o : Opts ℝ} {dirty : Int → Bool} {fuel : Nat} {res : List (Int × Out E C B)} (hc : ClassOK env pts ids idsOf handles)
    (hr : simplifyFeatureClass env ids idsOf handles o dirty fuel = .ok res) {h : Int} {out : Out E C B} (hm : (h, out) ∈ res) {ε : ℝ} (hε : 0 ≤ ε)
    (square : Bool) (hsc : (env.inst h).scoreFn = maxOffset (if square then segDistSq else segDist))
    (hrel : (env.inst h).rel = scoreRelation (.fin (if square then ε * ε else ε))) : Covered (2 * ε) (pts h) out.simple :=
  Covered.of_rootCut hε (fc_rootCut hc hr hm hsc hrel)

end

/-! ### lines that do not turn back -/

section
variable {C B : Type} {E : Type} [NormedAddCommGroup E] [InnerProductSpace ℝ E]

open scoped RealInnerProductSpace

/-- no two edges of the line point in directions more than a right angle apart -/
def Forward (ps : List E) : Prop := ∀ (i j : Nat) (p q p' q' : E), ps[i]? = some p → ps[i + 1]? = some q → ps[j]? = some p' → ps[j + 1]? = some q' →
  0 ≤ ⟪q - p, q' - p'⟫

theorem Forward.step {ps : List E} (h : Forward ps) {i j k : Nat} {p q p' q' : E} (hij : i ≤ j) (hp : ps[i]? = some p) (hq : ps[j]? = some q)
    (hp' : ps[k]? = some p') (hq' : ps[k + 1]? = some q') : 0 ≤ ⟪q - p, q' - p'⟫ := by
  obtain ⟨n, rfl⟩ := Nat.exists_eq_add_of_le hij
  induction n generalizing q with
  | zero =>
    rw [Nat.add_zero, hp] at hq
    cases hq
    simp
  | succ n ih =>
    have hlt := (List.getElem?_eq_some_iff.1 hq).1
    have hm : ps[i + n]? = some ps[i + n] := List.getElem?_eq_getElem (by omega)
    have h1 := ih (by omega) hm
    have h2 := h (i + n) k _ _ _ _ hm hq hp' hq'
    rw [← sub_add_sub_cancel q ps[i + n] p, inner_add_left]
    linarith

/-- parts of the line are at most a right angle apart -/
theorem Forward.chords {ps : List E} (h : Forward ps) {i j k l : Nat} {p q p' q' : E} (hij : i ≤ j) (hkl : k ≤ l) (hp : ps[i]? = some p) (hq : ps[j]? = some q)
    (hp' : ps[k]? = some p') (hq' : ps[l]? = some q') : 0 ≤ ⟪q - p, q' - p'⟫ := by
  obtain ⟨n, rfl⟩ := Nat.exists_eq_add_of_le hkl
  induction n generalizing q' with
  | zero =>
    rw [Nat.add_zero, hp'] at hq'
    cases hq'
    simp
  | succ n ih =>
    have hlt := (List.getElem?_eq_some_iff.1 hq').1
    have hm : ps[k + n]? = some ps[k + n] := List.getElem?_eq_getElem (by omega)
    have h1 := ih (by omega) hm
    have h2 := h.step hij hp hq hm hq'
    rw [← sub_add_sub_cancel q' ps[k + n] p', inner_add_right]
    linarith

/-- vertices in order near a segment, in order along it -/
theorem frechet_inner {l : List E} {a b x y : E} {ε : ℝ} (h2 : 2 ≤ l.length) (hx : l.head? = some x) (hy : l.getLast? = some y)
    (ho : l.Pairwise (fun p q => 0 ≤ ⟪q - p, b - a⟫)) (hl : ∀ p ∈ l, infDist p (segment ℝ a b) ≤ ε) : FrechetLe (2 * ε) l [x, y] := by
  have hxl : x ∈ l := List.mem_of_head? hx
  have hyl : y ∈ l := List.mem_of_getLast? hy
  -- the case in which all vertices are near one point
  have far : ∀ c : E, (∀ p ∈ l, dist p c ≤ ε) → FrechetLe (2 * ε) l [x, y] := by
    intro c hc
    match l, h2, hx with
    | x' :: z :: l, _, hx =>
      cases hx
      have hd : ∀ p ∈ x :: z :: l, ∀ q ∈ x :: z :: l, dist p q ≤ 2 * ε := fun p hp q hq => by
        have := dist_triangle_right p q c
        have := hc p hp
        have := hc q hq
        linarith
      refine FrechetLe.ordered (τ := 0) (τs := List.replicate (l.length + 1) 1) rfl ?_ ?_ ?_
      · rw [List.getLast_cons (by simp), List.getLast_replicate]
      · simp [List.pairwise_replicate]
      · refine List.Forall₂.cons ?_ (List.forall₂_iff_get.2 ⟨by simp, fun i h1 h2 => ?_⟩)
        · rw [lineMap_apply_zero]; exact hd x (by simp) x (by simp)
        · simp only [List.get_eq_getElem, List.getElem_replicate, lineMap_apply_one]
          exact hd _ (List.mem_cons_of_mem _ (List.getElem_mem _)) y hyl
  by_cases hab : a = b
  · subst hab
    refine far a (fun p hp => ?_)
    have := hl p hp
    rwa [segment_same, infDist_singleton] at this
  have hn : ‖b - a‖ ^ 2 ≠ 0 := by
    rw [pow_ne_zero_iff (by decide), norm_ne_zero_iff, sub_ne_zero]; exact Ne.symm hab
  have hn0 : 0 < ‖b - a‖ ^ 2 := lt_of_le_of_ne (sq_nonneg _) hn.symm
  set τ : E → ℝ := fun p => ⟪p - a, b - a⟫ / ‖b - a‖ ^ 2 with hτ
  have hfoot : ∀ p ∈ l, dist p (lineMap a b (τ p)) ≤ ε := fun p hp => foot_near hab (hl p hp)
  have hmono : l.Pairwise (fun p q => τ p ≤ τ q) := ho.imp (fun {p q} h => by
    show ⟪p - a, b - a⟫ / ‖b - a‖ ^ 2 ≤ ⟪q - a, b - a⟫ / ‖b - a‖ ^ 2
    rw [div_le_div_iff_of_pos_right hn0, ← sub_nonneg, ← inner_sub_left]
    simpa using h)
  have hle : ∀ p ∈ l, τ x ≤ τ p ∧ τ p ≤ τ y := by
    intro p hp
    constructor
    · match l, hx with
      | x' :: l, hx =>
        cases hx
        rcases List.mem_cons.1 hp with rfl | hp
        · exact le_rfl
        · exact List.rel_of_pairwise_cons hmono hp
    · obtain ⟨l', rfl⟩ : ∃ l', l = l' ++ [y] := ⟨l.dropLast, by rw [List.dropLast_append_getLast? y hy]⟩
      rcases List.mem_append.1 hp with hp | hp
      · exact (List.pairwise_append.1 hmono).2.2 p hp y (by simp)
      · rw [List.mem_singleton.1 hp]
  by_cases hxy : τ x = τ y
  · refine far (lineMap a b (τ x)) (fun p hp => ?_)
    have h1 := hle p hp
    rw [show τ x = τ p by linarith]
    exact hfoot p hp
  have hlt : τ x < τ y := lt_of_le_of_ne (hle y hyl).1 hxy
  have hd : τ y - τ x ≠ 0 := by linarith
  have := FrechetLe.param (ε := 2 * ε) (a := x) (b := y) (pos := id) (τ := fun p => (τ p - τ x) / (τ y - τ x)) hx hy (by simp) (div_self hd)
    (hmono.imp (fun {p q} h => by rw [div_le_div_iff_of_pos_right (by linarith)]; linarith)) (fun p hp => ?_)
  · rwa [List.map_id] at this
  · obtain ⟨h1, h2⟩ := hle p hp
    set c := (τ p - τ x) / (τ y - τ x) with hc
    have c0 : 0 ≤ c := div_nonneg (by linarith) (by linarith)
    have c1 : c ≤ 1 := (div_le_one (by linarith)).2 (by linarith)
    have hτp : τ p = (1 - c) * τ x + c * τ y := by rw [hc]; field_simp; ring
    have e : lineMap a b (τ p) = lineMap (lineMap a b (τ x)) (lineMap a b (τ y)) c := by
      rw [hτp]
      simp only [lineMap_apply_module]
      module
    have h3 : dist (lineMap x y c) (lineMap a b (τ p)) ≤ ε := by
      rw [e, dist_eq_norm, show lineMap x y c - lineMap (lineMap a b (τ x)) (lineMap a b (τ y)) c =
        (1 - c) • (x - lineMap a b (τ x)) + c • (y - lineMap a b (τ y)) by simp only [lineMap_apply_module]; module]
      refine (norm_add_le _ _).trans ?_
      rw [norm_smul, norm_smul, Real.norm_of_nonneg (by linarith), Real.norm_of_nonneg c0]
      have hx' := hfoot x hxl
      have hy' := hfoot y hyl
      rw [dist_eq_norm] at hx' hy'
      nlinarith
    have h4 := dist_triangle_right p (lineMap x y c) (lineMap a b (τ p))
    have h5 := hfoot p hp
    show dist p (lineMap x y c) ≤ 2 * ε
    linarith

theorem Frechet.of_rootCut {ps : List E} {out : List Int} {ε : ℝ} (hε : 0 ≤ ε) {square : Bool}
    (h : RootCut ((ps.length : Int) - 1) ps out (if square then segDistSq else segDist) (.fin (if square then ε * ε else ε))) (hf : Forward ps) :
    FrechetLe (2 * ε) ps (verticesAt ps out) := by
  obtain ⟨rs, hc, rfl, htol⟩ := h
  have := pieces_induct (ps := ps) (R := FrechetLe (2 * ε)) (fun x => FrechetLe.single (by simpa using hε))
    (fun u w x t m n1 n2 => FrechetLe.append (v := [w]) n1 n2) rs 0 ((ps.length : Int) - 1) le_rfl (by omega) hc (fun r hr x y hx hy => ?_)
  · rwa [between_all] at this
  · have hb := hc.mem hr
    obtain ⟨s, s0, s1, s2, s3, htol⟩ := htol r hr
    obtain ⟨e1, e2⟩ := between_ends (by omega) (by omega) hx hy
    have hj : r.J.toNat < ps.length := (List.getElem?_eq_some_iff.1 hy).1
    have hi' : s.I.toNat < ps.length := by omega
    have hj' : s.J.toNat < ps.length := by omega
    refine frechet_inner (a := ps[s.I.toNat]) (b := ps[s.J.toNat]) (by rw [between, List.length_take, List.length_drop]; omega) e1 e2 ?_ (fun p hp =>
      tube_of_root hε s0 htol (List.getElem?_eq_getElem hi') (List.getElem?_eq_getElem hj') (between_mono s0 s1 s2 hp))
    rw [List.pairwise_iff_getElem]
    intro u v hu hv huv
    have hget : ∀ (w : Nat) (hw : w < (between ps r.I r.J).length), ps[r.I.toNat + w]? = some (between ps r.I r.J)[w] := by
      intro w hw
      rw [← List.getElem?_eq_getElem hw, between, List.getElem?_take_of_lt, List.getElem?_drop]
      rw [between, List.length_take] at hw
      omega
    exact hf.chords (by omega) (by omega) (hget u hu) (hget v hv) (List.getElem?_eq_getElem hi') (List.getElem?_eq_getElem hj')

/-- **C86**, the other direction, for lines that do not turn back: the Fréchet distance of the input and the output of `Simplify` with any constraints is at most
`2 * ε`. -/
theorem C86_forward [LinearOrder B] [BoundedOrder B] {env : Env E C B ℝ} {pts : Int → List E} {ids : Nat → Int} {h : Int} {cv : List Int}
    {dirty d : Int → Bool} {out : Out E C B} {fuel : Nat} {ε : ℝ} (hε : 0 ≤ ε) (square : Bool) (he : EnvOK env) (hl : LnrOK env.lnr) (hi : InstOK env h (pts h))
    (hinj : Function.Injective ids) (hcv : ∀ i ∈ cv, 0 ≤ i ∧ i < (pts h).length)
    (hsc : (env.inst h).scoreFn = maxOffset (if square then segDistSq else segDist))
    (hrel : (env.inst h).rel = scoreRelation (.fin (if square then ε * ε else ε))) (hr : simplify env ids h cv dirty fuel = .ok (out, d))
    (hf : Forward (pts h)) : FrechetLe (2 * ε) (pts h) (verticesAt (pts h) out.simple) :=
  Frechet.of_rootCut hε (simplify_rootCut he hl hi hinj hcv hsc hrel hr) hf

/-- the same for a feature class -/
theorem C86_feature_class_forward [LinearOrder B] [BoundedOrder B] {env : Env E C B ℝ} {pts : Int → List E} {ids : Nat → Int} {idsOf : Int → Nat → Int}
    {handles : List Int} {o : Opts ℝ} {dirty : Int → Bool} {fuel : Nat} {res : List (Int × Out E C B)} (hc : ClassOK env pts ids idsOf handles)
    (hr : simplifyFeatureClass env ids idsOf handles o dirty fuel = .ok res) {h : Int} {out : Out E C B} (hm : (h, out) ∈ res) {ε : ℝ} (hε : 0 ≤ ε)
    (square : Bool) (hsc : (env.inst h).scoreFn = maxOffset (if square then segDistSq else segDist))
    (hrel : (env.inst h).rel = scoreRelation (.fin (if square then ε * ε else ε))) (hf : Forward (pts h)) :
    FrechetLe (2 * ε) (pts h) (verticesAt (pts h) out.simple) :=
  Frechet.of_rootCut hε (fc_rootCut hc hr hm hsc hrel) hf

end

/-! ### both limits are needed -/

/-- a line that passes on both sides of its chord; the constraint point lies on its last segment -/
def zigLine : Demo.Line Plane.Pt (List Plane.Pt) ℚ :=
  ⟨[(0, 0), (25, -9/10), (50, 1), (100, 0)], [[(75, 1/2)]], { Plane.opts 1 0 with geomRelation := true }⟩

/-- The factor is needed: a run with a constraint returns a segment with a point (its middle) that is farther from every edge of the part it replaces than the
tolerance allows (squared distances; 1.39 times the tolerance). -/
theorem C86_factor : ∃ (l : Demo.Line Plane.Pt (List Plane.Pt) ℚ) (out : Out Plane.Pt (List Plane.Pt) Plane.Bx) (d : Int → Bool),
    2 ≤ l.pts.length ∧ Plane.run l [] = .ok (out, d) ∧
    ∃ nd ∈ out.hulls, ∃ a b, l.pts[nd.range.I.toNat]? = some a ∧ l.pts[nd.range.J.toNat]? = some b ∧
      ∀ t : Nat, nd.range.I ≤ t → (t : Int) < nd.range.J → ∃ p q, l.pts[t]? = some p ∧ l.pts[t + 1]? = some q ∧
        (Fl.fin (193 / 100 : ℚ)).lt (.fin (Plane.ptSeg p q ((a.1 + b.1) / 2, (a.2 + b.2) / 2))) = true ∧ l.opts.sqThreshold = .fin 1 := by
  have h : ∃ out d, Plane.run zigLine [] = .ok (out, d) ∧ ∃ nd ∈ out.hulls, nd.range = ⟨0, 2⟩ := by
    have h : (match Plane.run zigLine [] with
      | .ok (out, _) => decide (∃ nd ∈ out.hulls, nd.range = ⟨0, 2⟩)
      | _ => false) = true := by decide +kernel
    split at h
    · rename_i out d e
      exact ⟨out, d, e, of_decide_eq_true h⟩
    · cases h
  obtain ⟨out, d, e, nd, hnd, hr⟩ := h
  refine ⟨zigLine, out, d, by decide, e, nd, hnd, (0, 0), (50, 1), by rw [hr]; rfl, by rw [hr]; rfl, fun t h1 h2 => ?_⟩
  rw [hr] at h2
  have : t = 0 ∨ t = 1 := by simp only at h2; omega
  rcases this with rfl | rfl
  · exact ⟨(0, 0), (25, -9/10), rfl, rfl, by decide +kernel, by decide +kernel⟩
  · exact ⟨(25, -9/10), (50, 1), rfl, rfl, by decide +kernel, by decide +kernel⟩

/-- The other direction needs that the line does not turn back: a run with a constraint drops a vertex that is 80 times the tolerance away from the segment that
replaces it (squared distances). -/
theorem C86_back : ∃ (l : Demo.Line Plane.Pt (List Plane.Pt) ℚ) (out : Out Plane.Pt (List Plane.Pt) Plane.Bx) (d : Int → Bool),
    2 ≤ l.pts.length ∧ l.opts.sqThreshold = .fin 1 ∧ Plane.run l [] = .ok (out, d) ∧
    ∃ nd ∈ out.hulls, ∃ t : Nat, nd.range.I < t ∧ (t : Int) < nd.range.J ∧ ∃ a b p, l.pts[nd.range.I.toNat]? = some a ∧ l.pts[nd.range.J.toNat]? = some b ∧
      l.pts[t]? = some p ∧ (80 : ℚ) ^ 2 < Plane.ptSeg a b p := by
  have h : (match Plane.run backLine [] with
      | .ok (out, _) => decide (∃ nd ∈ out.hulls, nd.range = ⟨0, 2⟩)
      | _ => false) = true := by decide +kernel
  split at h
  · rename_i out d e
    obtain ⟨nd, hnd, hr⟩ := of_decide_eq_true h
    refine ⟨backLine, out, d, by decide, by decide +kernel, e, nd, hnd, 1, by rw [hr]; decide, by rw [hr]; decide, (0, 0), (10, 1), (100, 1/2), by rw [hr]; rfl,
      by rw [hr]; rfl, rfl, by decide +kernel⟩
  · cases h

/-! ### concrete cases -/

/-- tolerance 1/2 and all constraints that need no further data -/
noncomputable def allOpts : Opts ℝ :=
  { halfOpts with planarSelf := true, nonPlanarSelf := true, avoidNewSelfIntersects := true, geomRelation := true, distRelation := true, dirRelation := true }

/-- lines in the plane with constraints of any shape, scored by the squared distance from the chord -/
noncomputable def constrainedEnv (pts : List ℂ) (cs : List Region) : Env ℂ Region EReal ℝ :=
  Demo.env exactLib exactLnr segDistSq (.fin 0) (fun _ => ⟨pts, cs, allOpts⟩)

/-- the run of any line of the plane with two vertices or more among any constraints returns a line every point of which is within 1 of the input line -/
example (pts : List ℂ) (cs : List Region) (h2 : 2 ≤ pts.length) : ∃ fuel out d,
    simplify (constrainedEnv pts cs) (fun n => (n : Int)) 0 [0, 1] (fun _ => false) fuel = .ok (out, d) ∧
    Covered (2 * (1 / 2)) pts out.simple ∧ (Forward pts → FrechetLe (2 * (1 / 2)) pts (verticesAt pts out.simple)) := by
  have he : EnvOK (constrainedEnv pts cs) := Demo.env_ok exactLib_point
  have hl : LnrOK (constrainedEnv pts cs).lnr := ⟨exactLnr_exact.perm, fun _ _ _ ho => List.mem_range.1 (List.mem_filter.1 ho).1⟩
  have hi : InstOK (constrainedEnv pts cs) 0 pts := Demo.inst_ok (lines := fun _ => ⟨pts, cs, allOpts⟩) (h := 0) h2
    (fun a b p => by simp only [segDistSq, Fl.fin_le_fin, decide_eq_true_eq]; positivity)
    (by simp only [allOpts, halfOpts, Fl.fin_le_fin, decide_eq_true_eq]; norm_num) (Exact.hulls (env := constrainedEnv pts cs) exactLib_exact _)
  have hinj : Function.Injective (fun n : Nat => (n : Int)) := fun a b h => by simpa using h
  have hcv : ∀ i ∈ [(0 : Int), 1], 0 ≤ i ∧ i < pts.length := by
    intro i hi
    simp only [List.mem_cons, List.not_mem_nil, or_false] at hi
    omega
  obtain ⟨⟨out, d⟩, N, hN⟩ := C10_terminates (pts := fun _ => pts) (cv := [0, 1]) he hl hi hinj hcv (fun _ => false)
  exact ⟨N, out, d, hN N le_rfl, C86_simplify (pts := fun _ => pts) (by norm_num) true he hl hi hinj hcv rfl rfl (hN N le_rfl),
    C86_forward (pts := fun _ => pts) (by norm_num) true he hl hi hinj hcv rfl rfl (hN N le_rfl)⟩

/-- a line that does not turn back -/
example : Forward [(0 : ℝ), 1, 3] := by
  have key : ∀ (i : Nat) (p q : ℝ), [(0 : ℝ), 1, 3][i]? = some p → [(0 : ℝ), 1, 3][i + 1]? = some q → 0 ≤ q - p := by
    intro i p q hp hq
    match i, hp, hq with
    | 0, hp, hq => cases hp; cases hq; norm_num
    | 1, hp, hq => cases hp; cases hq; norm_num
  intro i j p q p' q' h1 h2 h3 h4
  simpa using mul_nonneg (key j _ _ h3 h4) (key i _ _ h1 h2)

end Verif
