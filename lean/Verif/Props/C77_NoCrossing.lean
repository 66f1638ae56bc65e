import Verif.Lemmas.PlanarParity
import Verif.Props.C33_Crossings
import Verif.Props.C73_Deformation

/-! C77: new crossings, in the plane. -/

set_option linter.unusedSectionVars false

namespace Verif
namespace Planar

/-- a line with its vertices on a straight line covers the segment between its ends -/
theorem chord_subset_of_collinear {l : List ℂ} (hc : Collinear ℝ {z | z ∈ l}) : chordSet l ⊆ lineSet l := by
  rintro z ⟨a, b, ha, hb, hz⟩
  have ha' : a ∈ l := List.mem_of_head? ha
  have hb' : b ∈ l := List.mem_of_getLast? hb
  rcases eq_or_ne a b with rfl | hab
  · rw [segment_same, Set.mem_singleton_iff] at hz
    exact hz ▸ mem_lineSet_of_mem ha'
  have hne : b - a ≠ 0 := sub_ne_zero.2 hab.symm
  -- all points of the line lie on the straight line through `a` and `b`
  let φ : ℂ → ℝ := fun z => ((z - a) / (b - a)).re
  have hφ : Continuous φ := Complex.continuous_re.comp ((continuous_id.sub continuous_const).div_const _)
  have hpar : ∀ w ∈ lineSet l, w = a + φ w • (b - a) := by
    rw [collinear_iff_of_mem (p₀ := a) ha'] at hc
    obtain ⟨v, hv⟩ := hc
    have hconv : Convex ℝ {w : ℂ | w = a + φ w • (b - a)} := by
      intro x hx y hy s t hs ht hst
      rw [Set.mem_ofPred_eq] at hx hy ⊢
      have e : φ (s • x + t • y) = s * φ x + t * φ y := by
        have hd : (s • x + t • y - a) / (b - a) = (s : ℂ) * ((x - a) / (b - a)) + (t : ℂ) * ((y - a) / (b - a)) := by
          have : (s : ℂ) + t = 1 := by exact_mod_cast hst
          simp only [Complex.real_smul]
          field_simp
          linear_combination (a) * this
        simp only [φ]
        rw [hd]
        simp
      rw [e]
      nth_rw 1 [hx, hy]
      have : s = 1 - t := by linarith
      subst this
      module
    have hsub : {z | z ∈ l} ⊆ {w : ℂ | w = a + φ w • (b - a)} := by
      intro w hw
      rw [Set.mem_ofPred_eq]
      obtain ⟨r, hr⟩ := hv b hb'
      obtain ⟨r', hr'⟩ := hv w hw
      simp only [vadd_eq_add] at hr hr'
      have hbv : b - a = r • v := by rw [hr]; ring
      have hwv : w - a = r' • v := by rw [hr']; ring
      have hv0 : v ≠ 0 := fun h => hne (by rw [hbv, h, smul_zero])
      have hr0 : r ≠ 0 := fun h => hne (by rw [hbv, h, zero_smul])
      have hq : (w - a) / (b - a) = ((r' / r : ℝ) : ℂ) := by
        rw [hbv, hwv]
        have : (r : ℂ) ≠ 0 := by exact_mod_cast hr0
        simp only [Complex.real_smul]
        push_cast
        field_simp
      simp only [φ]
      rw [hq, Complex.ofReal_re, hbv, smul_smul, div_mul_cancel₀ _ hr0, ← hwv]
      ring
    exact fun w hw => convexHull_min hsub hconv (lineSet_subset_hullSet l hw)
  have h0 : φ a = 0 := by simp [φ]
  have h1 : φ b = 1 := by simp [φ, div_self hne]
  obtain ⟨s, t, hs, ht, hst, e⟩ := hz
  have hzt : z = a + t • (b - a) := by
    rw [← e]
    have : s = 1 - t := by linarith
    subst this
    module
  obtain ⟨w, hw, hwt⟩ := ((isPreconnected_lineSet l).image φ hφ.continuousOn).Icc_subset ⟨a, mem_lineSet_of_mem ha', rfl⟩ ⟨b, mem_lineSet_of_mem hb', rfl⟩
    (show t ∈ Set.Icc (φ a) (φ b) by rw [h0, h1]; exact ⟨ht, by linarith⟩)
  have : w = z := by rw [hpar w hw, hwt, hzt]
  exact this ▸ hw

section
variable {P C : Type} {pos : P → ℂ} {region : C → Set ℂ} {env : Env P C EReal ℝ} {pts : Int → List P} {h : Int} {e : ℝ}
  {ids : Nat → Int} {cv : List Int} {dirty d : Int → Bool} {fuel : Nat} {out : Out P C EReal}

/-- the laws of C33 hold for exact geometry -/
theorem Exact.crossLaws (he : Exact pos region env.lib) (heps : env.eps = .fin e) (h0 : 0 ≤ e) (ps qs : List P) :
    ∀ i j k l : Int, 0 ≤ i → i < j → j < ps.length → 0 ≤ k → k < l → l < qs.length →
      CrossLaws env.lib env.eps (Coords.sub ps i j) (Coords.sub qs k l) := by
  intro i j k l hi hij hj hk hkl hl
  have p1 := points_sub ps hi hij.le hj
  have p2 := points_sub qs hk hkl.le hl
  have w1 := wellIndexed_sub (pts := ps) (i := i) hi hj
  have w2 := wellIndexed_sub (pts := qs) (i := k) hk hl
  have hend : ∀ (ps : List P) (i j : Int), 0 ≤ i → i < j → j < ps.length → ∀ p ∈ [(Coords.sub ps i j).first, (Coords.sub ps i j).last], ∀ x, p = .ok x →
      x ∈ (Coords.sub ps i j).points := by
    intro ps i j hi hij hj p hp x hx
    rw [points_sub ps hi hij.le hj]
    have hlen : (Coords.sub ps i j).len = j + 1 - i := Coords.len_sub _ _ _ (by omega)
    have key : ∀ t : Int, 0 ≤ t → t < j + 1 - i → (Coords.sub ps i j).pt t = .ok x → x ∈ between ps i j := by
      intro t t0 t1 ht
      rw [Coords.pt_sub t0 (by omega) hi] at ht
      cases hq : ps[(i + t).toNat]? with
      | none => rw [hq] at ht; cases ht
      | some y =>
        rw [hq] at ht
        cases ht
        have hb : (between ps i j)[t.toNat]? = some x := by
          rw [between, List.getElem?_take, if_pos (by omega), List.getElem?_drop, ← hq]
          congr 1
          omega
        exact List.mem_of_getElem? hb
    simp only [List.mem_cons, List.not_mem_nil, or_false] at hp
    rcases hp with rfl | rfl
    · exact key 0 (by omega) (by omega) (by rw [← hx, Coords.first])
    · exact key (j + 1 - i - 1) (by omega) (by omega) (by rw [← hx, Coords.last, hlen])
  refine ⟨?_, ?_, ?_, ?_, ?_⟩
  · intro hm g g' hg hg'
    rw [he.intersects] at hm
    obtain ⟨g₁, e₁, s₁⟩ := he.hull_shape w1 (by rw [p1]; exact between_ne_nil hi hij.le hj)
    obtain ⟨g₂, e₂, s₂⟩ := he.hull_shape w2 (by rw [p2]; exact between_ne_nil hk hkl.le hl)
    rw [hg] at e₁
    rw [hg'] at e₂
    cases e₁
    cases e₂
    obtain ⟨z, h1, h2⟩ := hm
    have m1 : z ∈ shape pos region g := by rw [s₁]; exact chordSet_subset_hullSet _ h1
    have m2 : z ∈ shape pos region g' := by rw [s₂]; exact chordSet_subset_hullSet _ h2
    have hi' : env.lib.intersects g g' = true := (he.intersects _ _).2 ⟨z, m1, m2⟩
    refine ⟨hi', he.boxSound _ _ hi', ?_⟩
    rw [he.distance _ _ ⟨z, m2⟩ ⟨z, m1⟩, gap_meet ⟨z, m2, m1⟩, heps, Fl.fin_le_fin, decide_eq_true_eq]
    exact h0
  · intro hm
    rw [he.intersects] at hm ⊢
    rw [he.intersects, he.intersects]
    exact chords_meet hm
  · intro p hp q hq x y hx hy hxy
    rw [he.equals2D] at hxy
    rw [he.intersects]
    refine ⟨pos x, mem_lineSet_of_mem (List.mem_map_of_mem (hend ps i j hi hij hj p hp x hx)), ?_⟩
    rw [hxy]
    exact mem_lineSet_of_mem (List.mem_map_of_mem (hend qs k l hk hkl hl q hq y hy))
  · rw [Bool.eq_iff_iff, he.intersects, he.intersects, Set.inter_comm]
  · rw [Bool.eq_iff_iff, he.intersects, he.intersects, Set.inter_comm]

/-- a piece with its vertices not on a straight line has more than two vertices and a hull with more than two corners -/
theorem Exact.proper (hx : Exact pos region env.lib) {hs : List Int} {x : Node P C EReal} (hk : Known env pts hs x)
    (hn : ¬ Collinear ℝ {z | z ∈ places pos (pts x.inst) x.range.I x.range.J}) : Proper env.lib x := by
  have hpc := hk.piece
  have hhi := hk.hi
  have hp := points_sub (pts x.inst) hk.lo hk.lt.le hhi
  have hw := wellIndexed_sub (pts := pts x.inst) hk.lo hhi
  constructor
  · intro h1
    refine hn ?_
    have hlen : (places pos (pts x.inst) x.range.I x.range.J).length = 2 := by
      rw [places, List.length_map, between, List.length_take, List.length_drop]
      have := hk.lo
      omega
    obtain ⟨u, v, e⟩ := List.length_eq_two.1 hlen
    have : {z | z ∈ places pos (pts x.inst) x.range.I x.range.J} = {u, v} := by
      ext z; simp [e]
    rw [this]
    exact collinear_pair ℝ u v
  · by_contra hle
    rw [hpc.coords] at hle
    have hl0 := (hx.hullIndexed _ hw).length
    have hcor := hx.hullCorners _ hw
    rw [hp] at hcor
    have hh := hull_corners hcor
    refine hn ?_
    have hpts : {z | z ∈ places pos (pts x.inst) x.range.I x.range.J} ⊆ hullSet (places pos (pts x.inst) x.range.I x.range.J) := subset_convexHull ℝ _
    change hullSet _ = hullSet (places pos (pts x.inst) x.range.I x.range.J) at hh
    have hl2 : (env.lib.convexHull (Coords.sub (pts x.inst) x.range.I x.range.J)).points.length ≤ 2 := by omega
    obtain ⟨u, v, huv⟩ : ∃ u v : ℂ, hullSet ((env.lib.convexHull (Coords.sub (pts x.inst) x.range.I x.range.J)).points.map pos) ⊆ segment ℝ u v := by
      match hq : (env.lib.convexHull (Coords.sub (pts x.inst) x.range.I x.range.J)).points, hl2 with
      | [], _ => exact ⟨0, 0, by simp [hullSet]⟩
      | [u], _ => exact ⟨pos u, pos u, by simp [hullSet]⟩
      | [u, v], _ =>
        refine ⟨pos u, pos v, ?_⟩
        rw [← convexHull_pair]
        refine convexHull_mono (fun z hz => ?_)
        simpa using hz
      | _ :: _ :: _ :: _, h3 => simp at h3
    rw [hh] at huv
    have hcol : Collinear ℝ (segment ℝ u v) := by
      rw [collinear_iff_exists_forall_eq_smul_vadd]
      refine ⟨u, v - u, fun w hw => ?_⟩
      rw [segment_eq_image_lineMap] at hw
      obtain ⟨t, -, rfl⟩ := hw
      exact ⟨t, by simp [AffineMap.lineMap_apply]⟩
    exact hcol.subset (hpts.trans huv)

/-- C77.  With `avoid_new_self_intersects` on: if two segments of the simplified line meet, then the parts of the input line they replace meet, unless one
of the parts is straight and the other is not. -/
theorem C77_no_new_crossing (he : EnvOK env) (hl : LnrOK env.lnr) (hi : InstOK env h (pts h)) (hinj : Function.Injective ids)
    (hcv : ∀ i ∈ cv, 0 ≤ i ∧ i < (pts h).length) (hx : Exact pos region env.lib) (heps : env.eps = .fin e) (h0 : 0 ≤ e)
    (hav : (env.inst h).opts.avoidNewSelfIntersects = true) (hr : simplify env ids h cv dirty fuel = .ok (out, d)) {i j k l : Int}
    (hij : Consecutive out.simple i j) (hkl : Consecutive out.simple k l) (hne : (i, j) ≠ (k, l))
    (hst : Collinear ℝ {z | z ∈ places pos (pts h) i j} ↔ Collinear ℝ {z | z ∈ places pos (pts h) k l})
    (hm : (chordSet (places pos (pts h) i j) ∩ chordSet (places pos (pts h) k l)).Nonempty) :
    (lineSet (places pos (pts h) i j) ∩ lineSet (places pos (pts h) k l)).Nonempty := by
  by_cases hc : Collinear ℝ {z | z ∈ places pos (pts h) i j}
  · obtain ⟨z, h1, h2⟩ := hm
    exact ⟨z, chord_subset_of_collinear hc h1, chord_subset_of_collinear (hst.1 hc) h2⟩
  have hc' := fun h => hc (hst.2 h)
  obtain ⟨h1, ⟨g', hp⟩, -⟩ := simplify_result he hl hi hinj hcv hr
  obtain ⟨rs, hch, hnil, e1, hrs⟩ := pieces_chain hi hp
  rw [h1, e1] at hij hkl
  obtain ⟨r, hrm, rfl, rfl⟩ := consecutive_chain rs _ _ hch hij
  obtain ⟨r', hrm', rfl, rfl⟩ := consecutive_chain rs _ _ hch hkl
  obtain ⟨a, ha, rfl⟩ := hrs r hrm
  obtain ⟨b, hb, rfl⟩ := hrs r' hrm'
  have ka := hp.known ha
  have kb := hp.known hb
  have ia : a.inst = h := by simpa using ka.inst
  have ib : b.inst = h := by simpa using kb.inst
  have hab : a ≠ b := fun e => hne (by rw [e])
  obtain ⟨-, a2, a3, -, -⟩ := hx.known ka
  obtain ⟨-, b2, b3, -, -⟩ := hx.known kb
  have := C33_crossing_partial he hl hi hinj hcv hav hx.eqLike_refl (hx.crossLaws heps h0 (pts h) (pts h)) hr ha hb hab (hx.proper ka (by rw [ia]; exact hc)) (hx.proper kb (by rw [ib]; exact hc'))
    (by rw [hx.intersects, a3, b3]; exact hm)
  rwa [hx.intersects, a2, b2] at this

end

/-! ### concrete case: the line of C33 in the real plane -/

/-- a bump (vertices 0 to 2) and a part (vertices 3 to 6) that goes round its end -/
noncomputable def bump : List ℂ := [⟨0, 0⟩, ⟨5, 2⟩, ⟨10, 0⟩, ⟨9, -20⟩, ⟨11, 0⟩, ⟨21/2, 10⟩, ⟨9, 20⟩]

noncomputable def bumpOpts : Opts ℝ :=
  { threshold := .fin 3, sqThreshold := .fin 9, minDist := .fin 0, nonPlanarDisplacement := .fin 1, planarSelf := false,
    nonPlanarSelf := false, avoidNewSelfIntersects := true, geomRelation := false, distRelation := false, dirRelation := false }

noncomputable def bumpLine : Demo.Line ℂ Region ℝ := ⟨bump, [], bumpOpts⟩

/-- replacing the bump and the part by segments would create a crossing at a place where the line does not meet itself -/
example : (chordSet (places id bump 0 2) ∩ chordSet (places id bump 3 6)).Nonempty := by
  refine ⟨⟨9, 0⟩, ⟨⟨0, 0⟩, ⟨10, 0⟩, rfl, rfl, ⟨1 / 10, 9 / 10, by norm_num, by norm_num, by norm_num, ?_⟩⟩,
    ⟨⟨9, -20⟩, ⟨9, 20⟩, rfl, rfl, ⟨1 / 2, 1 / 2, by norm_num, by norm_num, by norm_num, ?_⟩⟩⟩ <;>
  · apply Complex.ext <;> simp <;> norm_num

/-- both parts are bent -/
example : ¬ Collinear ℝ {z | z ∈ places id bump 0 2} ∧ ¬ Collinear ℝ {z | z ∈ places id bump 3 6} := by
  have key : ∀ (l : List ℂ) (a b c : ℂ), a ∈ l → b ∈ l → c ∈ l → (b.re - a.re) * (c.im - a.im) ≠ (b.im - a.im) * (c.re - a.re) → ¬ Collinear ℝ {z | z ∈ l} := by
    intro l a b c ha hb hc hne hcol
    rw [collinear_iff_of_mem (p₀ := a) ha] at hcol
    obtain ⟨v, hv⟩ := hcol
    obtain ⟨r, hr⟩ := hv b hb
    obtain ⟨s, hs⟩ := hv c hc
    refine hne ?_
    rw [hr, hs]
    simp
    ring
  constructor
  · exact key _ ⟨0, 0⟩ ⟨5, 2⟩ ⟨10, 0⟩ (by simp [places, between, bump]) (by simp [places, between, bump]) (by simp [places, between, bump]) (by norm_num)
  · exact key _ ⟨9, -20⟩ ⟨11, 0⟩ ⟨9, 20⟩ (by simp [places, between, bump]) (by simp [places, between, bump]) (by simp [places, between, bump]) (by norm_num)

/-- the whole program on this line -/
example : ∃ fuel out d, simplify (exactEnv (fun _ => bumpLine)) (fun n => n) 0 [] (fun _ => false) fuel = .ok (out, d) ∧
    ∀ i j k l, Consecutive out.simple i j → Consecutive out.simple k l → (i, j) ≠ (k, l) →
      (Collinear ℝ {z | z ∈ places id bump i j} ↔ Collinear ℝ {z | z ∈ places id bump k l}) →
      (chordSet (places id bump i j) ∩ chordSet (places id bump k l)).Nonempty → (lineSet (places id bump i j) ∩ lineSet (places id bump k l)).Nonempty := by
  have he := exactEnv_ok (lines := fun _ => bumpLine)
  have hl := exactLnr_ok (lines := fun _ => bumpLine)
  have hi : InstOK (exactEnv (fun _ => bumpLine)) 0 ((fun _ => bump) (0 : Int)) :=
    exactInst_ok (lines := fun _ => bumpLine) (h := 0) (by simp [bumpLine, bump]) (by simp [bumpLine, bumpOpts, Fl.fin_le_fin])
  have hinj : Function.Injective (fun n : Nat => (n : Int)) := fun a b h => by simpa using h
  obtain ⟨⟨out, d⟩, N, hy⟩ := C10_terminates (pts := fun _ => bump) (cv := []) he hl hi hinj (by simp) (fun _ => false)
  exact ⟨N, out, d, hy N le_rfl, fun i j k l h1 h2 h3 h4 h5 =>
    C77_no_new_crossing (pts := fun _ => bump) (e := 0) he hl hi hinj (by simp) exactLib_exact rfl le_rfl rfl (hy N le_rfl) h1 h2 h3 h4 h5⟩

end Planar
end Verif
