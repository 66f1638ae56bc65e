import Verif.Props.C77_NoCrossing
import Verif.Props.C78_ClassCrossing

/-! C78 in the plane. -/

set_option linter.unusedSectionVars false

namespace Verif

namespace Planar
section
variable {P C : Type} {pos : P → ℂ} {region : C → Set ℂ} {env : Env P C EReal ℝ} {pts : Int → List P} {e : ℝ} {ids : Nat → Int} {idsOf : Int → Nat → Int}
  {handles : List Int} {o : Opts ℝ} {dirty d : Int → Bool} {fuel : Nat} {js : List (Int × Int)} {outs res : List (Int × Out P C EReal)}

/-- C78 in the plane: if two segments of the simplified features meet, then the parts of the input lines they replace meet, unless one of the parts is straight
and the other is not, provided that no piece has, among its neighbours and itself, pieces of different features with the same index range. -/
theorem C78_no_new_crossing_partial (hc : ClassOK env pts ids idsOf handles) (hx : Exact pos region env.lib) (heps : env.eps = .fin e) (h0 : 0 ≤ e)
    (hcut : ∀ g g', env.lib.intersects g g' = true → env.lib.intersection g g' ≠ []) (ho : o.avoidNewSelfIntersects = true)
    (hav : ∀ h ∈ handles, (env.inst h).opts.avoidNewSelfIntersects = true) (hj : fcJunctions env handles o.planarSelf = .ok js)
    (hs : simplifyInstances env idsOf js fuel handles dirty = .ok (outs, d)) (hap : RangesApart env pts outs handles)
    (hr : simplifyFeatureClass env ids idsOf handles o dirty fuel = .ok res) {x y : Int × Out P C EReal} (hxr : x ∈ res) (hyr : y ∈ res) {i j k l : Int}
    (hij : Consecutive x.2.simple i j) (hkl : Consecutive y.2.simple k l) (hne : (x.1, i, j) ≠ (y.1, k, l))
    (hst : Collinear ℝ {z | z ∈ places pos (pts x.1) i j} ↔ Collinear ℝ {z | z ∈ places pos (pts y.1) k l})
    (hm : (chordSet (places pos (pts x.1) i j) ∩ chordSet (places pos (pts y.1) k l)).Nonempty) :
    (lineSet (places pos (pts x.1) i j) ∩ lineSet (places pos (pts y.1) k l)).Nonempty := by
  by_cases hcol : Collinear ℝ {z | z ∈ places pos (pts x.1) i j}
  · obtain ⟨z, h1, h2⟩ := hm
    exact ⟨z, chord_subset_of_collinear hcol h1, chord_subset_of_collinear (hst.1 hcol) h2⟩
  have hcol' := fun h => hcol (hst.2 h)
  obtain ⟨hfst, js', hj', hfr⟩ := fc_result hc hr
  have hfind : ∀ {x : Int × Out P C EReal}, x ∈ res → ∀ {i j : Int}, Consecutive x.2.simple i j →
      ∃ a ∈ x.2.hulls, Known env pts [x.1] a ∧ a.inst = x.1 ∧ i = a.range.I ∧ j = a.range.J := by
    intro x hxr i j hij
    have hf := hfr x hxr
    have hh : x.1 ∈ handles := by rw [← hfst]; exact List.mem_map.2 ⟨x, hxr, rfl⟩
    obtain ⟨src, ids', g, hp⟩ := hf.pieces
    obtain ⟨rs, hch, hnil, e1, hrs⟩ := pieces_chain (hc.inst _ hh) hp
    rw [hf.simple, e1] at hij
    obtain ⟨r, hrm, rfl, rfl⟩ := consecutive_chain rs _ _ hch hij
    obtain ⟨a, ha, rfl⟩ := hrs r hrm
    exact ⟨a, ha, hp.known ha, by simpa using (hp.known ha).inst, rfl, rfl⟩
  obtain ⟨a, ha, ka, ia, rfl, rfl⟩ := hfind hxr hij
  obtain ⟨b, hb, kb, ib, rfl, rfl⟩ := hfind hyr hkl
  have hab : a ≠ b := fun e => hne (by rw [← ia, ← ib, e])
  obtain ⟨-, a2, a3, -, -⟩ := hx.known ka
  obtain ⟨-, b2, b3, -, -⟩ := hx.known kb
  have := C78_crossing_partial hc ho hav hx.eqLike_refl (fun h _ h' _ => hx.crossLaws heps h0 (pts h) (pts h'))
    (fun _ _ _ _ _ _ _ _ _ _ _ _ _ _ g g' _ _ => hcut g g') hj hs hap hr hxr hyr ha hb hab (hx.proper ka (by rw [ia]; exact hcol))
    (hx.proper kb (by rw [ib]; exact hcol')) (by rw [hx.intersects, a3, b3]; exact hm)
  rwa [hx.intersects, a2, b2] at this

end
end Planar

/-! ### concrete case in the real plane -/

namespace Planar

/-- the pieces of a result lie on their features -/
theorem occurs_bounds {P C : Type} {env : Env P C EReal ℝ} {pts : Int → List P} {ids : Nat → Int} {idsOf : Int → Nat → Int} {handles : List Int}
    (hc : ClassOK env pts ids idsOf handles) {o : Opts ℝ} {dirty d : Int → Bool} {fuel : Nat} {js : List (Int × Int)} {outs : List (Int × Out P C EReal)}
    (hj : fcJunctions env handles o.planarSelf = .ok js) (hs : simplifyInstances env idsOf js fuel handles dirty = .ok (outs, d)) {h i j : Int}
    (ho : Occurs env pts outs h i j) : 0 ≤ i ∧ i < j ∧ j < (pts h).length := by
  obtain ⟨js', j1, -, -, j2⟩ := fcJunctions_ok hc.lnrOK hc.inst hc.distinct o.planarSelf
  rw [hj] at j1; cases j1
  obtain ⟨outs', d1, y1, r1, r2⟩ := simplifyInstances_yields hc.envOK hc.lnrOK (js := js) handles dirty hc.inst hc.streams.each j2
  have : (outs, d) = (outs', d1) := Mono.val (f := fun fuel => simplifyInstances env idsOf js fuel handles dirty)
    (fun n => simplifyInstances_le env idsOf js n handles dirty) hs y1
  cases this
  have hh : ∀ {h : Int} {out : Out P C EReal}, (h, out) ∈ outs → h ∈ handles := fun hx => by rw [← r1]; exact List.mem_map.2 ⟨_, hx, rfl⟩
  have key : h ∈ handles ∧ 0 ≤ i ∧ i < j ∧ j < (pts h).length := by
    induction ho with
    | first hx hn =>
      obtain ⟨g, hp⟩ := (r2 _ hx).pieces
      have hk := hp.known hn
      have hin := List.mem_singleton.1 hk.inst
      have hi := hk.hi
      rw [hin] at hi
      exact ⟨hh hx, hk.lo, hk.lt, hi⟩
    | left _ hlt hsc ih =>
      obtain ⟨h1, h2, h3, h4⟩ := ih
      obtain ⟨k', v', sk, k0, k1⟩ := (hc.inst _ h1).score _ _ h2 hlt h4
      rw [hsc] at sk; cases sk
      exact ⟨h1, h2, by omega, by omega⟩
    | right _ hlt hsc ih =>
      obtain ⟨h1, h2, h3, h4⟩ := ih
      obtain ⟨k', v', sk, k0, k1⟩ := (hc.inst _ h1).score _ _ h2 hlt h4
      rw [hsc] at sk; cases sk
      exact ⟨h1, by omega, by omega, h4⟩
  exact key.2

/-- a bump, and a line that starts far away and ends under the bump -/
noncomputable def hook : List ℂ := [⟨100, 100⟩, ⟨101, 101⟩, ⟨100, -100⟩, ⟨5, -1⟩]
noncomputable def cap : List ℂ := [⟨0, 0⟩, ⟨5, 2⟩, ⟨10, 0⟩]
noncomputable def hookLines : Int → Demo.Line ℂ Region ℝ := fun h => if h = 1 then ⟨cap, [], bumpOpts⟩ else ⟨hook, [], bumpOpts⟩

theorem hookLines_opts (h : Int) : (hookLines h).opts = bumpOpts := by unfold hookLines; split_ifs <;> rfl

/-- replacing both by single segments would create a crossing -/
example : (chordSet (places id cap 0 2) ∩ chordSet (places id hook 0 3)).Nonempty ∧ ¬ (lineSet (places id cap 0 2) ∩ lineSet (places id hook 0 3)).Nonempty := by
  constructor
  · refine ⟨⟨5 + 95 / 101, 0⟩, ⟨⟨0, 0⟩, ⟨10, 0⟩, rfl, rfl, ⟨1 - 600 / 1010, 600 / 1010, by norm_num, by norm_num, by norm_num, ?_⟩⟩,
      ⟨⟨100, 100⟩, ⟨5, -1⟩, rfl, rfl, ⟨1 / 101, 100 / 101, by norm_num, by norm_num, by norm_num, ?_⟩⟩⟩ <;>
    · apply Complex.ext <;> simp <;> norm_num
  · rintro ⟨z, h1, h2⟩
    have c1 : z ∈ {w : ℂ | w.re ≤ 10} ∩ {w : ℂ | 0 ≤ w.im} := by
      refine convexHull_min ?_ ((convex_halfSpace_re_le 10).inter (convex_halfSpace_im_ge 0)) (lineSet_subset_hullSet _ h1)
      intro w hw
      simp [places, between, cap] at hw
      rcases hw with rfl | rfl | rfl <;> constructor <;> simp <;> norm_num
    simp only [Set.mem_inter_iff, Set.mem_ofPred_eq] at c1
    have c2 : lineSet (places id hook 0 3) ⊆ {w : ℂ | 100 ≤ w.re} ∪ {w : ℂ | w.im ≤ -1} := by
      simp only [places, between, hook]
      rw [show ((3 : Int) + 1 - 0).toNat = 4 from rfl]
      simp only [Int.toNat_zero, List.drop_zero, List.take_succ_cons, List.take_zero, List.map_cons, List.map_nil, id, lineSet]
      refine Set.union_subset ?_ (Set.union_subset ?_ (Set.union_subset ?_ ?_))
      · exact ((convex_halfSpace_re_ge 100).segment_subset (by simp) (by simp; norm_num)).trans Set.subset_union_left
      · exact ((convex_halfSpace_re_ge 100).segment_subset (by simp; norm_num) (by simp)).trans Set.subset_union_left
      · exact ((convex_halfSpace_im_le (-1)).segment_subset (by simp) (by simp)).trans Set.subset_union_right
      · rintro w rfl; right; simp
    rcases c2 h2 with h | h
    · simp only [Set.mem_ofPred_eq] at h; linarith [c1.1]
    · simp only [Set.mem_ofPred_eq] at h; linarith [c1.2]

theorem hook_class : ClassOK (exactEnv hookLines) (fun h => (hookLines h).pts) (fun n => 3 * n) (fun h n => 3 * n + h) [1, 2] where
  envOK := exactEnv_ok
  lnrOK := exactLnr_ok (lines := hookLines)
  inst h _ := exactInst_ok (by unfold hookLines; split_ifs <;> simp [cap, hook]) (by rw [hookLines_opts]; simp [bumpOpts, Fl.fin_le_fin])
  nodup := by decide
  distinct _ _ _ _ h := h
  streams := ⟨fun a b h => by simpa using h, fun h _ a b e => by simpa using e,
    fun a ha b hb hab k l e => by simp at ha hb; omega, fun a ha k l e => by simp at ha; omega⟩

/-- the bump and the beginning of the other line are far from each other -/
theorem hook_far {g g' : Geo ℂ Region} (hg : hullGeometry (exactLib.convexHull (Coords.sub cap 0 2)) = .ok g)
    (hg' : hullGeometry (exactLib.convexHull (Coords.sub hook 0 2)) = .ok g') :
    (exactLib.bounds g).intersects (exactLib.bounds g') = false ∧ (exactLib.bounds g').intersects (exactLib.bounds g) = false := by
  have sh : ∀ (l : List ℂ) (g : Geo ℂ Region), 2 < l.length → hullGeometry (exactLib.convexHull (Coords.sub l 0 2)) = .ok g → shapeOf g = hullSet (places id l 0 2) := by
    intro l g hl hg
    have hw := wellIndexed_sub (pts := l) (i := 0) (j := 2) le_rfl (by omega)
    have hp := points_sub l (i := 0) (j := 2) le_rfl (by omega) (by omega)
    obtain ⟨g₁, e₁, s₁⟩ := exactLib_exact.hull_shape hw (by rw [hp]; exact between_ne_nil le_rfl (by omega) (by omega))
    rw [hg] at e₁
    cases e₁
    rw [hp] at s₁
    exact s₁
  have s1 := sh cap g (by simp [cap]) hg
  have s2 := sh hook g' (by simp [hook]) hg'
  have n1 : (exactLib.bounds g).maxX ≤ ((10 : ℝ) : EReal) := by
    show (leastBox (shapeOf g)).maxX ≤ _
    rw [s1]
    simp only [leastBox, iSup_le_iff, EReal.coe_le_coe_iff]
    intro z hz
    refine convexHull_min ?_ (convex_halfSpace_re_le 10) hz
    intro w hw
    simp [places, between, cap] at hw
    rcases hw with rfl | rfl | rfl <;> norm_num
  have n2 : ((100 : ℝ) : EReal) ≤ (exactLib.bounds g').minX := by
    show _ ≤ (leastBox (shapeOf g')).minX
    rw [s2]
    simp only [leastBox, le_iInf_iff, EReal.coe_le_coe_iff]
    intro z hz
    refine convexHull_min ?_ (convex_halfSpace_re_ge 100) hz
    intro w hw
    simp [places, between, hook] at hw
    rcases hw with rfl | rfl | rfl <;> norm_num
  have lt : (exactLib.bounds g).maxX < (exactLib.bounds g').minX := lt_of_le_of_lt n1 (lt_of_lt_of_le (by rw [EReal.coe_lt_coe_iff]; norm_num) n2)
  constructor <;>
  · rw [Bool.eq_false_iff]
    intro h
    simp [Box.intersects] at h
    exact absurd lt (not_lt.2 (by tauto))

theorem hook_apart {fuel : Nat} {outs : List (Int × Out ℂ Region EReal)} {d : Int → Bool}
    (hs : simplifyInstances (exactEnv hookLines) (fun h n => 3 * n + h) [] fuel [1, 2] (fun _ => false) = .ok (outs, d)) :
    RangesApart (exactEnv hookLines) (fun h => (hookLines h).pts) outs [1, 2] := by
  intro a ha b hb c hc i j k l oa ob oc h1 h2 t1 t2
  have bd := fun {h i j : Int} => occurs_bounds (h := h) (i := i) (j := j) hook_class (o := bumpOpts) (js := []) rfl hs
  have ba := bd oa
  have bb := bd ob
  have bc := bd oc
  have l1 : (hookLines 1).pts = cap := rfl
  have l2 : (hookLines 2).pts = hook := rfl
  have key : ∀ a k l i j, a ∈ [(1 : Int), 2] → Occurs (exactEnv hookLines) (fun h => (hookLines h).pts) outs a k l →
      Occurs (exactEnv hookLines) (fun h => (hookLines h).pts) outs 1 i j → Occurs (exactEnv hookLines) (fun h => (hookLines h).pts) outs 2 i j → k + 1 < l → i + 1 < j →
      Touches (exactEnv hookLines) (fun h => (hookLines h).pts) a k l 1 i j → Touches (exactEnv hookLines) (fun h => (hookLines h).pts) a k l 2 i j → False := by
    intro a k l i j ha oa o1 o2 h1 h2 t1 t2
    have ba := bd oa
    have b1 := bd o1
    simp only [l1, cap, List.length_cons, List.length_nil] at b1
    have hi : i = 0 := by omega
    have hj : j = 2 := by omega
    subst hi hj
    simp only [List.mem_cons, List.not_mem_nil, or_false] at ha
    rcases ha with rfl | rfl
    · simp only [l1, cap, List.length_cons, List.length_nil] at ba
      have hk : k = 0 := by omega
      have hl : l = 2 := by omega
      subst hk hl
      rcases t2 with ⟨h, -⟩ | ⟨-, g, g', e1, e2, e3, -⟩
      · exact absurd h (by decide)
      · have := (hook_far e1 e2).1
        rw [show exactLib = (exactEnv hookLines).lib from rfl, e3] at this
        cases this
    · simp only [l2, hook, List.length_cons, List.length_nil] at ba
      rcases t2 with ⟨-, hk, hl⟩ | ⟨h, -⟩
      · subst hk hl
        rcases t1 with ⟨h, -⟩ | ⟨-, g, g', e1, e2, e3, -⟩
        · exact absurd h (by decide)
        · have := (hook_far e2 e1).2
          rw [show exactLib = (exactEnv hookLines).lib from rfl, e3] at this
          cases this
      · have := h rfl
        omega
  simp only [List.mem_cons, List.not_mem_nil, or_false] at hb hc
  rcases hb with rfl | rfl <;> rcases hc with rfl | rfl
  · rfl
  · exact (key a k l i j ha oa ob oc h1 h2 t1 t2).elim
  · exact (key a k l i j ha oa oc ob h1 h2 t2 t1).elim
  · rfl

/-- the whole program on this class -/
example : ∃ fuel res, simplifyFeatureClass (exactEnv hookLines) (fun n => 3 * n) (fun h n => 3 * n + h) [1, 2] bumpOpts (fun _ => false) fuel = .ok res ∧
    ∀ x ∈ res, ∀ y ∈ res, ∀ i j k l, Consecutive x.2.simple i j → Consecutive y.2.simple k l → (x.1, i, j) ≠ (y.1, k, l) →
      (Collinear ℝ {z | z ∈ places id (hookLines x.1).pts i j} ↔ Collinear ℝ {z | z ∈ places id (hookLines y.1).pts k l}) →
      (chordSet (places id (hookLines x.1).pts i j) ∩ chordSet (places id (hookLines y.1).pts k l)).Nonempty →
      (lineSet (places id (hookLines x.1).pts i j) ∩ lineSet (places id (hookLines y.1).pts k l)).Nonempty := by
  obtain ⟨res, N, hN⟩ := C15_terminates hook_class bumpOpts (fun _ => false)
  have hr := hN N le_rfl
  have hs := hr
  simp only [simplifyFeatureClass, Res.bind_eq_ok] at hs
  obtain ⟨js, hj, ⟨outs, d⟩, hs, -⟩ := hs
  cases hj
  exact ⟨N, res, hr, fun x hx y hy i j k l h1 h2 h3 h4 h5 => C78_no_new_crossing_partial (e := 0) hook_class exactLib_exact rfl le_rfl exactLib_cut rfl
    (fun h _ => by show (hookLines h).opts.avoidNewSelfIntersects = true; rw [hookLines_opts]; rfl) rfl hs (hook_apart hs) hr hx hy h1 h2 h3 h4 h5⟩

end Planar

end Verif
