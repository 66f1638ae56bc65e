import Verif.Props.C73_Deformation

/-! C76: vertices at which a line meets itself, in the plane. -/

set_option linter.unusedSectionVars false

namespace Verif
namespace Planar

section
variable {P C : Type} {pos : P → ℂ} {region : C → Set ℂ} {env : Env P C EReal ℝ} {pts : Int → List P} {h : Int} {τ e : ℝ}
  {ids : Nat → Int} {cv : List Int} {dirty d : Int → Bool} {fuel : Nat} {out : Out P C EReal}

/-- the vertices of a line whose place occurs again, other than at the place that sorts last among the vertices -/
def Revisited (pos : P → ℂ) (ps : List P) (k : Nat) : Prop :=
  ∃ (l : Nat) (p q r : P), k ≠ l ∧ ps[k]? = some p ∧ ps[l]? = some q ∧ pos p = pos q ∧ r ∈ ps ∧ ¬ LexLe (pos r) (pos p)

/-- the ends of two segments of a line that meet at a point which is not an end of both; for segments with a common stretch, at an end of the stretch -/
def Crossed (pos : P → ℂ) (ps : List P) (k : Nat) : Prop :=
  ∃ (a b : Nat) (p p' q q' : P) (z : ℂ), a < b ∧ ps[a]? = some p ∧ ps[a + 1]? = some p' ∧ ps[b]? = some q ∧ ps[b + 1]? = some q' ∧
    z ∈ (segment ℝ (pos p) (pos p') ∩ segment ℝ (pos q) (pos q')).extremePoints ℝ ∧ ¬ ((z = pos p ∨ z = pos p') ∧ (z = pos q ∨ z = pos q')) ∧
    (k = a ∨ k = a + 1 ∨ k = b ∨ k = b + 1)

theorem crossed_report (hl : ExactLnr pos env.lnr) {ps : List P} (h2 : 2 ≤ ps.length) {inters : List (Inter P)}
    (hint : nonPlanarIntersection env.lnr (createPolyline (coordsOf ps)) = .ok inters) {k : Nat} (hk : Crossed pos ps k) :
    ∃ i ∈ inters, (k : Int) ∈ i.nonPlanar := by
  obtain ⟨a, b, p, p', q, q', z, hab, hp, hp', hq, hq', hz, hends, hk⟩ := hk
  obtain ⟨pairs, e, -, hpairs⟩ := C25_nonplanar (lnr := env.lnr) hl.search h2
  rw [hint] at e
  cases e
  have hs : seg ps a = some (p, p') := by simp [seg, hp, hp']
  have ht : seg ps b = some (q, q') := by simp [seg, hq, hq']
  rw [← hl.segSeg] at hz
  obtain ⟨x, hx, hxz⟩ := hz
  have hboth : z ∈ segment ℝ (pos p) (pos p') ∩ segment ℝ (pos q) (pos q') := by
    have : z ∈ (segment ℝ (pos p) (pos p') ∩ segment ℝ (pos q) (pos q')).extremePoints ℝ := by rw [← hl.segSeg]; exact ⟨x, hx, hxz⟩
    exact this.1
  have hm : (a, b) ∈ pairs := by
    refine (hpairs a b).2 ⟨hab, _, _, hs, ht, ?_⟩
    obtain ⟨x1, x2, x3, x4⟩ := (hl.segBox p p' _).1 (Box.le_refl' _) hboth.1
    obtain ⟨y1, y2, y3, y4⟩ := (hl.segBox q q' _).1 (Box.le_refl' _) hboth.2
    rw [Box.intersects_iff]
    exact ⟨y1.trans x2, x1.trans y2, y3.trans x4, x3.trans y4⟩
  have hflag := (hl.flag p p' q q' x hx).2 (by rw [hxz]; exact hends)
  have hrep : (⟨x.1, .nonPlanarVertex, [], sortedIntsSet [(a : Int), a + 1, b, b + 1]⟩ : Inter P) ∈ segReports env.lnr ps (a, b) := by
    simp only [segReports, hs, ht, List.mem_map, List.mem_filter]
    exact ⟨x, ⟨hx, hflag⟩, rfl⟩
  refine ⟨_, List.mem_flatMap.2 ⟨_, hm, hrep⟩, ?_⟩
  have := ((C25_ends env.lnr ps a b _ hrep).2.2 (k : Int)).2 (by omega)
  exact this

/-- C76.  With planar self-intersections preserved, the simplified line keeps every vertex whose place occurs again on the line, except at the place
that sorts last; with non-planar self-intersections preserved as well, it keeps the ends of every two segments that cross. -/
theorem C76_meets_itself (he : EnvOK env) (hl : LnrOK env.lnr) (hi : InstOK env h (pts h)) (hinj : Function.Injective ids)
    (hcv : ∀ i ∈ cv, 0 ≤ i ∧ i < (pts h).length) (hx : Exact pos region env.lib) (hn : ExactLnr pos env.lnr) (hheap : env.heap.Legal (within τ))
    (hτ : 0 ≤ τ ∧ τ ≤ e) (heps : env.eps = .fin e) (hpl : (env.inst h).opts.planarSelf = true) (hr : simplify env ids h cv dirty fuel = .ok (out, d)) :
    (∀ v ∈ cv, v ∈ out.simple) ∧ (∀ k, Revisited pos (pts h) k → (k : Int) ∈ out.simple) ∧
    ((env.inst h).opts.nonPlanarSelf = true → ∀ k, Crossed pos (pts h) k → (k : Int) ∈ out.simple) := by
  have hnear := hx.hullNear (pts := pts) (h := h) hn hheap hτ.1 hτ.2 heps
  obtain ⟨h1, inters, hint, hall⟩ := C12_survive he hl hi hinj hcv hnear hpl hr
  refine ⟨h1, fun k hk => ?_, fun hnp k hk => ?_⟩
  · obtain ⟨top, ht, hco⟩ := C12_coincident he hl hi hinj hcv hnear hpl hr
    obtain ⟨l, p, q, r, hkl, hp, hq, hpq, hrm, hlt⟩ := hk
    refine hco k l p q hkl hp hq ((hx.equals2D p q).2 hpq) ?_
    rw [Bool.eq_false_iff, ne_eq, hx.equals2D]
    intro hpt
    obtain ⟨i, hi', hri⟩ := List.mem_iff_getElem.1 hrm
    refine hlt ?_
    rw [hpt]
    exact hn.top ht (v := ⟨r, i, nullFId⟩) (mem_lineVertices.2 ⟨i, by rw [List.getElem?_eq_getElem hi', hri], rfl, rfl⟩)
  · rw [hi.pln, hnp] at hint
    simp only [selfIntersection, if_true] at hint
    obtain ⟨l1, -, hint⟩ := Res.bind_eq_ok.1 hint
    obtain ⟨l2, hl2, hint⟩ := Res.bind_eq_ok.1 hint
    cases hint
    obtain ⟨i, him, hki⟩ := crossed_report hn hi.two hl2 hk
    exact hall i (List.mem_append_right _ him) k (.inr hki)

/-- C76 for feature classes: where vertices of two lines have the same place both are kept, except at the place that sorts last among all vertices -/
theorem C76_shared {idsOf : Int → Nat → Int} {handles : List Int} {o : Opts ℝ} {res : List (Int × Out P C EReal)}
    (hc : ClassOK env pts ids idsOf handles) (hpl : o.planarSelf = true) (hr : simplifyFeatureClass env ids idsOf handles o dirty fuel = .ok res)
    (hx : Exact pos region env.lib) (hn : ExactLnr pos env.lnr) (hheap : env.heap.Legal (within τ)) (hτ : 0 ≤ τ ∧ τ ≤ e) (heps : env.eps = .fin e)
    {a b c : Int} (hab : a ≠ b) (hb : b ∈ handles) (hcm : c ∈ handles) (ha : (a, out) ∈ res) (hpa : (env.inst a).opts.planarSelf = true) {k l : Nat} {p q r : P}
    (hp : (pts a)[k]? = some p) (hq : (pts b)[l]? = some q) (hpq : pos p = pos q) (hrm : r ∈ pts c) (hlt : ¬ LexLe (pos r) (pos p)) : (k : Int) ∈ out.simple := by
  have hnear := hx.hullNear (pts := pts) (h := a) hn hheap hτ.1 hτ.2 heps
  have hrv : ∃ i, (⟨r, (i : Nat), (env.inst c).id⟩ : Vtx P) ∈ classOf env pts handles := by
    obtain ⟨i, hi', hri⟩ := List.mem_iff_getElem.1 hrm
    refine ⟨i, ?_⟩
    simp only [classOf, classVertices, List.mem_flatMap, List.mem_map]
    exact ⟨_, ⟨c, hcm, rfl⟩, mem_lineVertices.2 ⟨i, by rw [List.getElem?_eq_getElem hi', hri], rfl, rfl⟩⟩
  obtain ⟨i, hrv⟩ := hrv
  have hne : env.lnr.sortV (classOf env pts handles) ≠ [] := by
    intro hn'
    have := (hn.perm (classOf env pts handles)).mem_iff.2 hrv
    rw [hn'] at this
    cases this
  obtain ⟨top, ht⟩ : ∃ top, (env.lnr.sortV (classOf env pts handles)).getLast? = some top := by
    rw [List.getLast?_eq_some_getLast hne]; exact ⟨_, rfl⟩
  refine C13_shared hc hpl hr hab hb ha hnear hpa hp hq ((hx.equals2D p q).2 hpq) ht ?_
  rw [Bool.eq_false_iff, ne_eq, hx.equals2D]
  intro hpt
  refine hlt ?_
  rw [hpt]
  exact hn.top ht hrv

end

/-! ### concrete case: a line that crosses itself and comes back to its second vertex -/

/-- (0,0), (4,0), (2,2), (2,-2), (4,0), (6,0): the third segment crosses the first at (2,0), vertices 1 and 4 coincide -/
def loop : List ℂ := [⟨0, 0⟩, ⟨4, 0⟩, ⟨2, 2⟩, ⟨2, -2⟩, ⟨4, 0⟩, ⟨6, 0⟩]

theorem loop_revisited : Revisited id loop 1 := by
  refine ⟨4, ⟨4, 0⟩, ⟨4, 0⟩, ⟨6, 0⟩, by decide, rfl, rfl, rfl, by simp [loop], ?_⟩
  simp only [LexLe, id]
  norm_num

theorem loop_crossed : Crossed id loop 2 := by
  refine ⟨0, 2, ⟨0, 0⟩, ⟨4, 0⟩, ⟨2, 2⟩, ⟨2, -2⟩, ⟨2, 0⟩, by decide, rfl, rfl, rfl, rfl, ?_, ?_, by simp⟩
  · have hi : segment ℝ (⟨0, 0⟩ : ℂ) ⟨4, 0⟩ ∩ segment ℝ ⟨2, 2⟩ ⟨2, -2⟩ = {⟨2, 0⟩} := by
      ext z
      constructor
      · rintro ⟨⟨s, t, -, -, -, rfl⟩, s', t', -, -, hst, e⟩
        have h1 := congrArg Complex.re e
        have h2 := congrArg Complex.im e
        simp only [Complex.add_re, Complex.real_smul, Complex.mul_re, Complex.ofReal_re, Complex.ofReal_im, Complex.add_im, Complex.mul_im] at h1 h2
        rw [Set.mem_singleton_iff]
        apply Complex.ext
        · simp only [Complex.add_re, Complex.real_smul, Complex.mul_re, Complex.ofReal_re, Complex.ofReal_im]
          linarith
        · simp only [Complex.real_smul, Complex.ofReal_re, Complex.ofReal_im, Complex.add_im, Complex.mul_im]
          linarith
      · rintro rfl
        refine ⟨⟨1 / 2, 1 / 2, by norm_num, by norm_num, by norm_num, ?_⟩, ⟨1 / 2, 1 / 2, by norm_num, by norm_num, by norm_num, ?_⟩⟩ <;>
        · apply Complex.ext <;> simp <;> norm_num
    simp only [id]
    rw [hi, extremePoints_singleton]
    rfl
  · simp only [id, Complex.ext_iff]
    norm_num

noncomputable def loopOpts : Opts ℝ :=
  { threshold := .fin 5, sqThreshold := .fin 25, minDist := .fin 0, nonPlanarDisplacement := .fin 1, planarSelf := true,
    nonPlanarSelf := true, avoidNewSelfIntersects := false, geomRelation := false, distRelation := false, dirRelation := false }

noncomputable def loopLine : Demo.Line ℂ Region ℝ := ⟨loop, [], loopOpts⟩

/-- the whole program on this line keeps the crossing and the returning vertices -/
example : ∃ fuel out d, simplify (exactEnv (fun _ => loopLine)) (fun n => n) 0 [3] (fun _ => false) fuel = .ok (out, d) ∧
    (3 : Int) ∈ out.simple ∧ (1 : Int) ∈ out.simple ∧ (2 : Int) ∈ out.simple := by
  have he := exactEnv_ok (lines := fun _ => loopLine)
  have hl := exactLnr_ok (lines := fun _ => loopLine)
  have hi : InstOK (exactEnv (fun _ => loopLine)) 0 ((fun _ => loop) (0 : Int)) :=
    exactInst_ok (lines := fun _ => loopLine) (h := 0) (by simp [loopLine, loop]) (by simp [loopLine, loopOpts, Fl.fin_le_fin])
  have hinj : Function.Injective (fun n : Nat => (n : Int)) := fun a b h => by simpa using h
  have hcv : ∀ i ∈ [(3 : Int)], 0 ≤ i ∧ i < ((fun _ => loop) (0 : Int)).length := by simp [loop]
  obtain ⟨⟨out, d⟩, N, hy⟩ := C10_terminates (pts := fun _ => loop) (cv := [3]) he hl hi hinj hcv (fun _ => false)
  obtain ⟨h1, h2, h3⟩ := C76_meets_itself (pts := fun _ => loop) (e := 0) (τ := 0) he hl hi hinj hcv exactLib_exact exactLnr_exact
    (exactSetting (lines := fun _ => loopLine) (h := 0) (m := 0) le_rfl rfl).heap ⟨le_rfl, le_rfl⟩ rfl rfl (hy N le_rfl)
  exact ⟨N, out, d, hy N le_rfl, h1 3 (by simp), h2 1 loop_revisited, h3 rfl 2 loop_crossed⟩

end Planar
end Verif
