import Verif.Demo.Plane
import Verif.Props.C07_Tolerance

/-! C31, C33, C35: promises about constrained output that the code does not keep, with concrete plane witnesses, and what holds of them. -/

set_option linter.unusedSectionVars false

namespace Verif

/-- C31 refuted.  The line (0,0) (10,0) (5,0) passes through the constraint point (8,0), its simplification (0,0) (5,0) does not: a piece whose hull has two
corners is not validated.  (C30 is the positive statement for all other pieces.) -/
theorem C31_refuted : ∃ (l : Demo.Line Plane.Pt (List Plane.Pt) ℚ) (out : Out Plane.Pt (List Plane.Pt) Plane.Bx) (d : Int → Bool),
    2 ≤ l.pts.length ∧ l.opts.geomRelation = true ∧ Plane.run l [] = .ok (out, d) ∧
    ∃ nd ∈ out.hulls, ∃ g ∈ l.ctx, Plane.lib.intersects (.line nd.coords) (.ctx g) = true ∧ Plane.lib.intersects (.seg nd.coords) (.ctx g) = false := by
  refine ⟨⟨[(0, 0), (10, 0), (5, 0)], [[(8, 0)]], { Plane.opts 5 0 with geomRelation := true }⟩, ?_⟩
  have h : (match Plane.run ⟨[(0, 0), (10, 0), (5, 0)], [[(8, 0)]], { Plane.opts 5 0 with geomRelation := true }⟩ [] with
      | .ok (out, _) => decide (∃ nd ∈ out.hulls, ∃ g ∈ [[((8 : ℚ), (0 : ℚ))]], Plane.lib.intersects (.line nd.coords) (.ctx g) = true ∧
          Plane.lib.intersects (.seg nd.coords) (.ctx g) = false)
      | _ => false) = true := by decide +kernel
  split at h
  · rename_i out d e
    exact ⟨out, d, by decide, rfl, e, of_decide_eq_true h⟩
  · cases h

/-- the line of C33: a spike (vertices 0 to 2), and a part (vertices 5 to 9) that goes round the tip of the spike; a constraint point on the spike -/
def spikeLine : Demo.Line Plane.Pt (List Plane.Pt) ℚ :=
  ⟨[(0, 0), (5, 2), (10, 0), (10, -50), (50, -50), (50, 1), (13, 1), (13, 3), (-3, 3), (-3, 1)], [[(5/4, 1/2)]],
    { Plane.opts 3 0 with geomRelation := true, avoidNewSelfIntersects := true }⟩

/-- C33 refuted.  With `avoid_new_self_intersects` on, two output segments cross although the parts of the line they replace do not meet: the spike is split
because of the constraint into two single segments, which are not checked, and the other piece is not checked again. -/
theorem C33_refuted : ∃ (l : Demo.Line Plane.Pt (List Plane.Pt) ℚ) (out : Out Plane.Pt (List Plane.Pt) Plane.Bx) (d : Int → Bool),
    2 ≤ l.pts.length ∧ l.opts.avoidNewSelfIntersects = true ∧ Plane.run l [] = .ok (out, d) ∧
    ∃ x ∈ out.hulls, ∃ y ∈ out.hulls, Plane.lib.intersects (.seg x.coords) (.seg y.coords) = true ∧
      Plane.lib.intersects (.line x.coords) (.line y.coords) = false := by
  refine ⟨spikeLine, ?_⟩
  have h : (match Plane.run spikeLine [] with
      | .ok (out, _) => decide (∃ x ∈ out.hulls, ∃ y ∈ out.hulls, Plane.lib.intersects (.seg x.coords) (.seg y.coords) = true ∧
          Plane.lib.intersects (.line x.coords) (.line y.coords) = false)
      | _ => false) = true := by decide +kernel
  split at h
  · rename_i out d e
    exact ⟨out, d, by decide, rfl, e, of_decide_eq_true h⟩
  · cases h

/-- the line of C35: the constraint point lies on its last segment -/
def backLine : Demo.Line Plane.Pt (List Plane.Pt) ℚ :=
  ⟨[(0, 0), (100, 1/2), (10, 1), (100, 0)], [[(55, 1/2)]], { Plane.opts 1 0 with geomRelation := true }⟩

/-- C35 refuted.  A constraint splits an accepted piece at its farthest vertex; the parts are not measured again.  A dropped vertex is farther from the segment
that replaces it than the threshold allows (squared distances). -/
theorem C35_refuted : ∃ (l : Demo.Line Plane.Pt (List Plane.Pt) ℚ) (out : Out Plane.Pt (List Plane.Pt) Plane.Bx) (d : Int → Bool),
    2 ≤ l.pts.length ∧ Plane.run l [] = .ok (out, d) ∧
    ∃ nd ∈ out.hulls, ∃ t : Nat, nd.range.I < t ∧ t < nd.range.J ∧ ∃ a b p, l.pts[nd.range.I.toNat]? = some a ∧ l.pts[nd.range.J.toNat]? = some b ∧
      l.pts[t]? = some p ∧ l.opts.sqThreshold.lt (.fin (Plane.ptSeg a b p)) = true := by
  refine ⟨backLine, ?_⟩
  have h : (match Plane.run backLine [] with
      | .ok (out, _) => decide (∃ nd ∈ out.hulls, ∃ t ∈ List.range 4, nd.range.I < (t : Int) ∧ (t : Int) < nd.range.J ∧
          (match backLine.pts[nd.range.I.toNat]?, backLine.pts[nd.range.J.toNat]?, backLine.pts[t]? with
            | some a, some b, some p => backLine.opts.sqThreshold.lt (.fin (Plane.ptSeg a b p))
            | _, _, _ => false) = true)
      | _ => false) = true := by decide +kernel
  split at h
  · rename_i out d e
    obtain ⟨nd, hnd, t, -, h1, h2, h3⟩ := of_decide_eq_true h
    refine ⟨out, d, by decide, e, nd, hnd, t, h1, h2, ?_⟩
    split at h3
    · rename_i a b p ha hb hp
      exact ⟨a, b, p, ha, hb, hp, h3⟩
    · cases h3
  · cases h

section
variable {P C B K : Type} [LinearOrder B] [BoundedOrder B] [LinearOrder K]
variable {env : Env P C B K} {pts : Int → List P} {ids : Nat → Int} {h : Int} {cv : List Int} {dirty d : Int → Bool} {out : Out P C B} {fuel : Nat}

/-- no constraint is switched on -/
def Unconstrained (o : Opts K) : Prop :=
  o.planarSelf = false ∧ o.avoidNewSelfIntersects = false ∧ o.geomRelation = false ∧ o.distRelation = false ∧ o.dirRelation = false

theorem hullSelections_off {db : Db P C B} {nd : Node P C B} (ho : Unconstrained (env.inst nd.inst).opts) (dirty : Int → Bool) (fuel : Nat) :
    hullSelections env dirty db nd fuel = .ok [] := by
  obtain ⟨-, h2, h3, h4, h5⟩ := ho
  unfold hullSelections
  split_ifs
  · rfl
  · rfl
  · simp [fcSelections, h2, ctxSelections, notSelected, validateContextRelation, h3, h4, h5]

theorem findDeformable_off {db : Db P C B} {l : List (Node P C B)} (ho : ∀ x ∈ l, Unconstrained (env.inst x.inst).opts) (dirty : Int → Bool) (fuel : Nat) :
    findDeformable env dirty l db fuel = .ok [] := by
  have : selectionsOf env dirty db fuel l = .ok [] := by
    induction l with
    | nil => rfl
    | cons x l ih =>
      simp only [selectionsOf, hullSelections_off (ho x (by simp)), ih (fun y hy => ho y (List.mem_cons_of_mem _ hy)), Res.ok_bind, Res.pure_eq, List.append_nil]
  simp [findDeformable, this, dedupId]

/-- every piece of an unconstrained run is accepted by the relation -/
theorem unconstrained_accepted (he : EnvOK env) (hi : InstOK env h (pts h)) (hinj : Function.Injective ids) (ho : Unconstrained (env.inst h).opts)
    (hr : simplify env ids h cv dirty fuel = .ok (out, d)) : ∀ x ∈ out.hulls, Accepted env pts x ∧ Known env pts [h] x := by
  obtain ⟨h0, g0, ⟨N0, e0⟩, p0, acc0⟩ := decompose_yields hi hinj
  obtain ⟨d2, ⟨N2, e2⟩, w2, q2⟩ := DbOK.new.load he h0
  rw [contents_new, List.nil_append] at q2
  obtain ⟨d4, g4, ⟨N4, e4⟩, w4, hg4, p4, -, acc4, -⟩ := aggregate_yields he hi hinj [] w2 (p0.perm q2.symm)
  obtain ⟨out', ⟨N5, e5⟩, q5⟩ := Hdb.all_yields w4.wf
  have hy : Yields (simplify env ids h cv dirty) (⟨out', simpleSet out'⟩, markClean (markDirty dirty h) h) := by
    refine ⟨max N0 (max N2 (max N4 N5)) + 1, fun fuel hf => ?_⟩
    obtain ⟨fuel, rfl⟩ : ∃ f, fuel = f + 1 := ⟨fuel - 1, by omega⟩
    have e3 : deformLoop env ids (fuel + 1) h0 ⟨d2, g0, markDirty dirty h⟩ = .ok ⟨d2, g0, markDirty dirty h⟩ := by
      unfold deformLoop
      rw [findDeformable_off (fun x hx => by rw [List.mem_singleton.1 (p0.known hx).inst]; exact ho)]
      split_ifs <;> simp
    simp only [simplify, e0 (fuel + 1) (by omega), toSelfIntersects, ho.1, Bool.not_false, if_true, e2 (fuel + 1) (by omega), e3, e4 (fuel + 1) (by omega),
      e5 (fuel + 1) (by omega), Res.ok_bind, Res.pure_eq]
  have := ((simplify_le env ids h cv dirty).yields hr).unique hy
  cases this
  intro x hx
  refine ⟨?_, p4.known (q5.mem_iff.1 hx)⟩
  rcases acc4 x (q5.mem_iff.1 hx) with h1 | h1
  · exact acc0 x (q2.mem_iff.1 h1)
  · exact h1

/-- C35, the part that holds: without any constraint switched on, every vertex dropped by `Simplify` is within the threshold of the segment replacing it (or its
distance is not a number).  Missing: runs in which a constraint splits a piece, refuted above. -/
theorem C35_tolerance_partial [Zero K] (he : EnvOK env) (hi : InstOK env h (pts h)) (hinj : Function.Injective ids) (ho : Unconstrained (env.inst h).opts)
    {distFn : P → P → P → Fl K} {bound : Fl K} (hsc : (env.inst h).scoreFn = maxOffset distFn) (hrel : (env.inst h).rel = scoreRelation bound)
    (hr : simplify env ids h cv dirty fuel = .ok (out, d)) :
    ∀ nd ∈ out.hulls, ∀ t : Nat, nd.range.I < t → t < nd.range.J → ∀ a b p,
      (pts h)[nd.range.I.toNat]? = some a → (pts h)[nd.range.J.toNat]? = some b → (pts h)[t]? = some p →
      distFn a b p ≠ .nan → (distFn a b p).le bound = true := by
  intro nd hnd t h1 h2 a b p ha hb hp hn
  obtain ⟨⟨k, v, hs, hv⟩, hk⟩ := unconstrained_accepted he hi hinj ho hr nd hnd
  have hins : nd.inst = h := List.mem_singleton.1 hk.inst
  rw [hins] at hs hv
  rw [hsc] at hs
  rw [hrel] at hv
  have hhi := hk.hi
  rw [hins] at hhi
  exact maxOffset_interior_le distFn (pts h) hk.lo hhi h1 h2 hs hv ha hb (by simpa using hp) hn

end

/-- the concrete case beside C35: the same line without the constraint is replaced by one segment, and the vertices dropped are within the threshold -/
example : Plane.result (Plane.run { backLine with opts := Plane.opts 1 0 } []) = ([(0, 3)], [0, 3]) := by decide +kernel

example (out : Out Plane.Pt (List Plane.Pt) Plane.Bx) (d : Int → Bool) (hr : Plane.run { backLine with opts := Plane.opts 1 0 } [] = .ok (out, d)) :
    ∀ nd ∈ out.hulls, ∀ t : Nat, nd.range.I < t → t < nd.range.J → ∀ a b p, backLine.pts[nd.range.I.toNat]? = some a →
      backLine.pts[nd.range.J.toNat]? = some b → backLine.pts[t]? = some p → Plane.ptSeg a b p ≤ 1 := by
  intro nd hnd t h1 h2 a b p ha hb hp
  have := C35_tolerance_partial (pts := fun _ => backLine.pts) (distFn := fun a b p => .fin (Plane.ptSeg a b p)) (bound := .fin (1 * 1))
    (Plane.env_ok (lines := fun _ => { backLine with opts := Plane.opts 1 0 })) (Plane.inst_ok (by decide) (by decide +kernel)) (fun a b h => by simpa using h)
    ⟨rfl, rfl, rfl, rfl, rfl⟩ rfl rfl hr nd hnd t h1 h2 a b p ha hb hp (by simp)
  simpa using this

end Verif
