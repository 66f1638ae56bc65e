import Verif.Demo.Plane
import Verif.Props.C63_Recursive

/-! C66: a larger threshold, or a second run, and the output of the full simplification.  With the merge pass neither the number of
vertices nor the result is monotone; what holds without any constraint is that every vertex kept is one that Douglas–Peucker keeps. -/

set_option linter.unusedSectionVars false

namespace Verif

section
variable {P C B K : Type} [LinearOrder B] [BoundedOrder B] [LinearOrder K]
variable {env : Env P C B K} {pts : Int → List P} {ids : Nat → Int} {h : Int}

/-- Specification: no constraint is switched on. -/
structure Opts.Plain (o : Opts K) : Prop where
  planarSelf : o.planarSelf = false
  avoid : o.avoidNewSelfIntersects = false
  geom : o.geomRelation = false
  dist : o.distRelation = false
  dir : o.dirRelation = false

/-- nothing is selected for deformation when no constraint is switched on -/
theorem selectionsOf_plain (ho : (env.inst h).opts.Plain) (dirty : Int → Bool) (db : Db P C B) (fuel : Nat) :
    ∀ l : List (Node P C B), (∀ x ∈ l, x.inst = h) → selectionsOf env dirty db fuel l = .ok [] := by
  intro l
  induction l with
  | nil => intro _; rfl
  | cons x l ih =>
    intro hl
    have hx : hullSelections env dirty db x fuel = .ok [] := by
      unfold hullSelections
      split_ifs
      · rfl
      · rfl
      · simp [fcSelections, ctxSelections, notSelected, validateContextRelation, hl x (by simp), ho.avoid, ho.geom, ho.dist, ho.dir]
    simp only [selectionsOf, hx, Res.ok_bind, ih (fun y hy => hl y (List.mem_cons_of_mem _ hy)), List.nil_append, Res.pure_eq]

theorem deformLoop_plain (ho : (env.inst h).opts.Plain) (l : List (Node P C B)) (hl : ∀ x ∈ l, x.inst = h) (st : LoopSt P C B) :
    Yields (fun fuel => deformLoop env ids fuel l st) st := by
  refine ⟨1, fun fuel hf => ?_⟩
  obtain ⟨f, rfl⟩ := Nat.exists_eq_add_of_le' hf
  simp only [deformLoop, findDeformable, selectionsOf_plain ho _ _ _ l hl, Res.ok_bind, Res.pure_eq, dedupId, if_true]
  split_ifs <;> rfl

/-- the ends of the pieces are among the indices `E` -/
def EndsIn (E : List Int) (l : List (Node P C B)) : Prop := ∀ x ∈ l, x.range.I ∈ E ∧ x.range.J ∈ E

theorem EndsIn.step {E : List Int} {g g' : Nat} {cvs : List Int} {hull : Node P C B} {o o' l l' : List (Node P C B)}
    (ha : AggOut env pts ids g g' h cvs hull o o' l l') (he : EndsIn E l) : EndsIn E l' := by
  cases ha with
  | keep hb ho => exact fun x hx => he x (hb.mem_iff.1 hx)
  | next nxt m rest db hb ha ho hj hm hd hc hv =>
    intro x hx
    rcases List.mem_cons.1 (ha.mem_iff.1 hx) with rfl | hx
    · rw [hm.range]
      exact ⟨(he hull (hb.mem_iff.2 (by simp))).1, (he nxt (hb.mem_iff.2 (by simp))).2⟩
    · exact he x (hb.mem_iff.2 (by simp [hx]))
  | prev prv m rest out db hb ha ho hi hm hd hc hout hv =>
    intro x hx
    rcases List.mem_cons.1 (ha.mem_iff.1 hx) with rfl | hx
    · rw [hm.range]
      exact ⟨(he prv (hb.mem_iff.2 (by simp))).1, (he hull (hb.mem_iff.2 (by simp))).2⟩
    · exact he x (hb.mem_iff.2 (by simp [hx]))

/-- C66, without constraints.  `Simplify` with every constraint switched off keeps only vertices that the Douglas–Peucker procedure
(`dp.Simplify`) keeps, at the same threshold and at every smaller one.  The full statement (a larger threshold keeps a subset, a
second run changes nothing) is false, see below; it holds for `dp.Simplify` (C64, C65). -/
theorem C66_within_partial (he : EnvOK env) (hi : InstOK env h (pts h)) (hinj : Function.Injective ids)
    (ho : (env.inst h).opts.Plain) {cv : List Int} {dirty : Int → Bool} {fuel : Nat} {out : Out P C B} {d : Int → Bool}
    (hr : simplify env ids h cv dirty fuel = .ok (out, d)) {ids' : Nat → Int} {g' : Nat} {inst' : Int} {small smallSq : Fl K}
    (h1 : small.le (env.inst h).opts.threshold = true) (h2 : smallSq.le (env.inst h).opts.sqThreshold = true) {fuel' : Nat}
    {out' : List Int}
    (hr' : dpSimplify env.lib ids' g' ⟨some (coordsOf (pts h))⟩ (env.inst h).score (env.inst h).square small smallSq inst' fuel' =
      .ok out') : out.simple ⊆ out' := by
  have hi' : ∀ k ∈ [h], InstOK env k (pts k) := by
    intro k hk; rw [List.mem_singleton] at hk; rw [hk]; exact hi
  obtain ⟨h0, g0, ⟨N0, e0⟩, p0, -⟩ := decompose_yields hi hinj
  have hone : ∀ x ∈ h0, x.inst = h := fun x hx => List.mem_singleton.1 (p0.known hx).inst
  obtain ⟨d2, ⟨N2, e2⟩, w2, q2⟩ := DbOK.new.load he h0
  rw [contents_new, List.nil_append] at q2
  obtain ⟨N3, e3⟩ := deformLoop_plain (ids := ids) ho h0 hone ⟨d2, g0, markDirty dirty h⟩
  obtain ⟨d4, g4, ⟨N4, e4⟩, w4, -, p4, -, -, -, sep4⟩ := aggregate_yields he hi hinj [] w2 (p0.perm q2.symm)
  obtain ⟨ol, ⟨N5, e5⟩, q5⟩ := Hdb.all_yields w4.wf
  have hy : Yields (simplify env ids h cv dirty) (⟨ol, simpleSet ol⟩, markClean (markDirty dirty h) h) := by
    refine ⟨max N0 (max N2 (max N3 (max N4 N5))), fun fuel hf => ?_⟩
    have e3 := e3 fuel (by omega)
    simp only [] at e3
    simp only [simplify, e0 fuel (by omega), toSelfIntersects, ho.planarSelf, Bool.not_false, if_true, e2 fuel (by omega), e3,
      e4 fuel (by omega), e5 fuel (by omega), Res.ok_bind, Res.pure_eq]
  have := ((simplify_le env ids h cv dirty).yields hr).unique hy
  cases this
  simp only [dpSimplify] at hr'
  obtain ⟨⟨hulls, g1⟩, e1, hr'⟩ := Res.bind_eq_ok.1 hr'
  simp only [Res.pure_eq, Res.ok.injEq] at hr'
  subst hr'
  have r1 := C63_decompose_recursive _ _ _ _ _ _ _ hi.two _ _ _ e1
  have e0 := e0 N0 (Nat.le_refl _)
  rw [hi.pln, createPolyline_coordsOf hi.two] at e0
  have r2 := C63_decompose_recursive _ _ _ _ _ _ _ hi.two _ _ _ e0
  have hrel : ∀ v, relationOf small smallSq (env.inst h).square v = true → (env.inst h).rel v = true := by
    intro v hv
    unfold Inst.rel
    cases hq : (env.inst h).square with
    | none => rw [hq] at hv; exact Fl.le_trans hv h1
    | some q => rw [hq] at hv; exact Fl.le_trans hv h2
  have hE : EndsIn (simpleSet hulls) h0 := by
    intro x hx
    have := fun y hy => r1.nested hrel r2 y hy
    refine ⟨?_, ?_⟩
    · rw [mem_simpleSet]
      simpa using this x.range.I ⟨x.range, List.mem_map_of_mem hx, .inl rfl⟩
    · rw [mem_simpleSet]
      simpa using this x.range.J ⟨x.range, List.mem_map_of_mem hx, .inr rfl⟩
  have hE4 := sep4 (EndsIn (simpleSet hulls)) (fun _ _ _ _ _ _ _ _ ha hq => hq.step ha) (fun x hx => hE x (q2.mem_iff.1 hx))
  intro y hy
  rw [mem_simpleSet] at hy
  obtain ⟨x, hx, hy⟩ := hy
  have := hE4 x (q5.mem_iff.1 hx)
  rcases hy with rfl | rfl
  · exact this.1
  · exact this.2

end

/-! ### the witnesses, exact plane geometry, all switches off -/

/-- a line of six vertices, simplified with threshold `t` -/
def hookLine (t : ℚ) : Demo.Line Plane.Pt (List Plane.Pt) ℚ := ⟨[(3, 6), (7, 6), (5, 1), (3, 1), (4, 5), (7, 7)], [], Plane.opts t 0⟩

/-- C66 refuted (threshold).  With threshold 7/4 the line keeps four vertices (0 1 3 5), with the larger threshold 2 it keeps five
(0 1 2 4 5): vertices 2 and 4 come back.  At 7/4 the decomposition leaves fragments of one segment, which the merge pass joins with
their neighbours; at 2 it leaves none. -/
theorem C66_refuted_threshold : ∃ (o o' : Out Plane.Pt (List Plane.Pt) Plane.Bx) (d d' : Int → Bool),
    (hookLine (7 / 4)).opts.Plain ∧ (hookLine 2).opts.Plain ∧ Plane.run (hookLine (7 / 4)) [] = .ok (o, d) ∧ Plane.run (hookLine 2) [] = .ok (o', d') ∧
    o.simple.length < o'.simple.length ∧ ¬ o'.simple ⊆ o.simple := by
  have h : (match Plane.run (hookLine (7 / 4)) [], Plane.run (hookLine 2) [] with
      | .ok (o, _), .ok (o', _) => decide (o.simple.length < o'.simple.length ∧ ¬ ∀ x ∈ o'.simple, x ∈ o.simple)
      | _, _ => false) = true := by decide +kernel
  split at h
  · rename_i o d o' d' e e'
    have := of_decide_eq_true h
    exact ⟨o, o', d, d', ⟨rfl, rfl, rfl, rfl, rfl⟩, ⟨rfl, rfl, rfl, rfl, rfl⟩, e, e', this.1, fun hs => this.2 (fun x hx => hs hx)⟩
  · cases h

/-- a line that folds back on itself -/
def foldLine (pts : List Plane.Pt) : Demo.Line Plane.Pt (List Plane.Pt) ℚ := ⟨pts, [], Plane.opts 3 0⟩

/-- C66 refuted (second run).  The first run keeps the vertices 0 1 3 4 of the five; run again on those four it keeps only the first
and the last. -/
theorem C66_refuted_twice : ∃ (o o' : Out Plane.Pt (List Plane.Pt) Plane.Bx) (d d' : Int → Bool),
    Plane.run (foldLine [(7, 0), (2, 4), (2, 0), (6, 0), (1, 7)]) [] = .ok (o, d) ∧ o.simple = [0, 1, 3, 4] ∧
    Plane.run (foldLine [(7, 0), (2, 4), (6, 0), (1, 7)]) [] = .ok (o', d') ∧ o'.simple = [0, 3] := by
  have h : (match Plane.run (foldLine [(7, 0), (2, 4), (2, 0), (6, 0), (1, 7)]) [], Plane.run (foldLine [(7, 0), (2, 4), (6, 0), (1, 7)]) [] with
      | .ok (o, _), .ok (o', _) => decide (o.simple = [0, 1, 3, 4] ∧ o'.simple = [0, 3])
      | _, _ => false) = true := by decide +kernel
  split at h
  · rename_i o d o' d' e e'
    have := of_decide_eq_true h
    exact ⟨o, o', d, d', e, this.1, e', this.2⟩
  · cases h

/-- non-trivial case of `C66_within_partial`: the merge pass drops the vertices 2 and 4 that Douglas–Peucker keeps -/
example : ∃ (o : Out Plane.Pt (List Plane.Pt) Plane.Bx) (d : Int → Bool) (out' : List Int), Plane.run (hookLine (7 / 4)) [] = .ok (o, d) ∧
    dpSimplify Plane.lib (fun n => n) 0 ⟨some (coordsOf (hookLine (7 / 4)).pts)⟩ (maxOffset (fun a b p => .fin (Plane.ptSeg a b p)))
      (some (maxOffset (fun a b p => .fin (Plane.ptSeg a b p)))) (.fin (7 / 4)) (.fin (49 / 16)) 0 20 = .ok out' ∧
    out' = [0, 1, 2, 3, 4, 5] ∧ o.simple ⊆ out' := by
  have h : (match Plane.run (hookLine (7 / 4)) [] with | .ok _ => true | _ => false) = true := by decide +kernel
  split at h
  · rename_i r e
    obtain ⟨o, d⟩ := r
    have hd : dpSimplify Plane.lib (fun n => n) 0 ⟨some (coordsOf (hookLine (7 / 4)).pts)⟩ (maxOffset (fun a b p => .fin (Plane.ptSeg a b p)))
      (some (maxOffset (fun a b p => .fin (Plane.ptSeg a b p)))) (.fin (7 / 4)) (.fin (49 / 16)) 0 20 = .ok [0, 1, 2, 3, 4, 5] := by decide +kernel
    refine ⟨o, d, _, e, hd, rfl, ?_⟩
    have hi : InstOK (Plane.env (fun _ => hookLine (7 / 4))) 0 (hookLine (7 / 4)).pts :=
      Plane.inst_ok (lines := fun _ => hookLine (7 / 4)) (by decide) (by decide +kernel)
    exact C66_within_partial (env := Plane.env (fun _ => hookLine (7 / 4))) (pts := fun _ => (hookLine (7 / 4)).pts) Plane.env_ok hi
      (fun a b hab => by simpa using hab) ⟨rfl, rfl, rfl, rfl, rfl⟩ e (by decide +kernel) (by decide +kernel) hd
  · cases h

end Verif
