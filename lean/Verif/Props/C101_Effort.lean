import Verif.Demo.Axis
import Verif.Lemmas.Effort
import Verif.Props.C99_ClassRuns

/-! C101: how much work a run is: pieces created, identifiers drawn, rounds of the deformation loop. -/

set_option linter.unusedSectionVars false

namespace Verif

variable {P C B K : Type} [LinearOrder B] [BoundedOrder B] [LinearOrder K]
variable {env : Env P C B K} {pts : Int → List P} {ids : Nat → Int} {h : Int} {cv : List Int} {dirty : Int → Bool}

/-- C101, identifiers.  The run on a line of n vertices draws at most 4(n - 1) identifiers, one for each piece it creates: its result depends on
the first 4(n - 1) identifiers of the source alone. -/
theorem C101_identifiers (he : EnvOK env) (hl : LnrOK env.lnr) (hi : InstOK env h (pts h)) (hinj : Function.Injective ids)
    (hcv : ∀ i ∈ cv, 0 ≤ i ∧ i < (pts h).length) (dirty : Int → Bool) :
    ∃ r, ∀ ids' : Nat → Int, (∀ k < 4 * ((pts h).length - 1), ids' k = ids k) → Yields (simplify env ids' h cv dirty) r := by
  obtain ⟨out, d, -, hy, -⟩ := simplify_yields he hl hi hinj hcv dirty
  obtain ⟨N, hN⟩ := hy
  exact ⟨_, fun ids' e => Mono.yields (simplify_le env ids' h cv dirty) ((simplify_effort he hi hinj (hN N (Nat.le_refl _))).1 ids' e)⟩

/-- C101, rounds.  The deformation loop of the run on a line of n vertices goes through its body at most n - 1 times, whatever the predicates answer. -/
theorem C101_rounds (he : EnvOK env) (hl : LnrOK env.lnr) (hi : InstOK env h (pts h)) (hinj : Function.Injective ids)
    (hcv : ∀ i ∈ cv, 0 ≤ i ∧ i < (pts h).length) (dirty : Int → Bool) :
    ∃ k, LineRounds env ids h cv dirty k ∧ (∀ k', LineRounds env ids h cv dirty k' → k' = k) ∧ k ≤ (pts h).length - 1 := by
  obtain ⟨out, d, -, ⟨N, hN⟩, -⟩ := simplify_yields he hl hi hinj hcv dirty
  obtain ⟨k, hk, hb⟩ := (simplify_effort he hi hinj (hN N (Nat.le_refl _))).2
  exact ⟨k, hk, fun k' hk' => hk'.unique hk, by omega⟩

/-- C101, identifiers of a feature class.  The run on a feature class creates at most 4(n - 1) pieces for each line of n vertices before the joint stage, and
twice as many in the joint stage as there are segments beyond one for each line. -/
theorem C101_class_identifiers {handles : List Int} {idsOf : Int → Nat → Int} (hc : ClassOK env pts ids idsOf handles) (o : Opts K) (dirty : Int → Bool) :
    ∃ r, ∀ (ids' : Nat → Int) (idsOf' : Int → Nat → Int), (∀ h ∈ handles, ∀ k < 4 * ((pts h).length - 1), idsOf' h k = idsOf h k) →
      (∀ k < 2 * (segments pts handles - handles.length), ids' k = ids k) → Yields (simplifyFeatureClass env ids' idsOf' handles o dirty) r := by
  obtain ⟨_, res, _, ⟨N, hN⟩, -⟩ := simplifyFeatureClass_yields hc.envOK hc.lnrOK hc.inst hc.nodup hc.distinct hc.streams o dirty
  exact ⟨res, fun ids' idsOf' e1 e2 => Mono.yields (simplifyFeatureClass_le env ids' idsOf' handles o dirty)
    ((simplifyFeatureClass_effort hc.envOK hc.lnrOK hc.inst hc.nodup hc.distinct hc.streams (hN N (Nat.le_refl _))).1 ids' idsOf' e1 e2)⟩

/-- C101, rounds of a feature class.  The joint deformation loop goes through its body at most once more than there are segments beyond one for each line. -/
theorem C101_class_rounds {handles : List Int} {idsOf : Int → Nat → Int} (hc : ClassOK env pts ids idsOf handles) (o : Opts K) (dirty : Int → Bool)
    (ho : (o.avoidNewSelfIntersects || o.planarSelf || o.geomRelation || o.dirRelation || o.distRelation) = true) :
    ∃ k, ClassRounds env ids idsOf handles o dirty k ∧ (∀ k', ClassRounds env ids idsOf handles o dirty k' → k' = k) ∧
      k ≤ segments pts handles + 1 - handles.length := by
  obtain ⟨_, res, _, ⟨N, hN⟩, -⟩ := simplifyFeatureClass_yields hc.envOK hc.lnrOK hc.inst hc.nodup hc.distinct hc.streams o dirty
  obtain ⟨k, hk, hb⟩ := (simplifyFeatureClass_effort hc.envOK hc.lnrOK hc.inst hc.nodup hc.distinct hc.streams (hN N (Nat.le_refl _))).2 ho
  exact ⟨k, hk, fun k' hk' => hk'.unique hk, hb⟩

/-! ### concrete cases -/

/-- the rounds, counted by running them -/
def countRounds (env : Env P C B K) (ids : Nat → Int) (fuel : Nat) : Nat → List (Node P C B) → LoopSt P C B → Option Nat
  | 0, _, _ => none
  | m + 1, defs, st => match findDeformable env st.dirty defs st.db fuel with
    | .ok [] => some 0
    | .ok sel => match deformRound env ids st sel fuel with
      | .ok (out, st1) => (countRounds env ids fuel m out st1).map (· + 1)
      | _ => none
    | _ => none

theorem countRounds_sound {fuel : Nat} : ∀ {m : Nat} {defs : List (Node P C B)} {st : LoopSt P C B} {k : Nat}, countRounds env ids fuel m defs st = some k →
    ∃ st', Rounds env ids k defs st st'
  | 0, _, _, _, h => by cases h
  | m + 1, defs, st, k, h => by
    rw [countRounds] at h
    split at h
    · next e => cases h; exact ⟨st, .settled (Mono.yields (fun n => findDeformable_le _ _ _ _ n) e)⟩
    · next sel ne e =>
      split at h
      · next out st1 e1 =>
        obtain ⟨k1, hk, rfl⟩ := Option.map_eq_some_iff.1 h
        obtain ⟨st', r⟩ := countRounds_sound hk
        exact ⟨st', .round (Mono.yields (fun n => findDeformable_le _ _ _ _ n) e) (fun h0 => ne h0)
          (Mono.yields (fun n => deformRound_le _ _ _ _ n) e1) r⟩
      · cases h
    · cases h

namespace Axis

/-- the pieces before the deformation loop, and its rounds -/
def effort (l : Demo.Line Int Int Int) (cv : List Int) : Option (Nat × Nat) :=
  let env := Axis.env (fun _ => l)
  match decompose env.lib (fun n => n) 0 (env.inst 0).pln (env.inst 0).scoreFn (env.inst 0).rel 0 60 with
  | .ok (h0, g0) => match toSelfIntersects env (fun n => n) g0 h0 (env.inst 0) cv 60 with
    | .ok (h1, _, g1) => match Hdb.load nodeOps env.heur (Hdb.newHdb Hdb.defaultCap) h1 60 with
      | .ok db => (countRounds env (fun n => n) 60 60 h1 ⟨db, g1, markDirty (fun _ => false) 0⟩).map (fun k => (h1.length, k))
      | _ => none
    | _ => none
  | _ => none

theorem effort_sound {l : Demo.Line Int Int Int} {cv : List Int} {p k : Nat} (h : effort l cv = some (p, k)) :
    LineRounds (Axis.env (fun _ => l)) (fun n => n) 0 cv (fun _ => false) k := by
  unfold effort at h
  dsimp only at h
  split at h
  · next e1 =>
    split at h
    · next e2 =>
      split at h
      · next e3 =>
        obtain ⟨k', hk, e⟩ := Option.map_eq_some_iff.1 h
        simp only [Prod.mk.injEq] at e
        obtain ⟨-, rfl⟩ := e
        obtain ⟨st', r⟩ := countRounds_sound hk
        exact ⟨_, _, _, _, _, _, st', Mono.yields (fun n => decompose_le _ _ _ _ _ _ _ n) e1, Mono.yields (fun n => toSelfIntersects_le _ _ _ _ _ _ n) e2,
          Mono.yields (fun n => Hdb.load_le _ _ _ _ n) e3, r⟩
      · cases h
    · cases h
  · cases h

/-- a line of 13 vertices running to and fro over the constraints, to be kept off them; its self-intersections are ignored -/
def busy : Demo.Line Int Int Int :=
  ⟨[0, 10, 4, 20, 4, 30, 3, 7, 12, 5, 40, 2, 13], [12, 40], { opts 100 2 with planarSelf := false, nonPlanarSelf := false }⟩

/-- the concrete case beside `C101_rounds`: five rounds, of at most twelve -/
theorem busy_rounds : LineRounds (Axis.env (fun _ => busy)) (fun n => n) 0 [] (fun _ => false) 5 :=
  effort_sound (p := 1) (by decide +kernel)

example : ∃ k, LineRounds (Axis.env (fun _ => busy)) (fun n => n) 0 [] (fun _ => false) k ∧ k = 5 ∧ k ≤ 12 := by
  obtain ⟨k, h1, h2, h3⟩ := C101_rounds (env := Axis.env (fun _ => busy)) (pts := fun _ => busy.pts) (ids := fun n => n) (h := 0) (cv := []) env_ok lnr_ok
    (inst_ok (lines := fun _ => busy) (by decide) (by decide)) (fun a b h => by simpa using h) (by simp) (fun _ => false)
  exact ⟨k, h1, (h2 5 busy_rounds).symm, h3⟩

/-- the concrete case beside `C101_identifiers`: a source that repeats itself after 48 identifiers gives the result of one that never does -/
example : ∃ out d, Yields (simplify (Axis.env (fun _ => long)) (fun n => if n < 48 then n else 0) 0 [7] (fun _ => false)) (out, d) ∧ out.simple = [0, 7, 10, 12] := by
  obtain ⟨r, hr⟩ := C101_identifiers (env := Axis.env (fun _ => long)) (pts := fun _ => long.pts) (ids := fun n => n) (h := 0) (cv := [7]) env_ok lnr_ok
    (inst_ok (lines := fun _ => long) (by decide) (by decide)) (fun a b h => by simpa using h) (by decide) (fun _ => false)
  obtain ⟨out, d, e, hs, -⟩ := long_case
  have hy := Mono.yields (simplify_le (Axis.env (fun _ => long)) (fun n : Nat => (n : Int)) 0 [7] (fun _ => false)) e
  obtain rfl := hy.unique (hr _ (fun _ _ => rfl))
  exact ⟨out, d, hr _ (fun k hk => if_pos hk), hs⟩

/-- the concrete case beside `C101_class_identifiers` and `C101_class_rounds`: three lines with nine segments -/
example : segments (fun k => (freeLines k).pts) [1, 2, 3] = 9 ∧
    (∃ r, ∀ (ids' : Nat → Int) (idsOf' : Int → Nat → Int), (∀ h ∈ [1, 2, 3], ∀ k < 4 * ((freeLines h).pts.length - 1), idsOf' h k = 4 * k + h) →
      (∀ k < 12, ids' k = 4 * k) → Yields (simplifyFeatureClass (Axis.env freeLines) ids' idsOf' [1, 2, 3] freeOpts (fun _ => false)) r) ∧
    ∃ k, ClassRounds (Axis.env freeLines) (fun n => 4 * n) (fun h n => 4 * n + h) [1, 2, 3] freeOpts (fun _ => false) k ∧ k ≤ 7 := by
  refine ⟨by decide, ?_, ?_⟩
  · exact C101_class_identifiers free_class freeOpts (fun _ => false)
  · obtain ⟨k, h1, -, h3⟩ := C101_class_rounds free_class freeOpts (fun _ => false) rfl
    exact ⟨k, h1, h3⟩

end Axis

end Verif
