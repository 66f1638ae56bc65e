import Verif.Lemmas.Simplify
import Verif.Lemmas.Mono

/-! The simplification of one polyline reads and writes no state of other polylines. -/

set_option linter.unusedSectionVars false

namespace Verif

variable {P C B K : Type} [LinearOrder B] [BoundedOrder B] [LinearOrder K]
variable {env : Env P C B K} {pts : Int → List P} {hs : List Int} {src : Int → Prop} {ids : Nat → Int}

theorem hullSelections_frame {d1 d2 : Int → Bool} {db : Db P C B} {x : Node P C B} (h : d1 x.inst = d2 x.inst) (fuel : Nat) :
    hullSelections env d1 db x fuel = hullSelections env d2 db x fuel := by
  unfold hullSelections fcSelections selectFeatureClass optimizeNeighbours
  rw [h]

theorem selectionsOf_frame {d1 d2 : Int → Bool} {db : Db P C B} (fuel : Nat) : ∀ {l : List (Node P C B)}, (∀ x ∈ l, d1 x.inst = d2 x.inst) →
    selectionsOf env d1 db fuel l = selectionsOf env d2 db fuel l := by
  intro l
  induction l with
  | nil => intro _; rfl
  | cons x l ih =>
    intro h
    simp only [selectionsOf, hullSelections_frame (h x (by simp)), ih (fun y hy => h y (List.mem_cons_of_mem _ hy))]

theorem deformNodesLoop_frame : ∀ {l : List (Node P C B)} {g g' : Nat} {d1 d1' d2 : Int → Bool} {out : List (Node P C B)}, (∀ x ∈ l, x.inst ∈ hs) →
    (∀ k ∈ hs, d1 k = d2 k) → deformNodesLoop env ids l g d1 = .ok (out, g', d1') → ∃ d2', deformNodesLoop env ids l g d2 = .ok (out, g', d2') ∧
      (∀ k ∈ hs, d1' k = d2' k) ∧ ∀ k, k ∉ hs → d1' k = d1 k ∧ d2' k = d2 k := by
  intro l
  induction l with
  | nil =>
    intro g g' d1 d1' d2 out _ hd h
    cases h
    exact ⟨d2, rfl, hd, fun _ _ => ⟨rfl, rfl⟩⟩
  | cons x l ih =>
    intro g g' d1 d1' d2 out hm hd h
    have hx := hm x (by simp)
    by_cases hsz : x.range.size > 1
    · simp only [deformNodesLoop, hsz, if_true] at h ⊢
      obtain ⟨⟨ha, hb, g1⟩, e1, h⟩ := Res.bind_eq_ok.1 h
      obtain ⟨⟨rest, g2, d3⟩, e2, h⟩ := Res.bind_eq_ok.1 h
      cases h
      obtain ⟨d2', e3, k1, k2⟩ := ih (d2 := markDirty d2 x.inst) (fun y hy => hm y (List.mem_cons_of_mem _ hy))
        (fun k hk => by simp only [markDirty, hd k hk]) e2
      refine ⟨d2', by simp only [e1, e3, Res.ok_bind, Res.pure_eq], k1, fun k hk => ?_⟩
      have hne : k ≠ x.inst := fun h => hk (h ▸ hx)
      simpa only [markDirty, hne, if_false] using k2 k hk
    · simp only [deformNodesLoop, hsz, if_false] at h ⊢
      obtain ⟨⟨rest, g2, d3⟩, e2, h⟩ := Res.bind_eq_ok.1 h
      cases h
      obtain ⟨d2', e3, k1, k2⟩ := ih (fun y hy => hm y (List.mem_cons_of_mem _ hy)) hd e2
      exact ⟨d2', by simp only [e3, Res.ok_bind, Res.pure_eq], k1, k2⟩

theorem deformRound_frame (he : EnvOK env) {db : Db P C B} {g : Nat} {d1 d2 : Int → Bool} {sel out : List (Node P C B)} {st : LoopSt P C B} {fuel : Nat}
    (hm : ∀ x ∈ sel, x.inst ∈ hs) (hd : ∀ k ∈ hs, d1 k = d2 k) (h : deformRound env ids ⟨db, g, d1⟩ sel fuel = .ok (out, st)) :
    ∃ d2', deformRound env ids ⟨db, g, d2⟩ sel fuel = .ok (out, ⟨st.db, st.g, d2'⟩) ∧ (∀ k ∈ hs, st.dirty k = d2' k) ∧
      ∀ k, k ∉ hs → st.dirty k = d1 k ∧ d2' k = d2 k := by
  simp only [deformRound] at h ⊢
  obtain ⟨⟨o, g1, d3⟩, e1, h⟩ := Res.bind_eq_ok.1 h
  obtain ⟨db1, e2, h⟩ := Res.bind_eq_ok.1 h
  obtain ⟨db2, e3, h⟩ := Res.bind_eq_ok.1 h
  cases h
  obtain ⟨d2', e4, k1, k2⟩ := deformNodesLoop_frame (hs := hs) (d2 := d2) (fun x hx => hm x ((he.ord g sel).mem_iff.1 hx)) hd e1
  exact ⟨d2', by simp only [e4, e2, e3, Res.ok_bind, Res.pure_eq], k1, k2⟩

theorem deformLoop_frame (he : EnvOK env) (hi : ∀ k ∈ hs, InstOK env k (pts k)) (hinj : Function.Injective ids) : ∀ (fuel : Nat) (db : Db P C B) (g : Nat)
    (d1 d2 : Int → Bool) (defs : List (Node P C B)) (st : LoopSt P C B), DbOK db → Pieces env pts hs src ids g (Hdb.contents db) →
    (∀ x ∈ defs, x ∈ Hdb.contents db) → (∀ k ∈ hs, d1 k = d2 k) → deformLoop env ids fuel defs ⟨db, g, d1⟩ = .ok st →
    ∃ d2', deformLoop env ids fuel defs ⟨db, g, d2⟩ = .ok ⟨st.db, st.g, d2'⟩ ∧ (∀ k ∈ hs, st.dirty k = d2' k) ∧
      ∀ k, k ∉ hs → st.dirty k = d1 k ∧ d2' k = d2 k := by
  intro fuel
  induction fuel with
  | zero => intro db g d1 d2 defs st _ _ _ _ h; cases h
  | succ fuel ih =>
    intro db g d1 d2 defs st hd hp hm hdd h
    by_cases hdef : defs = []
    · simp only [deformLoop, hdef, if_true] at h ⊢
      cases h
      exact ⟨d2, rfl, hdd, fun _ _ => ⟨rfl, rfl⟩⟩
    simp only [deformLoop, hdef, if_false] at h ⊢
    obtain ⟨sel, e1, h⟩ := Res.bind_eq_ok.1 h
    have e2 : findDeformable env d2 defs db fuel = .ok sel := by
      rw [← e1]
      simp only [findDeformable]
      rw [selectionsOf_frame fuel (fun x hx => (hdd x.inst (hp.known (hm x hx)).inst).symm)]
    rw [e2, Res.ok_bind]
    obtain ⟨sel', hy, a1, a2, -⟩ := findDeformable_yields he hi d1 hd hp defs hm
    have hsel : sel = sel' := by
      rcases (findDeformable_le env d1 defs db).eq_of_yields hy fuel with e | e
      · rw [e] at e1; cases e1
      · rw [e] at e1; cases e1; rfl
    subst hsel
    by_cases h0 : sel = []
    · simp only [h0, if_true] at h ⊢
      cases h
      exact ⟨d2, rfl, hdd, fun _ _ => ⟨rfl, rfl⟩⟩
    simp only [h0, if_false] at h ⊢
    obtain ⟨⟨out, st1⟩, e3, h⟩ := Res.bind_eq_ok.1 h
    obtain ⟨d3, e4, k1, k2⟩ := deformRound_frame (hs := hs) he (d2 := d2) (fun x hx => (hp.known (a1 x hx)).inst) hdd e3
    obtain ⟨out', st1', rest, hy2, w, -, p1, -, r2, -⟩ := deformRound_yields he hi hinj (st := ⟨db, g, d1⟩) hd hp a1 a2
    have hst : (out, st1) = (out', st1') := by
      rcases (deformRound_le env ids ⟨db, g, d1⟩ sel).eq_of_yields hy2 fuel with e | e
      · rw [e] at e3; cases e3
      · rw [e] at e3; cases e3; rfl
    cases hst
    rw [e4, Res.ok_bind]
    obtain ⟨d4, e5, k3, k4⟩ := ih st1.db st1.g st1.dirty d3 out st w p1 (fun x hx => r2.mem_iff.2 (List.mem_append_left _ hx)) k1 h
    refine ⟨d4, e5, k3, fun k hk => ?_⟩
    have q1 := k2 k hk
    have q2 := k4 k hk
    exact ⟨q2.1.trans q1.1, q2.2.trans q1.2⟩

/-- The result of `Simplify` does not depend on the states of the instances, and the only state it changes is that of its own instance.  So concurrent calls on
different instances do not influence each other. -/
theorem simplify_independent (he : EnvOK env) (hl : LnrOK env.lnr) {h : Int} (hi : InstOK env h (pts h)) (hinj : Function.Injective ids) {cv : List Int}
    (hcv : ∀ i ∈ cv, 0 ≤ i ∧ i < (pts h).length) {d1 d : Int → Bool} {fuel : Nat} {out : Out P C B} (hr : simplify env ids h cv d1 fuel = .ok (out, d)) :
    d = markClean d1 h ∧ ∀ d2, simplify env ids h cv d2 fuel = .ok (out, markClean d2 h) := by
  have hi' : ∀ k ∈ [h], InstOK env k (pts k) := by
    intro k hk; rw [List.mem_singleton] at hk; rw [hk]; exact hi
  obtain ⟨near, hlg, hmono⟩ := he.heap
  obtain ⟨h0, g0, y0, p0, -⟩ := decompose_yields hi hinj
  obtain ⟨h1, cvs, g1, y1, hg1, p1, -⟩ := toSelfIntersects_yields he hl hi' hinj (h := h) (by simp) (strong := False)
    hlg hmono p0 hcv (fun hs => hs.elim) (fun hs => hs.elim)
  obtain ⟨db2, y2, w2, q2⟩ := DbOK.new.load he h1
  rw [contents_new, List.nil_append] at q2
  simp only [simplify] at hr ⊢
  obtain ⟨r0, e0, hr⟩ := Res.bind_eq_ok.1 hr
  rcases (decompose_le env.lib ids 0 (env.inst h).pln (env.inst h).scoreFn (env.inst h).rel h).eq_of_yields y0 fuel with e | e <;> rw [e] at e0 <;> cases e0
  simp only [e, Res.ok_bind] at hr ⊢
  obtain ⟨r1, e1, hr⟩ := Res.bind_eq_ok.1 hr
  rcases (toSelfIntersects_le env ids g0 h0 (env.inst h) cv).eq_of_yields y1 fuel with e' | e' <;> rw [e'] at e1 <;> cases e1
  simp only [e', Res.ok_bind] at hr ⊢
  obtain ⟨r2, e2, hr⟩ := Res.bind_eq_ok.1 hr
  rcases (Hdb.load_le nodeOps env.heur (Hdb.newHdb Hdb.defaultCap) h1).eq_of_yields y2 fuel with e'' | e'' <;> rw [e''] at e2 <;> cases e2
  simp only [e'', Res.ok_bind] at hr ⊢
  obtain ⟨st, e3, hr⟩ := Res.bind_eq_ok.1 hr
  obtain ⟨⟨db4, g4⟩, e4, hr⟩ := Res.bind_eq_ok.1 hr
  obtain ⟨nodes, e5, hr⟩ := Res.bind_eq_ok.1 hr
  cases hr
  have key : ∀ d2 : Int → Bool, ∃ d2', deformLoop env ids fuel h1 ⟨db2, g1, markDirty d2 h⟩ = .ok ⟨st.db, st.g, d2'⟩ ∧
      markClean d2' h = markClean d2 h ∧ markClean st.dirty h = markClean d1 h := by
    intro d2
    obtain ⟨d2', e6, -, k2⟩ := deformLoop_frame he hi' hinj fuel db2 g1 (markDirty d1 h) (markDirty d2 h) h1 st w2 (p1.perm q2.symm)
      (fun x hx => q2.mem_iff.2 hx) (fun k hk => by simp only [List.mem_singleton.1 hk, markDirty, if_true]) e3
    refine ⟨d2', e6, funext fun k => ?_, funext fun k => ?_⟩
    all_goals
      by_cases hk : k = h
      · simp [markClean, hk]
      · have := k2 k (by simpa using hk)
        simp [markClean, markDirty, hk] at this ⊢
        simp [this]
  refine ⟨(key d1).choose_spec.2.2, fun d2 => ?_⟩
  obtain ⟨d2', e6, k1, -⟩ := key d2
  simp only [e6, e4, e5, Res.ok_bind, Res.pure_eq, k1]

/-- hence the instances of a feature class may be simplified in any order, or at the same time: each gets the result it would get alone -/
theorem simplifyInstances_alone {idsOf : Int → Nat → Int} {js : List (Int × Int)} (he : EnvOK env) (hl : LnrOK env.lnr) {fuel : Nat} :
    ∀ {handles : List Int} {d d' : Int → Bool} {outs : List (Int × Out P C B)}, (∀ h ∈ handles, InstOK env h (pts h) ∧ Function.Injective (idsOf h) ∧
      ∀ i ∈ junctionsOf js (env.inst h).id, 0 ≤ i ∧ i < (pts h).length) → simplifyInstances env idsOf js fuel handles d = .ok (outs, d') →
    outs.map Prod.fst = handles ∧ ∀ x ∈ outs, ∀ d2, simplify env (idsOf x.1) x.1 (junctionsOf js (env.inst x.1).id) d2 fuel = .ok (x.2, markClean d2 x.1) := by
  intro handles
  induction handles with
  | nil => intro d d' outs _ h; cases h; simp
  | cons a l ih =>
    intro d d' outs hh h
    simp only [simplifyInstances] at h
    obtain ⟨⟨o, d1⟩, e1, h⟩ := Res.bind_eq_ok.1 h
    obtain ⟨⟨rest, d2⟩, e2, h⟩ := Res.bind_eq_ok.1 h
    cases h
    obtain ⟨i1, i2, i3⟩ := hh a (by simp)
    obtain ⟨k1, k2⟩ := ih (fun x hx => hh x (List.mem_cons_of_mem _ hx)) e2
    refine ⟨by simp [k1], fun x hx => ?_⟩
    rcases List.mem_cons.1 hx with rfl | hx
    · exact (simplify_independent he hl i1 i2 i3 e1).2
    · exact k2 x hx

end Verif
