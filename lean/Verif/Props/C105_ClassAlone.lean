import Verif.Props.C103_Refine
import Verif.Props.C99_ClassRuns

/-! C105: when new self-intersections need not be avoided, the features of a class influence each other only through their junctions. -/

set_option linter.unusedSectionVars false

namespace Verif

section
variable {P C B K : Type} [LinearOrder B] [BoundedOrder B] [LinearOrder K]
variable {env : Env P C B K} {pts : Int → List P} {ids : Nat → Int} {idsOf : Int → Nat → Int} {handles : List Int}

/-- the deformation loop over pieces that need no split leaves them as they are -/
theorem deformLoop_still {fuel : Nat} {defs : List (Node P C B)} {st st' : LoopSt P C B}
    (hav : ∀ x ∈ defs, (env.inst x.inst).opts.avoidNewSelfIntersects = false) (hset : ∀ x ∈ defs, Settled env x)
    (e : deformLoop env ids fuel defs st = .ok st') : st' = st := by
  cases fuel with
  | zero => cases e
  | succ fuel =>
    rw [deformLoop] at e
    split at e
    · cases e; rfl
    obtain ⟨sel, e1, e2⟩ := Res.bind_eq_ok.1 e
    split at e2
    · cases e2; rfl
    rename_i hne
    exfalso
    obtain ⟨s, e3, e4⟩ := Res.bind_eq_ok.1 e1
    simp only [Res.pure_eq, Res.ok.injEq] at e4
    obtain ⟨x, hx⟩ := List.exists_mem_of_ne_nil _ hne
    rw [← e4] at hx
    obtain ⟨h0, h1, h2, h3⟩ := selectionsOf_free hav e3 x ((dedupId_spec s).1 x hx)
    rcases hset x h0 with h | h | h
    · exact h1 h
    · rw [h2] at h; cases h
    · have := h.unique h3; cases this

theorem simpleSet_congr {l m : List (Node P C B)} (hp : l.Perm m) : simpleSet l = simpleSet m := by
  refine pairwise_lt_ext (simpleSet_pairwise _) (simpleSet_pairwise _) (fun y => ?_)
  rw [mem_simpleSet, mem_simpleSet]
  simp only [hp.mem_iff]

/-- Specification: `out` is the result of the feature `h` simplified on its own, with the vertices `cv` fixed, whatever the dirty flags: the same pieces in some
order and the same kept vertices. -/
def SameAsAlone (env : Env P C B K) (ids : Nat → Int) (h : Int) (cv : List Int) (out : Out P C B) : Prop :=
  ∃ own : Out P C B, (∀ dirty, Yields (simplify env ids h cv dirty) (own, markClean dirty h)) ∧ out.hulls.Perm own.hulls ∧ out.simple = own.simple

/-- C105, part one.  When new self-intersections need not be avoided, every feature of a class gets the result of its own simplification with its junctions fixed;
the joint stage changes nothing. -/
theorem C105_alone (hc : ClassOK env pts ids idsOf handles) (hav : ∀ h ∈ handles, (env.inst h).opts.avoidNewSelfIntersects = false) (o : Opts K)
    {dirty : Int → Bool} {fuel : Nat} {js : List (Int × Int)} (hj : fcJunctions env handles o.planarSelf = .ok js) {res : List (Int × Out P C B)}
    (e : simplifyFeatureClass env ids idsOf handles o dirty fuel = .ok res) :
    res.map Prod.fst = handles ∧ ∀ x ∈ res, SameAsAlone env (idsOf x.1) x.1 (junctionsOf js (env.inst x.1).id) x.2 := by
  have hi := hc.inst
  have hid := hc.distinct
  obtain ⟨js', j1, -, -, j2⟩ := fcJunctions_ok hc.lnrOK hi hid o.planarSelf
  rw [hj] at j1
  cases j1
  obtain ⟨outs, d1, y1, r1, r2⟩ := simplifyInstances_yields hc.envOK hc.lnrOK (js := js) handles dirty hi hc.streams.each j2
  obtain ⟨N1, y1⟩ := y1
  obtain ⟨-, k1⟩ := simplifyInstances_alone hc.envOK hc.lnrOK (fun h hh => ⟨hi h hh, hc.streams.each h hh, j2 h hh⟩) (y1 N1 (Nat.le_refl _))
  have k1 : ∀ x ∈ outs, ∀ d, Yields (simplify env (idsOf x.1) x.1 (junctionsOf js (env.inst x.1).id) d) (x.2, markClean d x.1) :=
    fun x hx d => (simplify_le env _ _ _ _).yields (k1 x hx d)
  simp only [simplifyFeatureClass, hj, Res.ok_bind] at e
  obtain ⟨⟨outs', d1'⟩, e1, e⟩ := Res.bind_eq_ok.1 e
  have := Mono.val (f := fun n => simplifyInstances env idsOf js n handles dirty) (fun n => simplifyInstances_le env idsOf js n handles dirty) e1 ⟨N1, y1⟩
  cases this
  simp only at e
  split at e
  · obtain ⟨db, e2, e⟩ := Res.bind_eq_ok.1 e
    obtain ⟨st, e3, e⟩ := Res.bind_eq_ok.1 e
    obtain ⟨nodes, e4, e⟩ := Res.bind_eq_ok.1 e
    cases e
    obtain ⟨p1, p2⟩ := joint_pieces (ids := ids) (cv := fun h => junctionsOf js (env.inst h).id) outs (by rw [r1]; exact hc.nodup)
      (by rw [r1]; exact hc.streams) r2
    rw [r1] at p1
    obtain ⟨d2, y2, w2, q2⟩ := DbOK.new.load hc.envOK (outs.flatMap (fun x => x.2.hulls))
    rw [contents_new, List.nil_append] at q2
    have := (Hdb.load_le nodeOps env.heur _ _).val e2 y2
    subst this
    have hst : st = ⟨db, 0, d1⟩ := by
      refine deformLoop_still (fun x hx => hav _ (p1.known hx).inst) (fun x hx => ?_) e3
      obtain ⟨y, hy, hxy⟩ := List.mem_flatMap.1 hx
      exact (r2 y hy).settled x hxy
    subst hst
    obtain ⟨nodes', y4, q4⟩ := Hdb.all_yields w2.wf
    have := (Hdb.all_le _).val e4 y4
    subst this
    have q : nodes.Perm (outs.flatMap (fun x => x.2.hulls)) := q4.trans q2
    refine ⟨by rw [List.map_map]; exact r1, fun y hy => ?_⟩
    obtain ⟨x, hx, rfl⟩ := List.mem_map.1 hy
    have hxh : x.1 ∈ handles := by rw [← r1]; exact List.mem_map.2 ⟨x, hx, rfl⟩
    show SameAsAlone env (idsOf x.1) x.1 (junctionsOf js (env.inst x.1).id) (groupResult env nodes x.1 x.2)
    rw [groupResult_eq hid (p1.perm q.symm) hxh (hi _ hxh).two]
    have hq : (nodes.filter (fun nd => nd.inst = x.1)).Perm x.2.hulls := by
      rw [← p2 x hx]; exact q.filter _
    exact ⟨x.2, k1 x hx, hq, by rw [(r2 x hx).simple]; exact simpleSet_congr hq⟩
  · cases e
    exact ⟨r1, fun x hx => ⟨x.2, k1 x hx, .refl _, rfl⟩⟩

/-- C105, part two.  The other features of the class do not matter beyond the junctions: if a feature has the same junctions in two classes, it keeps the same
vertices in both. -/
theorem C105_others {ids' : Nat → Int} {handles' : List Int} (hc : ClassOK env pts ids idsOf handles) (hc' : ClassOK env pts ids' idsOf handles')
    (hav : ∀ h, h ∈ handles ∨ h ∈ handles' → (env.inst h).opts.avoidNewSelfIntersects = false) (o o' : Opts K) {dirty dirty' : Int → Bool} {fuel fuel' : Nat}
    {js js' : List (Int × Int)} (hj : fcJunctions env handles o.planarSelf = .ok js) (hj' : fcJunctions env handles' o'.planarSelf = .ok js')
    {res res' : List (Int × Out P C B)} (e : simplifyFeatureClass env ids idsOf handles o dirty fuel = .ok res)
    (e' : simplifyFeatureClass env ids' idsOf handles' o' dirty' fuel' = .ok res') {h : Int}
    (hjj : junctionsOf js (env.inst h).id = junctionsOf js' (env.inst h).id) {out out' : Out P C B} (hm : (h, out) ∈ res) (hm' : (h, out') ∈ res') :
    out.simple = out'.simple ∧ out.hulls.Perm out'.hulls := by
  obtain ⟨a, a1, a2, a3⟩ := (C105_alone hc (fun h hh => hav h (.inl hh)) o hj e).2 _ hm
  obtain ⟨b, b1, b2, b3⟩ := (C105_alone hc' (fun h hh => hav h (.inr hh)) o' hj' e').2 _ hm'
  simp only [← hjj] at a1 b1 a2 b2 a3 b3
  have := (a1 (fun _ => false)).unique (b1 (fun _ => false))
  simp only [Prod.mk.injEq, and_true] at this
  subst this
  exact ⟨a3.trans b3.symm, a2.trans b2.symm⟩

/-- C105 without planar self-intersections: there are no junctions, the features do not matter to each other at all. -/
theorem C105_no_junctions {ids' : Nat → Int} {handles' : List Int} (hc : ClassOK env pts ids idsOf handles) (hc' : ClassOK env pts ids' idsOf handles')
    (hav : ∀ h, h ∈ handles ∨ h ∈ handles' → (env.inst h).opts.avoidNewSelfIntersects = false) (o o' : Opts K) (hpl : o.planarSelf = false)
    (hpl' : o'.planarSelf = false) {dirty dirty' : Int → Bool} {fuel fuel' : Nat} {res res' : List (Int × Out P C B)}
    (e : simplifyFeatureClass env ids idsOf handles o dirty fuel = .ok res) (e' : simplifyFeatureClass env ids' idsOf handles' o' dirty' fuel' = .ok res')
    {h : Int} {out out' : Out P C B} (hm : (h, out) ∈ res) (hm' : (h, out') ∈ res') : out.simple = out'.simple ∧ out.hulls.Perm out'.hulls :=
  C105_others hc hc' hav o o' (js := []) (js' := []) (by rw [hpl]; rfl) (by rw [hpl']; rfl) e e' rfl hm hm'

/-- C105, part three.  Hence the recursive description of C103 holds for every feature of a class, its junctions being fixed vertices. -/
theorem C105_recursive (hc : ClassOK env pts ids idsOf handles) (hav : ∀ h ∈ handles, (env.inst h).opts.avoidNewSelfIntersects = false) (o : Opts K)
    {dirty : Int → Bool} {fuel : Nat} {js : List (Int × Int)} (hj : fcJunctions env handles o.planarSelf = .ok js) {res : List (Int × Out P C B)}
    (e : simplifyFeatureClass env ids idsOf handles o dirty fuel = .ok res) {h : Int} {out : Out P C B} (hm : (h, out) ∈ res)
    (hsp : (env.inst h).opts.planarSelf = true → Splittable env pts h (junctionsOf js (env.inst h).id)) :
    ∃ ls, ConstrainedDP (env.inst h).scoreFn (env.inst h).rel (FixedVertex env h (junctionsOf js (env.inst h).id)) (Rejected env pts h) (pts h) ls ∧
      (∀ v ∈ out.simple, EndOf ls v) ∧
      ((∀ r ∈ ls, r.J ≠ r.I + 1) → (out.hulls.map Node.range).Perm ls ∧ ∀ v, v ∈ out.simple ↔ EndOf ls v) := by
  obtain ⟨r1, r2⟩ := C105_alone hc hav o hj e
  have hh : h ∈ handles := by rw [← r1]; exact List.mem_map.2 ⟨_, hm, rfl⟩
  obtain ⟨own, y, q, s⟩ := r2 _ hm
  obtain ⟨N, y⟩ := y (fun _ => false)
  obtain ⟨js', j1, -, -, j2⟩ := fcJunctions_ok hc.lnrOK hc.inst hc.distinct o.planarSelf
  rw [hj] at j1
  cases j1
  obtain ⟨ls, c1, c2, c3⟩ := C103_run hc.envOK hc.lnrOK (hc.inst h hh) (hc.streams.each h hh) (hav h hh) (j2 h hh) hsp (y N (Nat.le_refl _))
  simp only at q s
  rw [← s] at c2 c3
  exact ⟨ls, c1, c2, fun hns => ⟨(q.map _).trans (c3 hns).1, (c3 hns).2⟩⟩

end

/-! ### concrete cases -/

namespace Axis

/-- the three features of C99: the result of the first one in the class is that of its own simplification with its junctions fixed, and it keeps the shared
vertex 2 -/
example : ∃ js res out, fcJunctions (env freeLines) [1, 2, 3] freeOpts.planarSelf = .ok js ∧
    simplifyFeatureClass (env freeLines) (fun n => 4 * n) (fun h n => 4 * n + h) [1, 2, 3] freeOpts (fun _ => false) 60 = .ok res ∧ (1, out) ∈ res ∧
    out.simple = [0, 2, 4] ∧ SameAsAlone (env freeLines) (fun n => 4 * n + 1) 1 (junctionsOf js 1) out := by
  have hr : (match simplifyFeatureClass (env freeLines) (fun n => 4 * n) (fun h n => 4 * n + h) [1, 2, 3] freeOpts (fun _ => false) 60 with
      | .ok r => keptOf r | _ => []) = [(1, [0, 2, 4]), (2, [0, 2]), (3, [0, 3])] := by decide +kernel
  obtain ⟨js, hj, -⟩ := fcJunctions_ok free_class.lnrOK free_class.inst free_class.distinct freeOpts.planarSelf
  cases e : simplifyFeatureClass (env freeLines) (fun n => 4 * n) (fun h n => 4 * n + h) [1, 2, 3] freeOpts (fun _ => false) 60 with
  | panic => rw [e] at hr; cases hr
  | timeout => rw [e] at hr; cases hr
  | ok res =>
    rw [e] at hr
    have hk : (1, [0, 2, 4]) ∈ keptOf res := by
      have hr : keptOf res = _ := hr
      rw [hr]; simp
    obtain ⟨⟨h, out⟩, hm, hx⟩ := List.mem_map.1 hk
    simp only [Prod.mk.injEq] at hx
    obtain ⟨rfl, hx⟩ := hx
    refine ⟨js, res, out, hj, rfl, hm, hx, ?_⟩
    exact (C105_alone free_class (fun h _ => by show (freeLines h).opts.avoidNewSelfIntersects = false; rw [freeLines_opts]; rfl) freeOpts hj e).2 _ hm

end Axis

namespace Plane

/-- The option matters: with new self-intersections to avoid, a feature without junctions is affected by another one: the arch of C78 keeps a vertex because of the
line under it. -/
theorem C105_option_needed : (match vaultRun [1] with | .ok r => keptOf r | _ => []) = [(1, [0, 4])] ∧
    (match vaultRun [1, 4] with | .ok r => keptOf r | _ => []) = [(1, [0, 2, 4]), (4, [0, 2])] ∧
    fcJunctions (env vaultLines) [1, 4] classOpts.planarSelf = .ok [] := by
  refine ⟨by decide +kernel, by decide +kernel, by decide +kernel⟩

end Plane

end Verif
