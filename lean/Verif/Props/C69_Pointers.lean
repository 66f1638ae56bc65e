import Verif.Lemmas.PointersMerge
import Verif.Props.C13_FeatureClass

/-! C69: comparing pieces by pointer, as the code does, is the same as comparing them by identifier, as the rest of the model does. -/

set_option linter.unusedSectionVars false

namespace Verif

variable {P C B K : Type} [LinearOrder B] [BoundedOrder B] [LinearOrder K]
variable {env : Env P C B K} {pts : Int → List P} {ids : Nat → Int}

/-- **C69** (one polyline) The run that compares addresses - in the selection map, in `h == hull`, in `Neighbours` and in `objects[0] == nxt` - and in which every
`Load` stores new addresses, returns exactly what the run that compares identifiers returns, at every fuel; also when it panics or does not return. -/
theorem C69_simplify (he : EnvOK env) (hl : LnrOK env.lnr) {h : Int} (hi : InstOK env h (pts h)) (hinj : Function.Injective ids) {cv : List Int}
    (hcv : ∀ i ∈ cv, 0 ≤ i ∧ i < (pts h).length) (dirty : Int → Bool) (fuel : Nat) :
    Ptr.simplify env ids h cv dirty fuel = simplify env ids h cv dirty fuel := by
  have hi' : ∀ k ∈ [h], InstOK env k (pts k) := by
    intro k hk; rw [List.mem_singleton] at hk; rw [hk]; exact hi
  obtain ⟨h0, g0, y0, p0, -⟩ := decompose_yields hi hinj
  obtain ⟨near, a, b⟩ := he.heap
  obtain ⟨h1, cvs, g1, y1, hg1, p1, -⟩ := toSelfIntersects_yields he hl hi' hinj (h := h) (by simp) (strong := False) a b p0 hcv (fun h => h.elim) (fun h => h.elim)
  obtain ⟨d2, y2, w2, q2⟩ := DbOK.new.load he h1
  rw [contents_new, List.nil_append] at q2
  obtain ⟨st, y3, w3, hg3, p3, -⟩ := deformLoop_yields he hi' hinj _ ⟨d2, g1, markDirty dirty h⟩ h1 rfl w2 (p1.perm q2.symm)
    (fun x hx => q2.mem_iff.2 hx) (fun x hx => .inl (q2.mem_iff.1 hx))
  unfold Ptr.simplify simplify
  refine Res.Sim.eq (Res.Sim.bind_same (fun x hx => ?_))
  obtain rfl := (decompose_le env.lib ids 0 _ _ _ h).val hx y0
  refine Res.Sim.bind_same (fun x hx => ?_)
  obtain rfl := (toSelfIntersects_le env ids g0 h0 _ cv).val hx y1
  refine Res.Sim.bind_same (fun x hx => ?_)
  obtain rfl := (Hdb.load_le nodeOps env.heur _ h1).val hx y2
  have hm := Ptr.Mem.OK.empty.load h1
  have hc : Ptr.Covers (Ptr.Mem.empty.load h1).2 (Hdb.contents x) :=
    Ptr.Covers.load Ptr.Mem.OK.empty (rest := []) (fun n hn => by cases hn) (fun n hn => .inl (q2.mem_iff.1 hn))
  have A := Ptr.deformLoop_sim he hi' hinj fuel (Ptr.Mem.empty.load h1).1 (Ptr.Mem.empty.load h1).2 ⟨x, g1, markDirty dirty h⟩ hm hc w2 (p1.perm q2.symm) (by
    rw [Ptr.Mem.load_refs p1.nodup]
    intro r hr
    obtain ⟨n, hn, rfl⟩ := List.mem_map.1 hr
    exact ⟨hc.stored (q2.mem_iff.2 hn), q2.mem_iff.2 hn⟩)
  have hrefs : (Ptr.Mem.empty.load h1).1.map Ptr.Ref.node = h1 := by rw [Ptr.Mem.load_refs p1.nodup, Ptr.node_at]
  rw [hrefs] at A
  refine Res.Sim.bind A ?_
  rintro ⟨st1, m⟩ st2 - e3 ⟨h2, hm', hc'⟩
  simp only [] at h2 hm' hc'
  subst h2
  have hst : st1 = st := by
    have hmono : Mono (fun fuel => deformLoop env ids fuel h1 ⟨x, g1, markDirty dirty h⟩) := fun n => deformLoop_le env ids n h1 _
    exact hmono.val e3 y3
  subst hst
  simp only []
  rw [Ptr.aggregate_eq he hi hinj cvs w3 p3 hm' hc' fuel]
  exact Res.Sim.refl (fun _ => rfl)

theorem simplifyInstances_ptr (he : EnvOK env) (hl : LnrOK env.lnr) {idsOf : Int → Nat → Int} {js : List (Int × Int)} (fuel : Nat) : ∀ (handles : List Int)
    (dirty : Int → Bool), (∀ h ∈ handles, InstOK env h (pts h)) → (∀ h ∈ handles, Function.Injective (idsOf h)) →
    (∀ h ∈ handles, ∀ i ∈ junctionsOf js (env.inst h).id, 0 ≤ i ∧ i < (pts h).length) →
    Ptr.simplifyInstances env idsOf js fuel handles dirty = simplifyInstances env idsOf js fuel handles dirty := by
  intro handles
  induction handles with
  | nil => intro dirty _ _ _; rfl
  | cons h handles ih =>
    intro dirty hi hinj hcv
    rw [Ptr.simplifyInstances, simplifyInstances, C69_simplify he hl (hi h (by simp)) (hinj h (by simp)) (hcv h (by simp))]
    refine Res.Sim.eq (Res.Sim.bind_same (fun x _ => ?_))
    obtain ⟨o, d⟩ := x
    simp only []
    rw [ih d (fun k hk => hi k (List.mem_cons_of_mem _ hk)) (fun k hk => hinj k (List.mem_cons_of_mem _ hk)) (fun k hk => hcv k (List.mem_cons_of_mem _ hk))]
    exact Res.Sim.refl (fun _ => rfl)

/-- **C69** (feature class) The same for the simplification of a feature class, whose joint stage selects pieces of several features through pointers. -/
theorem C69_featureClass {handles : List Int} {idsOf : Int → Nat → Int} (hcl : ClassOK env pts ids idsOf handles)
    (o : Opts K) (dirty : Int → Bool) (fuel : Nat) :
    Ptr.simplifyFeatureClass env ids idsOf handles o dirty fuel = simplifyFeatureClass env ids idsOf handles o dirty fuel := by
  have he := hcl.envOK
  have hl := hcl.lnrOK
  obtain ⟨js, j1, -, -, j2⟩ := fcJunctions_ok hl hcl.inst hcl.distinct o.planarSelf
  obtain ⟨outs, d1, y1, r1, r2⟩ := simplifyInstances_yields he hl (js := js) handles dirty hcl.inst hcl.streams.each j2
  obtain ⟨p1, p2⟩ := joint_pieces (ids := ids) (cv := fun h => junctionsOf js (env.inst h).id) outs (by rw [r1]; exact hcl.nodup) (by rw [r1]; exact hcl.streams) r2
  rw [r1] at p1
  unfold Ptr.simplifyFeatureClass simplifyFeatureClass
  simp only [j1, Res.ok_bind]
  rw [simplifyInstances_ptr he hl fuel handles dirty hcl.inst hcl.streams.each j2]
  refine Res.Sim.eq (Res.Sim.bind_same (fun x hx => ?_))
  have hmono : Mono (fun fuel => simplifyInstances env idsOf js fuel handles dirty) := fun n => simplifyInstances_le env idsOf js n handles dirty
  obtain rfl := hmono.val hx y1
  simp only []
  split
  · obtain ⟨d2, y2, w2, q2⟩ := DbOK.new.load he (outs.flatMap (fun x => x.2.hulls))
    rw [contents_new, List.nil_append] at q2
    refine Res.Sim.bind_same (fun x hx => ?_)
    obtain rfl := (Hdb.load_le nodeOps env.heur _ _).val hx y2
    generalize hdef : outs.flatMap (fun x => x.2.hulls) = defs at p1 q2 ⊢
    have hm := Ptr.Mem.OK.empty.load defs
    have hc : Ptr.Covers (Ptr.Mem.empty.load defs).2 (Hdb.contents x) :=
      Ptr.Covers.load Ptr.Mem.OK.empty (rest := []) (fun n hn => by cases hn) (fun n hn => .inl (q2.mem_iff.1 hn))
    have A := Ptr.deformLoop_sim he hcl.inst hcl.streams.joint fuel (Ptr.Mem.empty.load defs).1 (Ptr.Mem.empty.load defs).2 ⟨x, 0, d1⟩ hm hc w2 (p1.perm q2.symm) (by
      rw [Ptr.Mem.load_refs p1.nodup]
      intro r hr
      obtain ⟨n, hn, rfl⟩ := List.mem_map.1 hr
      exact ⟨hc.stored (q2.mem_iff.2 hn), q2.mem_iff.2 hn⟩)
    have hrefs : (Ptr.Mem.empty.load defs).1.map Ptr.Ref.node = defs := by rw [Ptr.Mem.load_refs p1.nodup, Ptr.node_at]
    rw [hrefs] at A
    refine Res.Sim.bind A ?_
    rintro ⟨st1, m⟩ st2 - - ⟨h2, -⟩
    simp only [] at h2
    subst h2
    exact Res.Sim.refl (fun _ => rfl)
  · exact .ok rfl

/-! ### concrete cases -/

namespace Axis

/-- the run with pointers of the line of 13 vertices with a fixed vertex: the pieces are split, selected through pointers, and merged again -/
example : result (Ptr.simplify (Axis.env (fun _ => long)) (fun n => n) 0 [7] (fun _ => false) 60) = ([(7, 10), (10, 12), (0, 7)], [0, 7, 10, 12]) := by decide +kernel

/-- the hypotheses of `C69_simplify` hold for it -/
example : Ptr.simplify (Axis.env (fun _ => long)) (fun n => n) 0 [7] (fun _ => false) 60 = run long [7] :=
  C69_simplify (pts := fun _ => long.pts) Axis.env_ok lnr_ok (inst_ok (lines := fun _ => long) (by decide) (by decide)) (fun a b h => by simpa using h) (by decide) _ 60

/-- three features -/
example : Ptr.simplifyFeatureClass (Axis.env fcLines) (fun n => 4 * n) (fun h n => 4 * n + h) [1, 2, 3] { opts 30 2 with nonPlanarSelf := false }
    (fun _ => false) 60 = fcRun :=
  C69_featureClass fc_class _ _ 60

end Axis

/-- a work list whose first element was stored again as a copy: its address is no longer the stored one, but it is treated as the same piece (node
aggregates remove by identifier); the elements after it still are the stored ones -/
example : let n (i a b : Int) : Node Int Int Axis.Bx := { id := i, coords := ⟨[], []⟩, range := ⟨a, b⟩, mbr := ⟨⊥, ⊥, ⊤, ⊤⟩, geom := .ctx 0, inst := 0 }
    let l := [n 1 0 1, n 2 1 2, n 3 2 3]
    let m := (Ptr.Mem.empty.load l).2
    let m' := (m.load [n 2 1 2, n 1 0 1]).2
    l.map (fun x => ((m.at x).addr, (m'.at x).addr)) = [(1, 5), (2, 4), (3, 3)] := by decide +kernel

end Verif
