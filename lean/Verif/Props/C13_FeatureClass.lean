import Verif.Lemmas.FeatureClass
import Verif.Props.C09_Simplify
import Verif.Demo.Axis

/-! C13, C14, C15 (and C12, C30, C48 for feature classes): the joint simplification of a feature class. -/

set_option linter.unusedSectionVars false

namespace Verif

variable {P C B K : Type} [LinearOrder B] [BoundedOrder B] [LinearOrder K]
variable {env : Env P C B K} {near : Fl K → Fl K → Prop} {pts : Int → List P} {ids : Nat → Int} {idsOf : Int → Nat → Int} {handles : List Int} {o : Opts K} {dirty : Int → Bool} {fuel : Nat}
variable {res : List (Int × Out P C B)}

/-- Assumptions about a feature class: the features are distinct and carry distinct identifiers, all are usable lines, and the identifiers of pieces are
never handed out twice. -/
structure ClassOK (env : Env P C B K) (pts : Int → List P) (ids : Nat → Int) (idsOf : Int → Nat → Int) (handles : List Int) : Prop where
  envOK : EnvOK env
  lnrOK : LnrOK env.lnr
  inst : ∀ h ∈ handles, InstOK env h (pts h)
  nodup : handles.Nodup
  distinct : ∀ a ∈ handles, ∀ b ∈ handles, (env.inst a).id = (env.inst b).id → a = b
  streams : Streams ids idsOf handles

/-- C15.  The simplification of a feature class terminates with a result for all options, constraints, predicates, index heuristics, map orders and
previous states. -/
theorem C15_terminates (hc : ClassOK env pts ids idsOf handles) (o : Opts K) (dirty : Int → Bool) :
    ∃ r, Yields (simplifyFeatureClass env ids idsOf handles o dirty) r := by
  obtain ⟨-, res, -, hy, -⟩ := simplifyFeatureClass_yields hc.envOK hc.lnrOK hc.inst hc.nodup hc.distinct hc.streams o dirty
  exact ⟨res, hy⟩

theorem C15_never_panics (hc : ClassOK env pts ids idsOf handles) (o : Opts K) (dirty : Int → Bool) (fuel : Nat) :
    simplifyFeatureClass env ids idsOf handles o dirty fuel ≠ .panic := by
  obtain ⟨r, hy⟩ := C15_terminates hc o dirty
  rcases (simplifyFeatureClass_le env ids idsOf handles o dirty).eq_of_yields hy fuel with h | h <;> rw [h] <;> simp

theorem fc_result (hc : ClassOK env pts ids idsOf handles) (hr : simplifyFeatureClass env ids idsOf handles o dirty fuel = .ok res) :
    res.map Prod.fst = handles ∧ ∃ js, fcJunctions env handles o.planarSelf = .ok js ∧
      ∀ x ∈ res, FeatureResult env pts ids x.1 (junctionsOf js (env.inst x.1).id) x.2 := by
  obtain ⟨js, res', hj, hy, h1, h2⟩ := simplifyFeatureClass_yields hc.envOK hc.lnrOK hc.inst hc.nodup hc.distinct hc.streams o dirty
  have := ((simplifyFeatureClass_le env ids idsOf handles o dirty).yields hr).unique hy
  subst this
  exact ⟨h1, js, hj, h2⟩

/-- C14.  Every feature gets a result, in the order of the input.  The kept indices of a feature are strictly increasing indices of its own vertices from
its first to its last vertex, and its pieces carry its own vertices. -/
theorem C14_not_mixed (hc : ClassOK env pts ids idsOf handles) (hr : simplifyFeatureClass env ids idsOf handles o dirty fuel = .ok res) :
    res.map Prod.fst = handles ∧ ∀ h out, (h, out) ∈ res → KeptIndices (pts h).length out.simple ∧ ∀ nd ∈ out.hulls, OwnVertices (pts h) h nd := by
  obtain ⟨h1, js, -, h2⟩ := fc_result hc hr
  refine ⟨h1, fun h out hm => ?_⟩
  have hh : h ∈ handles := by rw [← h1]; exact List.mem_map.2 ⟨_, hm, rfl⟩
  obtain ⟨src, ids', g, hp⟩ := (h2 _ hm).pieces
  rw [(h2 _ hm).simple]
  exact ⟨hp.kept (hc.inst h hh).two, fun nd hnd => hp.own hnd⟩

/-- C13.  With `planar_self` on, every junction reported by the search over the class is kept in its feature, and so are all vertices of the reported
self-intersections of the feature. -/
theorem C13_survive (hc : ClassOK env pts ids idsOf handles) (hpl : o.planarSelf = true)
    (hr : simplifyFeatureClass env ids idsOf handles o dirty fuel = .ok res) :
    ∃ js, fcPlanarSelfIntersection env.lib env.lnr (handles.map (fun h => (coordsOf (pts h), (env.inst h).id))) = .ok js ∧
      ∀ h out, (h, out) ∈ res → HullNear env near pts h → (env.inst h).opts.planarSelf = true →
        (∀ v, ((env.inst h).id, v) ∈ js → v ∈ out.simple) ∧
        ∃ inters, selfIntersection env.lib env.lnr (env.inst h).pln true (env.inst h).opts.nonPlanarSelf = .ok inters ∧
          ∀ i ∈ inters, ∀ v, v ∈ i.planar ∨ v ∈ i.nonPlanar → v ∈ out.simple := by
  obtain ⟨h1, js, hj, h2⟩ := fc_result hc hr
  obtain ⟨js', j1, -, j2, j3⟩ := fcJunctions_ok hc.lnrOK hc.inst hc.distinct o.planarSelf
  rw [hj] at j1; cases j1
  have j2 := j2 hpl
  rw [List.map_map] at j2
  refine ⟨js, j2, fun h out hm hn hph => ?_⟩
  have hh : h ∈ handles := by rw [← h1]; exact List.mem_map.2 ⟨_, hm, rfl⟩
  have hi := hc.inst h hh
  obtain ⟨src, ids', g, hp⟩ := (h2 _ hm).pieces
  have hcv := j3 h hh
  obtain ⟨k1, k2⟩ := (h2 _ hm).fixed (hn.splittable hi hcv) hph
  rw [show (h, out).1 = h from rfl, show (h, out).2 = out from rfl] at *
  rw [hph] at k2
  obtain ⟨inters, hint⟩ := selfIntersection_ok hc.lnrOK hi.two true (env.inst h).opts.nonPlanarSelf
  have hint' : selfIntersection env.lib env.lnr (env.inst h).pln true (env.inst h).opts.nonPlanarSelf = .ok inters := by rw [hi.pln]; exact hint
  rw [(h2 _ hm).simple]
  refine ⟨fun v hv => ?_, inters, hint', fun i hii v hv => ?_⟩
  · have hv : v ∈ junctionsOf js (env.inst h).id := by
      simp only [junctionsOf, List.mem_map, List.mem_filter]
      exact ⟨_, ⟨hv, by simp⟩, rfl⟩
    exact hp.mem_simple hi.two (hcv v hv) (k1 v hv)
  · have hv : v ∈ i.splitIdxs := by
      rw [(hn.inter hi hint' hii).1]; exact List.mem_append.2 hv
    exact hp.mem_simple hi.two (selfIntersection_bounds hc.lnrOK hi.two hint i hii v hv) (k2 inters hint' i hii v hv)

/-- the vertices of all features with their positions -/
def classOf (env : Env P C B K) (pts : Int → List P) (handles : List Int) : List (Vtx P) := classVertices (handles.map (fun h => (pts h, (env.inst h).id)))

/-- C13 without the detour over the reports: where vertices of two features coincide both are kept, unless the location is the one that sorts last (which
is never reported, C24). -/
theorem C13_shared (hc : ClassOK env pts ids idsOf handles) (hpl : o.planarSelf = true)
    (hr : simplifyFeatureClass env ids idsOf handles o dirty fuel = .ok res) {a b : Int} (hab : a ≠ b) (hb : b ∈ handles) {out : Out P C B}
    (ha : (a, out) ∈ res) (hn : HullNear env near pts a) (hpa : (env.inst a).opts.planarSelf = true) {k l : Nat} {p q : P} (hp : (pts a)[k]? = some p)
    (hq : (pts b)[l]? = some q) (heq : env.lib.equals2D p q = true) {top : Vtx P} (htop : (env.lnr.sortV (classOf env pts handles)).getLast? = some top)
    (hlast : env.lib.equals2D p top.pt = false) : (k : Int) ∈ out.simple := by
  obtain ⟨js, hj, hall⟩ := C13_survive hc hpl hr
  obtain ⟨entries, e1, e2⟩ := C24_junctions_partial hn.sort (handles.map (fun h => (pts h, (env.inst h).id))) htop
  rw [List.map_map] at e1
  have e1 := e1.symm.trans hj
  cases e1
  refine (hall a out ha hn hpa).1 k ((e2 _ _).2 ?_)
  have haH : a ∈ handles := by rw [← (fc_result hc hr).1]; exact List.mem_map.2 ⟨_, ha, rfl⟩
  have hva : (⟨p, k, (env.inst a).id⟩ : Vtx P) ∈ classOf env pts handles := by
    simp only [classOf, classVertices, List.mem_flatMap, List.mem_map]
    exact ⟨_, ⟨a, haH, rfl⟩, mem_lineVertices.2 ⟨k, hp, rfl, rfl⟩⟩
  have hvb : (⟨q, l, (env.inst b).id⟩ : Vtx P) ∈ classOf env pts handles := by
    simp only [classOf, classVertices, List.mem_flatMap, List.mem_map]
    exact ⟨_, ⟨b, hb, rfl⟩, mem_lineVertices.2 ⟨l, hq, rfl, rfl⟩⟩
  have hne : (⟨p, k, (env.inst a).id⟩ : Vtx P) ≠ ⟨q, l, (env.inst b).id⟩ := by
    intro h
    injection h with _ _ h
    exact hab (hc.distinct a haH b hb h)
  obtain ⟨u, v, huv⟩ := List.append_of_mem hva
  rw [huv] at hvb
  have hvb' : (⟨q, l, (env.inst b).id⟩ : Vtx P) ∈ u ++ v := by
    rcases List.mem_append.1 hvb with h | h
    · exact List.mem_append_left _ h
    · rcases List.mem_cons.1 h with h | h
      · exact absurd h.symm hne
      · exact List.mem_append_right _ h
  obtain ⟨u', v', huv'⟩ := List.append_of_mem hvb'
  refine ⟨⟨p, k, (env.inst a).id⟩, ⟨q, l, (env.inst b).id⟩, u' ++ v', ?_, rfl, rfl, heq, hlast⟩
  have : classVertices (handles.map (fun h => (pts h, (env.inst h).id))) = u ++ ⟨p, k, (env.inst a).id⟩ :: v := huv
  rw [this]
  refine List.perm_middle.trans (List.Perm.cons _ ?_)
  rw [huv']
  exact List.perm_middle

section
variable [Zero K]

/-- C30 for feature classes: the pieces left by the joint stage respect the constraints of their feature. -/
theorem C30_feature_class_partial (hc : ClassOK env pts ids idsOf handles) (hr : simplifyFeatureClass env ids idsOf handles o dirty fuel = .ok res) {h : Int}
    {out : Out P C B} (hm : (h, out) ∈ res) (hs : CtxSound env near pts h) :
    ∀ nd ∈ out.hulls, nd.range.J = nd.range.I + 1 ∨ (env.lib.convexHull nd.coords).len = 2 ∨
      Respects env.lib near (env.inst h).opts ((Hdb.contents (env.inst h).ctxdb).map Node.geom) nd.coords (between (pts h) nd.range.I nd.range.J) := by
  obtain ⟨h1, js, -, h2⟩ := fc_result hc hr
  have hh : h ∈ handles := by rw [← h1]; exact List.mem_map.2 ⟨_, hm, rfl⟩
  obtain ⟨src, ids', g, hp⟩ := (h2 _ hm).pieces
  exact fun nd hnd => ((h2 _ hm).settled nd hnd).respects (hc.inst h hh) hs (hp.known hnd)

end

/-! ### concrete case -/

namespace Axis

/-- three features: the second ends on vertex 2 of the first, the third is far away -/
def fcLines : Int → Demo.Line Int Int Int := fun h =>
  let o := { opts 30 2 with nonPlanarSelf := false }
  if h = 1 then ⟨[0, 3, 6, 9, 14], [12], o⟩ else if h = 2 then ⟨[1, 2, 6], [12], o⟩ else ⟨[50, 52, 51, 55], [12], o⟩

/-- identifiers of the feature `h`: 4 n + h; of the joint stage: 4 n -/
def fcRun : Res (List (Int × Out Int Int Bx)) :=
  simplifyFeatureClass (Axis.env fcLines) (fun n => 4 * n) (fun h n => 4 * n + h) [1, 2, 3] { opts 30 2 with nonPlanarSelf := false } (fun _ => false) 60

def fcResult (r : Res (List (Int × Out Int Int Bx))) : List (Int × List (Int × Int) × List Int) := match r with
  | .ok l => l.map (fun x => (x.1, x.2.hulls.map (fun n => (n.range.I, n.range.J)), x.2.simple))
  | _ => []

theorem fc_class : ClassOK (Axis.env fcLines) (fun k => (fcLines k).pts) (fun n => 4 * n) (fun h n => 4 * n + h) [1, 2, 3] where
  envOK := env_ok
  lnrOK := lnr_ok
  inst h hh := by
    simp only [List.mem_cons, List.not_mem_nil, or_false] at hh
    rcases hh with rfl | rfl | rfl <;> exact inst_ok (by decide) (by decide)
  nodup := by decide
  distinct a _ b _ h := h
  streams := by
    refine ⟨fun a b h => ?_, fun h _ a b hab => ?_, fun a ha b hb hab k l => ?_, fun a ha k l => ?_⟩
    · have : (4 * a : Int) = 4 * b := h
      omega
    · have : (4 * a + h : Int) = 4 * b + h := hab
      omega
    · simp only [List.mem_cons, List.not_mem_nil, or_false] at ha hb
      omega
    · simp only [List.mem_cons, List.not_mem_nil, or_false] at ha
      omega

/-- the run meets the hypotheses of all theorems above; the shared vertex (index 2 of the first feature) is kept -/
theorem fc_case : fcResult fcRun = [(1, [(0, 2), (2, 4)], [0, 2, 4]), (2, [(0, 2)], [0, 2]), (3, [(0, 3)], [0, 3])] ∧
    ∃ res, fcRun = .ok res ∧ (∀ h out, (h, out) ∈ res → KeptIndices (fcLines h).pts.length out.simple) ∧ ∀ out, (1, out) ∈ res → 2 ∈ out.simple := by
  have hr : fcResult fcRun = [(1, [(0, 2), (2, 4)], [0, 2, 4]), (2, [(0, 2)], [0, 2]), (3, [(0, 3)], [0, 3])] := by decide +kernel
  cases e : fcRun with
  | ok res =>
    rw [e] at hr
    refine ⟨hr, res, rfl, fun h out hm => ((C14_not_mixed fc_class e).2 h out hm).1, fun out hm => ?_⟩
    exact C13_shared fc_class rfl e (a := 1) (b := 2) (by decide) (by decide) hm hull_near rfl (k := 2) (l := 2) (p := 6) (q := 6) (by decide) (by decide)
      (by decide) (top := ⟨55, 3, 3⟩) (by decide +kernel) (by decide)
  | panic => rw [e] at hr; cases hr
  | timeout => rw [e] at hr; cases hr

end Axis

end Verif
