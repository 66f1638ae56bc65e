import Verif.Lemmas.RunsFC
import Verif.Props.C55_Determinism
import Verif.Props.C78_ClassCrossing

/-! C99: the kept vertices of a feature class do not depend on the run. -/

set_option linter.unusedSectionVars false

namespace Verif

variable {P C B K : Type} [LinearOrder B] [BoundedOrder B] [LinearOrder K]

/-- A run on the feature class `handles`, the feature `h` with the constraints `geoms h`: index heuristics and priority queue are legal, iteration over a map
visits every entry once in whatever order, and the constraint indices were built (constdp/constructor.go:37-50) by some legal index from the constraints in some
order. -/
structure LegalClass (env : Env P C B K) (handles : List Int) (geoms : Int → List C) (s : Sched P C B K) : Prop where
  heur : Hdb.Legal s.heur (maxEntries Hdb.defaultCap)
  heap : ∃ near : Fl K → Fl K → Prop, s.heap.Legal near ∧ ∀ a b c, near a b → b.le c = true → near a c
  ord : ∀ g l, (s.ord g l).Perm l
  ordRm : ∀ g l, (s.ordRm g l).Perm l
  ctx : ∀ h ∈ handles, ∃ H : Heur (Node P C B) B, Hdb.Legal H (maxEntries Hdb.defaultCap) ∧ ∃ l : List C, l.Perm (geoms h) ∧
    Yields (buildContextDB env.lib H h l) (s.ctxdb h)

/-- the kept vertices of every feature -/
def keptOf (res : List (Int × Out P C B)) : List (Int × List Int) := res.map (fun x => (x.1, x.2.simple))

section
variable {env : Env P C B K} {s s0 : Sched P C B K} {pts : Int → List P} {handles : List Int} {geoms : Int → List C} {ids : Nat → Int}
variable {idsOf : Int → Nat → Int} {o : Opts K}

theorem LegalClass.run (l : LegalClass env handles geoms s) {h : Int} (hh : h ∈ handles) : LegalRun env h (geoms h) s :=
  ⟨l.heur, l.heap, l.ord, l.ordRm, l.ctx h hh⟩

theorem LegalClass.envOK (l : LegalClass env handles geoms s) (he : EnvOK env) : EnvOK (env.run s) := ⟨l.heur, l.heap, l.ord, l.ordRm, he.point⟩

theorem LegalClass.classOK (l : LegalClass env handles geoms s) (hc : ClassOK env pts ids idsOf handles) : ClassOK (env.run s) pts ids idsOf handles :=
  ⟨l.envOK hc.envOK, hc.lnrOK, fun h hh => (l.run hh).inst (hc.inst h hh), hc.nodup, hc.distinct, hc.streams⟩

theorem LegalClass.runFC (l : LegalClass env handles geoms s) (hc : ClassOK env pts ids idsOf handles) {V : Int → Rng → Bool}
    (hV : ∀ h ∈ handles, ∀ {a : Node P C B} {n : Nat} {v : Bool}, Known (env.run s) pts [h] a →
      validateContextRelation (env.run s) a ((env.run s).inst h) n = .ok v → v = V h a.range) : RunFC env s pts handles (fun k => V k.1 k.2) := by
  refine ⟨l.envOK hc.envOK, (l.classOK hc).inst, hc.distinct, fun {a n v} ha e => ?_⟩
  exact hV a.inst ha.inst ⟨by simp, ha.2, ha.3, ha.4, ha.5⟩ e

/-- **C99, schedules and map orders, partial** (assumed beyond the code: no clash of index ranges, see `NoClash`): take one run, and suppose that among the
pieces that can occur in it no piece has two neighbours of different features with the same index range.  Then every run with the same index code, constraint
index and identifiers ends and keeps the same vertices of every feature, whatever the iteration orders of the maps and the marks left by earlier runs were.
The results of the worker goroutines are collected in a map (constdp/simple_0.go:11-31), so the iteration orders include the schedules. -/
theorem C99_schedules_partial (hc : ClassOK env pts ids idsOf handles) (l0 : LegalClass env handles geoms s0) {js : List (Int × Int)}
    (hj : fcJunctions env handles o.planarSelf = .ok js) {dirty0 d : Int → Bool} {n0 n : Nat} {outs res0 : List (Int × Out P C B)}
    (h0 : simplifyInstances (env.run s0) idsOf js n0 handles dirty0 = .ok (outs, d)) (hap : NoClash env pts outs handles)
    (r0 : simplifyFeatureClass (env.run s0) ids idsOf handles o dirty0 n = .ok res0) (ls : LegalClass env handles geoms s) (hh : s.heur = s0.heur)
    (hq : s.heap = s0.heap) (hx : s.ctxdb = s0.ctxdb) (dirty : Int → Bool) :
    ∃ res, Yields (simplifyFeatureClass (env.run s) ids idsOf handles o dirty) res ∧ keptOf res = keptOf res0 := by
  obtain ⟨res, N, y⟩ := C15_terminates (ls.classOK hc) o dirty
  refine ⟨res, ⟨N, y⟩, ?_⟩
  have hV := fun h => verdicts_fixed env pts h s0.heap (s0.ctxdb h)
  choose V hV using hV
  have f0 : RunFC env s0 pts handles (fun k => V k.1 k.2) := l0.runFC hc (fun h _ => hV h s0 rfl rfl)
  have f : RunFC env s pts handles (fun k => V k.1 k.2) := ls.runFC hc (fun h _ => hV h s hq (by rw [hx]))
  exact (simplifyFeatureClass_same f0 f hc.lnrOK hc.nodup hc.streams hc.streams (fun h _ cv => SameStart.fixed hh.symm hq.symm) hj h0 hap r0
    (y N (Nat.le_refl _))).symm

/-- **C99, partial** (assumed beyond the code: no clash of index ranges, the priority queue pops in order, where the code compares with a tolerance, and a box is
never farther than a geometry inside it): then the kept vertices do not depend on the shapes of the indices, the order of the constraints, the order among
equally near entries and the identifiers either. -/
theorem C99_shapes_partial (hc : ClassOK env pts ids idsOf handles) (l0 : LegalClass env handles geoms s0) (q0 : s0.heap.Legal Hdb.nearLe)
    (hbox : ∀ (q g : Geo P C) (b : Box B), env.lib.bounds g ≤ b → (env.lib.boxDistance q b).le (env.lib.distance q g) = true) {js : List (Int × Int)}
    (hj : fcJunctions env handles o.planarSelf = .ok js) {dirty0 d : Int → Bool} {n0 n : Nat} {outs res0 : List (Int × Out P C B)}
    (h0 : simplifyInstances (env.run s0) idsOf js n0 handles dirty0 = .ok (outs, d)) (hap : NoClash env pts outs handles)
    (r0 : simplifyFeatureClass (env.run s0) ids idsOf handles o dirty0 n = .ok res0) (ls : LegalClass env handles geoms s) (qs : s.heap.Legal Hdb.nearLe)
    {ids' : Nat → Int} {idsOf' : Int → Nat → Int} (hst : Streams ids' idsOf' handles) (dirty : Int → Bool) :
    ∃ res, Yields (simplifyFeatureClass (env.run s) ids' idsOf' handles o dirty) res ∧ keptOf res = keptOf res0 := by
  have hc' : ClassOK env pts ids' idsOf' handles := ⟨hc.envOK, hc.lnrOK, hc.inst, hc.nodup, hc.distinct, hst⟩
  obtain ⟨res, N, y⟩ := C15_terminates (ls.classOK hc') o dirty
  refine ⟨res, ⟨N, y⟩, ?_⟩
  have hV := fun h => verdicts_exact env pts h ((geoms h).map .ctx)
  choose V hV using hV
  have f0 : RunFC env s0 pts handles (fun k => V k.1 k.2) := l0.runFC hc (fun h hh => hV h s0 ⟨q0, hbox⟩ (l0.run hh).ctxOK)
  have f : RunFC env s pts handles (fun k => V k.1 k.2) := ls.runFC hc' (fun h hh => hV h s ⟨qs, hbox⟩ (ls.run hh).ctxOK)
  exact (simplifyFeatureClass_same f0 f hc.lnrOK hc.nodup hc.streams hst (fun h hh cv => SameStart.exact (f0.run hh) (f.run hh) ⟨q0, hbox⟩ ⟨qs, hbox⟩
    (hc.streams.each h hh) (hst.each h hh)) hj h0 hap r0 (y N (Nat.le_refl _))).symm

/-- **C99 in full, when new self-intersections need not be avoided**: with one and the same index code, constraint index and identifiers, every run ends and all
runs keep the same vertices of every feature. -/
theorem C99_schedules_free (hc : ClassOK env pts ids idsOf handles) (hav : ∀ h ∈ handles, (env.inst h).opts.avoidNewSelfIntersects = false)
    (o : Opts K) (H : Heur (Node P C B) B) (Q : Hdb.Heap (Hdb.KObj (Node P C B) B K)) (ctx : Int → Db P C B) :
    ∃ kept : List (Int × List Int), ∀ s : Sched P C B K, LegalClass env handles geoms s → s.heur = H → s.heap = Q → s.ctxdb = ctx → ∀ dirty : Int → Bool,
      ∃ res, Yields (simplifyFeatureClass (env.run s) ids idsOf handles o dirty) res ∧ keptOf res = kept := by
  by_cases hex : ∃ s : Sched P C B K, LegalClass env handles geoms s ∧ s.heur = H ∧ s.heap = Q ∧ s.ctxdb = ctx
  · obtain ⟨s0, l0, rfl, rfl, rfl⟩ := hex
    have hc0 := l0.classOK hc
    obtain ⟨r0, N, y0⟩ := C15_terminates hc0 o (fun _ => false)
    obtain ⟨js, hj, -, -, hcv⟩ := fcJunctions_ok hc.lnrOK hc.inst hc.distinct o.planarSelf
    obtain ⟨outs, d, ⟨M, e⟩, -⟩ := simplifyInstances_yields hc0.envOK hc0.lnrOK (js := js) handles (fun _ => false) hc0.inst hc.streams.each hcv
    refine ⟨keptOf r0, fun s ls hh hq hx dirty => ?_⟩
    exact C99_schedules_partial hc l0 hj (e M (Nat.le_refl _)) (fun a ha h => absurd h (by simp [hav a ha])) (y0 N (Nat.le_refl _)) ls hh hq hx dirty
  · exact ⟨[], fun s ls hs qs cs => absurd ⟨s, ls, hs, qs, cs⟩ hex⟩

end

/-! ### concrete cases -/

namespace Axis

/-- the three features of C13; new self-intersections need not be avoided -/
def freeOpts : Opts Int := { opts 30 2 with nonPlanarSelf := false, avoidNewSelfIntersects := false }

def freeLines : Int → Demo.Line Int Int Int := fun h =>
  if h = 1 then ⟨[0, 3, 6, 9, 14], [12, 40], freeOpts⟩ else if h = 2 then ⟨[1, 2, 6], [12, 40], freeOpts⟩ else ⟨[50, 52, 51, 55], [12, 40], freeOpts⟩

theorem freeLines_opts (h : Int) : (freeLines h).opts = freeOpts := by unfold freeLines; split_ifs <;> rfl

theorem free_class : ClassOK (env freeLines) (fun k => (freeLines k).pts) (fun n => 4 * n) (fun h n => 4 * n + h) [1, 2, 3] where
  envOK := env_ok
  lnrOK := lnr_ok
  inst h _ := inst_ok (by unfold freeLines; split_ifs <;> decide) (by rw [freeLines_opts]; decide)
  nodup := by decide
  distinct _ _ _ _ h := h
  streams := fc_class.streams

/-- a run on the three features -/
def freePlain : Sched Int Int Bx Int := ⟨Demo.heur, Hdb.listHeap, fun _ l => l, fun _ l => l, fun h => Demo.ctxdb lib h (freeLines h).ctx⟩

/-- another one: maps in reverse, other heuristics, constraints in reverse -/
def freeBackward : Sched Int Int Bx Int :=
  ⟨heur', Hdb.listHeap, fun _ l => l.reverse, fun _ l => l.reverse, fun h => Demo.ctxdb lib h (freeLines h).ctx.reverse⟩

theorem freePlain_legal : LegalClass (env freeLines) [1, 2, 3] (fun h => (freeLines h).ctx) freePlain :=
  ⟨Demo.heur_legal, ⟨Hdb.nearLe, Hdb.listHeap_legal, fun _ _ _ h1 h2 => Fl.le_trans h1 h2⟩, fun _ l => List.Perm.refl l, fun _ l => List.Perm.refl l,
    fun h _ => ⟨Demo.heur, Demo.heur_legal, _, List.Perm.refl _, ctxdb_yields h _⟩⟩

theorem freeBackward_legal : LegalClass (env freeLines) [1, 2, 3] (fun h => (freeLines h).ctx) freeBackward :=
  ⟨heur'_legal, ⟨Hdb.nearLe, Hdb.listHeap_legal, fun _ _ _ h1 h2 => Fl.le_trans h1 h2⟩, fun _ l => List.reverse_perm l, fun _ l => List.reverse_perm l,
    fun h _ => ⟨Demo.heur, Demo.heur_legal, _, List.reverse_perm _, ctxdb_yields h _⟩⟩

/-- the concrete case beside `C99_shapes_partial`: on these three features, every legal run with an exact queue keeps the shared vertex 2 of the first feature and
the end points -/
theorem C99_case {s : Sched Int Int Bx Int} (ls : LegalClass (env freeLines) [1, 2, 3] (fun h => (freeLines h).ctx) s) (hq : s.heap.Legal Hdb.nearLe)
    {ids : Nat → Int} {idsOf : Int → Nat → Int} (hst : Streams ids idsOf [1, 2, 3]) (dirty : Int → Bool) :
    ∃ res, Yields (simplifyFeatureClass ((env freeLines).run s) ids idsOf [1, 2, 3] freeOpts dirty) res ∧
      keptOf res = [(1, [0, 2, 4]), (2, [0, 2]), (3, [0, 3])] := by
  have hr : (match simplifyFeatureClass ((env freeLines).run freePlain) (fun n => 4 * n) (fun h n => 4 * n + h) [1, 2, 3] freeOpts (fun _ => false) 60 with
      | .ok r => keptOf r | _ => []) = [(1, [0, 2, 4]), (2, [0, 2]), (3, [0, 3])] := by decide +kernel
  cases e : simplifyFeatureClass ((env freeLines).run freePlain) (fun n => 4 * n) (fun h n => 4 * n + h) [1, 2, 3] freeOpts (fun _ => false) 60 with
  | panic => rw [e] at hr; cases hr
  | timeout => rw [e] at hr; cases hr
  | ok r0 =>
    rw [e] at hr
    have hc0 := freePlain_legal.classOK free_class
    obtain ⟨js, hj, -, -, hcv⟩ := fcJunctions_ok free_class.lnrOK free_class.inst free_class.distinct freeOpts.planarSelf
    obtain ⟨outs, d, ⟨M, e'⟩, -⟩ := simplifyInstances_yields hc0.envOK hc0.lnrOK (js := js) [1, 2, 3] (fun _ => false) hc0.inst free_class.streams.each hcv
    rw [← hr]
    refine C99_shapes_partial free_class freePlain_legal Hdb.listHeap_legal (fun q g b hb => ?_) hj (e' M (Nat.le_refl _)) (fun a _ h => ?_) e ls hq hst dirty
    · show (Fl.fin (boxGap (span q) b)).le (.fin (gap (span q) (span g))) = true
      rw [Fl.fin_le_fin, decide_eq_true_eq]
      exact boxGap_le hb
    · have h : (freeLines a).opts.avoidNewSelfIntersects = true := h
      rw [freeLines_opts] at h
      cases h

/-- in particular the reversed run -/
example : ∃ res, Yields (simplifyFeatureClass ((env freeLines).run freeBackward) (fun n => 8 * n) (fun h n => 8 * n + h) [1, 2, 3] freeOpts (fun _ => true)) res ∧
    keptOf res = [(1, [0, 2, 4]), (2, [0, 2]), (3, [0, 3])] :=
  C99_case freeBackward_legal Hdb.listHeap_legal ⟨fun a b h => by simpa using h, fun h _ a b e => by simpa using e,
    fun a ha b hb hab k l e => by simp only [List.mem_cons, List.not_mem_nil, or_false] at ha hb; omega,
    fun a ha k l e => by simp only [List.mem_cons, List.not_mem_nil, or_false] at ha; omega⟩ _

end Axis

namespace Plane

/-- a run whose maps are iterated in the order `ord`; there are no constraints -/
def ordRun (ord : List (Node Pt (List Pt) Bx) → List (Node Pt (List Pt) Bx)) : Sched Pt (List Pt) Bx ℚ :=
  ⟨Demo.heur, Hdb.listHeap, fun _ => ord, fun _ l => l, fun _ => Hdb.newHdb Hdb.defaultCap⟩

theorem ordRun_legal {ord : List (Node Pt (List Pt) Bx) → List (Node Pt (List Pt) Bx)} (ho : ∀ l, (ord l).Perm l) (lines : Int → Demo.Line Pt (List Pt) ℚ)
    (handles : List Int) : LegalClass (env lines) handles (fun _ => []) (ordRun ord) :=
  ⟨Demo.heur_legal, ⟨Hdb.nearLe, Hdb.listHeap_legal, fun _ _ _ h1 h2 => Fl.le_trans h1 h2⟩, fun _ l => ho l, fun _ l => List.Perm.refl l,
    fun _ _ => ⟨Demo.heur, Demo.heur_legal, [], List.Perm.refl _, ⟨0, fun _ _ => rfl⟩⟩⟩

/-- the concrete case beside `C99_schedules_partial`, with new self-intersections to avoid: the arch and the line under it -/
example (s : Sched Pt (List Pt) Bx ℚ) (hs : LegalClass (env vaultLines) [1, 4] (fun _ => []) s) (h1 : s.heur = Demo.heur) (h2 : s.heap = Hdb.listHeap)
    (h3 : s.ctxdb = fun _ => Hdb.newHdb Hdb.defaultCap) (dirty : Int → Bool) :
    ∃ res, Yields (simplifyFeatureClass ((env vaultLines).run s) (fun n => 5 * n) (fun h n => 5 * n + h) [1, 4] classOpts dirty) res ∧
      keptOf res = [(1, [0, 2, 4]), (4, [0, 2])] := by
  have hc := vault_class (handles := [1, 4]) (by decide) (by decide)
  have hr : (match simplifyFeatureClass ((env vaultLines).run (ordRun id)) (fun n => 5 * n) (fun h n => 5 * n + h) [1, 4] classOpts (fun _ => false) 60 with
      | .ok r => keptOf r | _ => []) = [(1, [0, 2, 4]), (4, [0, 2])] := by decide +kernel
  have hf : (match vaultFirst with | .ok _ => true | _ => false) = true := by decide +kernel
  have hrun : (env vaultLines).run (ordRun id) = env vaultLines := by
    have hi : ∀ h, Demo.ctxdb lib h (vaultLines h).ctx = Hdb.newHdb Hdb.defaultCap := by
      intro h; unfold vaultLines; split_ifs <;> rfl
    simp only [Env.run, ordRun, env, Demo.env, hi]
    rfl
  cases e : simplifyFeatureClass ((env vaultLines).run (ordRun id)) (fun n => 5 * n) (fun h n => 5 * n + h) [1, 4] classOpts (fun _ => false) 60 with
  | panic => rw [e] at hr; cases hr
  | timeout => rw [e] at hr; cases hr
  | ok r0 =>
    rw [e] at hr
    cases e' : vaultFirst with
    | panic => rw [e'] at hf; cases hf
    | timeout => rw [e'] at hf; cases hf
    | ok r =>
      obtain ⟨outs, d⟩ := r
      rw [← hr]
      exact C99_schedules_partial (s0 := ordRun id) hc (ordRun_legal (fun _ => List.Perm.refl _) _ _) rfl (by rw [hrun]; exact e') (vault_apart e').noClash e hs h1 h2 h3 dirty

/-! ### the violation -/

/-- an arch, two wedges over its left foot, a line under the top of the arch, and three short lines that make the wedges and the right half of the arch split -/
def clashLines : Int → Demo.Line Pt (List Pt) ℚ := fun h =>
  if h = 1 then ⟨[(0, 0), (4, 10), (10, 12), (16, 10), (20, 0), (19, -10), (15, -20), (10, -30), (0, -40)], [], classOpts⟩
  else if h = 2 then ⟨[(1, 1/2), (-1, -1), (1, 5), (-1/5, 9/2), (-1, 3)], [], classOpts⟩
  else if h = 3 then ⟨[(2, 1), (-3, -4), (2, 20), (-15, 18), (-30, 10)], [], classOpts⟩
  else if h = 4 then ⟨[(10, -5), (21/2, 0), (10, 5)], [], classOpts⟩
  else if h = 5 then ⟨[(-3/10, 3), (-3/10, 24/10), (-9/10, 18/10)], [], classOpts⟩
  else if h = 6 then ⟨[(-20, 9), (-19, 7), (-20, 5)], [], classOpts⟩
  else ⟨[(-1, -20), (0, -19), (1, -20)], [], classOpts⟩

def clashHandles : List Int := [1, 2, 3, 4, 5, 6, 7]

theorem clashLines_opts (h : Int) : (clashLines h).opts = classOpts := by
  unfold clashLines; split_ifs <;> rfl

theorem clash_class : ClassOK (env clashLines) (fun h => (clashLines h).pts) (fun n => 9 * n) (fun h n => 9 * n + h) clashHandles where
  envOK := env_ok
  lnrOK := lnr_ok
  inst _ _ := inst_ok (by unfold clashLines; split_ifs <;> decide) (by rw [clashLines_opts]; decide +kernel)
  nodup := by decide
  distinct _ _ _ _ h := h
  streams := by
    have hm : ∀ h ∈ clashHandles, 0 < h ∧ h < 9 := by decide
    exact ⟨fun a b h => by simpa using h, fun h _ a b e => by simpa using e,
      fun a ha b hb hab k l e => by have := hm a ha; have := hm b hb; omega, fun a ha k l e => by have := hm a ha; omega⟩

/-- **C99 is violated**: two runs that differ only in the order in which a map is iterated keep different vertices.  The first round splits the arch and both
wedges, and the order of the map decides in which order their parts enter the index.  Two rounds later the part [0, 2] of the arch conflicts with the parts
[0, 2] of both wedges; the selection is keyed by the index range alone (deform/cls.go:29, 66-71), so only the part found last in the index is split. -/
theorem C99_refuted : ∃ s1 s2 : Sched Pt (List Pt) Bx ℚ, LegalClass (env clashLines) clashHandles (fun _ => []) s1 ∧
    LegalClass (env clashLines) clashHandles (fun _ => []) s2 ∧ s1.heur = s2.heur ∧ s1.heap = s2.heap ∧ s1.ordRm = s2.ordRm ∧ s1.ctxdb = s2.ctxdb ∧
    (∃ res, Yields (simplifyFeatureClass ((env clashLines).run s1) (fun n => 9 * n) (fun h n => 9 * n + h) clashHandles classOpts (fun _ => false)) res ∧
      keptOf res = [(1, [0, 2, 4, 8]), (2, [0, 2, 4]), (3, [0, 1, 2, 4]), (4, [0, 2]), (5, [0, 2]), (6, [0, 2]), (7, [0, 2])]) ∧
    (∃ res, Yields (simplifyFeatureClass ((env clashLines).run s2) (fun n => 9 * n) (fun h n => 9 * n + h) clashHandles classOpts (fun _ => false)) res ∧
      keptOf res = [(1, [0, 2, 4, 8]), (2, [0, 1, 2, 4]), (3, [0, 2, 4]), (4, [0, 2]), (5, [0, 2]), (6, [0, 2]), (7, [0, 2])]) := by
  have key : ∀ (ord : List (Node Pt (List Pt) Bx) → List (Node Pt (List Pt) Bx)) (k : List (Int × List Int)),
      (match simplifyFeatureClass ((env clashLines).run (ordRun ord)) (fun n => 9 * n) (fun h n => 9 * n + h) clashHandles classOpts (fun _ => false) 60 with
        | .ok r => keptOf r | _ => []) = k → k ≠ [] →
      ∃ res, Yields (simplifyFeatureClass ((env clashLines).run (ordRun ord)) (fun n => 9 * n) (fun h n => 9 * n + h) clashHandles classOpts (fun _ => false)) res ∧
        keptOf res = k := by
    intro ord k hk hne
    cases e : simplifyFeatureClass ((env clashLines).run (ordRun ord)) (fun n => 9 * n) (fun h n => 9 * n + h) clashHandles classOpts (fun _ => false) 60 with
    | ok r => rw [e] at hk; exact ⟨r, (simplifyFeatureClass_le _ _ _ _ _ _).yields e, hk⟩
    | panic => rw [e] at hk; exact absurd hk.symm hne
    | timeout => rw [e] at hk; exact absurd hk.symm hne
  exact ⟨ordRun id, ordRun List.reverse, ordRun_legal (fun _ => List.Perm.refl _) _ _, ordRun_legal (fun l => List.reverse_perm l) _ _, rfl, rfl, rfl, rfl,
    key _ _ (by decide +kernel) (by simp), key _ _ (by decide +kernel) (by simp)⟩

end Plane

end Verif
