import Verif.Props.C100_SameFile
import Verif.Props.C108_Similar

/-! C111: constraints out of reach of a line do not matter. -/

set_option linter.unusedSectionVars false

namespace Verif

variable {P C B K : Type} [LinearOrder B] [BoundedOrder B] [LinearOrder K]

section
variable {env : Env P C B K} {s s1 s2 : Sched P C B K} {pts : Int → List P} {h : Int} {gs gs1 gs2 : List C} {near : Fl K → Fl K → Prop}

/-- Specification: the constraint is within the minimum distance of the hull of some sub-line of `h`. -/
def InReach (env : Env P C B K) (pts : Int → List P) (h : Int) (g : C) : Prop :=
  ∃ nd, Known env pts [h] nd ∧ (env.lib.distance nd.geom (.ctx g)).le (env.inst h).opts.minDist = true

/-- Specification: two lists of constraints that differ only in order, in repetitions and in constraints out of reach. -/
def AlikeInReach (env : Env P C B K) (pts : Int → List P) (h : Int) (gs1 gs2 : List C) : Prop := ∀ g, InReach env pts h g → (g ∈ gs1 ↔ g ∈ gs2)

/-- Specification: as seen from the hulls of the sub-lines, no constraint beyond the minimum distance is so little beyond a constraint within it that the queue may take
the one for the other.  This is no condition for a queue that pops in order (`unmistakable_exact`). -/
def Unmistakable (env : Env P C B K) (near : Fl K → Fl K → Prop) (pts : Int → List P) (h : Int) (gs : List C) : Prop :=
  ∀ nd, Known env pts [h] nd → ∀ a ∈ gs, ∀ b ∈ gs, (env.lib.distance nd.geom (.ctx a)).le (env.inst h).opts.minDist = true →
    (env.lib.distance nd.geom (.ctx b)).le (env.inst h).opts.minDist = false → ¬ near (env.lib.distance nd.geom (.ctx b)) (env.lib.distance nd.geom (.ctx a))

/-- Assumption about the library: as seen from the hulls of the sub-lines, a box is never farther than a constraint inside it. -/
def Bounding (env : Env P C B K) (pts : Int → List P) (h : Int) : Prop :=
  ∀ nd, Known env pts [h] nd → ∀ (g : C) (b : Box B), env.lib.bounds (.ctx g) ≤ b → (env.lib.boxDistance nd.geom b).le (env.lib.distance nd.geom (.ctx g)) = true

theorem unmistakable_exact : Unmistakable env Hdb.nearLe pts h gs := by
  intro nd _ a _ b _ ha hb hn
  have := Fl.le_trans hn ha
  rw [hb] at this; cases this

/-- a piece keeps being one in another run -/
theorem known_run {nd : Node P C B} (hk : Known (env.run s) pts [h] nd) : Known env pts [h] nd := ⟨hk.inst, hk.piece, hk.lo, hk.lt, hk.hi⟩

/-- constdp/validate.go:33-67: with nothing to be mistaken, the verdict depends on the piece and the set of constraints only -/
theorem validate_unmistakable (hheap : s.heap.Legal near) (hmono : ∀ a b c, near a b → b.le c = true → near a c)
    (hbox : Bounding env pts h)
    (hc : CtxOK env s h (gs.map .ctx)) (hu : Unmistakable env near pts h gs) {hull : Node P C B} (hk : Known env pts [h] hull) {n : Nat} {b : Bool}
    (e : validateContextRelation (env.run s) hull ((env.run s).inst h) n = .ok b) : verdict env h (gs.map .ctx) hull n = .ok b := by
  unfold validateContextRelation at e
  unfold verdict
  have ho : ((env.run s).inst h).opts = (env.inst h).opts := rfl
  have hlib : (env.run s).lib = env.lib := rfl
  simp only [ho, hlib] at e ⊢
  split at e
  · rename_i hopt; rw [if_pos hopt]; exact e
  · rename_i hopt
    rw [if_neg hopt]
    obtain ⟨out, e1, e2⟩ := Res.bind_eq_ok.1 e
    have hin : ∀ nd ∈ Hdb.contents (s.ctxdb h), ∃ g ∈ gs, nd.geom = .ctx g := by
      intro nd hnd
      obtain ⟨g, hg, hgn⟩ := List.mem_map.1 ((hc.geoms nd.geom).1 (List.mem_map_of_mem hnd))
      exact ⟨g, hg, hgn.symm⟩
    obtain ⟨out', y, hout⟩ := Hdb.contextNeighbours_yields (strong := True) (ops := nodeOps) hc.wf hheap hmono
      (boxDist := env.lib.boxDistance hull.geom) (itemDist := fun nd => env.lib.distance hull.geom nd.geom)
      (fun _ nd hnd b hb => by
        obtain ⟨g, -, hg⟩ := hin nd hnd
        have : nd.mbr ≤ b := hb
        rw [hc.mbr nd hnd, hg] at this
        simp only [hg]
        exact hbox hull hk g b this) (env.inst h).opts.minDist
    have : out = out' := (Hdb.contextNeighbours_le _ _ _ _ _).val e1 y
    subst this
    have hperm := Hdb.KOut_band hout (by
      intro x hx y hy hxd hyd
      obtain ⟨a, ha, hax⟩ := hin x hx
      obtain ⟨b, hb, hby⟩ := hin y hy
      simp only [hax, hby] at hxd hyd ⊢
      exact hu hull hk a ha b hb hxd hyd)
    have hmem : ∀ g, g ∈ out.map Node.geom ↔ g ∈ (gs.map Geo.ctx).filter (fun g => (env.lib.distance hull.geom g).le (env.inst h).opts.minDist) := by
      intro g
      rw [List.mem_filter, ← hc.geoms]
      simp only [List.mem_map, hperm.mem_iff, List.mem_filter]
      constructor
      · rintro ⟨a, ⟨h1, h2⟩, rfl⟩; exact ⟨⟨a, h1, rfl⟩, h2⟩
      · rintro ⟨⟨a, h1, rfl⟩, h2⟩; exact ⟨a, ⟨h1, h2⟩, rfl⟩
    have g1 : isGeomRelateValid env.lib hull (out.map Node.geom) =
        isGeomRelateValid env.lib hull ((gs.map Geo.ctx).filter (fun g => (env.lib.distance hull.geom g).le (env.inst h).opts.minDist)) := by
      rw [Bool.eq_iff_iff, C26_geom_iff, C26_geom_iff]; simp only [hmem]
    have g2 : isDistRelateValid env.lib (env.inst h).opts.minDist hull (out.map Node.geom) =
        isDistRelateValid env.lib (env.inst h).opts.minDist hull ((gs.map Geo.ctx).filter (fun g => (env.lib.distance hull.geom g).le (env.inst h).opts.minDist)) := by
      rw [Bool.eq_iff_iff, C27_dist_iff, C27_dist_iff]; simp only [hmem]
    have g3 := Homotopy.homotopy_same (lib := env.lib) hull.coords hmem
    simp only [isDirRelateValid] at e2 ⊢
    rw [g1, g2, g3] at e2
    exact e2

/-- the verdict depends on the constraints in reach only -/
theorem verdict_reach (ha : AlikeInReach env pts h gs1 gs2) {hull : Node P C B} (hk : Known env pts [h] hull) (n : Nat) :
    verdict env h (gs1.map .ctx) hull n = verdict env h (gs2.map .ctx) hull n := by
  have hmem : ∀ g, g ∈ (gs1.map Geo.ctx).filter (fun g => (env.lib.distance hull.geom g).le (env.inst h).opts.minDist) ↔
      g ∈ (gs2.map Geo.ctx).filter (fun g => (env.lib.distance hull.geom g).le (env.inst h).opts.minDist) := by
    intro g
    rw [List.mem_filter, List.mem_filter]
    refine and_congr_left fun hd => ?_
    simp only [List.mem_map]
    constructor
    · rintro ⟨c, h1, rfl⟩; exact ⟨c, (ha c ⟨hull, hk, hd⟩).1 h1, rfl⟩
    · rintro ⟨c, h1, rfl⟩; exact ⟨c, (ha c ⟨hull, hk, hd⟩).2 h1, rfl⟩
  unfold verdict
  simp only
  have g1 : isGeomRelateValid env.lib hull ((gs1.map Geo.ctx).filter (fun g => (env.lib.distance hull.geom g).le (env.inst h).opts.minDist)) =
      isGeomRelateValid env.lib hull ((gs2.map Geo.ctx).filter (fun g => (env.lib.distance hull.geom g).le (env.inst h).opts.minDist)) := by
    rw [Bool.eq_iff_iff, C26_geom_iff, C26_geom_iff]; simp only [hmem]
  have g2 : isDistRelateValid env.lib (env.inst h).opts.minDist hull ((gs1.map Geo.ctx).filter (fun g => (env.lib.distance hull.geom g).le (env.inst h).opts.minDist)) =
      isDistRelateValid env.lib (env.inst h).opts.minDist hull ((gs2.map Geo.ctx).filter (fun g => (env.lib.distance hull.geom g).le (env.inst h).opts.minDist)) := by
    rw [Bool.eq_iff_iff, C27_dist_iff, C27_dist_iff]; simp only [hmem]
  have g3 := Homotopy.homotopy_same (lib := env.lib) hull.coords hmem
  simp only [isDirRelateValid]
  rw [g1, g2, g3]

open Classical in
/-- the verdicts are given by the ranges and the constraints in reach -/
theorem verdicts_reach (env : Env P C B K) (pts : Int → List P) (h : Int) (gs : List C)
    (hbox : Bounding env pts h) :
    ∃ V : Rng → Bool, ∀ (s : Sched P C B K) (near : Fl K → Fl K → Prop) (gs' : List C), s.heap.Legal near → (∀ a b c, near a b → b.le c = true → near a c) →
      CtxOK env s h (gs'.map .ctx) → Unmistakable env near pts h gs' → AlikeInReach env pts h gs' gs →
      ∀ {a : Node P C B} {n : Nat} {v : Bool}, Known (env.run s) pts [h] a → validateContextRelation (env.run s) a ((env.run s).inst h) n = .ok v → v = V a.range := by
  refine ⟨fun r => decide (∃ a n, Known env pts [h] a ∧ a.range = r ∧ verdict env h (gs.map .ctx) a n = .ok true), ?_⟩
  intro s near gs' hheap hmono hc hu hal a n v ha e
  have hk := known_run ha
  have k1 := validate_unmistakable hheap hmono hbox hc hu hk e
  rw [verdict_reach hal hk] at k1
  rw [eq_comm, Bool.eq_iff_iff, decide_eq_true_iff]
  constructor
  · rintro ⟨b, m, hb, hr, k2⟩
    have hb' : Known (env.run s) pts [h] b := ⟨hb.inst, hb.piece, hb.lo, hb.lt, hb.hi⟩
    rw [ha.eq_withId hb' hr.symm, verdict_withId] at k2
    exact (verdict_le (gs.map .ctx) a).det k1 k2
  · rintro rfl
    exact ⟨a, n, hk, rfl, k1⟩

/-- C111, one line, partial (assumed beyond the code: the priority queue pops in order, where the code compares with a tolerance, and a box is never farther than a
geometry inside it).  Two runs on a line whose constraints differ only out of reach, in order and in repetitions: they end and keep the same vertices, whatever else
differs between the runs. -/
theorem C111_line_partial (he : EnvOK env) (hl : LnrOK env.lnr) (hi : InstOK env h (pts h)) {cv : List Int} (hcv : ∀ i ∈ cv, 0 ≤ i ∧ i < (pts h).length)
    (hbox : ∀ (q g : Geo P C) (b : Box B), env.lib.bounds g ≤ b → (env.lib.boxDistance q b).le (env.lib.distance q g) = true) (ha : AlikeInReach env pts h gs1 gs2)
    (l1 : LegalRun env h gs1 s1) (q1 : s1.heap.Legal Hdb.nearLe) (l2 : LegalRun env h gs2 s2) (q2 : s2.heap.Legal Hdb.nearLe)
    {ids1 ids2 : Nat → Int} (j1 : Function.Injective ids1) (j2 : Function.Injective ids2) (d1 d2 : Int → Bool) :
    ∃ o1 d1' o2 d2', Yields (simplify (env.run s1) ids1 h cv d1) (o1, d1') ∧ Yields (simplify (env.run s2) ids2 h cv d2) (o2, d2') ∧ o1.simple = o2.simple := by
  obtain ⟨V, hV⟩ := verdicts_reach env pts h gs2 (fun nd _ g b => hbox nd.geom (.ctx g) b)
  obtain ⟨o1, d1', -, y1, -⟩ := simplify_yields (env := env.run s1) (l1.envOK he) hl (l1.inst hi) j1 hcv d1
  obtain ⟨o2, d2', -, y2, -⟩ := simplify_yields (env := env.run s2) (l2.envOK he) hl (l2.inst hi) j2 hcv d2
  refine ⟨o1, d1', o2, d2', y1, y2, ?_⟩
  obtain ⟨N1, y1⟩ := y1
  obtain ⟨N2, y2⟩ := y2
  have r1 : RunOK env s1 pts h V := ⟨l1.envOK he, l1.inst hi, hV s1 _ gs1 q1 (fun _ _ _ h1 h2 => Fl.le_trans h1 h2) l1.ctxOK unmistakable_exact ha⟩
  have r2 : RunOK env s2 pts h V := ⟨l2.envOK he, l2.inst hi, hV s2 _ gs2 q2 (fun _ _ _ h1 h2 => Fl.le_trans h1 h2) l2.ctxOK unmistakable_exact (fun _ _ => Iff.rfl)⟩
  exact (simplify_same r1 r2 hl hcv j1 j2 (SameStart.exact r1 r2 ⟨q1, hbox⟩ ⟨q2, hbox⟩ j1 j2) (y1 N1 (Nat.le_refl _)) (y2 N2 (Nat.le_refl _))).2

/-- C111, one line, with the queue of the code, partial (assumed beyond the code: a box is never farther than a geometry inside it; and no constraint lies where the
tolerance of the queue matters).  With the same code in both runs the constraints out of reach do not matter. -/
theorem C111_tolerant_partial (he : EnvOK env) (hl : LnrOK env.lnr) (hi : InstOK env h (pts h)) {cv : List Int} (hcv : ∀ i ∈ cv, 0 ≤ i ∧ i < (pts h).length)
    (hbox : Bounding env pts h) (ha : AlikeInReach env pts h gs1 gs2)
    (l1 : LegalRun env h gs1 s1) (l2 : LegalRun env h gs2 s2) (hh : s1.heur = s2.heur) (hq : s1.heap = s2.heap) (q1 : s1.heap.Legal near)
    (hmono : ∀ a b c, near a b → b.le c = true → near a c) (u1 : Unmistakable env near pts h gs1) (u2 : Unmistakable env near pts h gs2)
    {ids : Nat → Int} (j : Function.Injective ids) (d1 d2 : Int → Bool) :
    ∃ o1 d1' o2 d2', Yields (simplify (env.run s1) ids h cv d1) (o1, d1') ∧ Yields (simplify (env.run s2) ids h cv d2) (o2, d2') ∧ o1.simple = o2.simple := by
  obtain ⟨V, hV⟩ := verdicts_reach env pts h gs2 hbox
  obtain ⟨o1, d1', -, y1, -⟩ := simplify_yields (env := env.run s1) (l1.envOK he) hl (l1.inst hi) j hcv d1
  obtain ⟨o2, d2', -, y2, -⟩ := simplify_yields (env := env.run s2) (l2.envOK he) hl (l2.inst hi) j hcv d2
  refine ⟨o1, d1', o2, d2', y1, y2, ?_⟩
  obtain ⟨N1, y1⟩ := y1
  obtain ⟨N2, y2⟩ := y2
  have r1 : RunOK env s1 pts h V := ⟨l1.envOK he, l1.inst hi, hV s1 _ gs1 q1 hmono l1.ctxOK u1 ha⟩
  have r2 : RunOK env s2 pts h V := ⟨l2.envOK he, l2.inst hi, hV s2 _ gs2 (hq ▸ q1) hmono l2.ctxOK u2 (fun _ _ => Iff.rfl)⟩
  exact (simplify_same r1 r2 hl hcv j j (SameStart.fixed hh hq) (y1 N1 (Nat.le_refl _)) (y2 N2 (Nat.le_refl _))).2

end

/-! ### a feature class -/

section
variable {env : Env P C B K} {s1 s2 : Sched P C B K} {pts : Int → List P} {handles : List Int} {gs1 gs2 : Int → List C} {near : Fl K → Fl K → Prop}
variable {ids1 ids2 : Nat → Int} {idsOf1 idsOf2 : Int → Nat → Int} {o : Opts K}

/-- C111, a feature class, partial (assumed beyond the code: as for one line, and that no index ranges clash, see C99). -/
theorem C111_class_partial (hc1 : ClassOK env pts ids1 idsOf1 handles) (h2 : Streams ids2 idsOf2 handles)
    (hbox : ∀ (q g : Geo P C) (b : Box B), env.lib.bounds g ≤ b → (env.lib.boxDistance q b).le (env.lib.distance q g) = true)
    (ha : ∀ h ∈ handles, AlikeInReach env pts h (gs1 h) (gs2 h)) (l1 : LegalClass env handles gs1 s1) (q1 : s1.heap.Legal Hdb.nearLe)
    (l2 : LegalClass env handles gs2 s2) (q2 : s2.heap.Legal Hdb.nearLe) (d1 d2 : Int → Bool)
    {js : List (Int × Int)} (hj : fcJunctions env handles o.planarSelf = .ok js) {d : Int → Bool} {n : Nat} {outs : List (Int × Out P C B)}
    (h0 : simplifyInstances (env.run s1) idsOf1 js n handles d1 = .ok (outs, d)) (hap : NoClash env pts outs handles) :
    ∃ res1 res2, Yields (simplifyFeatureClass (env.run s1) ids1 idsOf1 handles o d1) res1 ∧ Yields (simplifyFeatureClass (env.run s2) ids2 idsOf2 handles o d2) res2 ∧
      keptOf res1 = keptOf res2 := by
  have hc2 : ClassOK env pts ids2 idsOf2 handles := ⟨hc1.envOK, hc1.lnrOK, hc1.inst, hc1.nodup, hc1.distinct, h2⟩
  obtain ⟨res1, N1, y1⟩ := C15_terminates (l1.classOK hc1) o d1
  obtain ⟨res2, N2, y2⟩ := C15_terminates (l2.classOK hc2) o d2
  refine ⟨res1, res2, ⟨N1, y1⟩, ⟨N2, y2⟩, ?_⟩
  have hV := fun h => verdicts_reach env pts h (gs2 h) (fun nd _ g b => hbox nd.geom (.ctx g) b)
  choose V hV using hV
  have f1 : RunFC env s1 pts handles (fun k => V k.1 k.2) := l1.runFC hc1 (fun h hh => hV h s1 _ (gs1 h) q1 (fun _ _ _ h1 h2 => Fl.le_trans h1 h2) (l1.run hh).ctxOK
    unmistakable_exact (ha h hh))
  have f2 : RunFC env s2 pts handles (fun k => V k.1 k.2) := l2.runFC hc2 (fun h hh => hV h s2 _ (gs2 h) q2 (fun _ _ _ h1 h2 => Fl.le_trans h1 h2) (l2.run hh).ctxOK
    unmistakable_exact (fun _ _ => Iff.rfl))
  exact simplifyFeatureClass_same f1 f2 hc1.lnrOK hc1.nodup hc1.streams h2 (fun h hh cv => SameStart.exact (f1.run hh) (f2.run hh) ⟨q1, hbox⟩ ⟨q2, hbox⟩
    (hc1.streams.each h hh) (h2.each h hh)) hj h0 hap (y1 N1 (Nat.le_refl _)) (y2 N2 (Nat.le_refl _))

end

/-! ### the simplification step of the program -/

namespace Engine

variable {E : Engine P C B K} {o : Opts K} {kind : Io.OffsetKind} {ctx1 ctx2 : List C} {lines : List (List P)} {d1 d2 : Draw P C B} {near : Fl K → Fl K → Prop}

/-- two forests on the same lines differ only in the indices of the constraints -/
theorem env_other {n m : Nat} {fs1 fs2 : List (Inst P C B K)} (h1 : E.forest o kind ctx1 lines n = .ok fs1) (h2 : E.forest o kind ctx2 lines m = .ok fs2) (d : Draw P C B) :
    (E.draw d).env o kind fs2 = (E.env o kind fs1).run (E.sched o kind fs2 d) := by
  have f1 := mapRes_ok h1
  have f2 := mapRes_ok h2
  have len1 : fs1.length = lines.length := by rw [← f1.length_eq, List.length_zipIdx]
  have len2 : fs2.length = lines.length := by rw [← f2.length_eq, List.length_zipIdx]
  have hin : ∀ h : Int, (E.env o kind fs2).inst h = { (E.env o kind fs1).inst h with ctxdb := ((E.env o kind fs2).inst h).ctxdb } := by
    intro h
    by_cases hk : h.toNat < lines.length
    · have g1 := (List.forall₂_iff_get.1 f1).2 h.toNat (by rw [List.length_zipIdx]; exact hk) (by omega)
      have g2 := (List.forall₂_iff_get.1 f2).2 h.toNat (by rw [List.length_zipIdx]; exact hk) (by omega)
      simp only [List.get_eq_getElem, List.getElem_zipIdx, Nat.zero_add, newInst] at g1 g2
      obtain ⟨b1, -, g1⟩ := Res.bind_eq_ok.1 g1
      obtain ⟨b2, -, g2⟩ := Res.bind_eq_ok.1 g2
      have g1 := Res.ok.inj g1
      have g2 := Res.ok.inj g2
      simp only [env, List.getElem?_eq_getElem (show h.toNat < fs1.length by omega), List.getElem?_eq_getElem (show h.toNat < fs2.length by omega), Option.getD_some]
      rw [← g1, ← g2]
    · simp only [env, List.getElem?_eq_none (show fs1.length ≤ h.toNat by omega), List.getElem?_eq_none (show fs2.length ≤ h.toNat by omega), Option.getD_none]
  have : (E.env o kind fs2).inst = fun h => { (E.env o kind fs1).inst h with ctxdb := ((E.env o kind fs2).inst h).ctxdb } := funext hin
  simp only [Env.run, sched, draw, env] at this ⊢
  rw [this]

/-- C111, the simplification step of the program, partial (assumed beyond the code: a box is never farther than a constraint inside it; no constraint lies where the
tolerance of the queue matters; for feature classes, no clash of index ranges): two runs on the same lines, whose constraint files differ only out of reach of the lines,
in order and in repetitions, return the same points. -/
theorem C111_run_partial [Zero K] (hE : E.OK o kind lines) (hb : Blind E.heur E.heap) (h1 : d1.Legal) (h2 : d2.Legal) {fc : Bool}
    (hn : fc = true → E.NoClash d1 o kind ctx1 lines) (hq : E.heap.Legal near) (hmono : ∀ a b c, near a b → b.le c = true → near a c)
    (hbox : ∀ h ∈ handles lines.length, Bounding (E.env o kind []) (fun k => lines[k.toNat]?.getD []) h)
    (ha : ∀ h ∈ handles lines.length, AlikeInReach (E.env o kind []) (fun k => lines[k.toNat]?.getD []) h ctx1 ctx2)
    (u1 : ∀ h ∈ handles lines.length, Unmistakable (E.env o kind []) near (fun k => lines[k.toNat]?.getD []) h ctx1)
    (u2 : ∀ h ∈ handles lines.length, Unmistakable (E.env o kind []) near (fun k => lines[k.toNat]?.getD []) h ctx2) {n m : Nat} {q1 q2 : List (List P)}
    (r1 : (E.draw d1).run fc lines o ctx1 kind n = .ok q1) (r2 : (E.draw d2).run fc lines o ctx2 kind m = .ok q2) : q1 = q2 := by
  rw [run] at r1 r2
  obtain ⟨fs, hf, r1⟩ := Res.bind_eq_ok.1 r1
  obtain ⟨fs2, hf2, r2⟩ := Res.bind_eq_ok.1 r2
  have hf : E.forest o kind ctx1 lines n = .ok fs := hf
  have hf2 : E.forest o kind ctx2 lines m = .ok fs2 := hf2
  have hmono' : Mono (fun n => E.forest o kind ctx1 lines n) := fun n => Hdb.mapRes_le (fun x => by
    refine Res.Le.bind ?_ (fun _ => .refl _)
    exact Hdb.load_le nodeOps E.heur _ _ n) _
  obtain ⟨fs', ⟨N, hN⟩, hF⟩ := forest_yields hE ctx1
  have : fs = fs' := Mono.val hmono' hf ⟨N, hN⟩
  subst this
  have hc := classOK hE hF
  have l1 := legalClass hE h1 hf
  have l2 : LegalClass (E.env o kind fs) (handles lines.length) (fun _ => ctx2) (E.sched o kind fs2 d2) :=
    have l := legalClass hE h2 hf2
    ⟨l.heur, l.heap, l.ord, l.ordRm, l.ctx⟩
  have hopt : ∀ h ∈ handles lines.length, ((E.env o kind fs).inst h).opts = o := by
    intro h hh
    obtain ⟨k, hk, rfl⟩ := List.mem_map.1 hh
    exact (forest_inst hf k _ (List.getElem?_eq_getElem (List.mem_range.1 hk))).2.1
  have hopt0 : ∀ h, ((E.env o kind []).inst h).opts = o := fun h => by simp [env]
  have kn : ∀ {h : Int} {nd : Node P C B}, Known (E.env o kind fs) (fun k => lines[k.toNat]?.getD []) [h] nd → Known (E.env o kind []) (fun k => lines[k.toNat]?.getD []) [h] nd :=
    fun hk => ⟨hk.inst, hk.piece, hk.lo, hk.lt, hk.hi⟩
  have ha' : ∀ h ∈ handles lines.length, AlikeInReach (E.env o kind fs) (fun k => lines[k.toNat]?.getD []) h ctx1 ctx2 := by
    rintro h hh g ⟨nd, hk, hd⟩
    rw [hopt h hh] at hd
    exact ha h hh g ⟨nd, kn hk, by rw [hopt0]; exact hd⟩
  have hu : ∀ {ctx : List C}, (∀ h ∈ handles lines.length, Unmistakable (E.env o kind []) near (fun k => lines[k.toNat]?.getD []) h ctx) →
      ∀ h ∈ handles lines.length, Unmistakable (E.env o kind fs) near (fun k => lines[k.toNat]?.getD []) h ctx := by
    intro ctx u h hh nd hk a ha b hb h1 h2
    rw [hopt h hh] at h1 h2
    exact u h hh nd (kn hk) a ha b hb (by rw [hopt0]; exact h1) (by rw [hopt0]; exact h2)
  have hbd : ∀ h ∈ handles lines.length, Bounding (E.env o kind fs) (fun k => lines[k.toNat]?.getD []) h := fun h hh nd hk => hbox h hh nd (kn hk)
  have hV : ∀ h : Int, ∃ V : Rng → Bool, h ∈ handles lines.length → ∀ (s : Sched P C B K) (near : Fl K → Fl K → Prop) (gs' : List C), s.heap.Legal near →
      (∀ a b c, near a b → b.le c = true → near a c) → CtxOK (E.env o kind fs) s h (gs'.map .ctx) → Unmistakable (E.env o kind fs) near (fun k => lines[k.toNat]?.getD []) h gs' →
      AlikeInReach (E.env o kind fs) (fun k => lines[k.toNat]?.getD []) h gs' ctx2 → ∀ {a : Node P C B} {n : Nat} {v : Bool},
      Known ((E.env o kind fs).run s) (fun k => lines[k.toNat]?.getD []) [h] a →
      validateContextRelation ((E.env o kind fs).run s) a (((E.env o kind fs).run s).inst h) n = .ok v → v = V a.range := by
    intro h
    by_cases hh : h ∈ handles lines.length
    · obtain ⟨V, hV⟩ := verdicts_reach (E.env o kind fs) (fun k => lines[k.toNat]?.getD []) h ctx2 (hbd h hh)
      exact ⟨V, fun _ => hV⟩
    · exact ⟨fun _ => true, fun h' => absurd h' hh⟩
  choose V hV using hV
  have hc1 : ClassOK (E.env o kind fs) (fun k => lines[k.toNat]?.getD []) d1.ids d1.idsOf (handles lines.length) := ⟨hc.envOK, hc.lnrOK, hc.inst, hc.nodup, hc.distinct, h1.streams _⟩
  have hc2 : ClassOK (E.env o kind fs) (fun k => lines[k.toNat]?.getD []) d2.ids d2.idsOf (handles lines.length) := ⟨hc.envOK, hc.lnrOK, hc.inst, hc.nodup, hc.distinct, h2.streams _⟩
  have f1 : RunFC (E.env o kind fs) (E.sched o kind fs d1) (fun k => lines[k.toNat]?.getD []) (handles lines.length) (fun k => V k.1 k.2) :=
    l1.runFC hc1 (fun h hh => hV h hh _ near ctx1 hq hmono (l1.run hh).ctxOK (hu u1 h hh) (ha' h hh))
  have f2 : RunFC (E.env o kind fs) (E.sched o kind fs2 d2) (fun k => lines[k.toNat]?.getD []) (handles lines.length) (fun k => V k.1 k.2) :=
    l2.runFC hc2 (fun h hh => hV h hh _ near ctx2 hq hmono (l2.run hh).ctxOK (hu u2 h hh) (fun _ _ => Iff.rfl))
  have hst : ∀ h ∈ handles lines.length, ∀ cv, SameStart (E.env o kind fs) (E.sched o kind fs d1) (E.sched o kind fs2 d2) h (d1.idsOf h) (d2.idsOf h) cv :=
    fun h hh cv => SameStart.blind (s1 := E.sched o kind fs d1) (s2 := E.sched o kind fs2 d2) rfl rfl hb ((h1.streams _).each h hh) ((h2.streams _).each h hh)
  have env2 := env_other hf hf2 d2
  have fin : ∀ {o1 o2 : List (Int × Out P C B)}, keptOf o1 = keptOf o2 → setSimpleCoords ((E.draw d1).env o kind fs) o1 = setSimpleCoords ((E.draw d2).env o kind fs2) o2 := by
    intro o1 o2 he
    rw [setSimpleCoords_kept, setSimpleCoords_kept, he, env2]; rfl
  cases fc with
  | false =>
    obtain ⟨c1, r1, w1⟩ := Res.bind_eq_ok.1 r1
    obtain ⟨c2, r2, w2⟩ := Res.bind_eq_ok.1 r2
    simp only [runInstances] at r1 r2
    obtain ⟨⟨o1, e1⟩, s1, r1⟩ := Res.bind_eq_ok.1 r1
    obtain ⟨⟨o2, e2⟩, s2, r2⟩ := Res.bind_eq_ok.1 r2
    have s1 : simplifyInstances ((E.env o kind fs).run (E.sched o kind fs d1)) d1.idsOf [] n (handles lines.length) (fun _ => false) = .ok (o1, e1) := s1
    have s2 : simplifyInstances ((E.draw d2).env o kind fs2) d2.idsOf [] m (handles lines.length) (fun _ => false) = .ok (o2, e2) := s2
    rw [env2] at s2
    obtain ⟨k1, k2, -, hk⟩ := simplifyInstances_same f1 f2 hc.lnrOK (h1.streams _).each (h2.streams _).each (fun _ _ _ hx => by simp [junctionsOf] at hx)
      (fun h hh => hst h hh _) s1 s2
    have : keptOf o1 = keptOf o2 := map_eq_of_fst (k1.trans k2.symm) (fun x hx y hy hxy => by rw [hxy, (hk x hx y hy hxy).2])
    have r1 : setSimpleCoords ((E.draw d1).env o kind fs) o1 = .ok c1 := r1
    have r2 : setSimpleCoords ((E.draw d2).env o kind fs2) o2 = .ok c2 := r2
    rw [fin this, r2] at r1
    cases r1
    exact Res.ok.inj (w1.symm.trans w2)
  | true =>
    obtain ⟨c1, r1, w1⟩ := Res.bind_eq_ok.1 r1
    obtain ⟨c2, r2, w2⟩ := Res.bind_eq_ok.1 r2
    simp only [runFeatureClass] at r1 r2
    obtain ⟨o1, s1, r1⟩ := Res.bind_eq_ok.1 r1
    obtain ⟨o2, s2, r2⟩ := Res.bind_eq_ok.1 r2
    have s1 : simplifyFeatureClass ((E.env o kind fs).run (E.sched o kind fs d1)) d1.ids d1.idsOf (handles lines.length) o (fun _ => false) n = .ok o1 := s1
    have s2 : simplifyFeatureClass ((E.draw d2).env o kind fs2) d2.ids d2.idsOf (handles lines.length) o (fun _ => false) m = .ok o2 := s2
    rw [env2] at s2
    obtain ⟨js, hj, -, -, hcv⟩ := fcJunctions_ok hc.lnrOK hc.inst hc.distinct o.planarSelf
    have hc1' := l1.classOK hc1
    obtain ⟨outs, e, ⟨M, y⟩, -⟩ := simplifyInstances_yields hc1'.envOK hc1'.lnrOK (js := js) (handles lines.length) (fun _ => false) hc1'.inst (h1.streams _).each hcv
    have y := y M (Nat.le_refl _)
    have : keptOf o1 = keptOf o2 := simplifyFeatureClass_same f1 f2 hc.lnrOK hc.nodup (h1.streams _) (h2.streams _) hst hj y (hn rfl n fs js M outs e hf y) s1 s2
    rw [fin this, r2] at r1
    cases r1
    exact Res.ok.inj (w1.symm.trans w2)

end Engine

/-! ### in the plane -/

namespace Planar

section
variable {pos : P → ℂ} {region : C → Set ℂ} {env : Env P C EReal ℝ} {s1 s2 : Sched P C EReal ℝ} {pts : Int → List P} {h : Int} {gs gs1 gs2 : List C} {τ m : ℝ}

theorem hull_places_subset (ps : List P) (i j : Int) : hullSet (places pos ps i j) ⊆ hullSet (ps.map pos) := by
  refine convexHull_mono fun z hz => ?_
  obtain ⟨p, hp, rfl⟩ := List.mem_map.1 hz
  exact List.mem_map_of_mem (List.mem_of_mem_drop (List.mem_of_mem_take hp))

theorem Exact.hullDist (he : Exact pos region env.lib) {nd : Node P C EReal} (hk : Known env pts [h] nd) (g : C) :
    env.lib.distance nd.geom (.ctx g) = .fin (gap (hullSet (places pos (pts h) nd.range.I nd.range.J)) (region g)) := by
  obtain ⟨k1, -, -, k4, -⟩ := he.known hk
  have hne : (shape pos region nd.geom).Nonempty := by
    rw [k1]
    obtain ⟨z, hz⟩ := List.exists_mem_of_ne_nil _ k4
    exact ⟨z, subset_convexHull ℝ _ hz⟩
  rw [he.distance nd.geom (.ctx g) hne (he.nonempty g), k1]
  rfl

theorem Exact.bounding (he : Exact pos region env.lib) : Bounding env pts h := by
  intro nd hk g b hb
  obtain ⟨k1, -, -, k4, -⟩ := he.known hk
  refine he.boxDistance_le hb ?_ (he.nonempty g)
  rw [k1]
  obtain ⟨z, hz⟩ := List.exists_mem_of_ne_nil _ k4
  exact ⟨z, subset_convexHull ℝ _ hz⟩

/-- C111 in exact plane geometry, with a queue that may mistake distances that differ by at most `τ` (`τ = 0`: a queue that pops in order), partial.  The constraints farther
than `m + τ` from the convex hull of the line are out of reach: they do not matter, as long as no other constraint is mistakable, that is farther than `m` from the hull of a
sub-line, but not farther than `m + τ`.  Missing for the full statement (nothing farther than `m` matters): it fails, `C111_refuted`. -/
theorem C111_plane_partial (he : EnvOK env) (hl : LnrOK env.lnr) (hi : InstOK env h (pts h)) {cv : List Int} (hcv : ∀ i ∈ cv, 0 ≤ i ∧ i < (pts h).length)
    (hx : Exact pos region env.lib) (hm : (env.inst h).opts.minDist = .fin m) (h0 : 0 ≤ τ)
    (hsame : ∀ g, gap (hullSet ((pts h).map pos)) (region g) ≤ m + τ → (g ∈ gs1 ↔ g ∈ gs2))
    (hband : ∀ g ∈ gs1, gap (hullSet ((pts h).map pos)) (region g) ≤ m + τ → ∀ i j : Int, 0 ≤ i → i < j → j < (pts h).length →
      gap (hullSet (places pos (pts h) i j)) (region g) ≤ m ∨ m + τ < gap (hullSet (places pos (pts h) i j)) (region g))
    (l1 : LegalRun env h gs1 s1) (l2 : LegalRun env h gs2 s2) (hh : s1.heur = s2.heur) (hq : s1.heap = s2.heap) (q1 : s1.heap.Legal (within τ))
    {ids : Nat → Int} (j : Function.Injective ids) (d1 d2 : Int → Bool) :
    ∃ o1 d1' o2 d2', Yields (simplify (env.run s1) ids h cv d1) (o1, d1') ∧ Yields (simplify (env.run s2) ids h cv d2) (o2, d2') ∧ o1.simple = o2.simple := by
  have hmono : ∀ {nd : Node P C EReal} (hk : Known env pts [h] nd) (g : C), gap (hullSet ((pts h).map pos)) (region g) ≤
      gap (hullSet (places pos (pts h) nd.range.I nd.range.J)) (region g) := by
    intro nd hk g
    obtain ⟨-, -, -, k4, -⟩ := hx.known hk
    obtain ⟨z, hz⟩ := List.exists_mem_of_ne_nil _ k4
    exact gap_mono (hull_places_subset _ _ _) (fun _ h => h) ⟨z, subset_convexHull ℝ _ hz⟩ (hx.nonempty g)
  have hum : ∀ {gs : List C}, (∀ g ∈ gs, gap (hullSet ((pts h).map pos)) (region g) ≤ m + τ → g ∈ gs1) → Unmistakable env (within τ) pts h gs := by
    intro gs hgs nd hk a ha b hb h1 h2 hn
    rw [hx.hullDist hk, hm, Fl.fin_le_fin, decide_eq_true_eq] at h1
    rw [hx.hullDist hk, hm, Fl.fin_le_fin, decide_eq_false_iff_not, not_le] at h2
    rw [hx.hullDist hk, hx.hullDist hk] at hn
    have hn : gap (hullSet (places pos (pts h) nd.range.I nd.range.J)) (region b) ≤ gap (hullSet (places pos (pts h) nd.range.I nd.range.J)) (region a) + τ := hn
    have hb' : gap (hullSet ((pts h).map pos)) (region b) ≤ m + τ := by linarith [hmono hk b]
    have hins : nd.inst = h := by simpa using hk.inst
    have hhi := hk.hi
    rw [hins] at hhi
    rcases hband b (hgs b hb hb') hb' _ _ hk.lo hk.lt hhi with h3 | h3 <;> linarith
  refine C111_tolerant_partial (gs1 := gs1) (gs2 := gs2) (near := within τ) he hl hi hcv hx.bounding ?_ l1 l2 hh hq q1 within_mono (hum fun _ h _ => h) (hum fun g h1 h2 => (hsame g h2).2 h1) j d1 d2
  rintro g ⟨nd, hk, hd⟩
  rw [hx.hullDist hk, hm, Fl.fin_le_fin, decide_eq_true_eq] at hd
  exact hsame g (by linarith [hmono hk g])

end

/-- the peak with the threshold 5 and a minimum distance of 1/2 in the plane, its regions one unit above and one unit below it, and any others as far away -/
example (gs : List Region) (hgs : ∀ g ∈ gs, ∀ z ∈ g.1, 2 ≤ z.im ∨ z.im ≤ -1) {s1 s2 : Sched ℂ Region EReal ℝ}
    (l1 : LegalRun (exactEnv (fun _ => peakLine)) 0 [above, below] s1) (l2 : LegalRun (exactEnv (fun _ => peakLine)) 0 gs s2)
    (hh : s1.heur = s2.heur) (hq : s1.heap = s2.heap) (q1 : s1.heap.Legal (within (1 / 4))) :
    ∃ o1 d1' o2 d2', Yields (simplify ((exactEnv (fun _ => peakLine)).run s1) (fun n => n) 0 [] (fun _ => false)) (o1, d1') ∧
      Yields (simplify ((exactEnv (fun _ => peakLine)).run s2) (fun n => n) 0 [] (fun _ => false)) (o2, d2') ∧ o1.simple = o2.simple := by
  have hfar : ∀ g : Region, (∀ z ∈ g.1, 2 ≤ z.im ∨ z.im ≤ -1) → ¬ gap (hullSet (peak.map id)) g.1 ≤ 1 / 2 + 1 / 4 := by
    intro g hg hle
    have h1 : (1 : ℝ) ≤ gap (hullSet (peak.map id)) g.1 := by
      obtain ⟨y0, hy0⟩ := g.2
      refine le_csInf ⟨_, 0, subset_convexHull ℝ _ (by simp [peak]), y0, hy0, rfl⟩ ?_
      rintro r ⟨x, hx, y, hy, rfl⟩
      rw [List.map_id] at hx
      have hs := peak_strip hx
      rw [Set.mem_ofPred_eq] at hs
      have hd : |x.im - y.im| ≤ dist x y := by
        rw [Complex.dist_eq, ← Complex.sub_im]; exact Complex.abs_im_le_norm _
      rcases hg y hy with h | h
      · have := neg_le_abs (x.im - y.im); linarith [hs.2]
      · have := le_abs_self (x.im - y.im); linarith [hs.1]
    linarith
  have hab : ∀ g ∈ [above, below], ∀ z ∈ g.1, 2 ≤ z.im ∨ z.im ≤ -1 := by
    intro g hg z hz
    rcases List.mem_cons.1 hg with rfl | hg
    · exact .inl hz
    · rw [List.mem_singleton] at hg; subst hg; exact .inr hz
  exact C111_plane_partial (pts := fun _ => peak) (m := 1 / 2) (τ := 1 / 4) exactEnv_ok exactLnr_ok
    (exactInst_ok (lines := fun _ => peakLine) (h := 0) (by simp [peakLine, peak]) (by simp [peakLine, peakOpts, Fl.fin_le_fin])) (by simp) exactLib_exact rfl (by norm_num)
    (fun g h => ⟨fun h1 => absurd h (hfar g (hab g h1)), fun h1 => absurd h (hfar g (hgs g h1))⟩)
    (fun g hg h => absurd h (hfar g (hab g hg))) l1 l2 hh hq q1 (fun a b h => by simpa using h) _ _

end Planar

/-! ### concrete cases -/

namespace Axis

/-- on the axis, a constraint point more than the minimum distance beyond an end of the span of a line is out of reach -/
theorem not_inReach {lines : Int → Demo.Line Int Int Int} {h m g : Int} (hm : (lines h).opts.minDist = .fin m)
    (hg : (∀ x ∈ (lines h).pts, x + m < g) ∨ ∀ x ∈ (lines h).pts, g + m < x) : ¬ InReach (Axis.env lines) (fun k => (lines k).pts) h g := by
  rintro ⟨nd, hk, hd⟩
  have hne : between (lines h).pts nd.range.I nd.range.J ≠ [] := by
    have h1 : nd.inst = h := by simpa using hk.inst
    have h2 := hk.hi
    have h3 := hk.lo
    have h4 := hk.lt
    simp only [h1] at h2
    intro e
    have := congrArg List.length e
    simp only [between, List.length_take, List.length_drop, List.length_nil] at this
    omega
  have hd : (Fl.fin (Axis.gap (span nd.geom) (g, g))).le (lines h).opts.minDist = true := hd
  rw [hm, Fl.fin_le_fin, decide_eq_true_eq, (known_span hk).1] at hd
  have hin : ∀ x ∈ between (lines h).pts nd.range.I nd.range.J, x ∈ (lines h).pts := fun x hx => List.mem_of_mem_drop (List.mem_of_mem_take hx)
  have h1 := hin _ (lo_mem hne)
  have h2 := hin _ (hi_mem hne)
  unfold Axis.gap at hd
  simp only at hd
  rcases hg with hg | hg
  · have := hg _ h2; omega
  · have := hg _ h1; omega

theorem box_le (q g : Geo Int Int) (b : Box Bx) (hb : lib.bounds g ≤ b) : (lib.boxDistance q b).le (lib.distance q g) = true := by
  show (Fl.fin (boxGap (span q) b)).le (.fin (Axis.gap (span q) (span g))) = true
  rw [Fl.fin_le_fin, decide_eq_true_eq]
  exact boxGap_le hb

/-- the concrete case beside `C111_line_partial`: on the line `long` with the fixed vertex 7, every legal run with an exact queue and the constraint 12, together with any
constraints below -2 or above 32, keeps 0, 7, 10 and 12, as with the constraints 12 and 40 -/
theorem C111_case {gs : List Int} (h12 : 12 ∈ gs) (hgs : ∀ g ∈ gs, g = 12 ∨ g < -2 ∨ 32 < g) {s : Sched Int Int Bx Int}
    (hs : LegalRun (Axis.env (fun _ => long)) 0 gs s) (hq : s.heap.Legal Hdb.nearLe) {ids : Nat → Int} (hinj : Function.Injective ids) (dirty : Int → Bool) :
    ∃ (out : Out Int Int Bx) (dirty' : Int → Bool), Yields (simplify ((Axis.env (fun _ => long)).run s) ids 0 [7] dirty) (out, dirty') ∧ out.simple = [0, 7, 10, 12] := by
  have hfar : ∀ g : Int, g < -2 ∨ 32 < g → ¬ InReach (Axis.env (fun _ => long)) (fun _ => long.pts) 0 g := by
    intro g hg
    refine not_inReach (lines := fun _ => long) (h := 0) (m := 2) rfl ?_
    have hb : ∀ x ∈ long.pts, 0 ≤ x ∧ x ≤ 30 := by decide
    rcases hg with hg | hg
    · exact .inr fun x hx => by have := hb x hx; omega
    · exact .inl fun x hx => by have := hb x hx; omega
  have ha : AlikeInReach (Axis.env (fun _ => long)) (fun _ => long.pts) 0 long.ctx gs := by
    intro g hg
    have hg' : ¬ (g < -2 ∨ 32 < g) := fun h => hfar g h hg
    constructor
    · intro h
      have h : g = 12 ∨ g = 40 := by simpa [long] using h
      rcases h with rfl | rfl
      · exact h12
      · exact absurd (.inr (by decide)) hg'
    · intro h
      rcases hgs g h with rfl | h
      · simp [long]
      · exact absurd h hg'
  obtain ⟨o1, d1, o2, d2, y1, y2, e⟩ := C111_line_partial (pts := fun _ => long.pts) (cv := [7]) (env_ok (lines := fun _ => long)) lnr_ok
    (inst_ok (lines := fun _ => long) (by decide) (by decide)) (by decide) box_le ha plain_legal Hdb.listHeap_legal hs hq
    (ids1 := fun n => n) (fun a b h => by simpa using h) hinj (fun _ => false) dirty
  obtain ⟨o', d', y', e'⟩ := C55_case plain_legal Hdb.listHeap_legal (ids := fun n => n) (fun a b h => by simpa using h) (fun _ => false)
  have := y1.unique y'
  cases this
  exact ⟨o2, d2, y2, by rw [← e, e']⟩

/-- the sets of constraints may differ much -/
example : (12 : Int) ∈ [-50, 12, 33, 1000, -3, 12] ∧ ∀ g ∈ [(-50 : Int), 12, 33, 1000, -3, 12], g = 12 ∨ g < -2 ∨ 32 < g := by decide

/-- such a run -/
example (gs : List Int) : ∃ s, LegalRun (Axis.env (fun _ => long)) 0 gs s ∧ s.heap.Legal Hdb.nearLe :=
  ⟨swingRun gs, ⟨Demo.heur_legal, ⟨Hdb.nearLe, Hdb.listHeap_legal, fun _ _ _ h1 h2 => Fl.le_trans h1 h2⟩, fun _ l => List.Perm.refl l, fun _ l => List.Perm.refl l,
    Demo.heur, Demo.heur_legal, gs, List.Perm.refl _, ctxdb_yields 0 _⟩, Hdb.listHeap_legal⟩

/-! ### with the tolerance of the code -/

theorem tolRun_any (l : List Int) : LegalRun (Axis.env (fun _ => turn)) 0 l (tolRun l) :=
  ⟨Demo.heur_legal, ⟨tolNear, tolHeap_legal, tolMono⟩, fun _ l => List.Perm.refl l, fun _ l => List.Perm.refl l, Demo.heur, Demo.heur_legal, l, List.Perm.refl _, ctxdb_yields 0 _⟩

/-- **C111 is violated** with a queue that compares with a tolerance like the code: a constraint out of reach of every sub-line (11, where the line spans 0 to 10 and the
minimum distance is 0) changes the kept vertices when it is added.  It comes out of the queue before the constraint on the line, the search stops there, and the vertex 1
is dropped. -/
theorem C111_refuted : AlikeInReach (Axis.env (fun _ => turn)) (fun _ => turn.pts) 0 [8] [11, 8] ∧ LegalRun (Axis.env (fun _ => turn)) 0 [8] (tolRun [8]) ∧
    LegalRun (Axis.env (fun _ => turn)) 0 [11, 8] (tolRun [11, 8]) ∧
    (∃ (out : Out Int Int Bx) (d : Int → Bool), Yields (simplify ((Axis.env (fun _ => turn)).run (tolRun [8])) (fun n => n) 0 [] (fun _ => false)) (out, d) ∧
      out.simple = [0, 1, 2]) ∧
    (∃ (out : Out Int Int Bx) (d : Int → Bool), Yields (simplify ((Axis.env (fun _ => turn)).run (tolRun [11, 8])) (fun n => n) 0 [] (fun _ => false)) (out, d) ∧
      out.simple = [0, 2]) := by
  have key : ∀ (l kept : List Int), (result (simplify ((Axis.env (fun _ => turn)).run (tolRun l)) (fun n => n) 0 [] (fun _ => false) 60)).2 = kept → kept ≠ [] →
      ∃ (out : Out Int Int Bx) (d : Int → Bool), Yields (simplify ((Axis.env (fun _ => turn)).run (tolRun l)) (fun n => n) 0 [] (fun _ => false)) (out, d) ∧
        out.simple = kept := by
    intro l kept hk hne
    cases e : simplify ((Axis.env (fun _ => turn)).run (tolRun l)) (fun n => n) 0 [] (fun _ => false) 60 with
    | ok r =>
      obtain ⟨out, d⟩ := r
      rw [e] at hk
      exact ⟨out, d, (simplify_le _ _ _ _ _).yields e, hk⟩
    | panic => rw [e] at hk; exact absurd hk.symm hne
    | timeout => rw [e] at hk; exact absurd hk.symm hne
  refine ⟨?_, tolRun_any _, tolRun_any _, key _ _ (by decide +kernel) (by simp), key _ _ (by decide +kernel) (by simp)⟩
  intro g hg
  have : g ≠ 11 := by
    rintro rfl
    exact not_inReach (lines := fun _ => turn) (h := 0) (m := 0) rfl (.inl (by decide)) hg
  simp [this]

/-- the concrete case beside `C111_tolerant_partial`: two units beyond the line a point is no longer mistakable; any such points may be added -/
example (gs : List Int) (hgs : ∀ g ∈ gs, 12 ≤ g) : ∃ (out : Out Int Int Bx) (d : Int → Bool),
    Yields (simplify ((Axis.env (fun _ => turn)).run (tolRun (8 :: gs))) (fun n => n) 0 [] (fun _ => false)) (out, d) ∧ out.simple = [0, 1, 2] := by
  have hb : ∀ x ∈ turn.pts, 0 ≤ x ∧ x ≤ 10 := by decide
  have hun : ∀ l : List Int, (∀ g ∈ l, g = 8 ∨ 12 ≤ g) → Unmistakable (Axis.env (fun _ => turn)) tolNear (fun _ => turn.pts) 0 l := by
    intro l hl nd hk a ha b hb' h1 h2 hn
    have h1 : (Fl.fin (Axis.gap (span nd.geom) (a, a))).le (.fin 0) = true := h1
    have h2 : (Fl.fin (Axis.gap (span nd.geom) (b, b))).le (.fin 0) = false := h2
    have hn : tolNear (Fl.fin (Axis.gap (span nd.geom) (b, b))) (Fl.fin (Axis.gap (span nd.geom) (a, a))) := hn
    have hs := (known_span (lines := fun _ => turn) hk).1
    have i1 := hk.lo
    have i2 := hk.lt
    have i3 : nd.range.J < 3 := hk.hi
    have m1 : (10 : Int) ∈ between turn.pts nd.range.I nd.range.J := mem_between (v := 1) i1 (by omega) (by omega) rfl
    have m2 : (0 : Int) ∈ between turn.pts nd.range.I nd.range.J ∨ (5 : Int) ∈ between turn.pts nd.range.I nd.range.J := by
      by_cases h0 : nd.range.I = 0
      · exact .inl (mem_between (v := 0) i1 (by omega) (by omega) rfl)
      · exact .inr (mem_between (v := 2) i1 (by omega) (by omega) rfl)
    have m3 := List.mem_of_mem_drop (List.mem_of_mem_take (hi_mem (List.ne_nil_of_mem m1)))
    have k1 := le_hi m1
    have k2 : hi (between turn.pts nd.range.I nd.range.J) ≤ 10 := (hb _ m3).2
    have k3 : lo (between turn.pts nd.range.I nd.range.J) ≤ 5 := by
      rcases m2 with m2 | m2
      · have := lo_le m2; omega
      · exact lo_le m2
    rw [hs] at h1 h2 hn
    simp only [Fl.fin_le_fin, decide_eq_true_eq, decide_eq_false_iff_not, tolNear, tolLess, Axis.gap] at h1 h2 hn
    have hn := of_decide_eq_false hn.2
    rcases hl b hb' with rfl | h <;> omega
  have ha : AlikeInReach (Axis.env (fun _ => turn)) (fun _ => turn.pts) 0 [8] (8 :: gs) := by
    intro g hg
    have : ¬ 12 ≤ g := fun h12 => not_inReach (lines := fun _ => turn) (h := 0) (m := 0) rfl (.inl fun x hx => by have := hb x hx; omega) hg
    have : g ∉ gs := fun h => this (hgs g h)
    simp [this]
  obtain ⟨o1, d1, o2, d2, y1, y2, e⟩ := C111_tolerant_partial (pts := fun _ => turn.pts) (cv := []) (env_ok (lines := fun _ => turn)) lnr_ok
    (inst_ok (lines := fun _ => turn) (by decide) (by decide)) (by simp) (fun nd _ g b => box_le nd.geom (.ctx g) b) ha (tolRun_any [8]) (tolRun_any (8 :: gs)) rfl rfl
    tolHeap_legal tolMono (hun _ (by simp)) (hun _ (by simpa using fun g h => .inr (hgs g h))) (ids := fun n => n) (fun a b h => by simpa using h) (fun _ => false) (fun _ => false)
  obtain ⟨-, -, -, ⟨o', d', y', e'⟩, -⟩ := C111_refuted
  have := y1.unique y'
  cases this
  exact ⟨o2, d2, y2, by rw [← e, e']⟩

end Axis

end Verif
