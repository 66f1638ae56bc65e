import Verif.Lemmas.RenameHeur
import Verif.Props.C98_Ends
import Verif.Props.C99_ClassRuns
import Verif.Demo.RealProgram

/-! C100: the saved file does not depend on the run. -/

set_option linter.unusedSectionVars false

namespace Verif

variable {P C B K : Type} [LinearOrder B] [BoundedOrder B] [LinearOrder K]

/-! ### one polyline -/

section
variable {env : Env P C B K} {pts : Int → List P} {h : Int} {geoms : List C}

/-- **C100, one polyline**: take one index code that does not read identifiers (`Blind`; the code's heuristics are, see `codeHeur_blind`), and one constraint
index.  Then every run ends, and all runs keep the same vertices, whatever the iteration orders of the maps, the schedules of the workers, the identifiers
drawn from the shared counter and the marks left by earlier runs were. -/
theorem C100_identifiers (he : EnvOK env) (hl : LnrOK env.lnr) (hi : InstOK env h (pts h)) {cv : List Int} (hcv : ∀ i ∈ cv, 0 ≤ i ∧ i < (pts h).length)
    (H : Heur (Node P C B) B) (Q : Hdb.Heap (Hdb.KObj (Node P C B) B K)) (hb : Blind H Q) (ctx : Db P C B) :
    ∃ kept : List Int, ∀ s : Sched P C B K, LegalRun env h geoms s → s.heur = H → s.heap = Q → s.ctxdb h = ctx → ∀ ids : Nat → Int, Function.Injective ids →
      ∀ dirty : Int → Bool, ∃ (out : Out P C B) (dirty' : Int → Bool), Yields (simplify (env.run s) ids h cv dirty) (out, dirty') ∧ out.simple = kept := by
  obtain ⟨V, hV⟩ := verdicts_fixed env pts h Q ctx
  by_cases hex : ∃ s : Sched P C B K, ∃ ids : Nat → Int, LegalRun env h geoms s ∧ s.heur = H ∧ s.heap = Q ∧ s.ctxdb h = ctx ∧ Function.Injective ids
  · obtain ⟨s0, ids0, l0, h0, q0, c0, j0⟩ := hex
    obtain ⟨o0, d0, g0, ⟨N0, y0⟩, -⟩ := simplify_yields (env := env.run s0) (l0.envOK he) hl (l0.inst hi) j0 hcv (fun _ => false)
    refine ⟨o0.simple, fun s ls hs qs cs ids j dirty => ?_⟩
    obtain ⟨o, d, g, y, -⟩ := simplify_yields (env := env.run s) (ls.envOK he) hl (ls.inst hi) j hcv dirty
    refine ⟨o, d, y, ?_⟩
    obtain ⟨N, y⟩ := y
    exact (simplify_same (V := V) ⟨ls.envOK he, ls.inst hi, hV s qs cs⟩ ⟨l0.envOK he, l0.inst hi, hV s0 q0 c0⟩ hl hcv j j0
      (SameStart.blind (hs.trans h0.symm) (qs.trans q0.symm) (by rw [hs, qs]; exact hb) j j0) (y N (Nat.le_refl _)) (y0 N0 (Nat.le_refl _))).2
  · exact ⟨[], fun s ls hs qs cs ids j => absurd ⟨s, ids, ls, hs, qs, cs, j⟩ hex⟩

end

/-! ### the simplification step of the program -/

/-- what differs between two runs of the program: iteration orders of the maps (they include the schedules, see C55), and the identifiers every line and the
joint stage happen to draw from the shared counter -/
structure Draw (P C B : Type) where
  ord : Nat → List (Node P C B) → List (Node P C B)
  ordRm : Nat → List (Node P C B) → List (Node P C B)
  idsOf : Int → Nat → Int
  ids : Nat → Int

/-- maps are iterated in some order; no identifier is drawn twice -/
structure Draw.Legal (d : Draw P C B) : Prop where
  ord : ∀ g l, (d.ord g l).Perm l
  ordRm : ∀ g l, (d.ordRm g l).Perm l
  streams : ∀ n, Streams d.ids d.idsOf (Engine.handles n)

namespace Engine

/-- the same program in another run -/
def draw (E : Engine P C B K) (d : Draw P C B) : Engine P C B K := { E with ord := d.ord, ordRm := d.ordRm, idsOf := d.idsOf, ids := d.ids }

/-- Specification: among the pieces that can occur in the run `d`, no piece has two neighbours of different lines with the same index range.  Nothing is asked when new
self-intersections need not be avoided. -/
def NoClash (E : Engine P C B K) (d : Draw P C B) (o : Opts K) (kind : Io.OffsetKind) (ctx : List C) (lines : List (List P)) : Prop :=
  ∀ n fs js m outs dirty, E.forest o kind ctx lines n = .ok fs →
    simplifyInstances ((E.draw d).env o kind fs) d.idsOf js m (handles lines.length) (fun _ => false) = .ok (outs, dirty) →
    Verif.NoClash (E.env o kind fs) (fun k => lines[k.toNat]?.getD []) outs (handles lines.length)

variable {E : Engine P C B K} {o : Opts K} {kind : Io.OffsetKind} {ctx : List C} {lines : List (List P)} {d d1 d2 : Draw P C B}

theorem OK.draw (h : E.OK o kind lines) (hd : d.Legal) : (E.draw d).OK o kind lines :=
  ⟨h.heur, h.heap, hd.ord, hd.ordRm, h.point, h.lnr, h.instId, hd.streams _, h.two, h.hull, h.box, h.inside, h.score⟩

theorem setSimpleCoords_kept (env : Env P C B K) (outs : List (Int × Out P C B)) :
    setSimpleCoords env outs = Hdb.mapRes (fun y => simpleCoords (env.inst y.1).pln y.2) (keptOf outs) := by
  have := Hdb.mapRes_map (fun x : Int × Out P C B => (x.1, x.2.simple)) id (F := fun x => simpleCoords (env.inst x.1).pln x.2.simple)
    (F' := fun y => simpleCoords (env.inst y.1).pln y.2) (fun a => by cases simpleCoords (env.inst a.1).pln a.2.simple <;> rfl) outs
  rw [keptOf, this, setSimpleCoords]
  cases Hdb.mapRes (fun x : Int × Out P C B => simpleCoords (env.inst x.1).pln x.2.simple) outs with
  | ok l => simp [Res.mp]
  | panic => rfl
  | timeout => rfl

/-- the forest of one engine, seen as environment of the runs -/
def sched (E : Engine P C B K) (o : Opts K) (kind : Io.OffsetKind) (fs : List (Inst P C B K)) (d : Draw P C B) : Sched P C B K :=
  ⟨E.heur, E.heap, d.ord, d.ordRm, fun h => ((E.env o kind fs).inst h).ctxdb⟩

theorem env_draw (fs : List (Inst P C B K)) : (E.draw d).env o kind fs = (E.env o kind fs).run (E.sched o kind fs d) := rfl

theorem forest_ctx {n : Nat} {fs : List (Inst P C B K)} (h : E.forest o kind ctx lines n = .ok fs) : ∀ x ∈ handles lines.length,
    Yields (buildContextDB E.lib E.heur x ctx) ((E.env o kind fs).inst x).ctxdb := by
  intro x hx
  obtain ⟨k, hk, rfl⟩ := List.mem_map.1 hx
  have hk := List.mem_range.1 hk
  have hf := mapRes_ok h
  have hlen : fs.length = lines.length := by rw [← hf.length_eq, List.length_zipIdx]
  have hg := (List.forall₂_iff_get.1 hf).2 k (by rw [List.length_zipIdx]; exact hk) (by omega)
  simp only [List.get_eq_getElem, List.getElem_zipIdx, Nat.zero_add, newInst] at hg
  obtain ⟨db, hdb, hg⟩ := Res.bind_eq_ok.1 hg
  have e : (E.env o kind fs).inst (k : Int) = fs[k] := by
    simp only [env, Int.toNat_natCast, List.getElem?_eq_getElem (show k < fs.length by omega), Option.getD_some]
  have hg := Res.ok.inj hg
  rw [e, ← hg]
  exact Mono.yields (fun n => Hdb.load_le nodeOps E.heur _ _ n) hdb

theorem legalClass (hE : E.OK o kind lines) (hd : d.Legal) {n : Nat} {fs : List (Inst P C B K)} (h : E.forest o kind ctx lines n = .ok fs) :
    LegalClass (E.env o kind fs) (handles lines.length) (fun _ => ctx) (E.sched o kind fs d) :=
  ⟨hE.heur, hE.heap, hd.ord, hd.ordRm, fun x hx => ⟨E.heur, hE.heur, ctx, List.Perm.refl _, forest_ctx h x hx⟩⟩

/-- **C100, the simplification step, partial** (assumed beyond the code, for feature classes only: no clash of index ranges): two runs of the program on the
same input that return, return the same points. -/
theorem C100_run_partial (hE : E.OK o kind lines) (hb : Blind E.heur E.heap) (h1 : d1.Legal) (h2 : d2.Legal) {fc : Bool}
    (hn : fc = true → E.NoClash d1 o kind ctx lines) {n m : Nat} {q1 q2 : List (List P)}
    (r1 : (E.draw d1).run fc lines o ctx kind n = .ok q1) (r2 : (E.draw d2).run fc lines o ctx kind m = .ok q2) : q1 = q2 := by
  rw [run] at r1 r2
  obtain ⟨fs, hf, r1⟩ := Res.bind_eq_ok.1 r1
  obtain ⟨fs2, hf2, r2⟩ := Res.bind_eq_ok.1 r2
  have hf : E.forest o kind ctx lines n = .ok fs := hf
  have hf2 : E.forest o kind ctx lines m = .ok fs2 := hf2
  have hmono : Mono (fun n => E.forest o kind ctx lines n) := fun n => Hdb.mapRes_le (fun x => by
    refine Res.Le.bind ?_ (fun _ => .refl _)
    exact Hdb.load_le nodeOps E.heur _ _ n) _
  have : fs = fs2 := Mono.det hmono hf hf2
  subst this
  obtain ⟨fs', ⟨N, hN⟩, hF⟩ := forest_yields hE ctx
  have : fs = fs' := Mono.val hmono hf ⟨N, hN⟩
  subst this
  have hc := classOK hE hF
  have l1 := legalClass hE h1 hf
  have l2 := legalClass hE h2 hf
  have hV := fun h => verdicts_fixed (E.env o kind fs) (fun k => lines[k.toNat]?.getD []) h E.heap (((E.env o kind fs).inst h).ctxdb)
  choose V hV using hV
  have hc1 : ClassOK (E.env o kind fs) (fun k => lines[k.toNat]?.getD []) d1.ids d1.idsOf (handles lines.length) := ⟨hc.envOK, hc.lnrOK, hc.inst, hc.nodup, hc.distinct, h1.streams _⟩
  have hc2 : ClassOK (E.env o kind fs) (fun k => lines[k.toNat]?.getD []) d2.ids d2.idsOf (handles lines.length) := ⟨hc.envOK, hc.lnrOK, hc.inst, hc.nodup, hc.distinct, h2.streams _⟩
  have f1 : RunFC (E.env o kind fs) (E.sched o kind fs d1) (fun k => lines[k.toNat]?.getD []) (handles lines.length) (fun k => V k.1 k.2) :=
    l1.runFC hc1 (fun h _ => hV h _ rfl rfl)
  have f2 : RunFC (E.env o kind fs) (E.sched o kind fs d2) (fun k => lines[k.toNat]?.getD []) (handles lines.length) (fun k => V k.1 k.2) :=
    l2.runFC hc2 (fun h _ => hV h _ rfl rfl)
  have hst : ∀ h ∈ handles lines.length, ∀ cv, SameStart (E.env o kind fs) (E.sched o kind fs d1) (E.sched o kind fs d2) h (d1.idsOf h) (d2.idsOf h) cv :=
    fun h hh cv => SameStart.blind (s1 := E.sched o kind fs d1) (s2 := E.sched o kind fs d2) rfl rfl hb ((h1.streams _).each h hh) ((h2.streams _).each h hh)
  have fin : ∀ {o1 o2 : List (Int × Out P C B)}, keptOf o1 = keptOf o2 → setSimpleCoords ((E.draw d1).env o kind fs) o1 = setSimpleCoords ((E.draw d2).env o kind fs) o2 := by
    intro o1 o2 he
    rw [setSimpleCoords_kept, setSimpleCoords_kept, he]; rfl
  cases fc with
  | false =>
    obtain ⟨c1, r1, w1⟩ := Res.bind_eq_ok.1 r1
    obtain ⟨c2, r2, w2⟩ := Res.bind_eq_ok.1 r2
    simp only [runInstances] at r1 r2
    obtain ⟨⟨o1, e1⟩, s1, r1⟩ := Res.bind_eq_ok.1 r1
    obtain ⟨⟨o2, e2⟩, s2, r2⟩ := Res.bind_eq_ok.1 r2
    have s1 : simplifyInstances ((E.env o kind fs).run (E.sched o kind fs d1)) d1.idsOf [] n (handles lines.length) (fun _ => false) = .ok (o1, e1) := s1
    have s2 : simplifyInstances ((E.env o kind fs).run (E.sched o kind fs d2)) d2.idsOf [] m (handles lines.length) (fun _ => false) = .ok (o2, e2) := s2
    obtain ⟨k1, k2, -, hk⟩ := simplifyInstances_same f1 f2 hc.lnrOK (h1.streams _).each (h2.streams _).each (fun _ _ _ hx => by simp [junctionsOf] at hx)
      (fun h hh => hst h hh _) s1 s2
    have : keptOf o1 = keptOf o2 := map_eq_of_fst (k1.trans k2.symm) (fun x hx y hy hxy => by rw [hxy, (hk x hx y hy hxy).2])
    have r1 : setSimpleCoords ((E.draw d1).env o kind fs) o1 = .ok c1 := r1
    have r2 : setSimpleCoords ((E.draw d2).env o kind fs) o2 = .ok c2 := r2
    rw [fin this, r2] at r1
    cases r1
    exact Res.ok.inj (w1.symm.trans w2)
  | true =>
    obtain ⟨c1, r1, w1⟩ := Res.bind_eq_ok.1 r1
    obtain ⟨c2, r2, w2⟩ := Res.bind_eq_ok.1 r2
    simp only [runFeatureClass] at r1 r2
    obtain ⟨o1, s1, r1⟩ := Res.bind_eq_ok.1 r1
    obtain ⟨o2, s2, r2⟩ := Res.bind_eq_ok.1 r2
    have s1 : simplifyFeatureClass ((E.env o kind fs).run (E.sched o kind fs d1)) d1.ids d1.idsOf (handles lines.length) o (fun _ => false) n = .ok o1 := s1
    have s2 : simplifyFeatureClass ((E.env o kind fs).run (E.sched o kind fs d2)) d2.ids d2.idsOf (handles lines.length) o (fun _ => false) m = .ok o2 := s2
    obtain ⟨js, hj, -, -, hcv⟩ := fcJunctions_ok hc.lnrOK hc.inst hc.distinct o.planarSelf
    have hc1' := l1.classOK hc1
    obtain ⟨outs, e, ⟨M, y⟩, -⟩ := simplifyInstances_yields hc1'.envOK hc1'.lnrOK (js := js) (handles lines.length) (fun _ => false) hc1'.inst (h1.streams _).each hcv
    have y := y M (Nat.le_refl _)
    have : keptOf o1 = keptOf o2 := simplifyFeatureClass_same f1 f2 hc.lnrOK hc.nodup (h1.streams _) (h2.streams _) hst hj y (hn rfl n fs js M outs e hf y) s1 s2
    rw [fin this, r2] at r1
    cases r1
    exact Res.ok.inj (w1.symm.trans w2)

/-- nothing is asked of lines whose new self-intersections need not be avoided -/
theorem noClash_free [Zero K] (ho : o.avoidNewSelfIntersects = false) : E.NoClash d o kind ctx lines := by
  intro n fs js m outs dirty hf _ a ha h
  obtain ⟨k, hk, rfl⟩ := List.mem_map.1 ha
  rw [(forest_inst hf k _ (List.getElem?_eq_getElem (List.mem_range.1 hk))).2.1, ho] at h
  cases h

end Engine

/-! ### the program -/

namespace Io

open Verif.Text

section
variable {F P Props G : Type}

/-- the same program, iterating over the map of encode.go:129-136 in another order -/
def World.iter (w : World F P Props G) (ord : List Nat → List Nat) : World F P Props G := { w with enc := { w.enc with ord := ord } }

/-- encode.go:37-50: the order of the map does not matter -/
theorem group_iter (lib : EncLib F P Props) {ord ord' : List Nat → List Nat} (h : ∀ l, (ord l).Perm l) (h' : ∀ l, (ord' l).Perm l) (plns : List (OutLine P)) :
    groupPlnsAsGeoJSONS { lib with ord := ord } plns = groupPlnsAsGeoJSONS { lib with ord := ord' } plns := by
  have loop : ∀ (d : Dict P) (l l' : List Nat) (i : Nat), l.length = l'.length → groupLoop { lib with ord := ord } d i l = groupLoop { lib with ord := ord' } d i l' := by
    intro d l
    induction l with
    | nil => intro l' i he; cases l' with | nil => rfl | cons a l' => cases he
    | cons a l ih =>
      intro l' i he
      cases l' with
      | nil => cases he
      | cons a' l' =>
        simp only [groupLoop]
        rw [ih l' (i + 1) (by simpa using he)]
        rfl
  simp only [groupPlnsAsGeoJSONS]
  cases groupById plns ([] : Dict P) with
  | ok d =>
    refine loop d _ _ 0 ?_
    simp only [indices, List.length_mergeSort]
    rw [(h _).length_eq, (h' _).length_eq]
  | panic => rfl
  | timeout => rfl

theorem parseDocs_iter (w : World F P Props G) (ord : List Nat → List Nat) (ls : List Str) : parseDocs (w.iter ord) ls = parseDocs w ls := by
  induction ls with
  | nil => rfl
  | cons l ls ih => simp only [parseDocs, ih]; rfl

end

section
variable [Zero K] {Props : Type}

theorem Reads.iter_iff {w : World (Fl K) P Props C} {ord : List Nat → List Nat} {b f : Str} {obj : ArgObj (Fl K)} {kind : OffsetKind} {docs : List (Doc (Fl K))}
    {ctx : List C} : Reads (w.iter ord) b f obj kind docs ctx ↔ Reads w b f obj kind docs ctx := by
  constructor
  · intro h
    obtain ⟨data, h1, h2⟩ := h.docs
    exact ⟨h.config, h.kind, ⟨data, h1, by rw [← parseDocs_iter w ord]; exact h2⟩, h.out, h.ctx, h.save⟩
  · intro h
    obtain ⟨data, h1, h2⟩ := h.docs
    exact ⟨h.config, h.kind, ⟨data, h1, by rw [parseDocs_iter w ord]; exact h2⟩, h.out, h.ctx, h.save⟩

theorem Setting.draw {w : World (Fl K) P Props C} {E : Engine P C B K} {kind : OffsetKind} {docs : List (Doc (Fl K))} (h : Setting w E kind docs)
    {d : Draw P C B} (hd : d.Legal) {ord : List Nat → List Nat} (ho : ∀ l, (ord l).Perm l) : Setting (w.iter ord) (E.draw d) kind docs :=
  ⟨ho, ⟨h.sane.heur, h.sane.heap, hd.ord, hd.ordRm, h.sane.point, h.sane.lnr, h.sane.instId, hd.streams _, h.sane.hull, h.sane.box, h.sane.score⟩, h.len, h.pos⟩

/-- **C100, the program, partial** (assumed beyond the code, for feature classes only: no clash of index ranges): if one run of the program saves a file, then
every run of the program with the same input, enough time given, saves the same file at the same place: whatever the iteration orders of all maps, the schedules
and the identifiers drawn from the shared counter were. -/
theorem C100_file_partial (w : World (Fl K) P Props C) (E : Engine P C B K) (b f : Str) (hb : Blind E.heur E.heap) {d1 d2 : Draw P C B} (h1 : d1.Legal)
    (h2 : d2.Legal) {ord1 ord2 : List Nat → List Nat} (p1 : ∀ l, (ord1 l).Perm l) (p2 : ∀ l, (ord2 l).Perm l)
    (hE : ∀ obj kind docs ctx, Reads w b f obj kind docs ctx → Setting w E kind docs)
    (hn : ∀ obj kind docs ctx, Reads w b f obj kind docs ctx → obj.isFeatureClass = true → E.NoClash d1 (E.opts (optsFromCfg obj)) kind ctx (allLines E docs))
    {n : Nat} {path : Str} {out : List Str} (hs : main (program (w.iter ord1) (E.draw d1) n) b f = .saved path out) :
    ∃ N, ∀ m ≥ N, main (program (w.iter ord2) (E.draw d2) m) b f = .saved path out := by
  have c1 := C98_saves (w.iter ord1) (E.draw d1) b f (fun obj kind docs ctx hr => (hE obj kind docs ctx (Reads.iter_iff.1 hr)).draw h1 p1)
  have c2 := C98_saves (w.iter ord2) (E.draw d2) b f (fun obj kind docs ctx hr => (hE obj kind docs ctx (Reads.iter_iff.1 hr)).draw h2 p2)
  obtain ⟨obj, kind, docs, ctx, hr1, hf⟩ := c1.1.1 ⟨n, path, out, hs⟩
  have hr := Reads.iter_iff.1 hr1
  have hr2 : Reads (w.iter ord2) b f obj kind docs ctx := Reads.iter_iff.2 hr
  obtain ⟨path', out', N, hN⟩ := c2.2 (c2.1.2 ⟨obj, kind, docs, ctx, hr2, ⟨hf.geometry, hf.two, hf.threshold, hf.front, hf.props⟩⟩)
  refine ⟨N, fun m hm => ?_⟩
  have hs2 := hN m hm
  rw [hs2]
  have set := hE obj kind docs ctx hr
  have hok : E.OK (E.opts (optsFromCfg obj)) kind (allLines E docs) := by
    rcases hf.threshold with h0 | h0
    · have := set.sane
      rw [(allLines_nil E docs).2 h0] at this ⊢
      exact this.ok_nil _
    · exact set.sane.ok ((allLines_two E docs).2 hf.two) h0
  rw [main_reads (w.iter ord1) (E.draw d1) b f hr1 hf.geometry n] at hs
  rw [main_reads (w.iter ord2) (E.draw d2) b f hr2 hf.geometry m] at hs2
  have inv : ∀ {ord : List Nat → List Nat} {d : Draw P C B} {k : Nat} {pa : Str} {ou : List Str},
      outcome (ofRes ((E.draw d).simplify k obj.isFeatureClass (readLines docs) (optsFromCfg obj) ctx kind) >>= fun plns =>
        ofRes (groupPlnsAsGeoJSONS (w.iter ord).enc plns) >>= fun out => (.ok (.saved (trim obj.output) (out.map (w.iter ord).marshal)) : Proc Outcome)) = .saved pa ou →
      ∃ qs fs, (E.draw d).run obj.isFeatureClass (allLines E docs) (E.opts (optsFromCfg obj)) ctx kind k = .ok qs ∧
        groupPlnsAsGeoJSONS (w.iter ord).enc (List.zipWith (fun l ps => ⟨l.id, l.props, ps⟩) (readLines docs) qs) = .ok fs ∧ pa = trim obj.output ∧ ou = fs.map w.marshal := by
    intro ord d k pa ou h
    cases e : (E.draw d).run obj.isFeatureClass (allLines E docs) (E.opts (optsFromCfg obj)) ctx kind k with
    | ok qs =>
      have e' : (E.draw d).simplify k obj.isFeatureClass (readLines docs) (optsFromCfg obj) ctx kind =
          .ok (List.zipWith (fun l ps => ⟨l.id, l.props, ps⟩) (readLines docs) qs) := by
        rw [← readLines_points E docs] at e
        rw [Engine.simplify]
        exact congrArg (fun x => x >>= fun pts => (pure (List.zipWith (fun l ps => ⟨l.id, l.props, ps⟩) (readLines docs) pts) : Res (List (OutLine P)))) e
      rw [e'] at h
      cases g : groupPlnsAsGeoJSONS (w.iter ord).enc (List.zipWith (fun l ps => (⟨l.id, l.props, ps⟩ : OutLine P)) (readLines docs) qs) with
      | ok fs =>
        simp only [ofRes] at h
        have h : outcome (ofRes (groupPlnsAsGeoJSONS (w.iter ord).enc (List.zipWith (fun l ps => (⟨l.id, l.props, ps⟩ : OutLine P)) (readLines docs) qs)) >>= fun out =>
          (.ok (.saved (trim obj.output) (out.map (w.iter ord).marshal)) : Proc Outcome)) = .saved pa ou := h
        rw [g] at h
        cases h
        exact ⟨qs, fs, rfl, g, rfl, rfl⟩
      | panic =>
        have h : outcome (ofRes (groupPlnsAsGeoJSONS (w.iter ord).enc (List.zipWith (fun l ps => (⟨l.id, l.props, ps⟩ : OutLine P)) (readLines docs) qs)) >>= fun out =>
          (.ok (.saved (trim obj.output) (out.map (w.iter ord).marshal)) : Proc Outcome)) = .saved pa ou := h
        rw [g] at h; cases h
      | timeout =>
        have h : outcome (ofRes (groupPlnsAsGeoJSONS (w.iter ord).enc (List.zipWith (fun l ps => (⟨l.id, l.props, ps⟩ : OutLine P)) (readLines docs) qs)) >>= fun out =>
          (.ok (.saved (trim obj.output) (out.map (w.iter ord).marshal)) : Proc Outcome)) = .saved pa ou := h
        rw [g] at h; cases h
    | panic =>
      have e' : (E.draw d).simplify k obj.isFeatureClass (readLines docs) (optsFromCfg obj) ctx kind = .panic := by
        rw [← readLines_points E docs] at e
        rw [Engine.simplify]
        exact congrArg (fun x => x >>= fun pts => (pure (List.zipWith (fun l ps => ⟨l.id, l.props, ps⟩) (readLines docs) pts) : Res (List (OutLine P)))) e
      rw [e'] at h; cases h
    | timeout =>
      have e' : (E.draw d).simplify k obj.isFeatureClass (readLines docs) (optsFromCfg obj) ctx kind = .timeout := by
        rw [← readLines_points E docs] at e
        rw [Engine.simplify]
        exact congrArg (fun x => x >>= fun pts => (pure (List.zipWith (fun l ps => ⟨l.id, l.props, ps⟩) (readLines docs) pts) : Res (List (OutLine P)))) e
      rw [e'] at h; cases h
  obtain ⟨q1, g1, a1, b1, rfl, rfl⟩ := inv hs
  obtain ⟨q2, g2, a2, b2, rfl, rfl⟩ := inv hs2
  have : q1 = q2 := Engine.C100_run_partial hok hb h1 h2 (fun hfc => hn obj kind docs ctx hr hfc) a1 a2
  subst this
  have b1 : groupPlnsAsGeoJSONS { w.enc with ord := ord1 } (List.zipWith (fun l ps => ⟨l.id, l.props, ps⟩) (readLines docs) q1) = .ok g1 := b1
  rw [group_iter w.enc p1 p2] at b1
  have b2 : groupPlnsAsGeoJSONS { w.enc with ord := ord2 } (List.zipWith (fun l ps => ⟨l.id, l.props, ps⟩) (readLines docs) q1) = .ok g2 := b2
  rw [b1] at b2
  cases b2
  rfl

/-- **C100 in full, line by line**: when the configuration does not ask for a feature class, or does not ask to avoid new self-intersections, nothing else is
assumed: all runs save the same file. -/
theorem C100_file (w : World (Fl K) P Props C) (E : Engine P C B K) (b f : Str) (hb : Blind E.heur E.heap) {d1 d2 : Draw P C B} (h1 : d1.Legal)
    (h2 : d2.Legal) {ord1 ord2 : List Nat → List Nat} (p1 : ∀ l, (ord1 l).Perm l) (p2 : ∀ l, (ord2 l).Perm l)
    (hE : ∀ obj kind docs ctx, Reads w b f obj kind docs ctx → Setting w E kind docs)
    (hn : ∀ obj kind docs ctx, Reads w b f obj kind docs ctx → obj.isFeatureClass = false ∨ obj.avoidNewSelfIntersects = false)
    {n : Nat} {path : Str} {out : List Str} (hs : main (program (w.iter ord1) (E.draw d1) n) b f = .saved path out) :
    ∃ N, ∀ m ≥ N, main (program (w.iter ord2) (E.draw d2) m) b f = .saved path out :=
  C100_file_partial w E b f hb h1 h2 p1 p2 hE (fun obj kind docs ctx hr hfc => Engine.noClash_free (by
    have := (hn obj kind docs ctx hr).resolve_left (by rw [hfc]; decide)
    exact this)) hs

end

end Io

end Verif
