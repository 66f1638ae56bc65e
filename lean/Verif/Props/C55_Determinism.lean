import Verif.Lemmas.RunsMerge
import Verif.Demo.Tolerance

/-! C55: the kept vertices do not depend on the run. -/

set_option linter.unusedSectionVars false

namespace Verif

variable {P C B K : Type} [LinearOrder B] [BoundedOrder B] [LinearOrder K]

/-- A run on the polyline `h` with the constraints `geoms`: index heuristics and priority queue are legal, iteration over a map visits every entry once in
whatever order, and the constraint index was built (constdp/constructor.go:37-50) by some legal index from the constraints in some order. -/
structure LegalRun (env : Env P C B K) (h : Int) (geoms : List C) (s : Sched P C B K) : Prop where
  heur : Hdb.Legal s.heur (maxEntries Hdb.defaultCap)
  heap : ∃ near : Fl K → Fl K → Prop, s.heap.Legal near ∧ ∀ a b c, near a b → b.le c = true → near a c
  ord : ∀ g l, (s.ord g l).Perm l
  ordRm : ∀ g l, (s.ordRm g l).Perm l
  ctx : ∃ H : Heur (Node P C B) B, Hdb.Legal H (maxEntries Hdb.defaultCap) ∧ ∃ l : List C, l.Perm geoms ∧ Yields (buildContextDB env.lib H h l) (s.ctxdb h)

section
variable {env : Env P C B K} {s : Sched P C B K} {pts : Int → List P} {h : Int} {geoms : List C}

theorem LegalRun.ctxOK (r : LegalRun env h geoms s) : CtxOK env s h (geoms.map .ctx) := by
  obtain ⟨H, hH, l, hl, y⟩ := r.ctx
  have hn : DbOK (Hdb.newHdb Hdb.defaultCap : Db P C B) := DbOK.new
  obtain ⟨t, y', w, -, -, p⟩ := Hdb.load_yields hn.wf (by rw [hn.cap]; exact hH) (l.map (ctxNode env.lib h))
  have : s.ctxdb h = t := y.unique y'
  rw [contents_new, List.nil_append] at p
  rw [← this] at w p
  refine ⟨w, fun nd hnd => ?_, fun g => ?_⟩
  · obtain ⟨c, -, rfl⟩ := List.mem_map.1 (p.mem_iff.1 hnd)
    rfl
  · have := (p.map Node.geom).mem_iff (a := g)
    rw [this, List.map_map]
    exact (hl.map _).mem_iff

theorem LegalRun.envOK (r : LegalRun env h geoms s) (he : EnvOK env) : EnvOK (env.run s) := ⟨r.heur, r.heap, r.ord, r.ordRm, he.point⟩

theorem LegalRun.inst (r : LegalRun env h geoms s) (hi : InstOK env h (pts h)) : InstOK (env.run s) h (pts h) where
  pln := hi.pln
  two := hi.two
  hull := hi.hull
  box := hi.box
  inside := hi.inside
  score := hi.score
  ctx := r.ctxOK.wf

/-- **C55, schedules and map orders**: with one and the same index code (heuristics, priority queue, constraint index) and one sequence of identifiers, every
run ends, and all runs keep the same vertices, whatever the iteration orders of the maps and the marks left by earlier runs were.  The results of the worker
goroutines are collected in a map (constdp/simple_0.go:11-31), so the iteration orders include the schedules. -/
theorem C55_schedules (he : EnvOK env) (hl : LnrOK env.lnr) (hi : InstOK env h (pts h)) {cv : List Int} (hcv : ∀ i ∈ cv, 0 ≤ i ∧ i < (pts h).length)
    {ids : Nat → Int} (hinj : Function.Injective ids) (H : Heur (Node P C B) B) (Q : Hdb.Heap (Hdb.KObj (Node P C B) B K)) (ctx : Int → Db P C B) :
    ∃ kept : List Int, ∀ s : Sched P C B K, LegalRun env h geoms s → s.heur = H → s.heap = Q → s.ctxdb = ctx → ∀ dirty : Int → Bool,
      ∃ (out : Out P C B) (dirty' : Int → Bool), Yields (simplify (env.run s) ids h cv dirty) (out, dirty') ∧ out.simple = kept := by
  obtain ⟨V, hV⟩ := verdicts_fixed env pts h Q (ctx h)
  by_cases hex : ∃ s : Sched P C B K, LegalRun env h geoms s ∧ s.heur = H ∧ s.heap = Q ∧ s.ctxdb = ctx
  · obtain ⟨s0, l0, h0, q0, c0⟩ := hex
    obtain ⟨o0, d0, g0, ⟨N0, y0⟩, -⟩ := simplify_yields (env := env.run s0) (l0.envOK he) hl (l0.inst hi) hinj hcv (fun _ => false)
    refine ⟨o0.simple, fun s ls hs qs cs dirty => ?_⟩
    obtain ⟨o, d, g, y, -⟩ := simplify_yields (env := env.run s) (ls.envOK he) hl (ls.inst hi) hinj hcv dirty
    refine ⟨o, d, y, ?_⟩
    obtain ⟨N, y⟩ := y
    exact (simplify_same (V := V) ⟨ls.envOK he, ls.inst hi, hV s qs (by rw [cs])⟩ ⟨l0.envOK he, l0.inst hi, hV s0 q0 (by rw [c0])⟩ hl hcv hinj hinj
      (SameStart.fixed (hs.trans h0.symm) (qs.trans q0.symm)) (y N (Nat.le_refl _)) (y0 N0 (Nat.le_refl _))).2
  · exact ⟨[], fun s ls hs qs cs => absurd ⟨s, ls, hs, qs, cs⟩ hex⟩

/-- **C55, partial** (assumed beyond the code: the priority queue pops in order, where the code compares with a tolerance, and a box is never farther than a
geometry inside it): every run ends, and all runs keep the same vertices, whatever the iteration orders, the shape of the pieces' index, the shape of the
constraint index, the order of the constraints, the order among equally near entries, the identifiers and the marks left by earlier runs were. -/
theorem C55_shapes_partial (he : EnvOK env) (hl : LnrOK env.lnr) (hi : InstOK env h (pts h)) {cv : List Int} (hcv : ∀ i ∈ cv, 0 ≤ i ∧ i < (pts h).length)
    (hbox : ∀ (q g : Geo P C) (b : Box B), env.lib.bounds g ≤ b → (env.lib.boxDistance q b).le (env.lib.distance q g) = true) :
    ∃ kept : List Int, ∀ s : Sched P C B K, LegalRun env h geoms s → s.heap.Legal Hdb.nearLe → ∀ ids : Nat → Int, Function.Injective ids → ∀ dirty : Int → Bool,
      ∃ (out : Out P C B) (dirty' : Int → Bool), Yields (simplify (env.run s) ids h cv dirty) (out, dirty') ∧ out.simple = kept := by
  obtain ⟨V, hV⟩ := verdicts_exact env pts h (geoms.map .ctx)
  by_cases hex : ∃ s : Sched P C B K, ∃ ids : Nat → Int, LegalRun env h geoms s ∧ s.heap.Legal Hdb.nearLe ∧ Function.Injective ids
  · obtain ⟨s0, ids0, l0, q0, j0⟩ := hex
    obtain ⟨o0, d0, g0, ⟨N0, y0⟩, -⟩ := simplify_yields (env := env.run s0) (l0.envOK he) hl (l0.inst hi) j0 hcv (fun _ => false)
    refine ⟨o0.simple, fun s ls qs ids j dirty => ?_⟩
    obtain ⟨o, d, g, y, -⟩ := simplify_yields (env := env.run s) (ls.envOK he) hl (ls.inst hi) j hcv dirty
    refine ⟨o, d, y, ?_⟩
    obtain ⟨N, y⟩ := y
    have r : RunOK env s pts h V := ⟨ls.envOK he, ls.inst hi, hV s ⟨qs, hbox⟩ ls.ctxOK⟩
    have r0 : RunOK env s0 pts h V := ⟨l0.envOK he, l0.inst hi, hV s0 ⟨q0, hbox⟩ l0.ctxOK⟩
    exact (simplify_same r r0 hl hcv j j0 (SameStart.exact r r0 ⟨qs, hbox⟩ ⟨q0, hbox⟩ j j0) (y N (Nat.le_refl _)) (y0 N0 (Nat.le_refl _))).2
  · exact ⟨[], fun s ls qs ids j => absurd ⟨s, ids, ls, qs, j⟩ hex⟩

end

/-! ### concrete case -/

namespace Axis

/-- the run of `run long [7]` -/
def plain : Sched Int Int Bx Int := ⟨Demo.heur, Hdb.listHeap, fun _ l => l, fun _ l => l, fun h => Demo.ctxdb lib h long.ctx⟩

/-- other heuristics: last child, everything in reverse -/
def heur' : Heur (Node Int Int Bx) Bx where
  choose _ bs := some (bs.length - 1)
  arrange l := l.reverse
  splitIdx bs := bs.length - 3
  select _ _ l := l.reverse
  height n := Nat.clog (maxEntries Hdb.defaultCap) n

theorem heur'_legal : Hdb.Legal heur' (maxEntries Hdb.defaultCap) := by
  have h8 : maxEntries Hdb.defaultCap = 8 := by decide +kernel
  refine ⟨fun b bs h => ⟨bs.length - 1, by have := List.length_pos_iff.2 h; omega, rfl⟩, fun l => List.reverse_perm l, fun bs h => ?_,
    fun _ _ _ l => List.reverse_perm l, fun n hn => ?_⟩
  · simp only [heur', h, h8]; omega
  · simp only [heur']
    exact ⟨Nat.le_of_lt (Nat.pow_pred_clog_lt_self (by omega) (by omega)), Nat.le_pow_clog (by omega) n⟩

/-- another run: maps in reverse, other heuristics, the constraints in reverse -/
def backward : Sched Int Int Bx Int := ⟨heur', Hdb.listHeap, fun _ l => l.reverse, fun _ l => l.reverse, fun h => Demo.ctxdb lib h long.ctx.reverse⟩

theorem plain_legal : LegalRun (env (fun _ => long)) 0 long.ctx plain :=
  ⟨Demo.heur_legal, ⟨Hdb.nearLe, Hdb.listHeap_legal, fun _ _ _ h1 h2 => Fl.le_trans h1 h2⟩, fun _ l => List.Perm.refl l, fun _ l => List.Perm.refl l,
    Demo.heur, Demo.heur_legal, long.ctx, List.Perm.refl _, ctxdb_yields 0 _⟩

theorem backward_legal : LegalRun (env (fun _ => long)) 0 long.ctx backward :=
  ⟨heur'_legal, ⟨Hdb.nearLe, Hdb.listHeap_legal, fun _ _ _ h1 h2 => Fl.le_trans h1 h2⟩, fun _ l => List.reverse_perm l, fun _ l => List.reverse_perm l,
    Demo.heur, Demo.heur_legal, long.ctx.reverse, List.reverse_perm _, ctxdb_yields 0 _⟩

/-- the concrete case beside C55: on the line `long` with the fixed vertex 7, every legal run with an exact queue keeps exactly 0, 7, 10 and 12 -/
theorem C55_case {s : Sched Int Int Bx Int} (hs : LegalRun (env (fun _ => long)) 0 long.ctx s) (hq : s.heap.Legal Hdb.nearLe) {ids : Nat → Int}
    (hinj : Function.Injective ids) (dirty : Int → Bool) :
    ∃ (out : Out Int Int Bx) (dirty' : Int → Bool), Yields (simplify ((env (fun _ => long)).run s) ids 0 [7] dirty) (out, dirty') ∧ out.simple = [0, 7, 10, 12] := by
  obtain ⟨kept, hk⟩ := C55_shapes_partial (geoms := long.ctx) (pts := fun _ => long.pts) (h := 0) (cv := [7]) (env_ok (lines := fun _ => long)) lnr_ok
    (inst_ok (lines := fun _ => long) (by decide) (by decide)) (by decide) (fun q g b hb => by
      show (Fl.fin (boxGap (span q) b)).le (.fin (gap (span q) (span g))) = true
      rw [Fl.fin_le_fin, decide_eq_true_eq]
      exact boxGap_le hb)
  obtain ⟨o, d, y, e⟩ := hk plain plain_legal Hdb.listHeap_legal (fun n => n) (fun a b h => by simpa using h) (fun _ => false)
  obtain ⟨o', d', e', hs', -⟩ := long_case
  have hrun : simplify ((env (fun _ => long)).run plain) (fun n => n) 0 [7] (fun _ => false) 60 = .ok (o', d') := e'
  have := (simplify_le _ _ _ _ _).val hrun y
  cases this
  rw [← hs', e]
  exact hk s hs hq ids hinj dirty

/-- in particular the reversed run -/
example : ∃ (out : Out Int Int Bx) (dirty' : Int → Bool), Yields (simplify ((env (fun _ => long)).run backward) (fun n => -n) 0 [7] (fun _ => true)) (out, dirty') ∧
    out.simple = [0, 7, 10, 12] :=
  C55_case backward_legal Hdb.listHeap_legal (fun a b h => by simpa using h) _

/-! ### with the tolerance of the code -/

/-- a run with this queue whose constraint index was loaded from the constraints in the order `l` -/
def tolRun (l : List Int) : Sched Int Int Bx Int := ⟨Demo.heur, tolHeap, fun _ l => l, fun _ l => l, fun h => Demo.ctxdb lib h l⟩

theorem tolRun_legal {l : List Int} (hl : l.Perm turn.ctx) : LegalRun (env (fun _ => turn)) 0 turn.ctx (tolRun l) :=
  ⟨Demo.heur_legal, ⟨tolNear, tolHeap_legal, tolMono⟩, fun _ l => List.Perm.refl l, fun _ l => List.Perm.refl l, Demo.heur, Demo.heur_legal, l, hl, ctxdb_yields 0 _⟩

/-- **C55 is violated for the shape of the index**: with a queue that compares with a tolerance like the code, two runs that differ only in the order of the
entries in the constraint index keep different vertices.  If the entry that is a little too far comes out first, the search stops there, the constraint
on the line is not seen, and the vertex 1 is dropped. -/
theorem C55_shape_refuted : ∃ s1 s2 : Sched Int Int Bx Int, LegalRun (env (fun _ => turn)) 0 turn.ctx s1 ∧ LegalRun (env (fun _ => turn)) 0 turn.ctx s2 ∧
    s1.heur = s2.heur ∧ s1.heap = s2.heap ∧ s1.ord = s2.ord ∧ s1.ordRm = s2.ordRm ∧
    (∃ (out : Out Int Int Bx) (d : Int → Bool), Yields (simplify ((env (fun _ => turn)).run s1) (fun n => n) 0 [] (fun _ => false)) (out, d) ∧ out.simple = [0, 1, 2]) ∧
    (∃ (out : Out Int Int Bx) (d : Int → Bool), Yields (simplify ((env (fun _ => turn)).run s2) (fun n => n) 0 [] (fun _ => false)) (out, d) ∧ out.simple = [0, 2]) := by
  have key : ∀ (l kept : List Int), (result (simplify ((env (fun _ => turn)).run (tolRun l)) (fun n => n) 0 [] (fun _ => false) 60)).2 = kept → kept ≠ [] →
      ∃ (out : Out Int Int Bx) (d : Int → Bool), Yields (simplify ((env (fun _ => turn)).run (tolRun l)) (fun n => n) 0 [] (fun _ => false)) (out, d) ∧
        out.simple = kept := by
    intro l kept hk hne
    cases e : simplify ((env (fun _ => turn)).run (tolRun l)) (fun n => n) 0 [] (fun _ => false) 60 with
    | ok r =>
      obtain ⟨out, d⟩ := r
      rw [e] at hk
      exact ⟨out, d, (simplify_le _ _ _ _ _).yields e, hk⟩
    | panic => rw [e] at hk; exact absurd hk.symm hne
    | timeout => rw [e] at hk; exact absurd hk.symm hne
  exact ⟨tolRun [8, 11], tolRun [11, 8], tolRun_legal (List.Perm.refl _), tolRun_legal (List.Perm.swap _ _ _), rfl, rfl, rfl, rfl,
    key _ _ (by decide +kernel) (by simp), key _ _ (by decide +kernel) (by simp)⟩

/-- the concrete case beside `C55_schedules`: with this queue and this index, every order of the maps keeps 0, 1, 2 -/
example (s : Sched Int Int Bx Int) (hs : LegalRun (env (fun _ => turn)) 0 turn.ctx s) (h1 : s.heur = (tolRun [8, 11]).heur) (h2 : s.heap = tolHeap)
    (h3 : s.ctxdb = (tolRun [8, 11]).ctxdb) (dirty : Int → Bool) : ∃ (out : Out Int Int Bx) (d : Int → Bool),
      Yields (simplify ((env (fun _ => turn)).run s) (fun n => n) 0 [] dirty) (out, d) ∧ out.simple = [0, 1, 2] := by
  obtain ⟨kept, hk⟩ := C55_schedules (geoms := turn.ctx) (pts := fun _ => turn.pts) (h := 0) (cv := []) (env_ok (lines := fun _ => turn)) lnr_ok
    (inst_ok (lines := fun _ => turn) (by decide) (by decide)) (by decide) (ids := fun n => n) (fun a b h => by simpa using h) (tolRun [8, 11]).heur tolHeap
    (tolRun [8, 11]).ctxdb
  obtain ⟨o, d, y, e⟩ := hk (tolRun [8, 11]) (tolRun_legal (List.Perm.refl _)) rfl rfl rfl (fun _ => false)
  have hr : (result (simplify ((env (fun _ => turn)).run (tolRun [8, 11])) (fun n => n) 0 [] (fun _ => false) 60)).2 = [0, 1, 2] := by decide +kernel
  obtain ⟨o', d', e', hs'⟩ : ∃ o d, simplify ((env (fun _ => turn)).run (tolRun [8, 11])) (fun n => n) 0 [] (fun _ => false) 60 = .ok (o, d) ∧ o.simple = [0, 1, 2] := by
    cases e : simplify ((env (fun _ => turn)).run (tolRun [8, 11])) (fun n => n) 0 [] (fun _ => false) 60 with
    | ok r => rw [e] at hr; exact ⟨r.1, r.2, rfl, hr⟩
    | panic => rw [e] at hr; cases hr
    | timeout => rw [e] at hr; cases hr
  have := (simplify_le _ _ _ _ _).val e' y
  cases this
  rw [← hs', e]
  exact hk s hs h1 h2 h3 dirty

end Axis

end Verif
