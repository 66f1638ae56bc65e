import Verif.Demo.Tolerance

/-!
What the tolerance of the priority queue (hdb/kobj.go:27-37) does to the neighbour search (C18) and to the relations to the constraints (C30): where they
fail, and a case in which the general theorems apply to such a queue.
-/

set_option linter.unusedSectionVars false

namespace Verif

section
variable {P C B K : Type} [LinearOrder B] [BoundedOrder B] [LinearOrder K] [Zero K]
variable {env : Env P C B K} {pts : Int → List P} {ids : Nat → Int} {h : Int} {cv : List Int} {dirty d : Int → Bool} {out : Out P C B} {fuel : Nat}

/-- with a queue that pops in order, the distances are kept exactly -/
theorem Respects.exact {lib : Lib P C B K} {o : Opts K} {cs : List (Geo P C)} {c : Coords P} {ps : List P} (hr : Respects lib Hdb.nearLe o cs c ps)
    (ho : o.distRelation = true) (hm : o.minDist ≠ .nan) {g : Geo P C} (hg : g ∈ cs) :
    o.minDist.le (lib.distance (.seg c) g) = true ∨ (lib.distance (.line c) g).lt o.minDist = true := by
  rcases hr.dist ho g hg with h1 | h1 | ⟨d, h1, h2⟩
  · exact .inl h1
  · exact .inr h1
  · left
    rcases Fl.le_total hm (Fl.ne_nan_of_le_left h1) with h3 | h3
    · exact Fl.le_trans h3 h1
    · rw [h3] at h2; cases h2

end

namespace Axis

/-- a stored point -/
def spot (id x : Int) : Node Int Int Bx := { ctxNode lib 0 x with id := id }

/-- the index with the points 9 and 8, in this order -/
def spots : Db Int Int Bx := match Hdb.load nodeOps Demo.heur (Hdb.newHdb Hdb.defaultCap) [spot 1 9, spot 2 8] 5 with
  | .ok t => t
  | _ => Hdb.newHdb Hdb.defaultCap

/-- **C18 is violated by the tolerance**: two items are stored, the query is at distance 0 of one and at distance 1 of the other, which is loaded first.  A
queue that takes both distances for equal hands out the farther one, the search stops there, and nothing is returned, although one item is within
the bound. -/
theorem C18_refuted : ∃ (os : List (Hdb.Op (Node Int Int Bx))) (t : Db Int Int Bx),
    Hdb.IdsInj nodeOps (os.flatMap Hdb.Op.items) ∧
    (tolHeap : Hdb.Heap (Hdb.KObj (Node Int Int Bx) Bx Int)).Legal tolNear ∧ (∀ a b c : Fl Int, tolNear a b → b.le c = true → tolNear a c) ∧
    Hdb.BoxBound nodeOps (lib.boxDistance (.point 8)) (fun nd => lib.distance (.point 8) nd.geom) (os.flatMap Hdb.Op.items) ∧
    Yields (fun fuel => Hdb.run nodeOps Demo.heur fuel (Hdb.newHdb Hdb.defaultCap) os) t ∧
    Yields (Hdb.contextNeighbours tolHeap t (lib.boxDistance (.point 8)) (fun nd => lib.distance (.point 8) nd.geom) (.fin 0)) [] ∧
    ∃ x ∈ os.flatMap Hdb.Op.items, (lib.distance (.point 8) x.geom).le (.fin 0) = true := by
  have hok : ∀ {r : Res (Db Int Int Bx)}, (match r with | .ok _ => true | _ => false) = true → r = .ok (match r with | .ok t => t | _ => Hdb.newHdb Hdb.defaultCap) := by
    intro r hr
    cases r with
    | ok t => rfl
    | panic => cases hr
    | timeout => cases hr
  have hload : Hdb.load nodeOps Demo.heur (Hdb.newHdb Hdb.defaultCap) [spot 1 9, spot 2 8] 5 = .ok spots := hok (by decide +kernel)
  have hfind : Hdb.contextNeighbours (tolHeap : Hdb.Heap (Hdb.KObj (Node Int Int Bx) Bx Int)) spots (lib.boxDistance (.point 8))
      (fun nd => lib.distance (.point 8) nd.geom) (.fin 0) 9 = .ok [] := by
    have : (match Hdb.contextNeighbours (tolHeap : Hdb.Heap (Hdb.KObj (Node Int Int Bx) Bx Int)) spots (lib.boxDistance (.point 8))
      (fun nd => lib.distance (.point 8) nd.geom) (.fin 0) 9 with | .ok [] => true | _ => false) = true := by decide +kernel
    revert this
    generalize Hdb.contextNeighbours (tolHeap : Hdb.Heap (Hdb.KObj (Node Int Int Bx) Bx Int)) spots (lib.boxDistance (.point 8))
      (fun nd => lib.distance (.point 8) nd.geom) (.fin 0) 9 = r
    intro hr
    rcases r with (_ | _) | _ | _
    · rfl
    all_goals cases hr
  refine ⟨[.load [spot 1 9, spot 2 8]], spots, ?_, tolHeap_legal, tolMono, ?_, ?_, (Hdb.contextNeighbours_le _ _ _ _ _).yields hfind, spot 2 8, ?_, by decide⟩
  · unfold Hdb.IdsInj
    simp only [List.flatMap_cons, List.flatMap_nil, Hdb.Op.items, List.append_nil, List.mem_cons, List.not_mem_nil, or_false]
    rintro a (rfl | rfl) b (rfl | rfl) hab
    all_goals first | rfl | exact absurd hab (by decide)
  · intro c hc b hb
    show (Fl.fin (boxGap (8, 8) b)).le (.fin (gap (8, 8) (span c.geom))) = true
    rw [Fl.fin_le_fin, decide_eq_true_eq]
    simp only [List.flatMap_cons, List.flatMap_nil, Hdb.Op.items, List.append_nil, List.mem_cons, List.not_mem_nil, or_false] at hc
    rcases hc with rfl | rfl <;> exact boxGap_le hb
  · have : (fun fuel => Hdb.run nodeOps Demo.heur fuel (Hdb.newHdb Hdb.defaultCap) [Hdb.Op.load [spot 1 9, spot 2 8]]) =
        Hdb.load nodeOps Demo.heur (Hdb.newHdb Hdb.defaultCap) [spot 1 9, spot 2 8] := by
      funext fuel
      simp only [Hdb.run, Hdb.runOp]
      cases Hdb.load nodeOps Demo.heur (Hdb.newHdb Hdb.defaultCap) [spot 1 9, spot 2 8] fuel <;> rfl
    rw [this]
    exact (Hdb.load_le _ _ _ _).yields hload
  · simp [Hdb.Op.items]

/-- the concrete case beside `C18_knn_band`: with 10 in place of 9 the same queue finds the point at 8 -/
example : ∃ t, Yields (fun fuel => Hdb.run nodeOps Demo.heur fuel (Hdb.newHdb Hdb.defaultCap) [.load [spot 1 10, spot 2 8]]) t ∧
    ∃ out, Hdb.contextNeighbours (tolHeap : Hdb.Heap (Hdb.KObj (Node Int Int Bx) Bx Int)) t (lib.boxDistance (.point 8)) (fun nd => lib.distance (.point 8) nd.geom) (.fin 0)
      (Hdb.treeFuel t) = .ok out ∧ out.map Node.id = [2] := by
  obtain ⟨t, y, hk⟩ := Hdb.C18_knn_band nodeOps Hdb.defaultCap Demo.heur_legal [.load [spot 1 10, spot 2 8]]
    (by
      unfold Hdb.IdsInj
      simp only [List.flatMap_cons, List.flatMap_nil, Hdb.Op.items, List.append_nil, List.mem_cons, List.not_mem_nil, or_false]
      rintro a (rfl | rfl) b (rfl | rfl) hab
      all_goals first | rfl | exact absurd hab (by decide)) (tolHeap_legal (T := Node Int Int Bx) (B := Bx)) tolMono
    (boxDist := lib.boxDistance (.point 8)) (itemDist := fun nd => lib.distance (.point 8) nd.geom)
    (by
      intro c hc b hb
      show (Fl.fin (boxGap (8, 8) b)).le (.fin (gap (8, 8) (span c.geom))) = true
      rw [Fl.fin_le_fin, decide_eq_true_eq]
      simp only [List.flatMap_cons, List.flatMap_nil, Hdb.Op.items, List.append_nil, List.mem_cons, List.not_mem_nil, or_false] at hc
      rcases hc with rfl | rfl <;> exact boxGap_le hb)
  have hbag : Hdb.bag [] [Hdb.Op.load [spot 1 10, spot 2 8]] = [spot 1 10, spot 2 8] := rfl
  obtain ⟨out, e, p⟩ := hk (.fin 0) _ le_rfl (by
    rw [hbag]
    simp only [List.mem_cons, List.not_mem_nil, or_false]
    rintro x (rfl | rfl) y (rfl | rfl) h1 h2
    all_goals first | exact absurd h1 (by decide) | exact absurd h2 (by decide) | exact fun hn => absurd hn.2 (by decide))
  rw [hbag] at p
  have hf : [spot 1 10, spot 2 8].filter (fun x => (lib.distance (.point 8) x.geom).le (.fin 0)) = [spot 2 8] := by
    have h1 : (lib.distance (.point 8) (spot 1 10).geom).le (.fin 0) = false := by decide
    have h2 : (lib.distance (.point 8) (spot 2 8).geom).le (.fin 0) = true := by decide
    simp [h1, h2]
  rw [hf] at p
  exact ⟨t, y, out, e, by rw [List.perm_singleton.1 p]; rfl⟩

/-- the line `turn` with its constraints in the other order -/
def turned : Demo.Line Int Int Int := { turn with ctx := [11, 8] }

/-- some piece is longer than a segment, has a hull with more than two corners, and its chord and its sub-line differ in meeting a constraint -/
def broken (lib : Lib Int Int Bx Int) (cs : List (Geo Int Int)) (hulls : List (Node Int Int Bx)) : Bool :=
  hulls.any (fun nd => decide (nd.range.J ≠ nd.range.I + 1) && decide ((lib.convexHull nd.coords).len ≠ 2) &&
    cs.any (fun g => lib.intersects (.seg nd.coords) g != lib.intersects (.line nd.coords) g))

/-- **C30 is violated when the minimum distance does not exceed the tolerance**: with a queue that pops in order the assumptions of `C30_context_partial` hold, the
relations are requested, but with a queue that compares like the code the result has a piece whose sub-line meets a constraint and whose chord does not. -/
theorem C30_refuted : ∃ (e : Env Int Int Bx Int) (out : Out Int Int Bx) (d : Int → Bool), EnvOK e ∧ LnrOK e.lnr ∧ InstOK e 0 turned.pts ∧
    e.heap.Legal tolNear ∧ CtxSound { e with heap := Hdb.listHeap } Hdb.nearLe (fun _ => turned.pts) 0 ∧
    (e.inst 0).opts.geomRelation = true ∧ (e.inst 0).opts.minDist = .fin 0 ∧ Yields (simplify e (fun n => n) 0 [] (fun _ => false)) (out, d) ∧
    ∃ nd ∈ out.hulls, nd.range.J ≠ nd.range.I + 1 ∧ (e.lib.convexHull nd.coords).len ≠ 2 ∧
      ∃ g ∈ (Hdb.contents (e.inst 0).ctxdb).map Node.geom, e.lib.intersects (.seg nd.coords) g ≠ e.lib.intersects (.line nd.coords) g := by
  have hr : (match simplify ({ env (fun _ => turned) with heap := tolHeap }) (fun n => n) 0 [] (fun _ => false) 60 with
    | .ok (o, _) => broken lib ((Hdb.contents (Demo.ctxdb lib 0 turned.ctx)).map Node.geom) o.hulls
    | _ => false) = true := by decide +kernel
  cases e : simplify ({ env (fun _ => turned) with heap := tolHeap }) (fun n => n) 0 [] (fun _ => false) 60 with
  | ok r =>
    obtain ⟨out, d⟩ := r
    rw [e] at hr
    have hi := inst_ok (lines := fun _ => turned) (h := 0) (by decide) (by decide)
    have he := env_ok (lines := fun _ => turned)
    refine ⟨{ env (fun _ => turned) with heap := tolHeap }, out, d, ⟨he.heur, ⟨tolNear, tolHeap_legal, tolMono⟩, he.ord, he.ordRm, he.point⟩,
      lnr_ok (lines := fun _ => turned), ⟨hi.pln, hi.two, hi.hull, hi.box, hi.inside, hi.score, hi.ctx⟩, tolHeap_legal,
      ctx_sound (lines := fun _ => turned) (by decide), rfl, rfl, (simplify_le _ _ _ _ _).yields e, ?_⟩
    simp only [broken, List.any_eq_true, Bool.and_eq_true, decide_eq_true_eq, bne_iff_ne] at hr
    obtain ⟨nd, hnd, ⟨h1, h2⟩, g, hg, h3⟩ := hr
    exact ⟨nd, hnd, h1, h2, g, hg, h3⟩
  | panic => rw [e] at hr; cases hr
  | timeout => rw [e] at hr; cases hr

/-- the concrete case beside C12 and C30 for a queue with a tolerance: the run on the line `long` with the fixed vertex 7 -/
theorem tolerant_case : ∃ out d, simplify (tolEnv (fun _ => long)) (fun n => n) 0 [7] (fun _ => false) 60 = .ok (out, d) ∧ out.simple = [0, 7, 10, 12] ∧ 7 ∈ out.simple ∧
    ∀ nd ∈ out.hulls, nd.range.J = nd.range.I + 1 ∨ nd.coords.len = 2 ∨
      Respects lib tolNear long.opts ((Hdb.contents (Demo.ctxdb lib 0 long.ctx)).map Node.geom) nd.coords (between long.pts nd.range.I nd.range.J) := by
  have hi : InstOK (tolEnv (fun _ => long)) 0 long.pts := tol_inst (lines := fun _ => long) (by decide) (by decide)
  have hinj : Function.Injective (fun n : Nat => (n : Int)) := fun a b h => by simpa using h
  have hcv : ∀ i ∈ [(7 : Int)], 0 ≤ i ∧ i < long.pts.length := by decide
  have hr : (result (simplify (tolEnv (fun _ => long)) (fun n => n) 0 [7] (fun _ => false) 60)).2 = [0, 7, 10, 12] := by decide +kernel
  cases e : simplify (tolEnv (fun _ => long)) (fun n => n) 0 [7] (fun _ => false) 60 with
  | ok r =>
    obtain ⟨out, d⟩ := r
    rw [e] at hr
    exact ⟨out, d, rfl, hr, (C12_survive (pts := fun _ => long.pts) tol_ok (lnr_ok (lines := fun _ => long)) hi hinj hcv tol_near rfl e).1 7 (by simp),
      C30_context_partial (pts := fun _ => long.pts) tol_ok (lnr_ok (lines := fun _ => long)) hi hinj hcv (tol_sound (by decide)) e⟩
  | panic => rw [e] at hr; cases hr
  | timeout => rw [e] at hr; cases hr

end Axis
end Verif
