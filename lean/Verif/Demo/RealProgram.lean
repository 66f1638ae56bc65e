import Verif.Props.C94_Program

/-! Concrete runs of the whole program in the plane, meeting the hypotheses of C94, C95 and C96. -/

namespace Verif
namespace Real

open Io Text Planar

/-- a world with an input file of two lines, and everything readable -/
noncomputable def world {P C : Type} (ords : P → Fl ℝ × Fl ℝ × Fl ℝ) (obj : ArgObj (Fl ℝ)) (a b : Doc (Fl ℝ)) (ctx : List C) : World (Fl ℝ) P Str C where
  file := fun p => if p = ['i'] ∨ p = ['c'] then some ['a', '\n', 'b', '\n'] else none
  canSave := fun _ => true
  utf8 := fun s => s.map (fun c => UInt8.ofNat c.toNat)
  fromUtf8 := fun bs => bs.map (fun b => Char.ofNat b.toNat)
  uni := id
  config := fun _ => some obj
  doc := fun l => if l = ['a'] then some a else some b
  constraints := fun _ => .ok ctx
  enc := ⟨ords, fun _ => false, some, [], id⟩
  marshal := fun _ => []
  simplify := fun _ _ _ _ _ => .panic

/-- the configuration: score function, tolerance 5, minimum distance 1/2, all relations -/
noncomputable def config (kind : Str) (fc : Bool) : ArgObj (Fl ℝ) :=
  ⟨['i'], ['o', ' '], ['c'], kind, .fin 5, .fin (1 / 2), .fin 1, fc, true, false, true, true, true, true⟩

theorem reads {P C : Type} (ords : P → Fl ℝ × Fl ℝ × Fl ℝ) (str : Str) (kind : OffsetKind)
    (hk : offsetDictionary ((trim str).map (lowerChar id)) = some kind) (fc : Bool) (a b : Doc (Fl ℝ)) (ctx : List C) :
    Reads (world ords (config str fc) a b ctx) "e30=".toList ['-'] (config str fc) kind [a, b] ctx where
  config := ⟨"e30=".toList, rfl, by
    have hx : decode64 (trim "e30=".toList) = .ok [123, 125] := by decide +kernel
    simp only [parseInput, hx]; rfl⟩
  kind := by
    simp only [offsetFn, config, world, hk]; rfl
  docs := ⟨['a', '\n', 'b', '\n'], rfl, rfl⟩
  out := (by decide : trim ['o', ' '] ≠ [])
  ctx := rfl
  save := rfl

/-- identifiers: disjoint streams for any number of lines -/
theorem streams (n : Nat) : Streams (fun k => (Nat.pair 0 k : Int)) (fun h k => (Nat.pair (h.toNat + 1) k : Int)) (Engine.handles n) := by
  have hm : ∀ x ∈ Engine.handles n, 0 ≤ x := by
    intro x hx
    obtain ⟨k, -, rfl⟩ := List.mem_map.1 hx
    exact Int.natCast_nonneg k
  refine ⟨fun a b h => ?_, fun h _ a b hab => ?_, fun a ha b hb hab k l he => ?_, fun a ha k l he => ?_⟩
  · exact (Nat.pair_eq_pair.1 (Int.natCast_inj.1 h)).2
  · exact (Nat.pair_eq_pair.1 (Int.natCast_inj.1 hab)).2
  · have := (Nat.pair_eq_pair.1 (Int.natCast_inj.1 he)).1
    have h1 := hm a ha
    have h2 := hm b hb
    omega
  · have := (Nat.pair_eq_pair.1 (Int.natCast_inj.1 he)).1
    omega

/-! ### lines in the plane -/

noncomputable def engine : Engine ℂ Region EReal ℝ where
  lib := exactLib
  lnr := exactLnr
  heur := Demo.heur
  heap := Hdb.listHeap
  ord _ l := l
  ordRm _ l := l
  eps := .fin 0
  score _ := maxOffset segDist
  mul a _ := a
  toPoint l := match l with | .fin x :: .fin y :: _ => ⟨x, y⟩ | _ => 0
  instId n := n
  idsOf h k := (Nat.pair (h.toNat + 1) k : Int)
  ids k := (Nat.pair 0 k : Int)

theorem engine_ok (o : Opts ℝ) (ho : (Fl.fin 0).le o.threshold = true) (kind : OffsetKind) (lines : List (List ℂ)) (two : ∀ l ∈ lines, 2 ≤ l.length) :
    engine.OK o kind lines := by
  have hi := fun (l : List ℂ) (h : l ∈ lines) =>
    Demo.inst_ok (lib := exactLib) (lnr := exactLnr) (eps := Fl.fin 0) (lines := fun _ => ⟨l, [], { o with sqThreshold := .fin 0 }⟩) (h := 0) (distFn := segDist) (two l h)
      (fun a b p => by simp [segDist, Fl.fin_le_fin, Metric.infDist_nonneg]) (by simp [Fl.fin_le_fin])
      (Exact.hulls (env := exactEnv (fun _ => ⟨l, [], o⟩)) exactLib_exact l)
  have he : EnvOK (exactEnv (fun _ => ⟨[], [], o⟩)) := exactEnv_ok
  exact ⟨he.heur, he.heap, he.ord, he.ordRm, he.point, exactLnr_ok (lines := fun _ => ⟨[], [], o⟩), fun a b h => by
    have : (a : Int) = b := h
    omega, streams _, two, fun l h => (hi l h).hull, fun l h => (hi l h).box, fun l h => maxOffset_splitsInside _ _ ho _, fun l h => (hi l h).score⟩

theorem segDist_error (l : List ℂ) : ErrorLe 0 false id l segDist := by
  intro a _ b _ p _
  exact ⟨_, rfl, by simp⟩

noncomputable def ordsC (z : ℂ) : Fl ℝ × Fl ℝ × Fl ℝ := (.fin z.re, .fin z.im, .fin 0)

/-- the peak, and a feature with two parts -/
noncomputable def docA : Doc (Fl ℝ) := .geometry (.line [[.fin 0, .fin 0], [.fin 0, .fin 1], [.fin 2, .fin 0]])
noncomputable def docB : Doc (Fl ℝ) := .feature ⟨some (.multiLine [[[.fin 7, .fin 0], [.fin 8, .fin 1], [.fin 9, .fin 0]], [[.fin 3, .fin 1], [.fin 4, .fin 0]]]), ['p']⟩

theorem docs_ok {P C : Type} (ords : P → Fl ℝ × Fl ℝ × Fl ℝ) (obj : ArgObj (Fl ℝ)) (ctx : List C) : ∀ d ∈ [docA, docB], HasGeometry d ∧ docParts d ≠ [] ∧
    ∀ x ∈ docParts d, x.1 ≤ maxInt ∧ (x.2.1 = ['n', 'u', 'l', 'l'] ∨ ((world ords obj docA docB ctx).enc.unmarshal x.2.1).isSome) := by
  intro d hd
  simp only [List.mem_cons, List.not_mem_nil, or_false] at hd
  rcases hd with rfl | rfl
  · refine ⟨trivial, by simp [docA, docParts, geomParts], fun x hx => ⟨?_, .inr rfl⟩⟩
    simp only [docA, docParts, geomParts, List.mem_singleton] at hx
    subst hx; exact Nat.zero_le _
  · refine ⟨by simp [docB, HasGeometry], by simp [docB, docParts, featParts, geomParts], fun x hx => ⟨?_, .inr rfl⟩⟩
    simp only [docB, docParts, featParts, geomParts, List.zipIdx_cons, List.zipIdx_nil, List.map_cons, List.map_nil, List.mem_cons, List.not_mem_nil, or_false] at hx
    rcases hx with rfl | rfl <;> simp [maxInt]

theorem docs_two : ∀ l ∈ [docA, docB].flatMap (fun d => (docParts d).map (fun x => x.2.2.map engine.toPoint)), 2 ≤ l.length := by
  intro l hl
  simp only [docA, docB, docParts, featParts, geomParts, List.flatMap_cons, List.flatMap_nil, List.zipIdx_cons, List.zipIdx_nil, List.map_cons, List.map_nil,
    List.append_nil, List.cons_append, List.nil_append, List.mem_cons, List.not_mem_nil, or_false] at hl
  rcases hl with rfl | rfl | rfl <;> simp

/-- C94 and C95 for the program on this input, with the half planes of C73 as constraints and all checks requested: the saved lines are within 10 of the lines
read, and the constraints are respected -/
example (fc : Bool) : ∃ out N, (∀ fuel ≥ N, main (program (world ordsC (config ['d', 'p'] fc) docA docB [above, below]) engine fuel) "e30=".toList ['-'] = .saved ['o'] (out.map (fun _ => []))) ∧
    List.Forall₂ (WrittenAs (Tolerated id (engine.opts (optsFromCfg (config ['d', 'p'] fc))) (5 + 0)) (world ordsC (config ['d', 'p'] fc) docA docB [above, below]).enc
      engine.toPoint) [docA, docB] out :=
  C94_program_tolerance _ engine _ _ (reads ordsC ['d', 'p'] .maxOffset (by decide +kernel) fc docA docB [above, below]) (fun l => .refl l) (by simp [maxInt])
    (docs_ok _ _ _) (engine_ok _ (by simp [Engine.opts, optsFromCfg, config, Fl.fin_le_fin]) _ _ docs_two) (show trim ['d', 'p'] ∈ dpNames by decide +kernel) rfl le_rfl (by norm_num) rfl
    (fun _ _ _ _ => segDist_error _)

example (fc : Bool) : ∃ out N, (∀ fuel ≥ N, main (program (world ordsC (config ['d', 'p'] fc) docA docB [above, below]) engine fuel) "e30=".toList ['-'] = .saved ['o'] (out.map (fun _ => []))) ∧
    List.Forall₂ (WrittenAs (RespectsAll id (fun r : Region => r.1) [above, below] (engine.opts (optsFromCfg (config ['d', 'p'] fc))) 0 (1 / 2))
      (world ordsC (config ['d', 'p'] fc) docA docB [above, below]).enc engine.toPoint) [docA, docB] out :=
  C95_program_constraints _ engine _ _ (reads ordsC ['d', 'p'] .maxOffset (by decide +kernel) fc docA docB [above, below]) (fun l => .refl l) (by simp [maxInt])
    (docs_ok _ _ _) (engine_ok _ (by simp [Engine.opts, optsFromCfg, config, Fl.fin_le_fin]) _ _ docs_two) exactLib_exact
    ⟨Hdb.listHeap_legal.push, Hdb.listHeap_legal.pop_none, Hdb.listHeap_legal.pop_perm,
      fun q x r h1 h2 y hy => within_zero (Hdb.listHeap_legal.pop_min q x r h1 h2 y hy)⟩ ⟨le_rfl, by norm_num⟩ rfl

/-! ### motions -/

noncomputable def motionEngine : Engine (Fl ℝ × Fl ℝ × Fl ℝ) Unit EReal ℝ where
  lib := motionLib
  lnr := ⟨id, fun _ _ => ⟨0, 0, 0, 0⟩, fun _ _ _ _ => [], fun _ _ => []⟩
  heur := Demo.heur
  heap := Hdb.listHeap
  ord _ l := l
  ordRm _ l := l
  eps := .fin 0
  score _ := maxOffset (sedDist realArith (hypot realArith (.fin 1)))
  mul a _ := a
  toPoint l := match l with | x :: y :: t :: _ => (x, y, t) | _ => (.fin 0, .fin 0, .fin 0)
  instId n := n
  idsOf h k := (Nat.pair (h.toNat + 1) k : Int)
  ids k := (Nat.pair 0 k : Int)

theorem motion_score {ps : List (ℂ × ℝ)} (ht : Timed ps) (i j : Int) (h1 : 0 ≤ i) (h2 : i + 1 < j) (h3 : j < (ps.map timed).length) :
    ∃ k v, maxOffset (sedDist realArith (hypot realArith (.fin 1))) (Coords.sub (ps.map timed) i j) = .ok (k, v) ∧ 0 < k ∧ k < j - i := by
  rw [List.length_map] at h3
  have hlen : (Coords.sub (ps.map timed) i j).len = j + 1 - i := Coords.len_sub _ _ _ (by omega)
  have hp : ∀ k : Int, 0 ≤ k → k < (ps.length : Int) → ps[k.toNat]? = some (ps[k.toNat]?.getD 0) := by
    intro k h0 h1
    rw [List.getElem?_eq_getElem (by omega)]; rfl
  have hq : ∀ k, 0 ≤ k → k < (Coords.sub (ps.map timed) i j).len → (Coords.sub (ps.map timed) i j).pt k =
      .ok (timed (ps[(i + k).toNat]?.getD 0)) := by
    intro k hk0 hk1
    obtain ⟨p, hp1, hp'⟩ := Coords.pt_sub_ok (pts := ps.map timed) (i := i) (j := j) (k := k) (by omega) (by omega) h1 (by simp; omega)
    rw [List.getElem?_map, hp (i + k) (by omega) (by omega)] at hp'
    rw [hp1, ← Option.some.inj hp']
  obtain ⟨k, e, k0, k1, -⟩ := C03_maxOffset (sedDist realArith (hypot realArith (.fin 1))) _ _ (by omega) hq (fun t t1 t2 => by
    rw [(sed_norm realArith_exact ?_).1]
    · simp only [Fl.fin_le_fin, decide_eq_true_eq]; positivity
    · rw [hlen]
      have h1' := hp (i + 0) (by omega) (by omega)
      have h2' := hp (i + (j + 1 - i - 1)) (by omega) (by omega)
      obtain ⟨b1, e1⟩ := List.getElem?_eq_some_iff.1 h1'
      obtain ⟨b2, e2⟩ := List.getElem?_eq_some_iff.1 h2'
      rw [← e1, ← e2]
      exact List.pairwise_iff_getElem.1 ht _ _ b1 b2 (by omega))
  exact ⟨k, _, e, k0, by omega⟩

theorem motionEngine_ok (o : Opts ℝ) (ho : (Fl.fin 0).le o.threshold = true) (kind : OffsetKind) (lines : List (List (ℂ × ℝ)))
    (two : ∀ l ∈ lines, 2 ≤ l.length ∧ Timed l) : motionEngine.OK o kind (lines.map (fun l => l.map timed)) := by
  have he : EnvOK (motionEnv []) := Demo.env_ok (fun p g => ⟨by simp [motionLib], by simp [motionLib]⟩)
  have hm : ∀ l ∈ lines.map (fun l => l.map timed), ∃ ps, l = ps.map timed ∧ 2 ≤ ps.length ∧ Timed ps := by
    intro l hl
    obtain ⟨ps, hps, rfl⟩ := List.mem_map.1 hl
    exact ⟨ps, rfl, two ps hps⟩
  exact ⟨he.heur, he.heap, he.ord, he.ordRm, he.point, ⟨fun l => List.Perm.refl l, fun _ _ _ ho => by cases ho⟩, fun a b h => by
    have : (a : Int) = b := h
    omega, streams _, fun l h => by obtain ⟨ps, rfl, h2, -⟩ := hm l h; simpa using h2, fun l h => motionLib_hullOk _, fun l h i j _ _ _ g _ => ⟨le_rfl, le_rfl⟩,
    fun l h => maxOffset_splitsInside _ _ ho _, fun l h i j h1 h2 h3 => by obtain ⟨ps, rfl, -, ht⟩ := hm l h; exact motion_score ht i j h1 h2 h3⟩

/-- two motions -/
noncomputable def docM : Doc (Fl ℝ) := .geometry (.line [[.fin 0, .fin 0, .fin 0], [.fin 1, .fin 1, .fin 3], [.fin 2, .fin 0, .fin 4]])
noncomputable def docN : Doc (Fl ℝ) := .feature ⟨some (.line [[.fin 7, .fin 0, .fin 2], [.fin 8, .fin 1, .fin 5], [.fin 9, .fin 0, .fin 6]]), ['p']⟩

theorem motion_lines : [docM, docN].flatMap (fun d => (docParts d).map (fun x => x.2.2.map motionEngine.toPoint)) =
    [[((0 : ℂ), (0 : ℝ)), (⟨1, 1⟩, 3), (⟨2, 0⟩, 4)], [(⟨7, 0⟩, 2), (⟨8, 1⟩, 5), (⟨9, 0⟩, 6)]].map (fun l => l.map timed) := by
  simp [docM, docN, docParts, featParts, geomParts, motionEngine, timed, tpt]

/-- C96 for the program on this input: the saved motions are within 10 of the motions read, at every time -/
example (fc : Bool) : ∃ out N, (∀ fuel ≥ N, main (program (world id (config "sed".toList fc) docM docN ([] : List Unit)) motionEngine fuel) "e30=".toList ['-'] = .saved ['o'] (out.map (fun _ => []))) ∧
    List.Forall₂ (WrittenAs (Synchronised (motionEngine.opts (optsFromCfg (config "sed".toList fc))) 5) (world id (config "sed".toList fc) docM docN ([] : List Unit)).enc motionEngine.toPoint)
      [docM, docN] out := by
  refine C96_program_motion realArith_exact _ motionEngine _ _ (reads id "sed".toList .maxSEDOffset (by decide +kernel) fc docM docN []) (fun l => .refl l) (by simp [maxInt])
    (fun d hd => ?_) ?_ (show trim "sed".toList ∈ sedNames by decide +kernel) rfl (by norm_num) rfl
  · simp only [List.mem_cons, List.not_mem_nil, or_false] at hd
    rcases hd with rfl | rfl
    · refine ⟨trivial, by simp [docM, docParts, geomParts], fun x hx => ⟨?_, .inr rfl⟩⟩
      simp only [docM, docParts, geomParts, List.mem_singleton] at hx
      subst hx; exact Nat.zero_le _
    · refine ⟨by simp [docN, HasGeometry], by simp [docN, docParts, featParts, geomParts], fun x hx => ⟨?_, .inr rfl⟩⟩
      simp only [docN, docParts, featParts, geomParts, List.mem_singleton] at hx
      subst hx; exact Nat.zero_le _
  · rw [motion_lines]
    refine motionEngine_ok _ (by simp [Engine.opts, optsFromCfg, config, Fl.fin_le_fin]) _ _ (fun l hl => ?_)
    simp only [List.mem_cons, List.not_mem_nil, or_false] at hl
    rcases hl with rfl | rfl <;> simp [Timed] <;> norm_num

end Real
end Verif
