import Verif.Demo.Ends
import Verif.Props.C100_SameFile

/-! Concrete runs for C100: a program whose file is the same in every run, and one whose file is not. -/

namespace Verif

/-! ### line by line, in the real plane -/

namespace Real

open Io Text Planar

/-- two lines read by the program of Demo/RealProgram, not as a feature class: there is one file that every run saves -/
example : ∃ path out, ∀ (d : Draw ℂ Region EReal) (ord : List Nat → List Nat), d.Legal → (∀ l, (ord l).Perm l) →
    ∃ N, ∀ fuel ≥ N, main (program ((world ordsC (configT 5 false) docA docB [above, below]).iter ord) (engine.draw d) fuel) "e30=".toList ['-'] = .saved path out := by
  have hE : ∀ obj kind docs ctx, Reads (world ordsC (configT 5 false) docA docB [above, below]) "e30=".toList ['-'] obj kind docs ctx →
      Setting (world ordsC (configT 5 false) docA docB [above, below]) engine kind docs := by
    intro obj kind docs ctx h
    obtain ⟨-, rfl⟩ := readsT_unique h
    refine setting ?_ kind
    rintro d hd x hx
    simp only [List.mem_cons, List.not_mem_nil, or_false] at hd
    rcases hd with rfl | rfl
    · exact (parts_docA x hx).1
    · exact (parts_docB x hx).1
  have hs := C98_saves (world ordsC (configT 5 false) docA docB [above, below]) engine "e30=".toList ['-'] hE
  obtain ⟨path, out, N, hN⟩ := hs.2 (hs.1.2 ⟨_, _, _, _, readsT 5 false docA docB [above, below], by
    refine ⟨?_, ?_, .inr (by simp [configT, Fl.fin_le_fin]), ⟨[docA, docB], [], rfl, by simp [docA, docB, docParts, featParts, geomParts], by simp⟩,
      fun d hd x hx => .inr rfl⟩
    · intro d hd
      simp only [List.mem_cons, List.not_mem_nil, or_false] at hd
      rcases hd with rfl | rfl
      · trivial
      · simp [docB, HasGeometry]
    · intro d hd x hx
      simp only [List.mem_cons, List.not_mem_nil, or_false] at hd
      rcases hd with rfl | rfl
      · exact (parts_docA x hx).2
      · exact (parts_docB x hx).2⟩)
  refine ⟨path, out, fun d ord hd ho => ?_⟩
  exact C100_file (d1 := ⟨engine.ord, engine.ordRm, engine.idsOf, engine.ids⟩) (ord1 := id) (world ordsC (configT 5 false) docA docB [above, below]) engine _ _ demo_blind
    ⟨fun _ l => .refl l, fun _ l => .refl l, fun n => streams n⟩ hd (fun l => .refl l) ho hE (fun obj _ _ _ h => .inl (by rw [(readsT_unique h).1]; rfl)) (hN N (Nat.le_refl _))

end Real

/-! ### the violation: a feature class -/

namespace Plane

open Io Text

/-- the program on the lines of C99, except for what differs between runs -/
def engine : Engine Pt (List Pt) Bx ℚ where
  lib := lib
  lnr := lnr
  heur := Demo.heur
  heap := Hdb.listHeap
  ord _ l := l
  ordRm _ l := l
  eps := .fin (1 / 10 ^ 10)
  score _ := maxOffset (fun a b p => .fin (ptSeg a b p))
  mul a _ := a
  toPoint l := match l with | .fin x :: .fin y :: _ => (x, y) | _ => (0, 0)
  instId n := n
  idsOf h k := (Nat.pair (h.toNat + 1) k : Int)
  ids k := (Nat.pair 0 k : Int)

def clashDoc (k : Int) : Doc (Fl ℚ) := .geometry (.line ((clashLines k).pts.map (fun p => [.fin p.1, .fin p.2])))

/-- the lines of C99 in a file -/
def clashWorld : World (Fl ℚ) Pt Str (List Pt) where
  file p := if p = ['i'] then some ['1', '\n', '2', '\n', '3', '\n', '4', '\n', '5', '\n', '6', '\n', '7', '\n'] else none
  canSave _ := true
  utf8 s := s.map (fun c => UInt8.ofNat c.toNat)
  fromUtf8 bs := bs.map (fun b => Char.ofNat b.toNat)
  uni := id
  config _ := some ⟨['i'], ['o'], [], ['d', 'p'], .fin 10000, .fin 0, .fin 1, true, false, false, true, false, false, false⟩
  doc l := match l with | [c] => some (clashDoc (c.toNat - 48)) | _ => none
  constraints _ := .ok []
  enc := ⟨fun p => (.fin p.1, .fin p.2, .fin 0), fun _ => true, some, [], id⟩
  marshal f := match f with | .lineString _ cs => cs.map (fun _ => '*') | .multiLineString _ _ => []
  simplify _ _ _ _ _ := .panic

/-- maps in the given order -/
def orderly (ord : List (Node Pt (List Pt) Bx) → List (Node Pt (List Pt) Bx)) : Draw Pt (List Pt) Bx :=
  ⟨fun _ => ord, fun _ l => l, engine.idsOf, engine.ids⟩

theorem orderly_legal {ord : List (Node Pt (List Pt) Bx) → List (Node Pt (List Pt) Bx)} (h : ∀ l, (ord l).Perm l) : (orderly ord).Legal :=
  ⟨fun _ l => h l, fun _ l => .refl l, fun n => Real.streams n⟩

theorem engine_sane (kind : OffsetKind) (lines : List (List Pt)) : engine.Sane kind lines := by
  have key : ∀ l ∈ lines, 2 ≤ l.length → InstOK (env (fun _ => ⟨l, [], { classOpts with sqThreshold := .fin 0 }⟩)) 0 l :=
    fun l _ h2 => inst_ok (lines := fun _ => ⟨l, [], { classOpts with sqThreshold := .fin 0 }⟩) (h := 0) h2 (by simp [Fl.fin_le_fin])
  have e := env_ok (lines := clashLines)
  refine ⟨e.heur, e.heap, fun _ l => .refl l, fun _ l => .refl l, e.point, lnr_ok (lines := clashLines), fun a b h => ?_, Real.streams _, ?_, ?_, _, rfl, ?_⟩
  · have : (a : Int) = b := h
    omega
  · intro l hl i j h1 h2 h3
    exact (key l hl (by omega)).hull i j h1 h2 h3
  · intro l hl i j h1 h2 h3
    exact (key l hl (by omega)).box i j h1 h2 h3
  · intro l hl i j h1 h2 h3
    exact (key l hl (by omega)).score i j h1 h2 h3

def clashConfig : ArgObj (Fl ℚ) := ⟨['i'], ['o'], [], ['d', 'p'], .fin 10000, .fin 0, .fin 1, true, false, false, true, false, false, false⟩

def clashDocs : List (Doc (Fl ℚ)) := [1, 2, 3, 4, 5, 6, 7].map clashDoc

theorem clash_reads : Reads clashWorld "e30=".toList ['-'] clashConfig .maxOffset clashDocs [] where
  config := ⟨"e30=".toList, rfl, by
    have hx : decode64 (trim "e30=".toList) = .ok [123, 125] := by decide +kernel
    simp only [parseInput, hx]; rfl⟩
  kind := by
    have hk : offsetDictionary ((trim ['d', 'p']).map (lowerChar id)) = some .maxOffset := by decide +kernel
    simp only [offsetFn, clashConfig, clashWorld, hk]; rfl
  docs := ⟨['1', '\n', '2', '\n', '3', '\n', '4', '\n', '5', '\n', '6', '\n', '7', '\n'], rfl, rfl⟩
  out := (by decide : trim ['o'] ≠ [])
  ctx := rfl
  save := rfl

/-- the lines as the encoder sees them, the second and the third with the given points -/
def clashOut (a b : List Pt) : List (OutLine Pt) :=
  [⟨"idx:0-pos:0".toList, "null".toList, [(0, 0), (10, 12), (20, 0), (0, -40)]⟩, ⟨"idx:1-pos:0".toList, "null".toList, a⟩, ⟨"idx:2-pos:0".toList, "null".toList, b⟩,
    ⟨"idx:3-pos:0".toList, "null".toList, [(10, -5), (10, 5)]⟩, ⟨"idx:4-pos:0".toList, "null".toList, [(-3 / 10, 3), (-9 / 10, 9 / 5)]⟩,
    ⟨"idx:5-pos:0".toList, "null".toList, [(-20, 9), (-20, 5)]⟩, ⟨"idx:6-pos:0".toList, "null".toList, [(-1, -20), (1, -20)]⟩]

theorem clash_saved {d : Draw Pt (List Pt) Bx} {a b : List Pt}
    (h : (engine.draw d).simplify 60 true (readLines clashDocs) (optsFromCfg clashConfig) [] .maxOffset = .ok (clashOut a b)) :
    main (program clashWorld (engine.draw d) 60) "e30=".toList ['-'] =
      .saved ['o'] [['*', '*', '*', '*'], a.map (fun _ => '*'), b.map (fun _ => '*'), ['*', '*'], ['*', '*'], ['*', '*'], ['*', '*']] := by
  rw [main_reads clashWorld _ _ _ clash_reads (by simp [clashDocs, clashDoc, HasGeometry])]
  rw [show clashConfig.isFeatureClass = true from rfl, h]
  have hg : groupById (clashOut a b) [] = .ok ((clashOut a b).zipIdx.map (fun x => (x.2, [⟨x.2, 0, x.1⟩]))) := rfl
  have hi : indices clashWorld.enc.ord ((clashOut a b).zipIdx.map (fun x => (x.2, ([⟨x.2, 0, x.1⟩] : List (PolyGeom Pt))))) = [0, 1, 2, 3, 4, 5, 6] := by
    rw [indices, List.mergeSort_of_pairwise]
    · rfl
    · exact (by decide : List.Pairwise (fun a b : Nat => decide (a ≤ b) = true) [0, 1, 2, 3, 4, 5, 6])
  have e1 : ∀ {A B : Type} (x : A) (f : A → Proc B), (ofRes (.ok x) >>= f) = f x := fun _ _ => rfl
  have hs : ∀ k, sortByPos (Dict.get ((clashOut a b).zipIdx.map (fun x => (x.2, [⟨x.2, 0, x.1⟩]))) k) =
      Dict.get ((clashOut a b).zipIdx.map (fun x => (x.2, [⟨x.2, 0, x.1⟩]))) k := by
    intro k
    rw [sortByPos, List.mergeSort_of_pairwise]
    simp only [clashOut, List.zipIdx_cons, List.zipIdx_nil, List.map_cons, List.map_nil, Dict.get]
    split_ifs <;> simp
  have hl : ∃ out, groupPlnsAsGeoJSONS clashWorld.enc (clashOut a b) = .ok out ∧ out.map clashWorld.marshal =
      [['*', '*', '*', '*'], a.map (fun _ => '*'), b.map (fun _ => '*'), ['*', '*'], ['*', '*'], ['*', '*'], ['*', '*']] := by
    have hz : ∀ l : List Pt, ∃ cs, extractCoords clashWorld.enc.isZero (l.map clashWorld.enc.ords) = cs ∧ cs.map (fun _ => '*') = l.map (fun _ => '*') := by
      intro l
      refine ⟨_, rfl, ?_⟩
      rw [extractCoords]
      generalize isCoords3D _ _ = t
      induction l with
      | nil => rfl
      | cons p l ih => simp [extractLoop, ih]
    refine ⟨(clashOut a b).map (fun l => .lineString [] (extractCoords clashWorld.enc.isZero (l.simple.map clashWorld.enc.ords))), ?_, ?_⟩
    · rw [groupPlnsAsGeoJSONS, hg]
      show groupLoop clashWorld.enc _ 0 (indices _ _) = _
      rw [hi]
      simp only [groupLoop, hs]
      rfl
    · have hm : ∀ l : List Pt, clashWorld.marshal (.lineString [] (extractCoords clashWorld.enc.isZero (l.map clashWorld.enc.ords))) = l.map (fun _ => '*') := by
        intro l
        obtain ⟨cs, h1, h2⟩ := hz l
        rw [h1]
        exact h2
      rw [List.map_map]
      exact (List.map_congr_left (fun l _ => hm l.simple)).trans rfl
  obtain ⟨out, h1, h2⟩ := hl
  rw [e1, h1, e1, h2]
  rfl

/-- **C100, refuted** for feature classes: one input, two runs of the program that differ in nothing but the order in which Go iterates over its maps, and two
different files. -/
theorem C100_refuted : (∀ kind lines, engine.Sane kind lines) ∧ Blind engine.heur engine.heap ∧
    ∃ d1 d2 : Draw Pt (List Pt) Bx, d1.Legal ∧ d2.Legal ∧ d1.ordRm = d2.ordRm ∧ d1.idsOf = d2.idsOf ∧ d1.ids = d2.ids ∧
      ∃ out1 out2, main (program clashWorld (engine.draw d1) 60) "e30=".toList ['-'] = .saved ['o'] out1 ∧
        main (program clashWorld (engine.draw d2) 60) "e30=".toList ['-'] = .saved ['o'] out2 ∧ out1 ≠ out2 :=
  ⟨engine_sane, demo_blind, orderly id, orderly List.reverse, orderly_legal fun l => .refl l, orderly_legal fun l => l.reverse_perm, rfl, rfl, rfl, _, _,
    clash_saved (a := [(1, 1 / 2), (1, 5), (-1, 3)]) (b := [(2, 1), (-3, -4), (2, 20), (-30, 10)]) (by decide +kernel),
    clash_saved (a := [(1, 1 / 2), (-1, -1), (1, 5), (-1, 3)]) (b := [(2, 1), (2, 20), (-30, 10)]) (by decide +kernel), by decide⟩

end Plane

end Verif
