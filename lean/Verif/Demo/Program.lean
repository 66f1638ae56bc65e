import Verif.Props.C47_Pipeline

/-! A concrete run of the whole program on the integer line, meeting the hypotheses of C60. -/

namespace Verif
namespace Axis

open Io Text

/-- the libraries of `Demo/Axis.lean`; identifiers: instance `h` gets the numbers 4 n + h, the joint stage 4 n + 3 -/
def engine : Engine Int Int Bx Int where
  lib := lib
  lnr := lnr
  heur := Demo.heur
  heap := Hdb.listHeap
  ord _ l := l
  ordRm _ l := l
  eps := .fin 0
  score _ := maxOffset (fun a b p => .fin (gap (p, p) (min a b, max a b)))
  mul a _ := a
  toPoint l := match l with | .fin x :: _ => x | _ => 0
  instId n := n
  idsOf h n := 4 * n + h
  ids n := 4 * n + 3

/-- two input lines: a line string, and a feature with two parts -/
def docA : Doc (Fl Int) := .geometry (.line ([0, 3, 6, 9].map (fun x => [.fin x])))
def docB : Doc (Fl Int) := .feature ⟨some (.multiLine [[20, 24, 21].map (fun x => [.fin x]), [31, 32, 33, 34].map (fun x => [.fin x])]), ['p']⟩

def progObj : ArgObj (Fl Int) := ⟨['i'], ['o', ' '], [], "Dp ".toList, .fin 4, .fin 1, .fin 1, true, true, false, true, true, true, true⟩

def progWorld : World (Fl Int) Int Str Int where
  file := fun p => if p = ['i'] then some ['a', '\n', 'b', '\n'] else none
  canSave := fun _ => true
  utf8 := fun s => s.map (fun c => UInt8.ofNat c.toNat)
  fromUtf8 := fun bs => bs.map (fun b => Char.ofNat b.toNat)
  uni := id
  config := fun _ => some progObj
  doc := fun l => if l = ['a'] then some docA else some docB
  constraints := fun _ => .ok []
  enc := ⟨fun x => (.fin x, .fin 0, .fin 0), fun v => v = .fin 0, some, [], id⟩
  marshal := fun f => match f with | .lineString p _ => p | .multiLineString p _ => p
  simplify := fun _ _ _ _ _ => .panic

theorem prog_reads : Reads progWorld "e30=".toList ['-'] progObj .maxOffset [docA, docB] [] where
  config := ⟨"e30=".toList, rfl, by
    have hx : decode64 (trim "e30=".toList) = .ok [123, 125] := by decide +kernel
    simp only [parseInput, hx]; rfl⟩
  kind := by decide +kernel
  docs := ⟨_, rfl, rfl⟩
  out := by decide
  ctx := rfl
  save := rfl

theorem prog_ok : engine.OK (engine.opts (optsFromCfg progObj)) .maxOffset
    ([docA, docB].flatMap (fun d => (docParts d).map (fun x => x.2.2.map engine.toPoint))) := by
  have hl : [docA, docB].flatMap (fun d => (docParts d).map (fun x => x.2.2.map engine.toPoint)) = [[0, 3, 6, 9], [20, 24, 21], [31, 32, 33, 34]] := by
    decide +kernel
  rw [hl]
  have two : ∀ l ∈ [[0, 3, 6, 9], [20, 24, 21], [31, 32, 33, 34]], 2 ≤ (l : List Int).length := by decide
  have hi := fun (l : List Int) (h : l ∈ [[0, 3, 6, 9], [20, 24, 21], [31, 32, 33, 34]]) =>
    inst_ok (lines := fun _ => ⟨l, [], opts 4 1⟩) (h := 0) (two l h) rfl
  have he : EnvOK (env (fun _ => ⟨[], [], opts 4 1⟩)) := env_ok
  refine ⟨he.heur, he.heap, he.ord, he.ordRm, he.point, lnr_ok (lines := fun _ => ⟨[], [], opts 4 1⟩), fun a b h => ?_, ?_, two,
    fun l h => (hi l h).hull, fun l h => (hi l h).box, fun l h => maxOffset_splitsInside _ _ (by decide) _, fun l h => (hi l h).score⟩
  · have : (a : Int) = b := h
    omega
  · have hm : ∀ x ∈ Engine.handles [[0, 3, 6, 9], [20, 24, 21], [31, 32, 33, 34]].length, x = 0 ∨ x = 1 ∨ x = 2 := by decide
    refine ⟨fun a b h => ?_, fun h _ a b hab => ?_, fun a ha b hb hab k l => ?_, fun a ha k l => ?_⟩
    · have : (4 * a + 3 : Int) = 4 * b + 3 := h
      omega
    · have : (4 * a + h : Int) = 4 * b + h := hab
      omega
    · have h1 := hm a ha
      have h2 := hm b hb
      show (4 * k + a : Int) ≠ 4 * l + b
      omega
    · have h1 := hm a ha
      show (4 * k + a : Int) ≠ 4 * l + 3
      omega

/-- the hypotheses of C60 are met, so the program saves two features -/
theorem prog_case : ∃ (out : List (LineFeature (Fl Int) Str)) (N : Nat), (∀ fuel ≥ N, main (program progWorld engine fuel) "e30=".toList ['-'] = .saved ['o'] (out.map progWorld.marshal)) ∧ out.length = 2 := by
  obtain ⟨out, N, h1, h2⟩ := C60_program progWorld engine "e30=".toList ['-'] prog_reads (fun l => .refl l) (by simp [maxInt])
    (by
      intro d hd
      simp only [List.mem_cons, List.not_mem_nil, or_false] at hd
      rcases hd with rfl | rfl
      · refine ⟨trivial, by simp [docA, docParts, geomParts], fun x _ => ⟨?_, .inr rfl⟩⟩
        rename_i hx
        simp only [docA, docParts, geomParts, List.mem_singleton] at hx
        subst hx; exact Nat.zero_le _
      · refine ⟨by simp [docB, HasGeometry], by simp [docB, docParts, featParts, geomParts], fun x _ => ⟨?_, .inr rfl⟩⟩
        rename_i hx
        simp only [docB, docParts, featParts, geomParts] at hx
        revert x; decide +kernel)
    prog_ok
  refine ⟨out, N, fun fuel hf => ?_, ?_⟩
  · rw [h1 fuel hf, show trim progObj.output = ['o'] by decide +kernel]
  · exact h2.length_eq.symm

end Axis
end Verif
