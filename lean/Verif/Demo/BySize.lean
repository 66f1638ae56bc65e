import Verif.Props.C50_BySize
import Verif.Demo.Axis

/-! The concrete case beside C50 and C61: five pieces of one segment each, two protected vertices. -/

namespace Verif
namespace Axis

/-- the piece of `line` from `i` to `j` -/
def pieceOf (id i j : Int) : Node Int Int Bx :=
  match createNode lib id (Coords.sub line.pts i j) ⟨i, j⟩ 0 with
  | .ok nd => nd
  | _ => { id := id, coords := ⟨[], []⟩, range := ⟨i, j⟩, mbr := Box.empty, geom := .point 0, inst := 0 }

theorem pieceOf_spec (id : Int) {i j : Int} (h0 : 0 ≤ i) (h1 : i < j) (h2 : j < 6) :
    IsPiece lib line.pts 0 (pieceOf id i j) ∧ (pieceOf id i j).range = ⟨i, j⟩ ∧ (pieceOf id i j).id = id := by
  have hi : InstOK (env (fun _ => line)) 0 line.pts := inst_ok (lines := fun _ => line) (by decide) (by decide)
  obtain ⟨nd, e, p, r, q⟩ := createNode_isPiece hi.hull (i := i) (j := j) h0 h1 h2 id 0
  have e : createNode lib id (Coords.sub line.pts i j) ⟨i, j⟩ 0 = .ok nd := e
  unfold pieceOf
  rw [e]
  exact ⟨p, r, q⟩

def fivePieces : List (Node Int Int Bx) := [pieceOf 0 0 1, pieceOf 1 1 2, pieceOf 2 2 3, pieceOf 3 3 4, pieceOf 4 4 5]

theorem fivePieces_ok : Pieces (env (fun _ => line)) (fun _ => line.pts) [0] (fun _ => True) (fun n => n) 5 fivePieces where
  nodup := by decide +kernel
  fresh := by
    have : ∀ nd ∈ fivePieces, nd.id < 5 := by decide +kernel
    intro nd hnd k hk he
    have := this nd hnd
    omega
  source := ⟨fun _ _ => trivial, fun _ => trivial⟩
  piece := by
    have hb : ∀ id i j : Int, 0 ≤ i → i < j → j < 6 → (pieceOf id i j).inst ∈ [(0 : Int)] ∧ IsPiece (env (fun _ => line)).lib line.pts (pieceOf id i j).inst (pieceOf id i j) := by
      intro id i j h0 h1 h2
      have h := (pieceOf_spec id h0 h1 h2).1
      rw [h.inst]
      exact ⟨by simp, h⟩
    intro nd hnd
    simp only [fivePieces, List.mem_cons, List.not_mem_nil, or_false] at hnd
    rcases hnd with rfl | rfl | rfl | rfl | rfl <;> exact hb _ _ _ (by decide) (by decide) (by decide)
  cover := by
    intro h hh
    rw [List.mem_singleton] at hh
    subst hh
    exact ⟨fivePieces, List.Perm.of_eq (by decide +kernel), by
      have : fivePieces.map Node.range = [⟨0, 1⟩, ⟨1, 2⟩, ⟨2, 3⟩, ⟨3, 4⟩, ⟨4, 5⟩] := by decide +kernel
      rw [this]
      simp [Chain, line]⟩

def fiveDb : Db Int Int Bx :=
  match Hdb.load nodeOps Demo.heur (Hdb.newHdb Hdb.defaultCap) fivePieces 6 with
  | .ok t => t
  | _ => Hdb.newHdb Hdb.defaultCap

theorem fiveDb_ok : DbOK fiveDb ∧ (Hdb.contents fiveDb).Perm fivePieces := by
  obtain ⟨t, e, w, c, -, p⟩ := Hdb.load_spec (ops := nodeOps) (H := Demo.heur) (t := (Hdb.newHdb Hdb.defaultCap : Db Int Int Bx)) (Hdb.newHdb_wf _ _) Demo.heur_legal
    fivePieces 6 (by decide +kernel)
  rw [contents_new, List.nil_append] at p
  unfold fiveDb
  rw [e]
  exact ⟨⟨w, c⟩, p⟩

/-- scores of at most 16 are valid, vertices 2 and 3 are protected -/
def fiveRun (fuel : Nat) : Res (SizeSt Int Int Bx) :=
  contiguousFragmentsBySize (env (fun _ => line)) (fun n => n) 5 fivePieces fiveDb [2, 3] [] 1 (fun v => v.le (.fin 16)) ((env (fun _ => line)).inst 0).scoreFn fuel

def sizeOut (r : Res (SizeSt Int Int Bx)) : List Rng × List Rng × List Rng := match r with
  | .ok st => (st.hdict.map Node.range, st.rm.map Node.range, st.unmerged.map Node.range)
  | _ => ([], [], [])

theorem fiveRun_eq : sizeOut (fiveRun 20) = ([⟨0, 2⟩, ⟨2, 3⟩, ⟨3, 5⟩], [⟨1, 2⟩, ⟨0, 1⟩, ⟨4, 5⟩, ⟨3, 4⟩], [⟨2, 3⟩]) := by decide +kernel

/-- the run meets the hypotheses of C50; two merges -/
theorem fiveRun_case : ∃ (out : SizeSt Int Int Bx) (ps : List (SizePair Int Int Bx)) (untouched : List (Node Int Int Bx)), Yields fiveRun out ∧ fivePieces.Perm (untouched ++ out.rm) ∧ out.hdict.Perm (untouched ++ ps.map SizePair.union) ∧
    Pieces (env (fun _ => line)) (fun _ => line.pts) [0] (fun _ => True) (fun n => n) out.g out.hdict := by
  have hi : InstOK (env (fun _ => line)) 0 line.pts := inst_ok (lines := fun _ => line) (by decide) (by decide)
  have hinj : Function.Injective (fun n : Nat => (n : Int)) := fun a b h => by simpa using h
  obtain ⟨out, ps, u, y, p1, -, p3, -, p5, -⟩ := C50_merge_by_size (pts := fun _ => line.pts) (score := ((env (fun _ => line)).inst 0).scoreFn) (valid := fun v => v.le (.fin 16))
    (vs := [2, 3]) (size := 1) hi hinj fivePieces_ok fiveDb_ok.1 fiveDb_ok.2
    (fun i j h0 h1 h2 => (hi.inside i j h0 h1 h2).imp (fun k h => h.imp (fun v h => h.1))) []
  exact ⟨out, ps, u, y, p1, p3, p5⟩

end Axis
end Verif
