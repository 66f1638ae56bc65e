import Verif.Model.ConstDP
import Verif.Model.Yields

/-! Specification for C101: the rounds of the deformation loop, counted. -/

namespace Verif

variable {P C B K : Type} [LinearOrder B] [BoundedOrder B] [LinearOrder K]

/-- The loop of constdp/simplify.go:41-55 and constdp/fc_simplify.go:51-66 as a relation: from the pieces `defs` to look at and the state `st`, the loop goes
`k` times through its body with something selected and leaves the state `st'`. -/
inductive Rounds (env : Env P C B K) (ids : Nat → Int) : Nat → List (Node P C B) → LoopSt P C B → LoopSt P C B → Prop
  | empty (st : LoopSt P C B) : Rounds env ids 0 [] st st
  | settled {defs : List (Node P C B)} {st : LoopSt P C B} : Yields (findDeformable env st.dirty defs st.db) [] → Rounds env ids 0 defs st st
  | round {k : Nat} {defs sel out : List (Node P C B)} {st st1 st' : LoopSt P C B} : Yields (findDeformable env st.dirty defs st.db) sel → sel ≠ [] →
      Yields (deformRound env ids st sel) (out, st1) → Rounds env ids k out st1 st' → Rounds env ids (k + 1) defs st st'

/-- how many segments the lines have together -/
def segments (pts : Int → List P) (hs : List Int) : Nat := (hs.map (fun h => (pts h).length - 1)).sum

/-- constdp/simplify.go:13-72: the deformation loop of the run on the line `h` goes `k` times through its body -/
def LineRounds (env : Env P C B K) (ids : Nat → Int) (h : Int) (cv : List Int) (dirty : Int → Bool) (k : Nat) : Prop :=
  ∃ hulls0 g0 hulls cvs g db st, Yields (decompose env.lib ids 0 (env.inst h).pln (env.inst h).scoreFn (env.inst h).rel h) (hulls0, g0) ∧
    Yields (toSelfIntersects env ids g0 hulls0 (env.inst h) cv) (hulls, cvs, g) ∧
    Yields (Hdb.load nodeOps env.heur (Hdb.newHdb Hdb.defaultCap) hulls) db ∧ Rounds env ids k hulls ⟨db, g, markDirty dirty h⟩ st

/-- constdp/fc_simplify.go:14-69: the joint deformation loop of a feature class goes `k` times through its body -/
def ClassRounds (env : Env P C B K) (ids : Nat → Int) (idsOf : Int → Nat → Int) (handles : List Int) (o : Opts K) (dirty : Int → Bool) (k : Nat) : Prop :=
  ∃ js outs dirty' db st, fcJunctions env handles o.planarSelf = .ok js ∧
    Yields (fun fuel => simplifyInstances env idsOf js fuel handles dirty) (outs, dirty') ∧
    Yields (Hdb.load nodeOps env.heur (Hdb.newHdb Hdb.defaultCap) (outs.flatMap (fun x => x.2.hulls))) db ∧
    Rounds env ids k (outs.flatMap (fun x => x.2.hulls)) ⟨db, 0, dirty'⟩ st

end Verif
