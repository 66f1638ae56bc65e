import Verif.Lemmas.MergePass

/-! When two adjacent pieces of a line cannot be made one (C102), and when they can (C107). -/

namespace Verif

variable {P C B K : Type} [LinearOrder B] [BoundedOrder B] [LinearOrder K]

/-- Library assumption: pieces of the line that share a vertex have boxes that intersect, and their distance does not exceed `EpsilonDist`. -/
def Touching (env : Env P C B K) (pts : Int → List P) (h : Int) : Prop :=
  ∀ a b, Known env pts [h] a → Known env pts [h] b → a.range.J = b.range.I →
    (a.mbr.intersects b.mbr = true ∧ (env.lib.distance b.geom a.geom).le env.eps = true) ∧
    (b.mbr.intersects a.mbr = true ∧ (env.lib.distance a.geom b.geom).le env.eps = true)

/-- The index `d` holds the pieces of a division of the line in which `a` and `b` occur, but for these two and at most one more, the successor of `b`. -/
def RestOf (pts : Int → List P) (h : Int) (a b : Node P C B) (d : Db P C B) : Prop :=
  ∃ l out : List (Node P C B), Chain 0 ((pts h).length - 1) (l.map Node.range) ∧ l.Perm (a :: b :: (out ++ Hdb.contents d)) ∧
    (out = [] ∨ ∃ nxt, out = [nxt] ∧ b.range.J = nxt.range.I)

/-- The adjacent pieces `a` and `b` cannot be made one: the offset score of the union is not acceptable, or the union conflicts with the other pieces of the line or with
the constraints. -/
def Refused (env : Env P C B K) (pts : Int → List P) (h : Int) (a b : Node P C B) : Prop :=
  (∃ k v, (env.inst h).scoreFn (Coords.sub (pts h) a.range.I b.range.J) = .ok (k, v) ∧ (env.inst h).rel v = false) ∨
  ∃ (m : Node P C B) (d : Db P C B), m.range = ⟨a.range.I, b.range.J⟩ ∧ IsPiece env.lib (pts h) h m ∧ DbOK d ∧ RestOf pts h a b d ∧
    (((env.inst h).opts.avoidNewSelfIntersects = true ∧ ∃ s, s ≠ [] ∧ Yields (select env (env.inst h).opts.nonPlanarDisplacement d m) s) ∨
      Yields (validateContextRelation env m (env.inst h)) false)

/-- The vertices `i .. j` can be made one piece, as far as threshold and constraints are concerned. -/
def Joinable (env : Env P C B K) (pts : Int → List P) (h : Int) (i j : Int) : Prop :=
  (∃ k v, (env.inst h).scoreFn (Coords.sub (pts h) i j) = .ok (k, v) ∧ (env.inst h).rel v = true) ∧
  ∃ m : Node P C B, m.range = ⟨i, j⟩ ∧ IsPiece env.lib (pts h) h m ∧ Yields (validateContextRelation env m (env.inst h)) true

end Verif
