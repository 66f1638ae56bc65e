import Verif.Model.ConstDP
import Verif.Spec.Piece
import Verif.Lemmas.HdbKnn

/-! Specification vocabulary for the constrained simplification: what is assumed of the environment, and what it means that a collection of pieces
covers a set of polylines. -/

namespace Verif

variable {P C B K : Type} [LinearOrder B] [BoundedOrder B] [LinearOrder K]

/-- Assumptions about the libraries that do not depend on the input: the heuristics of the index and the priority queue are legal, the iteration orders of
maps visit every entry once, and the intersection of a single point with anything is at most one point.
Nothing is assumed about any predicate (`intersects`, `distance`, `equals2D`, `ptInRing`, ...). -/
structure EnvOK (env : Env P C B K) : Prop where
  heur : Hdb.Legal env.heur (maxEntries Hdb.defaultCap)
  heap : ∃ near : Fl K → Fl K → Prop, env.heap.Legal near ∧ ∀ a b c, near a b → b.le c = true → near a c
  ord : ∀ g l, (env.ord g l).Perm l
  ordRm : ∀ g l, (env.ordRm g l).Perm l
  point : ∀ p g, (env.lib.intersection (.point p) g).length ≤ 1 ∧ (env.lib.intersection g (.point p)).length ≤ 1

/-- Assumptions about one instance: it was made from the vertices `pts` (at least two), hulls of its sub-lines can be built and have proper boxes, the
score function returns on every sub-line and names an interior vertex whenever there is one and whenever the acceptance relation rejects, and its
constraint index was built by the index operations. -/
structure InstOK (env : Env P C B K) (h : Int) (pts : List P) : Prop where
  pln : (env.inst h).pln = createPolyline (coordsOf pts)
  two : 2 ≤ pts.length
  hull : HullOk env.lib pts
  box : ∀ i j : Int, 0 ≤ i → i < j → j < pts.length → ∀ g : Geo P C, hullGeometry (env.lib.convexHull (Coords.sub pts i j)) = .ok g →
    (env.lib.bounds g).Valid
  inside : SplitsInside (env.inst h).scoreFn (env.inst h).rel pts
  score : ∀ i j : Int, 0 ≤ i → i + 1 < j → j < pts.length → ∃ k v, (env.inst h).scoreFn (Coords.sub pts i j) = .ok (k, v) ∧ 0 < k ∧ k < j - i
  ctx : Hdb.TreeWF nodeOps (env.inst h).ctxdb

/-- The pieces `l` cover the polylines with handles `hs`: distinct identifiers, none of which will be handed out again after the first `g`, all from `src` like
those to come; every piece
belongs to one of the polylines and carries the vertices of its range; and the pieces of each polyline, in some order, lead from its first to its last
vertex without gap or overlap. -/
structure Pieces (env : Env P C B K) (pts : Int → List P) (hs : List Int) (src : Int → Prop) (ids : Nat → Int) (g : Nat) (l : List (Node P C B)) : Prop where
  nodup : (l.map Node.id).Nodup
  fresh : ∀ nd ∈ l, ∀ k, g ≤ k → nd.id ≠ ids k
  source : (∀ nd ∈ l, src nd.id) ∧ ∀ k, src (ids k)
  piece : ∀ nd ∈ l, nd.inst ∈ hs ∧ IsPiece env.lib (pts nd.inst) nd.inst nd
  cover : ∀ h ∈ hs, ∃ s : List (Node P C B), s.Perm (l.filter (fun nd => nd.inst = h)) ∧ Chain 0 ((pts h).length - 1) (s.map Node.range)

/-- vertices `i` to `j` of the line -/
def between (ps : List P) (i j : Int) : List P := (ps.drop i.toNat).take (j + 1 - i).toNat

end Verif
