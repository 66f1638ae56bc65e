import Verif.Model.Decompose
import Verif.Spec.Chain
import Verif.Lemmas.Coords

/-! Specification vocabulary for pieces of a polyline. -/

namespace Verif

variable {P C B K : Type}

/-- `nd` is the piece of the polyline `pts` for its own index range: it carries exactly the vertices from its first to its last
index, the hull geometry of those vertices and that geometry's box. -/
structure IsPiece (lib : Lib P C B K) (pts : List P) (inst : Int) (nd : Node P C B) : Prop where
  coords : nd.coords = Coords.sub pts nd.range.I nd.range.J
  geom : hullGeometry (lib.convexHull (Coords.sub pts nd.range.I nd.range.J)) = .ok nd.geom
  mbr : nd.mbr = lib.bounds nd.geom
  inst : nd.inst = inst

/-- Library assumption: hulls of proper sub-lines can be built (the hull of at least two vertices has at least one vertex). -/
def HullOk (lib : Lib P C B K) (pts : List P) : Prop :=
  ∀ i j : Int, 0 ≤ i → i < j → j < pts.length → ∃ g, hullGeometry (C := C) (lib.convexHull (Coords.sub pts i j)) = .ok g

/-- The score function returns on every proper sub-line, and whenever the relation rejects the value, the returned index is strictly
inside the sub-line. -/
def SplitsInside (score : ScoreFn P K) (rel : Fl K → Bool) (pts : List P) : Prop :=
  ∀ i j : Int, 0 ≤ i → i < j → j < pts.length →
    ∃ k v, score (Coords.sub pts i j) = .ok (k, v) ∧ (rel v = false → 0 < k ∧ k < j - i)

theorem createNode_isPiece {lib : Lib P C B K} {pts : List P} (h : HullOk lib pts) {i j : Int} (hi : 0 ≤ i) (hij : i < j)
    (hj : j < pts.length) (id inst : Int) :
    ∃ nd, createNode lib id (Coords.sub pts i j) ⟨i, j⟩ inst = .ok nd ∧ IsPiece lib pts inst nd ∧ nd.range = ⟨i, j⟩ ∧ nd.id = id := by
  obtain ⟨g, hg⟩ := h i j hi hij hj
  refine ⟨{ id := id, coords := Coords.sub pts i j, range := ⟨i, j⟩, mbr := lib.bounds g, geom := g, inst := inst },
    ?_, ⟨rfl, hg, rfl, rfl⟩, rfl, rfl⟩
  simp only [createNode, hg, Res.ok_bind, Res.pure_eq]

end Verif
