import Verif.Model.Hdb

/-!
Nearest-neighbour search of the index and package `knn`.

The priority queue (`github.com/intdxdt/heap`, outside /repo) is an arbitrary implementation `Heap`; `KObj` carries the visited tree node
and its score.
-/

namespace Verif
namespace Hdb

variable {T B K : Type}

/-- hdb/kobj.go:10-15 `KObj`; `MBR` is the node's box -/
structure KObj (T B K : Type) where
  node : DbNode T B
  dist : Fl K

/-- hdb/knn.go:35 `IsItem` -/
def KObj.isItem (o : KObj T B K) : Bool := o.node.children.isEmpty

/-- a priority queue: contents as a list in some internal arrangement.  `Peek` shows the element that `Pop` would return. -/
structure Heap (O : Type) where
  push : List O → O → List O
  pop : List O → Option (O × List O)

/-- hdb/knn.go:42-56 the inner loop: `inl` = the whole search returns, `inr` = back to the outer loop -/
def knnDrain (hp : Heap (KObj T B K)) (limit : Int) (pred : KObj T B K → Bool × Bool) :
    (fuel : Nat) → List (KObj T B K) → List (Option T) → Res (List (Option T) ⊕ List (KObj T B K) × List (Option T))
  | 0, _, _ => .timeout
  | fuel + 1, queue, result =>
    match hp.pop queue with
    | none => .ok (.inr (queue, result))
    | some (x, rest) =>
      if x.isItem then
        let result := if (pred x).1 then result ++ [x.node.item] else result
        if (pred x).2 then .ok (.inl result)
        else if limit ≠ 0 ∧ (result.length : Int) = limit then .ok (.inl result)
        else knnDrain hp limit pred fuel rest result
      else .ok (.inr (queue, result))

/-- hdb/knn.go:29-66 the outer loop -/
def knnLoop (hp : Heap (KObj T B K)) (limit : Int) (score : Option T → Box B → Fl K) (pred : KObj T B K → Bool × Bool) :
    (fuel : Nat) → DbNode T B → List (KObj T B K) → List (Option T) → Res (List (Option T))
  | 0, _, _, _ => .timeout
  | fuel + 1, nd, queue, result => do
    let queue := nd.children.foldl (fun q c => hp.push q { node := c, dist := score c.item c.bbox }) queue
    match ← knnDrain hp limit pred (fuel + 1) queue result with
    | .inl r => .ok r
    | .inr (queue, result) =>
      match hp.pop queue with
      | none => .ok result
      | some (x, rest) => knnLoop hp limit score pred fuel x.node rest result

/-- hdb/knn.go:13-67 `Knn` -/
def knn (hp : Heap (KObj T B K)) (t : Tree T B) (limit : Int) (score : Option T → Box B → Fl K) (pred : KObj T B K → Bool × Bool)
    (fuel : Nat) : Res (List T) := do
  derefAll (← knnLoop hp limit score pred fuel t.data [] [])

/-- knn/knn.go:31-44 `ScoreFn`: the distance of the query to the box polygon of an inner node, or to the geometry of an item -/
def scoreFn (boxDist : Box B → Fl K) (itemDist : T → Fl K) : Option T → Box B → Fl K
  | none, b => boxDist b
  | some t, _ => itemDist t

/-- knn/knn.go:47-54 `PredicateFn` -/
def predicateFn [LinearOrder K] (dist : Fl K) (o : KObj T B K) : Bool × Bool := if o.dist.le dist then (true, false) else (false, true)

/-- knn/neighbours.go:10-12 `ContextNeighbours` with knn/knn.go:14-28 `find` (limit −1) -/
def contextNeighbours [LinearOrder K] (hp : Heap (KObj T B K)) (t : Tree T B) (boxDist : Box B → Fl K) (itemDist : T → Fl K) (dist : Fl K)
    (fuel : Nat) : Res (List T) :=
  knn hp t (-1) (scoreFn boxDist itemDist) (predicateFn dist) fuel

/-- knn/neighbours.go:15-24 `NodeNeighbours`: `geomDist a b` is `a.Geom.Distance(b.Geom)` -/
def nodeNeighbours [LinearOrder B] [LinearOrder K] (ops : ItemOps T B) (geomDist : T → T → Fl K) (t : Tree T B) (hull : T) (dist : Fl K)
    (fuel : Nat) : Res (List T) := do
  return (← search t (ops.mbr hull) fuel).filter (fun nd => ops.id nd ≠ ops.id hull ∧ (geomDist nd hull).le dist)

end Hdb
end Verif
