import Verif.Model.Box
import Mathlib.Algebra.Order.Group.Nat
import Mathlib.Order.Nat

/-!
Package `hdb`: the R-tree.

Items are of an arbitrary type `T` with a box and an identifier (in the code: `*node.Node` with `MBR` and `Id`).
The numeric heuristics (which child to descend into, how to order and where to split an overflowing node, the selection step of the
bulk loader, the logarithm that gives the target height) are the record `Heur`; the structural algorithms are modelled as written.
-/

namespace Verif

/-- hdb/dbnode.go:9-15 `dbNode` -/
inductive DbNode (T B : Type) where
  | mk (children : List (DbNode T B)) (item : Option T) (height : Nat) (leaf : Bool) (bbox : Box B)

namespace DbNode
variable {T B : Type}
def children : DbNode T B → List (DbNode T B) | mk c _ _ _ _ => c
def item : DbNode T B → Option T | mk _ i _ _ _ => i
def height : DbNode T B → Nat | mk _ _ h _ _ => h
def leaf : DbNode T B → Bool | mk _ _ _ l _ => l
def bbox : DbNode T B → Box B | mk _ _ _ _ b => b
@[simp] theorem children_mk (c : List (DbNode T B)) i h l b : (mk c i h l b).children = c := rfl
@[simp] theorem item_mk (c : List (DbNode T B)) i h l b : (mk c i h l b).item = i := rfl
@[simp] theorem height_mk (c : List (DbNode T B)) i h l b : (mk c i h l b).height = h := rfl
@[simp] theorem leaf_mk (c : List (DbNode T B)) i h l b : (mk c i h l b).leaf = l := rfl
@[simp] theorem bbox_mk (c : List (DbNode T B)) i h l b : (mk c i h l b).bbox = b := rfl
end DbNode

/-- what the tree needs to know of an item: its box (`Node.MBR`) and identifier (`Node.Id`) -/
structure ItemOps (T B : Type) where
  mbr : T → Box B
  id : T → Int

/-- numeric heuristics of the tree -/
structure Heur (T B : Type) where
  /-- hdb/insert.go:80-125 one round of `chooseSubtree`: index of the chosen child box (`none`: no child qualified) -/
  choose : Box B → List (Box B) → Option Nat
  /-- hdb/split.go:73-82 `chooseSplitAxis`: the children, reordered -/
  arrange : List (DbNode T B) → List (DbNode T B)
  /-- hdb/split.go:38-69 `chooseSplitIndex` -/
  splitIdx : List (Box B) → Nat
  /-- hdb/select.go:11-27 `multiSelect` on a slice, first argument: by x (false) or by y (true), second: group size -/
  select : Bool → Nat → List T → List T
  /-- hdb/build.go:22 `int(math.Ceil(math.Log(N) / math.Log(M)))` -/
  height : Nat → Nat

/-- hdb/core.go:22-24 `maxEntries` -/
def maxEntries (x : Nat) : Nat := max 4 x
/-- hdb/core.go:26-28 `minEntries`: `max(2, ceil(0.4 x))` -/
def minEntries (x : Nat) : Nat := max 2 ((2 * x + 4) / 5)

namespace Hdb

variable {T B : Type} [LinearOrder B] [BoundedOrder B]

/-- hdb/rtree.go:10-14 `Hdb`; operations and heuristics do not change, they are separate parameters -/
structure Tree (T B : Type) where
  data : DbNode T B
  maxE : Nat
  minE : Nat

/-- hdb/dbnode.go:36-44 `newLeafNode` -/
def newLeafNode (ops : ItemOps T B) (t : T) : DbNode T B := .mk [] (some t) 1 true (ops.mbr t)

/-- hdb/mbr.go:9-11 `calcBBox` of the given children -/
def calcBBox (cs : List (DbNode T B)) : Box B := Box.unionAll (cs.map DbNode.bbox)

/-- hdb/clear.go:15-18 `Clear`, the new root -/
def emptyRoot : DbNode T B := .mk [] none 1 true Box.empty

/-- hdb/rtree.go:16-27 `NewHdb` -/
def newHdb (cap : Nat) : Tree T B := { data := emptyRoot, maxE := maxEntries cap, minE := minEntries (maxEntries cap) }

/-- hdb/rtree.go:17 default bucket size -/
def defaultCap : Nat := 8

/-- hdb/clear.go:15-18 `Clear` -/
def clear (t : Tree T B) : Tree T B := { t with data := emptyRoot }

/-- hdb/split.go:9-21 `split` of one overflowing node: the node keeps the first part, the new sibling gets the rest -/
def splitNode (H : Heur T B) (cs : List (DbNode T B)) (height : Nat) (leaf : Bool) : DbNode T B × DbNode T B :=
  let cs := H.arrange cs
  let at_ := H.splitIdx (cs.map DbNode.bbox)
  (.mk (cs.take at_) none height leaf (calcBBox (cs.take at_)), .mk (cs.drop at_) none height leaf (calcBBox (cs.drop at_)))

/-- hdb/insert.go:10-59 with 62-129: insertion of the node `new` at depth `level` below `nd`, as one recursion: descend along
`chooseSubtree`, append, split while the node overflows (the loop of `splitOnOverflow` goes on upwards exactly when a sibling was
produced), otherwise extend the boxes (`adjustParentBBoxes`).
A leaf above the target depth makes `insertPath[level]` panic; no qualifying child is a nil dereference at the
root. Simplified: below the root Go would go on with the previous `targetNode`; the model panics there too (`Legal` excludes both). -/
def insertAt (H : Heur T B) (maxE : Nat) (new : DbNode T B) : (level : Nat) → DbNode T B → Res (DbNode T B × Option (DbNode T B))
  | 0, .mk cs it h lf bb =>
    let cs := cs ++ [new]
    if cs.length > maxE then let p := splitNode H cs h lf; .ok (p.1, some p.2)
    else .ok (.mk cs it h lf (bb.expand new.bbox), none)
  | level + 1, .mk cs it h lf bb =>
    if lf then .panic else
    match H.choose new.bbox (cs.map DbNode.bbox) with
    | none => .panic
    | some i =>
      match cs[i]? with
      | none => .panic
      | some c => do
        match ← insertAt H maxE new level c with
        | (c', none) => .ok (.mk (cs.set i c') it h lf (bb.expand new.bbox), none)
        | (c', some sib) =>
          let cs := cs.set i c' ++ [sib]
          if cs.length > maxE then let p := splitNode H cs h lf; .ok (p.1, some p.2)
          else .ok (.mk cs it h lf (bb.expand new.bbox), none)

/-- hdb/split.go:31-35 `splitRoot`, the new root -/
def splitRoot (nd other : DbNode T B) : DbNode T B :=
  .mk [nd, other] none (nd.height + 1) false (calcBBox [nd, other])

/-- hdb/insert.go:35-50 `insertNode` (and 10-32 `insert` with a new leaf node): a sibling of the root grows the tree -/
def insertNode (H : Heur T B) (maxE : Nat) (root new : DbNode T B) (level : Nat) : Res (DbNode T B) := do
  match ← insertAt H maxE new level root with
  | (r, none) => .ok r
  | (r, some sib) => .ok (splitRoot r sib)

/-- hdb/insert.go:10-32 `insert` of an item -/
def insertItem (ops : ItemOps T B) (H : Heur T B) (maxE : Nat) (root : DbNode T B) (t : T) : Res (DbNode T B) :=
  insertNode H maxE root (newLeafNode ops t) (root.height - 1)

/-- hdb/load.go:22-24 the loop over few items -/
def insertItems (ops : ItemOps T B) (H : Heur T B) (maxE : Nat) : DbNode T B → List T → Res (DbNode T B)
  | root, [] => .ok root
  | root, t :: ts => do insertItems ops H maxE (← insertItem ops H maxE root t) ts

/-- consecutive groups of `n` items (the last may be shorter): the sub-ranges of hdb/build.go:39-40, 43-44 -/
def chunks {α : Type} : (fuel : Nat) → (n : Nat) → List α → List (List α)
  | 0, _, _ => []
  | fuel + 1, n, l => if l = [] then [] else l.take n :: chunks fuel n (l.drop n)

/-- `ceil(a / b)` -/
def ceilDiv (a b : Nat) : Nat := (a + b - 1) / b

/-- `ceil(sqrt(n))` -/
def ceilSqrt (n : Nat) : Nat := if n.sqrt * n.sqrt = n then n.sqrt else n.sqrt + 1

/-- sequential `mapM` used for the packed children -/
def mapRes {α β : Type} (f : α → Res β) : List α → Res (List β)
  | [] => .ok []
  | a :: as => do
    let b ← f a
    let bs ← mapRes f as
    return b :: bs

/-- hdb/build.go:9-52 `buildTree` on the slice `items[left..right]`; `height = 0` is the call from `Load`.
Simplified: `log`, `pow`, `ceil`, `sqrt` are exact (the height is `Heur.height`). -/
def buildTree (ops : ItemOps T B) (H : Heur T B) (maxE : Nat) : (fuel : Nat) → List T → (height : Nat) → Res (DbNode T B)
  | 0, _, _ => .timeout
  | fuel + 1, items, height =>
    let N := items.length
    if N ≤ maxE then
      let cs := items.map (newLeafNode ops)
      .ok (.mk cs none 1 true (calcBBox cs))
    else do
      let M := if height = 0 then ceilDiv N (maxE ^ (H.height N - 1)) else maxE
      let height := if height = 0 then H.height N else height
      let N2 := ceilDiv N M
      let N1 := N2 * ceilSqrt M
      let rows := chunks N N1 (H.select false N1 items)
      let tiles := rows.flatMap (fun row => chunks N N2 (H.select true N2 row))
      let cs ← mapRes (fun tile => buildTree ops H maxE fuel tile (height - 1)) tiles
      return .mk cs none height false (calcBBox cs)

/-- hdb/load.go:19-53 `Load` -/
def load (ops : ItemOps T B) (H : Heur T B) (t : Tree T B) (items : List T) (fuel : Nat) : Res (Tree T B) := do
  let n := items.length
  if n < t.minE then
    return { t with data := ← insertItems ops H t.maxE t.data items }
  else
    let nd ← buildTree ops H t.maxE fuel items 0
    if t.data.children.length = 0 then return { t with data := nd }
    else if t.data.height = nd.height then return { t with data := splitRoot t.data nd }
    else
      let (big, small) := if t.data.height < nd.height then (nd, t.data) else (t.data, nd)
      return { t with data := ← insertNode H t.maxE big small (big.height - small.height - 1) }

/-- hdb/search.go:52-72 `all`, the loop: `stack` head = last element of `nodesToSearch`; fuel counts visited nodes -/
def allLoop : (fuel : Nat) → DbNode T B → (stack : List (DbNode T B)) → (result : List (Option T)) → Res (List (Option T))
  | 0, _, _, _ => .timeout
  | fuel + 1, nd, stack, result =>
    let result := if nd.leaf then result ++ nd.children.map DbNode.item else result
    let stack := if nd.leaf then stack else nd.children.reverse ++ stack
    match stack with
    | [] => .ok result
    | nd' :: stack' => allLoop fuel nd' stack' result

/-- hdb/search.go:23-36 the inner loop of `Search` over the children of `nd` -/
def searchChildren (fuel : Nat) (q : Box B) (leaf : Bool) : List (DbNode T B) → (stack : List (DbNode T B)) →
    (result : List (Option T)) → Res (List (DbNode T B) × List (Option T))
  | [], stack, result => .ok (stack, result)
  | child :: cs, stack, result =>
    if q.intersects child.bbox then
      if leaf then searchChildren fuel q leaf cs stack (result ++ [child.item])
      else if q.contains child.bbox then do
        searchChildren fuel q leaf cs stack (← allLoop fuel child [] result)
      else searchChildren fuel q leaf cs (child :: stack) result
    else searchChildren fuel q leaf cs stack result

/-- hdb/search.go:22-42 the outer loop of `Search` -/
def searchLoop (q : Box B) : (fuel : Nat) → DbNode T B → (stack : List (DbNode T B)) → (result : List (Option T)) →
    Res (List (Option T))
  | 0, _, _, _ => .timeout
  | fuel + 1, nd, stack, result => do
    let (stack, result) ← searchChildren fuel q nd.leaf nd.children stack result
    match stack with
    | [] => .ok result
    | nd' :: stack' => searchLoop q fuel nd' stack' result

/-- turn a result list of item pointers into items: a nil pointer would be dereferenced by every caller -/
def derefAll : List (Option T) → Res (List T)
  | [] => .ok []
  | none :: _ => .panic
  | some a :: as => do return a :: (← derefAll as)

/-- hdb/search.go:9-44 `Search` -/
def search (t : Tree T B) (q : Box B) (fuel : Nat) : Res (List T) :=
  if !q.intersects t.data.bbox then .ok []
  else do derefAll (← searchLoop q fuel t.data [] [])

/-- hdb/search.go:47-49 `All` -/
def all (t : Tree T B) (fuel : Nat) : Res (List T) := do derefAll (← allLoop fuel t.data [] [])

/-- hdb/collides.go:16-22 the inner loop of `Collides`: (result, stack) -/
def collidesChildren (q : Box B) (leaf : Bool) : List (DbNode T B) → (stack : List (DbNode T B)) → Bool × List (DbNode T B)
  | [], stack => (false, stack)
  | child :: cs, stack =>
    if q.intersects child.bbox then
      if leaf || q.contains child.bbox then (true, child :: stack)
      else collidesChildren q leaf cs (child :: stack)
    else collidesChildren q leaf cs stack

/-- hdb/collides.go:15-25 the outer loop -/
def collidesLoop (q : Box B) : (fuel : Nat) → DbNode T B → (stack : List (DbNode T B)) → Res Bool
  | 0, _, _ => .timeout
  | fuel + 1, nd, stack =>
    match collidesChildren q nd.leaf nd.children stack with
    | (true, _) => .ok true
    | (false, []) => .ok false
    | (false, nd' :: stack') => collidesLoop q fuel nd' stack'

/-- hdb/collides.go:5-26 `Collides` -/
def collides (t : Tree T B) (q : Box B) (fuel : Nat) : Res Bool :=
  if !q.intersects t.data.bbox then .ok false else collidesLoop q fuel t.data []

/-! ### Removal -/

/-- hdb/util.go:15-24 `sliceIndex` with the predicate of `Remove` (hdb/remove.go:90-92): first entry with this identifier -/
def indexOfId (ops : ItemOps T B) (id : Int) : List (DbNode T B) → Option Nat
  | [] => none
  | c :: cs => if c.item.map ops.id = some id then some 0 else (indexOfId ops id cs).map (· + 1)

/-- hdb/remove.go:58-82 `condense` and line 136: remove entry `idx` of the node at child-index path `is`, drop emptied nodes, recompute boxes
on the path.  The result at the root may have no children: then the caller resets it (`Clear`). -/
def removeAt : (is : List Nat) → (idx : Nat) → DbNode T B → DbNode T B
  | [], idx, .mk cs it h lf bb =>
    let cs := cs.eraseIdx idx
    .mk cs it h lf (if cs = [] then bb else calcBBox cs)
  | i :: is, idx, .mk cs it h lf bb =>
    match cs[i]? with
    | none => .mk cs it h lf bb
    | some c =>
      let c' := removeAt is idx c
      let cs := if c'.children = [] then cs.eraseIdx i else cs.set i c'
      .mk cs it h lf (if cs = [] then bb else calcBBox cs)

/-- state of the traversal hdb/remove.go:107-113; `path` and `indexes` with the most recent entry first -/
structure RemState (T B : Type) where
  nd : Option (DbNode T B)
  parent : Option (DbNode T B)
  path : List (DbNode T B)
  indexes : List Nat
  i : Nat
  goingUp : Bool

/-- hdb/remove.go:116-158 the traversal: `some (is, idx)` = found entry `idx` of the node reached by child indices `is`, `none` = not found -/
def removeLoop (ops : ItemOps T B) (id : Int) (bbox : Box B) : (fuel : Nat) → RemState T B → Res (Option (List Nat × Nat))
  | 0, _ => .timeout
  | fuel + 1, s =>
    match s.nd, s.path with
    | none, [] => .ok none
    | nd?, path =>
      -- lines 117-123: go up
      let s : RemState T B := match nd?, path with
        | none, p :: ps => { nd := some p, parent := ps.head?, path := ps, indexes := s.indexes.tail, i := s.indexes.head?.getD 0, goingUp := true }
        | _, _ => s
      match s.nd with
      | none => .panic
      | some nd =>
        -- lines 125-141
        match (if nd.leaf then indexOfId ops id nd.children else none) with
        | some idx => .ok (some ((s.i :: s.indexes).reverse.tail, idx))
        | none =>
          if !s.goingUp && !nd.leaf && nd.bbox.contains bbox then
            match nd.children[0]? with
            | none => .panic
            | some c => removeLoop ops id bbox fuel
                { nd := some c, parent := some nd, path := nd :: s.path, indexes := s.i :: s.indexes, i := 0, goingUp := s.goingUp }
          else
            match s.parent with
            | some p => removeLoop ops id bbox fuel { s with nd := p.children[s.i + 1]?, i := s.i + 1, goingUp := false }
            | none => removeLoop ops id bbox fuel { s with nd := none }

/-- hdb/remove.go:86-94, 106-160 `Remove` -/
def remove (ops : ItemOps T B) (t : Tree T B) (item : T) (fuel : Nat) : Res (Tree T B) := do
  match ← removeLoop ops (ops.id item) (ops.mbr item) fuel
      { nd := some t.data, parent := none, path := [], indexes := [], i := 0, goingUp := false } with
  | none => return t
  | some (is, idx) =>
    let r := removeAt is idx t.data
    return { t with data := if r.children = [] then emptyRoot else r }

end Hdb

end Verif
