import Verif.Model.Hdb

/-!
Package `hdb` in memory: child slices, pointers into them, in-place writes.

`Model/Hdb.lean` treats a `dbNode` as a value.  In the code a node lies in the child array of its parent (`children []dbNode`), the insertion path and the removal
path hold pointers `&nd.children[i]` into these arrays, `append` writes in place or moves the elements to a new array, `splitAtIndex` keeps a prefix of an array with
spare capacity behind it, and `removeNode` shifts elements in place.  Here the same functions are written on such a memory.

An array is a list of cells, its length is the capacity.  All child slices start at the first element of their array.  Array 0 has one cell, `tree.data`; array 1 is empty, it stands for the array of a nil slice.
How much `append` over-allocates is a parameter.
-/

namespace Verif.Hdb.Mem

variable {T B : Type} [LinearOrder B] [BoundedOrder B]

/-- slice header of `children []dbNode` (starts at element 0; the capacity is the length of the array) -/
structure Slice where
  arr : Nat
  len : Nat

/-- hdb/dbnode.go:9-15 `dbNode` as stored -/
structure Cell (T B : Type) where
  children : Slice
  item : Option T
  height : Nat
  leaf : Bool
  bbox : Box B

/-- `*dbNode`: element `idx` of array `arr` -/
structure Ptr where
  arr : Nat
  idx : Nat
  deriving DecidableEq

/-- all arrays; `next` is the first one not allocated -/
structure Heap (T B : Type) where
  arrays : Nat → List (Cell T B)
  next : Nat

/-- what the run time decides: how much `append` over-allocates (given capacity and needed length), and the box of the zero value `dbNode{}` -/
structure Cfg (B : Type) where
  extra : Nat → Nat → Nat
  zeroBox : Box B

/-- the heuristics as the code has them: sorting and choosing look at boxes only -/
structure MHeur (T B : Type) where
  choose : Box B → List (Box B) → Option Nat
  /-- hdb/split.go:73-82 with hdb/nodepath.go: the order in which sorting leaves the children, as old positions -/
  perm : List (Box B) → List Nat
  splitIdx : List (Box B) → Nat
  select : Bool → Nat → List T → List T
  height : Nat → Nat

/-- the same heuristics for the value-level model -/
def MHeur.toHeur (H : MHeur T B) : Heur T B where
  choose := H.choose
  arrange l := (H.perm (l.map DbNode.bbox)).filterMap (fun i => l[i]?)
  splitIdx := H.splitIdx
  select := H.select
  height := H.height

/-- the zero value `dbNode{}` -/
def zeroCell (cfg : Cfg B) : Cell T B := { children := ⟨1, 0⟩, item := none, height := 0, leaf := false, bbox := cfg.zeroBox }

/-- `*p` -/
def load (h : Heap T B) (p : Ptr) : Res (Cell T B) := .ofOption (h.arrays p.arr)[p.idx]?

/-- assignment to one array -/
def setArr (h : Heap T B) (a : Nat) (l : List (Cell T B)) : Heap T B := { h with arrays := fun b => if b = a then l else h.arrays b }

/-- assignment to fields of `*p` -/
def modify (h : Heap T B) (p : Ptr) (f : Cell T B → Cell T B) : Heap T B := setArr h p.arr ((h.arrays p.arr).modify p.idx f)

/-- a new array with the given elements -/
def alloc (h : Heap T B) (l : List (Cell T B)) : Heap T B × Nat :=
  ({ setArr h h.next l with next := h.next + 1 }, h.next)

/-- the elements of a slice -/
def cells (h : Heap T B) (s : Slice) : List (Cell T B) := (h.arrays s.arr).take s.len

/-- `append(s, xs...)`: in place when the capacity suffices, otherwise into a new array -/
def append (cfg : Cfg B) (h : Heap T B) (s : Slice) (xs : List (Cell T B)) : Heap T B × Slice :=
  let old := h.arrays s.arr
  let need := s.len + xs.length
  if need ≤ old.length then (setArr h s.arr (old.take s.len ++ xs ++ old.drop need), ⟨s.arr, need⟩)
  else
    let r := alloc h (old.take s.len ++ xs ++ List.replicate (cfg.extra old.length need) (zeroCell cfg))
    (r.1, ⟨r.2, need⟩)

/-- hdb/dbnode.go:36-44 `newLeafNode` -/
def newLeafNode (ops : ItemOps T B) (h : Heap T B) (t : T) : Heap T B × Cell T B :=
  let r := alloc h []
  (r.1, { children := ⟨r.2, 0⟩, item := some t, height := 1, leaf := true, bbox := ops.mbr t })

/-- hdb/dbnode.go:52-54 `addChild` (and hdb/insert.go:42) -/
def addChild (cfg : Cfg B) (h : Heap T B) (p : Ptr) (child : Cell T B) : Res (Heap T B) := do
  let c ← load h p
  let r := append cfg h c.children [child]
  return modify r.1 p (fun c => { c with children := r.2 })

/-- `p.bbox.ExpandIncludeMBR(b)`, hdb/insert.go:24, 43, hdb/adj.go:8 -/
def expandBox (h : Heap T B) (p : Ptr) (b : Box B) : Heap T B := modify h p (fun c => { c with bbox := c.bbox.expand b })

/-- hdb/mbr.go:9-20 the box of the elements of a slice -/
def boxOf (h : Heap T B) (s : Slice) : Box B := Box.unionAll ((cells h s).map Cell.bbox)

/-- hdb/mbr.go:9-11 `calcBBox` -/
def calcBBox (h : Heap T B) (p : Ptr) : Res (Heap T B) := do
  let c ← load h p
  return modify h p (fun d => { d with bbox := boxOf h c.children })

/-- `&tree.data` -/
def root : Ptr := ⟨0, 0⟩

/-- hdb/insert.go:62-129 `chooseSubtree`, from `nd` on; `rem` is `level - len(path)`.  Simplified as in Model/Hdb: no qualifying child is a panic. -/
def chooseSubtree (H : MHeur T B) (h : Heap T B) (b : Box B) : (rem : Nat) → (nd : Ptr) → (path : List Ptr) → Res (Ptr × List Ptr)
  | 0, nd, path => .ok (nd, path ++ [nd])
  | rem + 1, nd, path => do
    let c ← load h nd
    if c.leaf then .ok (nd, path ++ [nd]) else
    match H.choose b ((cells h c.children).map Cell.bbox) with
    | none => .panic
    | some i =>
      -- `&nd.children[i]`
      if i < c.children.len then chooseSubtree H h b rem ⟨c.children.arr, i⟩ (path ++ [nd]) else .panic

/-- hdb/util.go:7-10 the loop of `splitAtIndex` from position `i`, `k` more rounds -/
def splitAtLoop (cfg : Cfg B) : (k : Nat) → Heap T B → (nodes ext : Slice) → (i : Nat) → Res (Heap T B × Slice)
  | 0, h, _, ext, _ => .ok (h, ext)
  | k + 1, h, nodes, ext, i => do
    let c ← load h ⟨nodes.arr, i⟩
    let r := append cfg h ext [c]
    splitAtLoop cfg k (modify r.1 ⟨nodes.arr, i⟩ (fun _ => zeroCell cfg)) nodes r.2 (i + 1)

/-- hdb/util.go:4-12 `splitAtIndex` -/
def splitAtIndex (cfg : Cfg B) (h : Heap T B) (nodes : Slice) (index : Nat) : Res (Heap T B × Slice × Slice) :=
  if nodes.len < index then .panic else do
  let r := alloc h (List.replicate (nodes.len - index) (zeroCell cfg))
  let (h, ext) ← splitAtLoop cfg (nodes.len - index) r.1 nodes ⟨r.2, 0⟩ index
  return (h, ⟨nodes.arr, index⟩, ext)

/-- hdb/split.go:73-82 `chooseSplitAxis` (hdb/nodepath.go `Swap`): reorder the elements of the slice in place -/
def sortChildren (H : MHeur T B) (h : Heap T B) (s : Slice) : Heap T B :=
  let cs := cells h s
  setArr h s.arr ((H.perm (cs.map Cell.bbox)).filterMap (fun i => cs[i]?) ++ (h.arrays s.arr).drop s.len)

/-- hdb/split.go:10-21 `split` up to the creation of `newNode` -/
def splitNode (cfg : Cfg B) (H : MHeur T B) (h : Heap T B) (p : Ptr) : Res (Heap T B × Cell T B) := do
  let c ← load h p
  let h := sortChildren H h c.children
  let at_ := H.splitIdx ((cells h c.children).map Cell.bbox)
  let (h, left, right) ← splitAtIndex cfg h c.children at_
  let h := modify h p (fun c => { c with children := left })
  let h ← calcBBox h p
  return (h, { children := right, item := none, height := c.height, leaf := c.leaf, bbox := boxOf h right })

/-- hdb/split.go:31-35 `splitRoot` -/
def splitRoot (h : Heap T B) (nd other : Cell T B) : Res (Heap T B) :=
  let r := alloc h [nd, other]
  calcBBox (setArr r.1 0 [{ children := ⟨r.2, 2⟩, item := none, height := nd.height + 1, leaf := false, bbox := Box.empty }]) root

/-- hdb/split.go:9-28 `split` -/
def split (cfg : Cfg B) (H : MHeur T B) (h : Heap T B) (path : List Ptr) (level : Nat) : Res (Heap T B) := do
  let p ← Res.ofOption path[level]?
  let (h, newNode) ← splitNode cfg H h p
  if 0 < level then do
    let q ← Res.ofOption path[level - 1]?
    addChild cfg h q newNode
  else do
    let nd ← load h p
    splitRoot h nd newNode

/-- hdb/insert.go:53-59 `splitOnOverflow`; the last argument and the result are `level + 1` -/
def splitOnOverflow (cfg : Cfg B) (H : MHeur T B) (maxE : Nat) (path : List Ptr) : Heap T B → (lv : Nat) → Res (Heap T B × Nat)
  | h, 0 => .ok (h, 0)
  | h, level + 1 => do
    let p ← Res.ofOption path[level]?
    let c ← load h p
    if c.children.len > maxE then do
      let h ← split cfg H h path level
      splitOnOverflow cfg H maxE path h level
    else .ok (h, level + 1)

/-- hdb/adj.go:6-10 `adjustParentBBoxes`; `lv` is `level + 1` -/
def adjustParentBBoxes (b : Box B) (path : List Ptr) : Heap T B → (lv : Nat) → Res (Heap T B)
  | h, 0 => .ok h
  | h, level + 1 => do
    let p ← Res.ofOption path[level]?
    adjustParentBBoxes b path (expandBox h p b) level

/-- hdb/insert.go:35-50 `insertNode` -/
def insertNode (cfg : Cfg B) (H : MHeur T B) (maxE : Nat) (h : Heap T B) (item : Cell T B) (level : Nat) : Res (Heap T B) := do
  let (nd, path) ← chooseSubtree H h item.bbox level root []
  let h ← addChild cfg h nd item
  let h := expandBox h nd item.bbox
  let (h, lv) ← splitOnOverflow cfg H maxE path h (level + 1)
  adjustParentBBoxes item.bbox path h lv

/-- hdb/insert.go:10-32 `insert`.  Simplified: the leaf node is made before the subtree is chosen. -/
def insertItem (ops : ItemOps T B) (cfg : Cfg B) (H : MHeur T B) (maxE : Nat) (h : Heap T B) (t : T) : Res (Heap T B) := do
  let c ← load h root
  let r := newLeafNode ops h t
  insertNode cfg H maxE r.1 r.2 (c.height - 1)

/-- hdb/load.go:22-24 -/
def insertItems (ops : ItemOps T B) (cfg : Cfg B) (H : MHeur T B) (maxE : Nat) : Heap T B → List T → Res (Heap T B)
  | h, [] => .ok h
  | h, t :: ts => do insertItems ops cfg H maxE (← insertItem ops cfg H maxE h t) ts

/-- hdb/dbnode.go:57-63 the loop of `makeChildren` -/
def makeLoop (ops : ItemOps T B) (cfg : Cfg B) : Heap T B → Slice → List T → Heap T B × Slice
  | h, s, [] => (h, s)
  | h, s, t :: ts =>
    let l := newLeafNode ops h t
    let r := append cfg l.1 s [l.2]
    makeLoop ops cfg r.1 r.2 ts

/-- hdb/build.go:39-48 the loops that pack the tiles, with the recursive call `f` -/
def packLoop (cfg : Cfg B) (f : Heap T B → List T → Res (Heap T B × Cell T B)) : Heap T B → Slice → List (List T) → Res (Heap T B × Slice)
  | h, s, [] => .ok (h, s)
  | h, s, tile :: tiles => do
    let (h, c) ← f h tile
    let r := append cfg h s [c]
    packLoop cfg f r.1 r.2 tiles

/-- hdb/build.go:9-52 `buildTree`; simplified as `Hdb.buildTree` -/
def buildTree (ops : ItemOps T B) (cfg : Cfg B) (H : MHeur T B) (maxE : Nat) : (fuel : Nat) → Heap T B → List T → (height : Nat) →
    Res (Heap T B × Cell T B)
  | 0, _, _, _ => .timeout
  | fuel + 1, h, items, height =>
    let N := items.length
    if N ≤ maxE then
      let r := alloc h (List.replicate N (zeroCell cfg))
      let q := makeLoop ops cfg r.1 ⟨r.2, 0⟩ items
      .ok (q.1, { children := q.2, item := none, height := 1, leaf := true, bbox := boxOf q.1 q.2 })
    else do
      let M := if height = 0 then ceilDiv N (maxE ^ (H.height N - 1)) else maxE
      let height := if height = 0 then H.height N else height
      let r := alloc h []
      let N2 := ceilDiv N M
      let N1 := N2 * ceilSqrt M
      let rows := chunks N N1 (H.select false N1 items)
      let tiles := rows.flatMap (fun row => chunks N N2 (H.select true N2 row))
      let (h, s) ← packLoop cfg (fun h tile => buildTree ops cfg H maxE fuel h tile (height - 1)) r.1 ⟨r.2, 0⟩ tiles
      return (h, { children := s, item := none, height := height, leaf := false, bbox := boxOf h s })

/-- hdb/rtree.go:10-14 `Hdb` -/
structure Tree (T B : Type) where
  heap : Heap T B
  maxE : Nat
  minE : Nat

/-- hdb/clear.go:15-18 `Clear` -/
def clearHeap (h : Heap T B) : Heap T B :=
  let r := alloc h []
  setArr r.1 0 [{ children := ⟨r.2, 0⟩, item := none, height := 1, leaf := true, bbox := Box.empty }]

/-- memory of a zero `Hdb{}` -/
def initHeap (cfg : Cfg B) : Heap T B := { arrays := fun a => if a = 0 then [zeroCell cfg] else [], next := 2 }

/-- hdb/rtree.go:16-27 `NewHdb` -/
def newHdb (cfg : Cfg B) (cap : Nat) : Tree T B :=
  { heap := clearHeap (initHeap cfg), maxE := maxEntries cap, minE := minEntries (maxEntries cap) }

/-- hdb/load.go:19-53 `Load` -/
def loadItems (ops : ItemOps T B) (cfg : Cfg B) (H : MHeur T B) (t : Tree T B) (items : List T) (fuel : Nat) : Res (Tree T B) := do
  let n := items.length
  if n < t.minE then
    return { t with heap := ← insertItems ops cfg H t.maxE t.heap items }
  else
    let (h, nd) ← buildTree ops cfg H t.maxE fuel t.heap items 0
    let data ← load h root
    if data.children.len = 0 then return { t with heap := setArr h 0 [nd] }
    else if data.height = nd.height then return { t with heap := ← splitRoot h data nd }
    else if data.height < nd.height then
      return { t with heap := ← insertNode cfg H t.maxE (setArr h 0 [nd]) data (nd.height - data.height - 1) }
    else
      return { t with heap := ← insertNode cfg H t.maxE h nd (data.height - nd.height - 1) }

/-! ### Removal -/

/-- hdb/util.go:15-24 `sliceIndex` with the predicate of `Remove` -/
def indexOfId (ops : ItemOps T B) (id : Int) : List (Cell T B) → Option Nat
  | [] => none
  | c :: cs => if c.item.map ops.id = some id then some 0 else (indexOfId ops id cs).map (· + 1)

/-- hdb/remove.go:48-55 `removeNode`: `a, a[n] = append(a[:i], a[i+1:]...), dbNode{}` (the right side and the operands on the left are evaluated first) -/
def removeNode (cfg : Cfg B) (h : Heap T B) (a : Slice) (i : Nat) : Heap T B × Slice :=
  if a.len ≤ i then (h, a)
  else
    let r := append cfg h ⟨a.arr, i⟩ ((cells h a).drop (i + 1))
    (modify r.1 ⟨a.arr, a.len - 1⟩ (fun _ => zeroCell cfg), r.2)

/-- hdb/remove.go:67-69 `sliceIndex` with the comparison of pointers `path[i] == &parent.children[s]` -/
def indexOfPtr (p : Ptr) (s : Slice) : Option Nat := (List.range s.len).find? (fun k => p = ⟨s.arr, k⟩)

/-- hdb/remove.go:63-79 one round of `condense` at `p` with parent `q?` (none: `p` is the root) -/
def condenseStep (cfg : Cfg B) (h : Heap T B) (p : Ptr) (q? : Option Ptr) : Res (Heap T B) := do
  let c ← load h p
  if c.children.len = 0 then
    match q? with
    | none => return clearHeap h
    | some q => do
      let parent ← load h q
      match indexOfPtr p parent.children with
      | none => return h
      | some k =>
        let r := removeNode cfg h parent.children k
        return modify r.1 q (fun c => { c with children := r.2 })
  else calcBBox h p

/-- hdb/remove.go:58-82 `condense`; the path starts with its last element -/
def condense (cfg : Cfg B) : Heap T B → List Ptr → Res (Heap T B)
  | h, [] => .ok h
  | h, p :: ps => do condense cfg (← condenseStep cfg h p ps.head?) ps

/-- hdb/remove.go:107-113 the variables of the traversal; `path` and `indexes` with the most recent entry first -/
structure RemState where
  nd : Option Ptr
  parent : Option Ptr
  path : List Ptr
  indexes : List Nat
  i : Nat
  goingUp : Bool

/-- hdb/remove.go:116-158 the traversal -/
def removeLoop (ops : ItemOps T B) (cfg : Cfg B) (h : Heap T B) (id : Int) (bbox : Box B) : (fuel : Nat) → RemState → Res (Heap T B)
  | 0, _ => .timeout
  | fuel + 1, s =>
    match s.nd, s.path with
    | none, [] => .ok h
    | nd?, path =>
      -- lines 117-123: go up
      let s : RemState := match nd?, path with
        | none, p :: ps => { nd := some p, parent := ps.head?, path := ps, indexes := s.indexes.tail, i := s.indexes.head?.getD 0, goingUp := true }
        | _, _ => s
      match s.nd with
      | none => .panic
      | some p => do
        let nd ← load h p
        -- lines 125-141
        match (if nd.leaf then indexOfId ops id (cells h nd.children) else none) with
        | some idx =>
          let r := removeNode cfg h nd.children idx
          condense cfg (modify r.1 p (fun c => { c with children := r.2 })) (p :: s.path)
        | none =>
          if !s.goingUp && !nd.leaf && nd.bbox.contains bbox then
            if 0 < nd.children.len then
              removeLoop ops cfg h id bbox fuel
                { nd := some ⟨nd.children.arr, 0⟩, parent := some p, path := p :: s.path, indexes := s.i :: s.indexes, i := 0, goingUp := s.goingUp }
            else .panic
          else
            match s.parent with
            | some q => do
              let par ← load h q
              -- hdb/remove.go:16-22 `nodeSiblingAtIndex`
              removeLoop ops cfg h id bbox fuel { s with
                nd := if s.i + 1 < par.children.len then some ⟨par.children.arr, s.i + 1⟩ else none, i := s.i + 1, goingUp := false }
            | none => removeLoop ops cfg h id bbox fuel { s with nd := none }

/-- hdb/remove.go:86-94, 106-160 `Remove` -/
def remove (ops : ItemOps T B) (cfg : Cfg B) (t : Tree T B) (item : T) (fuel : Nat) : Res (Tree T B) := do
  let h ← removeLoop ops cfg t.heap (ops.id item) (ops.mbr item) fuel
      { nd := some root, parent := none, path := [], indexes := [], i := 0, goingUp := false }
  return { t with heap := h }

/-- hdb/clear.go:15-18 `Clear` -/
def clear (t : Tree T B) : Tree T B := { t with heap := clearHeap t.heap }

/-! ### Reading -/

/-- `&nd.children[i]` for all `i` -/
def childPtrs (s : Slice) : List Ptr := (List.range s.len).map (fun i => ⟨s.arr, i⟩)

/-- hdb/search.go:52-72 `all`: `stack` head = last element of `nodesToSearch` -/
def allLoop (h : Heap T B) : (fuel : Nat) → Ptr → (stack : List Ptr) → (result : List (Option T)) → Res (List (Option T))
  | 0, _, _, _ => .timeout
  | fuel + 1, p, stack, result => do
    let nd ← load h p
    let result := if nd.leaf then result ++ (cells h nd.children).map Cell.item else result
    let stack := if nd.leaf then stack else (childPtrs nd.children).reverse ++ stack
    match stack with
    | [] => .ok result
    | p' :: stack' => allLoop h fuel p' stack' result

/-- hdb/search.go:23-36 the inner loop of `Search` -/
def searchChildren (h : Heap T B) (fuel : Nat) (q : Box B) (leaf : Bool) : List Ptr → (stack : List Ptr) → (result : List (Option T)) →
    Res (List Ptr × List (Option T))
  | [], stack, result => .ok (stack, result)
  | p :: ps, stack, result => do
    let child ← load h p
    if q.intersects child.bbox then
      if leaf then searchChildren h fuel q leaf ps stack (result ++ [child.item])
      else if q.contains child.bbox then do
        searchChildren h fuel q leaf ps stack (← allLoop h fuel p [] result)
      else searchChildren h fuel q leaf ps (p :: stack) result
    else searchChildren h fuel q leaf ps stack result

/-- hdb/search.go:22-42 the outer loop of `Search` -/
def searchLoop (h : Heap T B) (q : Box B) : (fuel : Nat) → Ptr → (stack : List Ptr) → (result : List (Option T)) → Res (List (Option T))
  | 0, _, _, _ => .timeout
  | fuel + 1, p, stack, result => do
    let nd ← load h p
    let (stack, result) ← searchChildren h fuel q nd.leaf (childPtrs nd.children) stack result
    match stack with
    | [] => .ok result
    | p' :: stack' => searchLoop h q fuel p' stack' result

/-- hdb/collides.go:16-22 the inner loop of `Collides` -/
def collidesChildren (h : Heap T B) (q : Box B) (leaf : Bool) : List Ptr → (stack : List Ptr) → Res (Bool × List Ptr)
  | [], stack => .ok (false, stack)
  | p :: ps, stack => do
    let child ← load h p
    if q.intersects child.bbox then
      if leaf || q.contains child.bbox then .ok (true, p :: stack)
      else collidesChildren h q leaf ps (p :: stack)
    else collidesChildren h q leaf ps stack

/-- hdb/collides.go:15-25 the outer loop -/
def collidesLoop (h : Heap T B) (q : Box B) : (fuel : Nat) → Ptr → (stack : List Ptr) → Res Bool
  | 0, _, _ => .timeout
  | fuel + 1, p, stack => do
    let nd ← load h p
    match ← collidesChildren h q nd.leaf (childPtrs nd.children) stack with
    | (true, _) => .ok true
    | (false, []) => .ok false
    | (false, p' :: stack') => collidesLoop h q fuel p' stack'

/-- hdb/collides.go:5-26 `Collides` -/
def collides (t : Tree T B) (q : Box B) (fuel : Nat) : Res Bool := do
  let data ← load t.heap root
  if !q.intersects data.bbox then .ok false else collidesLoop t.heap q fuel root []

/-- hdb/search.go:47-49 `All` -/
def all (t : Tree T B) (fuel : Nat) : Res (List T) := do derefAll (← allLoop t.heap fuel root [] [])

/-- hdb/search.go:9-44 `Search` -/
def search (t : Tree T B) (q : Box B) (fuel : Nat) : Res (List T) := do
  let data ← load t.heap root
  if !q.intersects data.bbox then .ok []
  else do derefAll (← searchLoop t.heap q fuel root [] [])

end Verif.Hdb.Mem
