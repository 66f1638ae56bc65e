import Verif.Model.Base

/-!
The slices of pieces (`[]node.Node`) as they are stored, and the pointers into them that the index keeps.  `Load` stores the addresses of the elements of the slice
it is given; `Clear` keeps the array of a slice, so the next `append` overwrites it.  A run is any interleaving of the calls of `Simplify`, one goroutine per line,
followed by the joint stage of a feature class.  What is computed (which pieces a decomposition, a split or a merge gives, which pieces are removed from the
index) is left open: the steps allow every choice.

Beside the memory a state has what the model of values has at the same place (`val`, `db`, `seen`): the properties compare the two.  Only the cells, the slices and the
addresses decide what a step does.
-/

namespace Verif.Piece

/-- address of a piece: array and position -/
structure Ptr where
  arr : Nat
  idx : Nat
  deriving DecidableEq, Repr

/-- a Go `[]node.Node` that begins at the start of its array -/
structure Slice where
  arr : Nat
  len : Nat
  cap : Nat
  deriving DecidableEq, Repr

/-- the arrays, by number; `none` is the zero `node.Node{}` -/
structure Heap (α : Type) where
  cell : Nat → Nat → Option α
  next : Nat

variable {α : Type}

/-- `*p` -/
def Heap.load (h : Heap α) (p : Ptr) : Option α := h.cell p.arr p.idx

/-- the elements of a slice -/
def Heap.read (h : Heap α) (s : Slice) : List (Option α) := (List.range s.len).map (h.cell s.arr)

/-- `make([]node.Node, 0, cap)`, also `nil` and `[]node.Node{}` with capacity 0 -/
def Heap.make (h : Heap α) (cap : Nat) : Heap α × Slice :=
  ({ cell := fun a i => if a = h.next then none else h.cell a i, next := h.next + 1 }, ⟨h.next, 0, cap⟩)

/-- Go `append(s, v)`: in place when the capacity suffices, else into a new array; `grow` is the capacity the run time chooses -/
def Heap.append (grow : Nat → Nat) (h : Heap α) (s : Slice) (v : Option α) : Heap α × Slice :=
  if s.len < s.cap then
    ({ h with cell := fun a i => if a = s.arr ∧ i = s.len then v else h.cell a i }, { s with len := s.len + 1 })
  else
    ({ cell := fun a i => if a = h.next then (if i < s.len then h.cell s.arr i else if i = s.len then v else none) else h.cell a i, next := h.next + 1 },
      ⟨h.next, s.len + 1, max (s.len + 1) (grow s.cap)⟩)

/-- node/nodes.go:54-56 `Clear` -/
def Slice.clear (s : Slice) : Slice := { s with len := 0 }

/-- hdb/load.go:19-33: the addresses that `Load` stores, one for each element -/
def Slice.addrs (s : Slice) : List Ptr := (List.range s.len).map (Ptr.mk s.arr)

/-- where a slice is kept: the field `Hulls` of an instance, the list a goroutine is building, the list of an instance in `groupHullsByFC` -/
inductive Slot where
  | hulls (inst : Nat)
  | build (thread : Option Nat)
  | group (inst : Nat)
  deriving DecidableEq

/-- an element to be appended: a computed piece, or a copy of the piece at an address (with its value in the model of values) -/
inductive Item (α : Type) where
  | fresh (v : α)
  | copy (p : Ptr) (v : α)

/-- how far a goroutine has come -/
inductive Pc (α : Type) where
  | ready
  /-- constdp/simplify.go:34-36 the loop that copies `self.Hulls` -/
  | copying (k : Nat)
  /-- constdp/fc_simplify.go:43-48 the loop over the instances `is`, at element `k` of the first -/
  | gathering (is : List Nat) (k : Nat)
  /-- between two changes of the index: constdp/simplify.go:41-59, constdp/fc_simplify.go:51-67 -/
  | work
  /-- appending to the list that is loaded next: constdp/simple_1.go:14-31 (`results`), constdp/node_aggregates.go:82-113 (`insertList`) -/
  | emit (todo : List (Item α))
  /-- constdp/simplify.go:66-70 the loop that fills `self.Hulls` -/
  | collect (todo : List (Ptr × α))
  /-- constdp/fc_group.go:15-24 the loop over all pieces -/
  | grouping (todo : List (Ptr × α))
  /-- constdp/fc_group.go:26-33 the loop over the groups, the first at element `k` once its `Hulls` is cleared -/
  | refill (is : List Nat) (k : Option Nat)
  | done

structure Sys (α : Type) where
  heap : Heap α
  /-- the slices, each with its list in the model of values -/
  val : Slot → Option (Slice × List α)
  /-- the index of each goroutine: addresses with the pieces stored there in the model of values; `none` is the joint stage -/
  db : Option Nat → List (Ptr × α)
  /-- everything ever stored in the index of a goroutine -/
  seen : Option Nat → List (Ptr × α)
  pc : Option Nat → Pc α

def Sys.setVal (S : Sys α) (x : Slot) (o : Option (Slice × List α)) : Slot → Option (Slice × List α) := fun y => if y = x then o else S.val y

def setAt {β : Type} (f : Option Nat → β) (t : Option Nat) (b : β) : Option Nat → β := fun u => if u = t then b else f u

/-- `slot = append(slot, v)`; `w` is the value in the model of values -/
def Sys.push (grow : Nat → Nat) (S : Sys α) (x : Slot) (s : Slice) (g : List α) (v : Option α) (w : α) (t : Option Nat) (pc : Pc α) : Sys α :=
  let r := S.heap.append grow s v
  { S with heap := r.1, val := S.setVal x (some (r.2, g ++ [w])), pc := setAt S.pc t pc }

/-- `slot = make(...)` -/
def Sys.make (S : Sys α) (x : Slot) (cap : Nat) (t : Option Nat) (pc : Pc α) : Sys α :=
  let r := S.heap.make cap
  { S with heap := r.1, val := S.setVal x (some (r.2, [])), pc := setAt S.pc t pc }

/-- `db.Load(list)`; the list is not used any more -/
def Sys.loadDb (S : Sys α) (t : Option Nat) (s : Slice) (g : List α) : Sys α :=
  { S with val := S.setVal (.build t) none, db := setAt S.db t (S.db t ++ s.addrs.zip g), seen := setAt S.seen t (S.seen t ++ s.addrs.zip g), pc := setAt S.pc t .work }

/-- `node.Clear(&self.Hulls)` -/
def Sys.clearHulls (S : Sys α) (i : Nat) (s : Slice) : Sys α := { S with val := S.setVal (.hulls i) (some (s.clear, [])) }

/-- One step of one goroutine.  `insts` are the instances, `inst` gives the instance of a piece (`Instance`). -/
inductive Step (grow : Nat → Nat) (insts : List Nat) (inst : α → Nat) : Sys α → Sys α → Prop
  /-- constdp/simplify.go:23-28: `self.Hulls` becomes a new slice; line 32 -/
  | decompose (S : Sys α) (t : Nat) (h : S.pc (some t) = .ready) (ht : t ∈ insts) (l : List α) (extra cap : Nat) :
    Step grow insts inst S
      (let r := S.heap.make (l.length + extra)
       let h1 : Heap α := { r.1 with cell := fun a i => if a = r.2.arr then l[i]? else r.1.cell a i }
       let S1 : Sys α := { S with heap := h1, val := S.setVal (.hulls t) (some ({ r.2 with len := l.length }, l)) }
       S1.make (.build (some t)) cap (some t) (.copying 0))
  /-- constdp/simplify.go:35 -/
  | copy (S : Sys α) (t k : Nat) (h : S.pc (some t) = .copying k) (s d : Slice) (gs gd : List α) (hs : S.val (.hulls t) = some (s, gs))
    (hd : S.val (.build (some t)) = some (d, gd)) (hk : k < s.len) (w : α) (hw : gs[k]? = some w) :
    Step grow insts inst S (S.push grow (.build (some t)) d gd (S.heap.cell s.arr k) w (some t) (.copying (k + 1)))
  /-- constdp/simplify.go:38-39: the copy is complete, `self.Hulls` is cleared, the copy is loaded -/
  | copied (S : Sys α) (t k : Nat) (h : S.pc (some t) = .copying k) (s d : Slice) (gs gd : List α) (hs : S.val (.hulls t) = some (s, gs))
    (hd : S.val (.build (some t)) = some (d, gd)) (hk : s.len ≤ k) : Step grow insts inst S ((S.clearHulls t s).loadDb (some t) d gd)
  /-- constdp/simple_2.go:9-11, constdp/node_aggregates.go:48, 86 and 100: pieces are removed from the index -/
  | remove (S : Sys α) (t : Option Nat) (h : S.pc t = .work ∨ ∃ todo, S.pc t = .emit todo) (db' : List (Ptr × α)) (hd : db'.Sublist (S.db t)) :
    Step grow insts inst S { S with db := setAt S.db t db' }
  /-- a new list for the index; copies are of pieces that are or were in the index -/
  | begin (S : Sys α) (t : Option Nat) (h : S.pc t = .work) (todo : List (Item α)) (hc : ∀ p v, Item.copy p v ∈ todo → (p, v) ∈ S.seen t) (cap : Nat) :
    Step grow insts inst S (S.make (.build t) cap t (.emit todo))
  /-- constdp/simple_1.go:25, constdp/node_aggregates.go:91 and 103 -/
  | fresh (S : Sys α) (t : Option Nat) (v : α) (todo : List (Item α)) (h : S.pc t = .emit (.fresh v :: todo)) (d : Slice) (gd : List α)
    (hd : S.val (.build t) = some (d, gd)) : Step grow insts inst S (S.push grow (.build t) d gd (some v) v t (.emit todo))
  /-- constdp/simple_1.go:28, constdp/node_aggregates.go:95, 107 and 112 -/
  | again (S : Sys α) (t : Option Nat) (p : Ptr) (v : α) (todo : List (Item α)) (h : S.pc t = .emit (.copy p v :: todo)) (d : Slice) (gd : List α)
    (hd : S.val (.build t) = some (d, gd)) : Step grow insts inst S (S.push grow (.build t) d gd (S.heap.load p) v t (.emit todo))
  /-- constdp/simplify.go:50, constdp/fc_simplify.go:61, constdp/node_aggregates.go:115 `Load` -/
  | loaded (S : Sys α) (t : Option Nat) (h : S.pc t = .emit []) (d : Slice) (gd : List α) (hd : S.val (.build t) = some (d, gd)) :
    Step grow insts inst S (S.loadDb t d gd)
  /-- constdp/simplify.go:61-65: `self.Hulls` is cleared, `db.All()` -/
  | all (S : Sys α) (t : Nat) (h : S.pc (some t) = .work) (s : Slice) (gs : List α) (hs : S.val (.hulls t) = some (s, gs)) (l : List (Ptr × α))
    (hl : l.Perm (S.db (some t))) : Step grow insts inst S { S.clearHulls t s with pc := setAt S.pc (some t) (.collect l) }
  /-- constdp/simplify.go:67-69 -/
  | collect (S : Sys α) (t : Nat) (p : Ptr) (v : α) (l : List (Ptr × α)) (h : S.pc (some t) = .collect ((p, v) :: l)) (s : Slice) (gs : List α)
    (hs : S.val (.hulls t) = some (s, gs)) : Step grow insts inst S (S.push grow (.hulls t) s gs (S.heap.load p) v (some t) (.collect l))
  /-- constdp/simplify.go:73-75 -/
  | finish (S : Sys α) (t : Nat) (h : S.pc (some t) = .collect []) : Step grow insts inst S { S with pc := setAt S.pc (some t) .done }
  /-- constdp/fc_simplify.go:30 and 41: all lines are simplified, the joint stage begins -/
  | joint (S : Sys α) (h : S.pc none = .ready) (hd : ∀ t ∈ insts, S.pc (some t) = .done) : Step grow insts inst S (S.make (.build none) 0 none (.gathering insts 0))
  /-- constdp/fc_simplify.go:45 -/
  | gather (S : Sys α) (i : Nat) (is : List Nat) (k : Nat) (h : S.pc none = .gathering (i :: is) k) (s d : Slice) (gs gd : List α)
    (hs : S.val (.hulls i) = some (s, gs)) (hd : S.val (.build none) = some (d, gd)) (hk : k < s.len) (w : α) (hw : gs[k]? = some w) :
    Step grow insts inst S (S.push grow (.build none) d gd (S.heap.cell s.arr k) w none (.gathering (i :: is) (k + 1)))
  /-- constdp/fc_simplify.go:47 -/
  | gathered (S : Sys α) (i : Nat) (is : List Nat) (k : Nat) (h : S.pc none = .gathering (i :: is) k) (s : Slice) (gs : List α)
    (hs : S.val (.hulls i) = some (s, gs)) (hk : s.len ≤ k) :
    Step grow insts inst S { S.clearHulls i s with pc := setAt S.pc none (.gathering is 0) }
  /-- constdp/fc_simplify.go:49 -/
  | gatherLoad (S : Sys α) (k : Nat) (h : S.pc none = .gathering [] k) (d : Slice) (gd : List α) (hd : S.val (.build none) = some (d, gd)) :
    Step grow insts inst S (S.loadDb none d gd)
  /-- constdp/fc_group.go:12-13 -/
  | groups (S : Sys α) (h : S.pc none = .work) (l : List (Ptr × α)) (hl : l.Perm (S.db none)) :
    Step grow insts inst S { S with pc := setAt S.pc none (.grouping l), val := fun x => match x with | .group _ => none | y => S.val y }
  /-- constdp/fc_group.go:19-21 -/
  | groupNew (S : Sys α) (p : Ptr) (v : α) (l : List (Ptr × α)) (h : S.pc none = .grouping ((p, v) :: l)) (w : α) (hw : S.heap.load p = some w)
    (hn : S.val (.group (inst w)) = none) : Step grow insts inst S (S.make (.group (inst w)) 0 none (.grouping ((p, v) :: l)))
  /-- constdp/fc_group.go:22-23 -/
  | group (S : Sys α) (p : Ptr) (v : α) (l : List (Ptr × α)) (h : S.pc none = .grouping ((p, v) :: l)) (w : α) (hw : S.heap.load p = some w) (s : Slice) (gs : List α)
    (hs : S.val (.group (inst w)) = some (s, gs)) : Step grow insts inst S (S.push grow (.group (inst w)) s gs (some w) v none (.grouping l))
  /-- constdp/fc_group.go:26: the groups in some order -/
  | grouped (S : Sys α) (h : S.pc none = .grouping []) (is : List Nat) (hi : ∀ i, i ∈ is ↔ S.val (.group i) ≠ none) (hn : is.Nodup) :
    Step grow insts inst S { S with pc := setAt S.pc none (.refill is none) }
  /-- constdp/fc_group.go:27-28: the instance is that of the first piece of the group -/
  | clear (S : Sys α) (i : Nat) (is : List Nat) (h : S.pc none = .refill (i :: is) none) (s s' : Slice) (gs gs' : List α)
    (hs : S.val (.group i) = some (s, gs)) (w : α) (hw : S.heap.cell s.arr 0 = some w) (hl : 0 < s.len) (hs' : S.val (.hulls (inst w)) = some (s', gs')) :
    Step grow insts inst S { S.clearHulls (inst w) s' with pc := setAt S.pc none (.refill (i :: is) (some 0)) }
  /-- constdp/fc_group.go:29-30 -/
  | refill (S : Sys α) (i : Nat) (is : List Nat) (k : Nat) (h : S.pc none = .refill (i :: is) (some k)) (s s' : Slice) (gs gs' : List α)
    (hs : S.val (.group i) = some (s, gs)) (w : α) (hw : S.heap.cell s.arr 0 = some w) (hk : k < s.len) (hs' : S.val (.hulls (inst w)) = some (s', gs')) (v : α)
    (hv : gs[k]? = some v) : Step grow insts inst S (S.push grow (.hulls (inst w)) s' gs' (S.heap.cell s.arr k) v none (.refill (i :: is) (some (k + 1))))
  /-- constdp/fc_group.go:33: the next group -/
  | refilled (S : Sys α) (i : Nat) (is : List Nat) (k : Nat) (h : S.pc none = .refill (i :: is) (some k)) (s : Slice) (gs : List α)
    (hs : S.val (.group i) = some (s, gs)) (hk : s.len ≤ k) : Step grow insts inst S { S with pc := setAt S.pc none (.refill is none) }
  | finishAll (S : Sys α) (h : S.pc none = .refill [] none) : Step grow insts inst S { S with pc := setAt S.pc none .done }

/-- nothing allocated, nothing started -/
def Sys.init : Sys α := { heap := ⟨fun _ _ => none, 0⟩, val := fun _ => none, db := fun _ => [], seen := fun _ => [], pc := fun _ => .ready }

/-- the states that can be reached -/
inductive Reach (grow : Nat → Nat) (insts : List Nat) (inst : α → Nat) : Sys α → Prop
  | init : Reach grow insts inst Sys.init
  | step {S S' : Sys α} : Reach grow insts inst S → Step grow insts inst S S' → Reach grow insts inst S'

end Verif.Piece
