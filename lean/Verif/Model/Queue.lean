import Verif.Model.Base

/-!
node/queue.go: a double-ended queue guarded by a `sync.RWMutex`.  The deque itself (`github.com/intdxdt/deque`) is outside /repo: it is taken as a
list whose `Pop`, `PopLeft`, `First`, `Last` return nil when it is empty.  Callers are taken one after the other; a caller that recovers from a panic
goes on with the queue as the panic left it.
-/

namespace Verif.Queue

variable {N : Type}

/-- the mutex: free, held by some readers, or held by a writer -/
inductive Lock where
  | free
  | readers (n : Nat)
  | writer
  deriving DecidableEq

/-- node/queue.go:10-13 `Queue` -/
structure Q (N : Type) where
  que : List N
  lock : Lock

/-- node/queue.go:15-17 `NewQueue` -/
def newQueue : Q N := ⟨[], .free⟩

/-- the operations -/
inductive Op (N : Type) where
  | append (o : N)
  | appendLeft (o : N)
  | pop
  | popLeft
  | clear
  | size
  | first
  | last

/-- what a call does: return nothing, a piece or a number, panic, or wait for the lock for ever -/
inductive Ret (N : Type) where
  | unit
  | node (n : N)
  | num (k : Nat)
  | panic
  | blocked
  deriving DecidableEq

/-- `q.Lock()`: none = the call waits (nobody will release the lock, callers come one after the other) -/
def Q.acquire (q : Q N) : Option (Q N) := match q.lock with | .free => some { q with lock := .writer } | _ => none

/-- `q.RLock()` -/
def Q.acquireR (q : Q N) : Option (Q N) :=
  match q.lock with
  | .free => some { q with lock := .readers 1 }
  | .readers n => some { q with lock := .readers (n + 1) }
  | .writer => none

/-- `q.Unlock()` -/
def Q.release (q : Q N) : Q N := { q with lock := .free }

/-- `q.RUnlock()` -/
def Q.releaseR (q : Q N) : Q N :=
  match q.lock with
  | .readers (n + 2) => { q with lock := .readers (n + 1) }
  | _ => { q with lock := .free }

/-- node/queue.go:19-73: one call.  `Pop().(Node)`, `PopLeft().(Node)`, `First().(Node)`, `Last().(Node)` panic on nil, before the lock is released. -/
def Q.call (q : Q N) : Op N → Q N × Ret N
  | .append o => match q.acquire with
    | none => (q, .blocked)
    | some q => ({ q with que := q.que ++ [o] }.release, .unit)
  | .appendLeft o => match q.acquire with
    | none => (q, .blocked)
    | some q => ({ q with que := o :: q.que }.release, .unit)
  | .pop => match q.acquire with
    | none => (q, .blocked)
    | some q => match q.que.getLast? with
      | none => (q, .panic)
      | some n => ({ q with que := q.que.dropLast }.release, .node n)
  | .popLeft => match q.acquire with
    | none => (q, .blocked)
    | some q => match q.que with
      | [] => (q, .panic)
      | n :: ns => ({ q with que := ns }.release, .node n)
  | .clear => match q.acquire with
    | none => (q, .blocked)
    | some q => ({ q with que := [] }.release, .unit)
  | .size => match q.acquireR with
    | none => (q, .blocked)
    | some q => (q.releaseR, .num q.que.length)
  | .first => match q.acquireR with
    | none => (q, .blocked)
    | some q => match q.que.head? with
      | none => (q, .panic)
      | some n => (q.releaseR, .node n)
  | .last => match q.acquireR with
    | none => (q, .blocked)
    | some q => match q.que.getLast? with
      | none => (q, .panic)
      | some n => (q.releaseR, .node n)

/-- a sequence of calls -/
def Q.run (q : Q N) : List (Op N) → Q N × List (Ret N)
  | [] => (q, [])
  | op :: ops =>
    let r := q.call op
    let s := r.1.run ops
    (s.1, r.2 :: s.2)

end Verif.Queue
