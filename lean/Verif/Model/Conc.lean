import Mathlib.Logic.Function.Basic

/-!
The goroutines of package `constdp` as state machines.  One transition of one goroutine is one step; a run is any sequence of enabled steps, so every
interleaving is covered.  Channels are first-in first-out lists; sending on a closed channel, closing a closed channel and a negative wait group counter are
transitions to `crash`.  A rendezvous on an unbuffered channel is one step.  Simplifications: a goroutine that only starts the others may start them in any
order; the computation of one job is not interleaved with anything but the identifier source (it touches no other shared variable, see
`simplify_independent`).
-/

namespace Verif
namespace Conc

/-- the next state, or a run-time panic -/
inductive Next (S : Type) where
  | to (s : S)
  | crash

/-- a finite run -/
inductive Run {S : Type} (step : S → Next S → Prop) : Nat → S → S → Prop where
  | nil (s : S) : Run step 0 s s
  | snoc {n : Nat} {s t u : S} : Run step n s t → step t (.to u) → Run step (n + 1) s u

/-! ### SimplifyInstances -/

/-- a worker goroutine of constdp/fc_simplify.go:85-91 -/
inductive Worker (J : Type) where
  /-- not started yet -/
  | unborn
  /-- at `range stream` -/
  | idle
  /-- in `self.Simplify`, which may still take at most `left` identifiers -/
  | busy (j : J) (left : Nat)
  /-- at `out <- self` -/
  | sending (j : J)
  /-- after `wg.Done()` -/
  | done

/-- state of `SimplifyInstances` (constdp/fc_simplify.go:71-106) -/
structure Pool (J : Type) where
  /-- jobs the first goroutine has still to send on `stream` (unbuffered) -/
  feed : List J
  streamClosed : Bool
  workers : List (Worker J)
  wg : Int
  out : List J
  outClosed : Bool
  /-- the goroutine at lines 99-102 is still waiting -/
  closerWaiting : Bool
  /-- identifier source `id` -/
  next : Int
  /-- history: identifiers handed out, latest first -/
  taken : List (J × Int)
  /-- history: finished calls of `Simplify`, latest first -/
  ran : List J
  /-- history: jobs received by the loop at lines 104-105, latest first -/
  got : List J
  /-- the call has returned -/
  returned : Bool

/-- lines 72-76: `c` workers, nothing started; `n` is the state of the identifier source -/
def Pool.init {J : Type} (c : Nat) (jobs : List J) (n : Int) : Pool J :=
  { feed := jobs, streamClosed := false, workers := List.replicate c .unborn, wg := c, out := [], outClosed := false, closerWaiting := true, next := n,
    taken := [], ran := [], got := [], returned := false }

/-- One step of one goroutine.  `cap` is the capacity of `out` (line 76: twice the number of workers), `need j` a bound on the identifiers taken by job `j`. -/
inductive Pool.Step {J : Type} (cap : Nat) (need : J → Nat) : Pool J → Next (Pool J) → Prop where
  /-- line 95 -/
  | spawn (s : Pool J) (pre post : List (Worker J)) : s.workers = pre ++ .unborn :: post → Step cap need s (.to { s with workers := pre ++ .idle :: post })
  /-- line 80 with line 87 -/
  | hand (s : Pool J) (pre post : List (Worker J)) (j : J) (rest : List J) : s.workers = pre ++ .idle :: post → s.feed = j :: rest → s.streamClosed = false →
      Step cap need s (.to { s with feed := rest, workers := pre ++ .busy j (need j) :: post })
  /-- line 82 -/
  | closeStream (s : Pool J) : s.feed = [] → s.streamClosed = false → Step cap need s (.to { s with streamClosed := true })
  /-- node/node.go:26 `id.Next()` inside line 88 -/
  | take (s : Pool J) (pre post : List (Worker J)) (j : J) (left : Nat) : s.workers = pre ++ .busy j (left + 1) :: post →
      Step cap need s (.to { s with workers := pre ++ .busy j left :: post, next := s.next + 1, taken := (j, s.next) :: s.taken })
  /-- end of line 88 -/
  | finish (s : Pool J) (pre post : List (Worker J)) (j : J) (left : Nat) : s.workers = pre ++ .busy j left :: post →
      Step cap need s (.to { s with workers := pre ++ .sending j :: post, ran := j :: s.ran })
  /-- line 89 -/
  | send (s : Pool J) (pre post : List (Worker J)) (j : J) : s.workers = pre ++ .sending j :: post → s.outClosed = false → s.out.length < cap →
      Step cap need s (.to { s with workers := pre ++ .idle :: post, out := s.out ++ [j] })
  /-- line 89 after line 101 -/
  | sendClosed (s : Pool J) (pre post : List (Worker J)) (j : J) : s.workers = pre ++ .sending j :: post → s.outClosed = true → Step cap need s .crash
  /-- lines 87 and 86: the stream is closed, `wg.Done()` -/
  | leave (s : Pool J) (pre post : List (Worker J)) : s.workers = pre ++ .idle :: post → s.streamClosed = true → 0 < s.wg →
      Step cap need s (.to { s with workers := pre ++ .done :: post, wg := s.wg - 1 })
  /-- line 86 with a counter that becomes negative -/
  | leaveNegative (s : Pool J) (pre post : List (Worker J)) : s.workers = pre ++ .idle :: post → s.streamClosed = true → s.wg ≤ 0 → Step cap need s .crash
  /-- lines 100-101 -/
  | close (s : Pool J) : s.closerWaiting = true → s.wg = 0 → s.outClosed = false →
      Step cap need s (.to { s with closerWaiting := false, outClosed := true })
  /-- line 101 on a closed channel -/
  | closeClosed (s : Pool J) : s.closerWaiting = true → s.wg = 0 → s.outClosed = true → Step cap need s .crash
  /-- lines 104-105 -/
  | receive (s : Pool J) (j : J) (rest : List J) : s.returned = false → s.out = j :: rest →
      Step cap need s (.to { s with out := rest, got := j :: s.got })
  /-- end of the loop at lines 104-105 -/
  | ret (s : Pool J) : s.returned = false → s.out = [] → s.outClosed = true → Step cap need s (.to { s with returned := true })

/-! ### processConstSimplification -/

/-- constdp/simple_0.go:82-105 `chunkTasks` (and 107-130 `chunkInstances`), the loop: `fuel` bounds the number of iterations -/
def chunkLoop {A : Type} (chunkSize : Nat) (vals : List A) : (fuel : Nat) → (idx : Nat) → List (List A)
  | 0, _ => []
  | fuel + 1, idx =>
    if idx < vals.length then
      let stop := if idx + chunkSize > vals.length then vals.length else idx + chunkSize
      ((vals.drop idx).take (stop - idx)) :: chunkLoop chunkSize vals fuel stop
    else []

/-- constdp/simple_0.go:82-105 `chunkTasks` (107-130 `chunkInstances` is the same code on another type); concurrency 0 is a division by zero: not covered -/
def chunkTasks {A : Type} (vals : List A) (concurrency : Nat) : List (List A) :=
  let chunkSize := vals.length / concurrency
  chunkLoop (if chunkSize = 0 then 1 else chunkSize) vals vals.length 0

/-- a worker of constdp/simple_0.go:28-62 -/
inductive Searcher (N : Type) where
  | unborn
  /-- `todo`: rest of the chunk, `sel`: selections of the present piece still to be sent -/
  | live (todo sel : List N)
  | done

/-- state of `processConstSimplification` (constdp/simple_0.go:15-80) -/
structure Search (N : Type) where
  /-- chunk and state of each worker -/
  workers : List (List N × Searcher N)
  wg : Int
  out : List N
  outClosed : Bool
  closerWaiting : Bool
  /-- the received pieces, latest first (the result is the set of these) -/
  results : List N
  returned : Bool

/-- lines 16-26 -/
def Search.init {N : Type} (chunks : List (List N)) : Search N :=
  { workers := chunks.map (fun c => (c, .unborn)), wg := chunks.length, out := [], outClosed := false, closerWaiting := true, results := [], returned := false }

/-- One step; `select x` is what lines 34-55 select for the piece `x` (the index and the instances are not changed meanwhile) -/
inductive Search.Step {N : Type} (cap : Nat) (select : N → List N) : Search N → Next (Search N) → Prop where
  /-- line 66 -/
  | spawn (s : Search N) (pre post : List (List N × Searcher N)) (c : List N) : s.workers = pre ++ (c, .unborn) :: post →
      Step cap select s (.to { s with workers := pre ++ (c, .live c []) :: post })
  /-- lines 34-55 -/
  | work (s : Search N) (pre post : List (List N × Searcher N)) (c : List N) (x : N) (todo : List N) : s.workers = pre ++ (c, .live (x :: todo) []) :: post →
      Step cap select s (.to { s with workers := pre ++ (c, .live todo (select x)) :: post })
  /-- line 58 -/
  | send (s : Search N) (pre post : List (List N × Searcher N)) (c todo : List N) (o : N) (sel : List N) :
      s.workers = pre ++ (c, .live todo (o :: sel)) :: post → s.outClosed = false → s.out.length < cap →
      Step cap select s (.to { s with workers := pre ++ (c, .live todo sel) :: post, out := s.out ++ [o] })
  | sendClosed (s : Search N) (pre post : List (List N × Searcher N)) (c todo : List N) (o : N) (sel : List N) :
      s.workers = pre ++ (c, .live todo (o :: sel)) :: post → s.outClosed = true → Step cap select s .crash
  /-- line 29 -/
  | leave (s : Search N) (pre post : List (List N × Searcher N)) (c : List N) : s.workers = pre ++ (c, .live [] []) :: post → 0 < s.wg →
      Step cap select s (.to { s with workers := pre ++ (c, .done) :: post, wg := s.wg - 1 })
  | leaveNegative (s : Search N) (pre post : List (List N × Searcher N)) (c : List N) : s.workers = pre ++ (c, .live [] []) :: post → s.wg ≤ 0 →
      Step cap select s .crash
  /-- lines 71-72 -/
  | close (s : Search N) : s.closerWaiting = true → s.wg = 0 → s.outClosed = false →
      Step cap select s (.to { s with closerWaiting := false, outClosed := true })
  | closeClosed (s : Search N) : s.closerWaiting = true → s.wg = 0 → s.outClosed = true → Step cap select s .crash
  /-- lines 76-77 -/
  | receive (s : Search N) (o : N) (rest : List N) : s.returned = false → s.out = o :: rest →
      Step cap select s (.to { s with out := rest, results := o :: s.results })
  /-- line 79 -/
  | ret (s : Search N) : s.returned = false → s.out = [] → s.outClosed = true → Step cap select s (.to { s with returned := true })

end Conc
end Verif
