import Mathlib.Logic.Relation
import Verif.Model.Conc

/-!
Memory accesses of the goroutines of package `constdp`: every step of the state machines of `Conc.lean` is given the events it performs, so that a run has a trace.

Simplifications: the memory of one instance (its `State`, `Hulls`, `SimpleSet`, index of constraints and everything only it points to) and the memory common to all
(the slice and the table handed to the call, options, coordinates, constraints) are two families of locations; what a call of `Simplify` may touch is stated by
the rules `touchOwn` and `touchCommon`.  The identifier source synchronises by itself (an atomic counter outside /repo) and the channel operations are no data
accesses; neither appears in the trace.
-/

namespace Verif
namespace Conc

/-- the goroutines of one call -/
inductive Gor where
  | main
  | feeder
  | spawner
  | closer
  | worker (k : Nat)
  deriving DecidableEq

/-- the two channels -/
inductive Chan where
  | stream
  | out
  deriving DecidableEq

/-- what an event does: statements that synchronise, and reads (`false`) and writes (`true`) of locations -/
inductive Op (L : Type) where
  | go (g : Gor)
  | start
  | close (c : Chan)
  /-- a receive that finds the channel closed and empty -/
  | drained (c : Chan)
  /-- `wg.Done()` -/
  | done
  /-- the return of `wg.Wait()` -/
  | wait
  | access (write : Bool) (l : L)

structure Event (L : Type) where
  g : Gor
  op : Op L

/-- locations: memory of an instance, memory common to all -/
inductive Loc (J X : Type) where
  | own (j : J) (x : X)
  | common (x : X)

/-- constdp/fc_simplify.go:71-106 `SimplifyInstances`: the steps of `Pool.Step` with the events they perform, and the accesses in between -/
inductive Pool.LStep {J X : Type} (cap : Nat) (need : J → Nat) : Pool J → List (Event (Loc J X)) → Pool J → Prop where
  /-- line 95 -/
  | spawn (s : Pool J) (pre post : List (Worker J)) : s.workers = pre ++ .unborn :: post →
      LStep cap need s [⟨.spawner, .go (.worker pre.length)⟩, ⟨.worker pre.length, .start⟩] { s with workers := pre ++ .idle :: post }
  /-- line 80 with line 87 -/
  | hand (s : Pool J) (pre post : List (Worker J)) (j : J) (rest : List J) : s.workers = pre ++ .idle :: post → s.feed = j :: rest → s.streamClosed = false →
      LStep cap need s [] { s with feed := rest, workers := pre ++ .busy j (need j) :: post }
  /-- line 82 -/
  | closeStream (s : Pool J) : s.feed = [] → s.streamClosed = false → LStep cap need s [⟨.feeder, .close .stream⟩] { s with streamClosed := true }
  /-- node/node.go:26 `id.Next()` inside line 88 -/
  | take (s : Pool J) (pre post : List (Worker J)) (j : J) (left : Nat) : s.workers = pre ++ .busy j (left + 1) :: post →
      LStep cap need s [] { s with workers := pre ++ .busy j left :: post, next := s.next + 1, taken := (j, s.next) :: s.taken }
  /-- end of line 88 -/
  | finish (s : Pool J) (pre post : List (Worker J)) (j : J) (left : Nat) : s.workers = pre ++ .busy j left :: post →
      LStep cap need s [] { s with workers := pre ++ .sending j :: post, ran := j :: s.ran }
  /-- line 89 -/
  | send (s : Pool J) (pre post : List (Worker J)) (j : J) : s.workers = pre ++ .sending j :: post → s.outClosed = false → s.out.length < cap →
      LStep cap need s [] { s with workers := pre ++ .idle :: post, out := s.out ++ [j] }
  /-- lines 87 and 86 -/
  | leave (s : Pool J) (pre post : List (Worker J)) : s.workers = pre ++ .idle :: post → s.streamClosed = true → 0 < s.wg →
      LStep cap need s [⟨.worker pre.length, .drained .stream⟩, ⟨.worker pre.length, .done⟩] { s with workers := pre ++ .done :: post, wg := s.wg - 1 }
  /-- lines 100-101 -/
  | close (s : Pool J) : s.closerWaiting = true → s.wg = 0 → s.outClosed = false →
      LStep cap need s [⟨.closer, .wait⟩, ⟨.closer, .close .out⟩] { s with closerWaiting := false, outClosed := true }
  /-- lines 104-105 -/
  | receive (s : Pool J) (j : J) (rest : List J) : s.returned = false → s.out = j :: rest →
      LStep cap need s [] { s with out := rest, got := j :: s.got }
  /-- end of the loop at lines 104-105 -/
  | ret (s : Pool J) : s.returned = false → s.out = [] → s.outClosed = true → LStep cap need s [⟨.main, .drained .out⟩] { s with returned := true }
  /-- line 80: the first goroutine reads `selfs` until it closes the stream -/
  | feed (s : Pool J) (x : X) : s.streamClosed = false → LStep cap need s [⟨.feeder, .access false (.common x)⟩] s
  /-- line 88: `Simplify` reads and writes its instance -/
  | touchOwn (s : Pool J) (pre post : List (Worker J)) (j : J) (left : Nat) (w : Bool) (x : X) : s.workers = pre ++ .busy j left :: post →
      LStep cap need s [⟨.worker pre.length, .access w (.own j x)⟩] s
  /-- line 88: `junctions[self.Id()]`, and what `Simplify` reads of the memory common to all instances -/
  | touchCommon (s : Pool J) (pre post : List (Worker J)) (j : J) (left : Nat) (x : X) : s.workers = pre ++ .busy j left :: post →
      LStep cap need s [⟨.worker pre.length, .access false (.common x)⟩] s
  /-- after the call (constdp/fc_simplify.go:32-68, simplify.go:23, 38) the caller touches whatever it likes -/
  | caller (s : Pool J) (w : Bool) (l : Loc J X) : s.returned = true → LStep cap need s [⟨.main, .access w l⟩] s

/-- the events before the goroutines do anything: the accesses of the caller before the call, and lines 78, 93, 99 -/
def opening {L : Type} (pre : List (Bool × L)) : List (Event L) :=
  pre.map (fun a => ⟨.main, .access a.1 a.2⟩) ++
    [⟨.main, .go .feeder⟩, ⟨.feeder, .start⟩, ⟨.main, .go .spawner⟩, ⟨.spawner, .start⟩, ⟨.main, .go .closer⟩, ⟨.closer, .start⟩]

/-- an execution of `SimplifyInstances` with its trace -/
inductive Pool.Exec {J X : Type} (cap : Nat) (need : J → Nat) (c : Nat) (jobs : List J) (n : Int) (pre : List (Bool × Loc J X)) :
    List (Event (Loc J X)) → Pool J → Prop where
  | init : Exec cap need c jobs n pre (opening pre) (Pool.init c jobs n)
  | step {tr evs : List (Event (Loc J X))} {s t : Pool J} : Exec cap need c jobs n pre tr s → Pool.LStep cap need s evs t →
      Exec cap need c jobs n pre (tr ++ evs) t

/-- constdp/simple_0.go:15-80 `processConstSimplification`: the steps of `Search.Step` with the events they perform, and the accesses in between; the pieces, the
index and the instances are only read -/
inductive Search.LStep {N L : Type} (cap : Nat) (select : N → List N) : Search N → List (Event L) → Search N → Prop where
  /-- line 66 -/
  | spawn (s : Search N) (pre post : List (List N × Searcher N)) (c : List N) : s.workers = pre ++ (c, .unborn) :: post →
      LStep cap select s [⟨.spawner, .go (.worker pre.length)⟩, ⟨.worker pre.length, .start⟩] { s with workers := pre ++ (c, .live c []) :: post }
  /-- lines 34-55 -/
  | work (s : Search N) (pre post : List (List N × Searcher N)) (c : List N) (x : N) (todo : List N) : s.workers = pre ++ (c, .live (x :: todo) []) :: post →
      LStep cap select s [] { s with workers := pre ++ (c, .live todo (select x)) :: post }
  /-- line 58 -/
  | send (s : Search N) (pre post : List (List N × Searcher N)) (c todo : List N) (o : N) (sel : List N) :
      s.workers = pre ++ (c, .live todo (o :: sel)) :: post → s.outClosed = false → s.out.length < cap →
      LStep cap select s [] { s with workers := pre ++ (c, .live todo sel) :: post, out := s.out ++ [o] }
  /-- line 29 -/
  | leave (s : Search N) (pre post : List (List N × Searcher N)) (c : List N) : s.workers = pre ++ (c, .live [] []) :: post → 0 < s.wg →
      LStep cap select s [⟨.worker pre.length, .done⟩] { s with workers := pre ++ (c, .done) :: post, wg := s.wg - 1 }
  /-- lines 71-72 -/
  | close (s : Search N) : s.closerWaiting = true → s.wg = 0 → s.outClosed = false →
      LStep cap select s [⟨.closer, .wait⟩, ⟨.closer, .close .out⟩] { s with closerWaiting := false, outClosed := true }
  /-- lines 76-77 -/
  | receive (s : Search N) (o : N) (rest : List N) : s.returned = false → s.out = o :: rest →
      LStep cap select s [] { s with out := rest, results := o :: s.results }
  /-- line 79 -/
  | ret (s : Search N) : s.returned = false → s.out = [] → s.outClosed = true → LStep cap select s [⟨.main, .drained .out⟩] { s with returned := true }
  /-- lines 34-55: a worker reads -/
  | look (s : Search N) (pre post : List (List N × Searcher N)) (c todo sel : List N) (l : L) : s.workers = pre ++ (c, .live todo sel) :: post →
      LStep cap select s [⟨.worker pre.length, .access false l⟩] s
  /-- after the call (`deformNodes`, `cleanUpDB`, `Load`) -/
  | caller (s : Search N) (w : Bool) (l : L) : s.returned = true → LStep cap select s [⟨.main, .access w l⟩] s

/-- the events before: accesses of the caller, lines 64, 70 -/
def searchOpening {L : Type} (pre : List (Bool × L)) : List (Event L) :=
  pre.map (fun a => ⟨.main, .access a.1 a.2⟩) ++ [⟨.main, .go .spawner⟩, ⟨.spawner, .start⟩, ⟨.main, .go .closer⟩, ⟨.closer, .start⟩]

/-- an execution of `processConstSimplification` with its trace -/
inductive Search.Exec {N L : Type} (cap : Nat) (select : N → List N) (chunks : List (List N)) (pre : List (Bool × L)) :
    List (Event L) → Search N → Prop where
  | init : Exec cap select chunks pre (searchOpening pre) (Search.init chunks)
  | step {tr evs : List (Event L)} {s t : Search N} : Exec cap select chunks pre tr s → Search.LStep cap select s evs t →
      Exec cap select chunks pre (tr ++ evs) t

end Conc
end Verif
