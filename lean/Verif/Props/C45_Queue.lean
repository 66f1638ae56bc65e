import Verif.Model.Queue
import Mathlib.Data.List.Basic

/-!
C45: the piece queue against a specification by a window of numbered cells.
-/

namespace Verif.Queue

variable {N : Type}

/-- specification of a double-ended queue: cells numbered by integers, the queue holds the cells `lo ≤ i < lo + len` -/
structure Win (N : Type) where
  lo : Int
  len : Nat
  cell : Int → Option N

/-- the empty window -/
def Win.empty : Win N := ⟨0, 0, fun _ => none⟩

/-- write a cell -/
def setCell (f : Int → Option N) (i : Int) (n : N) : Int → Option N := fun j => if j = i then some n else f j

/-- one operation on the window: the new window and the answer; none = the operation has no answer (the queue is empty) -/
def Win.op (w : Win N) : Op N → Option (Win N × Ret N)
  | .append o => some (⟨w.lo, w.len + 1, setCell w.cell (w.lo + w.len) o⟩, .unit)
  | .appendLeft o => some (⟨w.lo - 1, w.len + 1, setCell w.cell (w.lo - 1) o⟩, .unit)
  | .pop => if w.len = 0 then none else (w.cell (w.lo + w.len - 1)).map (fun n => (⟨w.lo, w.len - 1, w.cell⟩, .node n))
  | .popLeft => if w.len = 0 then none else (w.cell w.lo).map (fun n => (⟨w.lo + 1, w.len - 1, w.cell⟩, .node n))
  | .clear => some (⟨w.lo, 0, w.cell⟩, .unit)
  | .size => some (w, .num w.len)
  | .first => if w.len = 0 then none else (w.cell w.lo).map (fun n => (w, .node n))
  | .last => if w.len = 0 then none else (w.cell (w.lo + w.len - 1)).map (fun n => (w, .node n))

/-- a sequence of operations on the window, if each has an answer -/
def Win.ops (w : Win N) : List (Op N) → Option (Win N × List (Ret N))
  | [] => some (w, [])
  | o :: os => match w.op o with
    | none => none
    | some (w', r) => (w'.ops os).map (fun x => (x.1, r :: x.2))

/-- the window holds the list -/
def Shows (w : Win N) (l : List N) : Prop := w.len = l.length ∧ ∀ i : Nat, i < l.length → w.cell (w.lo + i) = l[i]?

theorem shows_append (w : Win N) (l : List N) (h : Shows w l) (o : N) :
    Shows ⟨w.lo, w.len + 1, setCell w.cell (w.lo + w.len) o⟩ (l ++ [o]) := by
  obtain ⟨h1, h2⟩ := h
  refine ⟨by simp [h1], fun i hi => ?_⟩
  simp only [setCell, h1]
  rw [List.length_append, List.length_singleton] at hi
  by_cases hl : i = l.length
  · subst hl; rw [if_pos rfl]; simp
  · rw [if_neg (by omega), h2 i (by omega), List.getElem?_append_left (by omega)]

theorem shows_appendLeft (w : Win N) (l : List N) (h : Shows w l) (o : N) :
    Shows ⟨w.lo - 1, w.len + 1, setCell w.cell (w.lo - 1) o⟩ (o :: l) := by
  obtain ⟨h1, h2⟩ := h
  refine ⟨by simp [h1], fun i hi => ?_⟩
  simp only [setCell]
  cases i with
  | zero => simp
  | succ i =>
    rw [if_neg (by omega), List.getElem?_cons_succ, ← h2 i (by simpa using hi)]
    congr 1; omega

theorem shows_dropLast (w : Win N) (l : List N) (h : Shows w l) : Shows ⟨w.lo, w.len - 1, w.cell⟩ l.dropLast := by
  obtain ⟨h1, h2⟩ := h
  refine ⟨by simp [h1], fun i hi => ?_⟩
  rw [List.length_dropLast] at hi
  rw [h2 i (by omega), List.getElem?_dropLast, if_pos hi]

theorem shows_tail (w : Win N) (n : N) (l : List N) (h : Shows w (n :: l)) : Shows ⟨w.lo + 1, w.len - 1, w.cell⟩ l := by
  obtain ⟨h1, h2⟩ := h
  refine ⟨by simp [h1], fun i hi => ?_⟩
  have := h2 (i + 1) (by simpa using hi)
  rw [List.getElem?_cons_succ] at this
  rw [← this]
  simp only
  congr 1; omega

theorem getLast?_shows (w : Win N) (l : List N) (h : Shows w l) (hn : l ≠ []) : w.cell (w.lo + w.len - 1) = l.getLast? := by
  have hp := List.length_pos_iff.2 hn
  rw [List.getLast?_eq_getElem?, ← h.2 (l.length - 1) (by omega), h.1]
  congr 1; omega

/-- one call against the window -/
theorem call_sim (w : Win N) (l : List N) (h : Shows w l) (o : Op N) :
    match w.op o with
    | some (w', r) => ∃ l', (⟨l, .free⟩ : Q N).call o = (⟨l', .free⟩, r) ∧ Shows w' l'
    | none => l = [] ∧ ((⟨l, .free⟩ : Q N).call o).2 = .panic ∧ ((⟨l, .free⟩ : Q N).call o).1.lock ≠ .free := by
  have hlen := h.1
  cases o with
  | append o => exact ⟨l ++ [o], rfl, shows_append w l h o⟩
  | appendLeft o => exact ⟨o :: l, rfl, shows_appendLeft w l h o⟩
  | clear => exact ⟨[], rfl, ⟨rfl, fun i hi => by simp at hi⟩⟩
  | size => exact ⟨l, by simp only [Q.call, Q.acquireR, Q.releaseR, hlen], h⟩
  | pop =>
    by_cases hn : l = []
    · subst hn
      simp only [List.length_nil] at hlen
      simp only [Win.op, hlen, if_true]
      exact ⟨trivial, rfl, fun h => by cases h⟩
    · have hp := List.length_pos_iff.2 hn
      obtain ⟨n, hl⟩ : ∃ n, l.getLast? = some n := ⟨_, List.getLast?_eq_some_getLast hn⟩
      simp only [Win.op, show ¬ w.len = 0 by omega, if_false, getLast?_shows w l h hn, hl, Option.map_some]
      exact ⟨l.dropLast, by simp only [Q.call, Q.acquire, hl, Q.release], shows_dropLast w l h⟩
  | popLeft =>
    cases l with
    | nil =>
      simp only [List.length_nil] at hlen
      simp only [Win.op, hlen, if_true]
      exact ⟨trivial, rfl, fun h => by cases h⟩
    | cons n l =>
      have h0 := h.2 0 (by simp)
      simp only [Int.natCast_zero, Int.add_zero, List.getElem?_cons_zero] at h0
      simp only [Win.op, show ¬ w.len = 0 by simp [hlen], if_false, h0, Option.map_some]
      exact ⟨l, rfl, shows_tail w n l h⟩
  | first =>
    cases l with
    | nil =>
      simp only [List.length_nil] at hlen
      simp only [Win.op, hlen, if_true]
      exact ⟨trivial, rfl, fun h => by cases h⟩
    | cons n l =>
      have h0 := h.2 0 (by simp)
      simp only [Int.natCast_zero, Int.add_zero, List.getElem?_cons_zero] at h0
      simp only [Win.op, show ¬ w.len = 0 by simp [hlen], if_false, h0, Option.map_some]
      exact ⟨n :: l, rfl, h⟩
  | last =>
    by_cases hn : l = []
    · subst hn
      simp only [List.length_nil] at hlen
      simp only [Win.op, hlen, if_true]
      exact ⟨trivial, rfl, fun h => by cases h⟩
    · have hp := List.length_pos_iff.2 hn
      obtain ⟨n, hl⟩ : ∃ n, l.getLast? = some n := ⟨_, List.getLast?_eq_some_getLast hn⟩
      simp only [Win.op, show ¬ w.len = 0 by omega, if_false, getLast?_shows w l h hn, hl, Option.map_some]
      exact ⟨l, by simp only [Q.call, Q.acquireR, hl, Q.releaseR], h⟩

theorem run_sim (ops : List (Op N)) : ∀ (w : Win N) (l : List N), Shows w l → ∀ w' rs, w.ops ops = some (w', rs) →
    ∃ l', (⟨l, .free⟩ : Q N).run ops = (⟨l', .free⟩, rs) ∧ Shows w' l' := by
  induction ops with
  | nil => intro w l h w' rs he; cases he; exact ⟨l, rfl, h⟩
  | cons o os ih =>
    intro w l h w' rs he
    have hc := call_sim w l h o
    rw [Win.ops] at he
    cases ho : w.op o with
    | none => rw [ho] at he; cases he
    | some x =>
      obtain ⟨w1, r⟩ := x
      rw [ho] at he hc
      simp only at he hc
      obtain ⟨l1, hc, hs⟩ := hc
      cases hos : w1.ops os with
      | none => rw [hos] at he; cases he
      | some y =>
        obtain ⟨w2, rs2⟩ := y
        rw [hos, Option.map_some] at he
        simp only [Option.some.injEq, Prod.mk.injEq] at he
        obtain ⟨rfl, rfl⟩ := he
        obtain ⟨l2, h2, hs2⟩ := ih w1 l1 hs w2 rs2 hos
        refine ⟨l2, ?_, hs2⟩
        simp only [Q.run, hc, h2]

/-- **C45, partial** (missing: taking from an empty queue): as long as no operation asks an empty queue for a piece, every sequence of operations answers
like a double-ended queue and leaves the queue unlocked. -/
theorem C45_deque_partial (ops : List (Op N)) (w : Win N) (rs : List (Ret N)) (h : Win.empty.ops ops = some (w, rs)) :
    (newQueue.run ops).2 = rs ∧ (newQueue.run ops).1.lock = .free := by
  obtain ⟨l, hr, _⟩ := run_sim ops Win.empty [] ⟨rfl, fun i hi => by simp at hi⟩ w rs h
  have : newQueue.run ops = (⟨l, .free⟩, rs) := hr
  rw [this]
  exact ⟨rfl, rfl⟩

/-- **C45, the other case**: the first operation that asks an empty queue for a piece panics and leaves the queue locked. -/
theorem C45_locked (ops : List (Op N)) (w : Win N) (rs : List (Ret N)) (h : Win.empty.ops ops = some (w, rs)) (o : Op N) (ho : w.op o = none) :
    ((newQueue.run ops).1.call o).2 = .panic ∧ ((newQueue.run ops).1.call o).1.lock ≠ .free := by
  obtain ⟨l, hr, hs⟩ := run_sim ops Win.empty [] ⟨rfl, fun i hi => by simp at hi⟩ w rs h
  have he : newQueue.run ops = (⟨l, .free⟩, rs) := hr
  rw [he]
  have hc := call_sim w l hs o
  rw [ho] at hc
  exact ⟨hc.2.1, hc.2.2⟩

/-- **C45 is violated**: after a `Pop` on an empty queue (whose panic was recovered) every further call waits for ever. -/
theorem C45_refuted (o : Op N) : (newQueue.run [.pop, o]).2 = [.panic, .blocked] ∧ (newQueue.run [.popLeft, o]).2 = [.panic, .blocked] := by
  cases o <;> exact ⟨rfl, rfl⟩

/-- **C45 is violated**: after `First` or `Last` on an empty queue nothing can be added any more. -/
theorem C45_reader_refuted (o : N) : (newQueue.run [.first, .append o]).2 = [.panic, .blocked] ∧ (newQueue.run [.last, .appendLeft o]).2 = [.panic, .blocked] :=
  ⟨rfl, rfl⟩

/-- case for the partial theorem -/
example : ∃ w, (Win.empty : Win Nat).ops [.append 1, .appendLeft 2, .append 3, .first, .last, .size, .pop, .popLeft, .popLeft, .size] =
    some (w, [.unit, .unit, .unit, .node 2, .node 3, .num 3, .node 3, .node 2, .node 1, .num 0]) := ⟨_, rfl⟩

end Verif.Queue
