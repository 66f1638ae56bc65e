import Verif.Model.Race

/-! The happens-before relation of a trace, and how it grows with the trace. -/

namespace Verif
namespace Conc

variable {L : Type}

/-- Specification: the edges of happens-before, as in the Go memory model: program order, the go statement before the start of the goroutine, closing a channel
before a receive that finds it closed, `Done` before the return of `Wait`.  (Go has more edges, from sends to receives; leaving them out makes the theorems
stronger.) -/
inductive Edge (tr : List (Event L)) : Nat → Nat → Prop where
  | program {i j : Nat} {e f : Event L} : i < j → tr[i]? = some e → tr[j]? = some f → e.g = f.g → Edge tr i j
  | go {i j : Nat} {g h : Gor} : i < j → tr[i]? = some ⟨g, .go h⟩ → tr[j]? = some ⟨h, .start⟩ → Edge tr i j
  | close {i j : Nat} {g h : Gor} {c : Chan} : i < j → tr[i]? = some ⟨g, .close c⟩ → tr[j]? = some ⟨h, .drained c⟩ → Edge tr i j
  | wait {i j : Nat} {g h : Gor} : i < j → tr[i]? = some ⟨g, .done⟩ → tr[j]? = some ⟨h, .wait⟩ → Edge tr i j

/-- Specification: event `i` happens before event `j`. -/
def HB (tr : List (Event L)) : Nat → Nat → Prop := Relation.TransGen (Edge tr)

/-- Specification: two accesses of one location by different goroutines, one of them a write. -/
def Conflict (e f : Event L) : Prop := e.g ≠ f.g ∧ ∃ l w w', e.op = .access w l ∧ f.op = .access w' l ∧ (w = true ∨ w' = true)

/-- Specification: no data race: conflicting accesses are ordered by happens-before. -/
def RaceFree (tr : List (Event L)) : Prop := ∀ i j e f, i < j → tr[i]? = some e → tr[j]? = some f → Conflict e f → HB tr i j

/-- what goroutine `g` knows: event `i` is one of its own or happens before one of its own -/
def Bef (tr : List (Event L)) (i : Nat) (g : Gor) : Prop := ∃ j e, tr[j]? = some e ∧ e.g = g ∧ (i = j ∨ HB tr i j)

theorem getElem?_app {A : Type} {tr : List A} {i : Nat} {e : A} (evs : List A) (h : tr[i]? = some e) : (tr ++ evs)[i]? = some e := by
  rw [List.getElem?_append_left (List.getElem?_eq_some_iff.1 h).1]; exact h

theorem getElem?_snoc {A : Type} {tr : List A} {i : Nat} {e f : A} (h : (tr ++ [e])[i]? = some f) : (i < tr.length ∧ tr[i]? = some f) ∨ (i = tr.length ∧ f = e) := by
  rcases Nat.lt_or_ge i tr.length with hi | hi
  · exact .inl ⟨hi, by rwa [List.getElem?_append_left hi] at h⟩
  · rw [List.getElem?_append_right hi] at h
    have : i - tr.length = 0 := by
      have := (List.getElem?_eq_some_iff.1 h).1
      simp only [List.length_singleton] at this
      omega
    rw [this] at h
    exact .inr ⟨by omega, (Option.some.inj h).symm⟩

theorem getElem?_last {A : Type} (tr : List A) (e : A) : (tr ++ [e])[tr.length]? = some e := by simp

theorem Edge.app {tr : List (Event L)} {i j : Nat} (evs : List (Event L)) (h : Edge tr i j) : Edge (tr ++ evs) i j := by
  cases h with
  | program h a b c => exact .program h (getElem?_app _ a) (getElem?_app _ b) c
  | go h a b => exact .go h (getElem?_app _ a) (getElem?_app _ b)
  | close h a b => exact .close h (getElem?_app _ a) (getElem?_app _ b)
  | wait h a b => exact .wait h (getElem?_app _ a) (getElem?_app _ b)

theorem HB.app {tr : List (Event L)} {i j : Nat} (evs : List (Event L)) (h : HB tr i j) : HB (tr ++ evs) i j :=
  Relation.TransGen.lift id (fun _ _ h => Edge.app evs h) _ _ h

theorem Bef.app {tr : List (Event L)} {i : Nat} {g : Gor} (evs : List (Event L)) (h : Bef tr i g) : Bef (tr ++ evs) i g := by
  obtain ⟨j, e, h1, h2, h3⟩ := h
  exact ⟨j, e, getElem?_app _ h1, h2, h3.imp_right (HB.app evs)⟩

theorem Bef.self {tr : List (Event L)} {i : Nat} {e : Event L} {g : Gor} (h : tr[i]? = some e) (hg : e.g = g) : Bef tr i g := ⟨i, e, h, hg, .inl rfl⟩

/-- what a goroutine knows happens before its next event -/
theorem Bef.next {tr : List (Event L)} {i : Nat} {e : Event L} (h : Bef tr i e.g) : HB (tr ++ [e]) i tr.length := by
  obtain ⟨j, f, h1, h2, h3⟩ := h
  have hj := (List.getElem?_eq_some_iff.1 h1).1
  have he : Edge (tr ++ [e]) j tr.length := .program hj (getElem?_app _ h1) (getElem?_last _ _) h2
  rcases h3 with rfl | h3
  · exact .single he
  · exact .tail (h3.app _) he

/-- what happens before an event with an edge to the new one is known to the goroutine of the new one -/
theorem Bef.sync {tr : List (Event L)} {i p : Nat} {e : Event L} (h : i = p ∨ HB tr i p) (he : Edge (tr ++ [e]) p tr.length) : Bef (tr ++ [e]) i e.g := by
  refine ⟨tr.length, e, getElem?_last _ _, rfl, .inr ?_⟩
  rcases h with rfl | h
  · exact .single he
  · exact .tail (h.app _) he

theorem RaceFree.snoc {tr : List (Event L)} {e : Event L} (h : RaceFree tr) (hb : ∀ i f, tr[i]? = some f → Conflict f e → Bef tr i e.g) : RaceFree (tr ++ [e]) := by
  intro i j a b hij ha hb' hc
  rcases getElem?_snoc hb' with ⟨hj, hb'⟩ | ⟨rfl, rfl⟩
  · rcases getElem?_snoc ha with ⟨_, ha⟩ | ⟨rfl, rfl⟩
    · exact (h i j a b hij ha hb' hc).app _
    · omega
  · rcases getElem?_snoc ha with ⟨_, ha⟩ | ⟨rfl, rfl⟩
    · exact (hb i a ha hc).next
    · omega

/-- an event that is no access adds no race -/
theorem RaceFree.quiet {tr : List (Event L)} {e : Event L} (h : RaceFree tr) (hq : ∀ w l, e.op ≠ .access w l) : RaceFree (tr ++ [e]) :=
  h.snoc (fun _ _ _ hc => by obtain ⟨_, l, _, w', -, h2, -⟩ := hc; exact absurd h2 (hq w' l))

end Conc
end Verif
