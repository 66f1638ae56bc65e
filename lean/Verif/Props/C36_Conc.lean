import Mathlib.Data.List.Perm.Basic
import Mathlib.Data.List.Nodup
import Mathlib.Logic.Encodable.Basic
import Mathlib.Data.Nat.Pairing
import Verif.Model.Conc
import Verif.Lemmas.FeatureClass
import Verif.Lemmas.Frame

/-! C36 and C39: `SimplifyInstances` under every interleaving. -/

namespace Verif
namespace Conc

variable {J : Type}

/-- jobs a worker holds before and after the call of `Simplify` -/
def Worker.before : Worker J → List J
  | .busy j _ => [j]
  | _ => []
def Worker.after : Worker J → List J
  | .sending j => [j]
  | _ => []
/-- 1 if the worker has still to call `wg.Done` -/
def Worker.live : Worker J → Nat
  | .done => 0
  | _ => 1

/-- what holds in every reachable state -/
structure Pool.Inv (jobs : List J) (n0 : Int) (s : Pool J) : Prop where
  /-- every job is in one place -/
  placed : (s.feed ++ s.workers.flatMap Worker.before ++ s.ran).Perm jobs
  /-- finished calls are on their way to the main goroutine -/
  finished : (s.workers.flatMap Worker.after ++ s.out ++ s.got).Perm s.ran
  count : s.wg = ((s.workers.map Worker.live).sum : Nat)
  fed : s.streamClosed = true → s.feed = []
  left : (∃ w ∈ s.workers, w.live = 0) → s.streamClosed = true
  closer : s.closerWaiting = !s.outClosed
  closed : s.outClosed = true → s.wg = 0
  gone : s.returned = true → s.outClosed = true ∧ s.out = []
  ids : ∀ x ∈ s.taken, n0 ≤ x.2 ∧ x.2 < s.next
  nodup : (s.taken.map Prod.snd).Nodup
  source : s.next = n0 + s.taken.length

theorem Pool.Inv.init (c : Nat) (jobs : List J) (n0 : Int) : (Pool.init c jobs n0).Inv jobs n0 := by
  have h1 : (List.replicate c (Worker.unborn (J := J))).flatMap Worker.before = [] := by
    rw [List.flatMap_eq_nil_iff]; intro w hw; rw [List.eq_of_mem_replicate hw]; rfl
  have h2 : (List.replicate c (Worker.unborn (J := J))).flatMap Worker.after = [] := by
    rw [List.flatMap_eq_nil_iff]; intro w hw; rw [List.eq_of_mem_replicate hw]; rfl
  refine ⟨by simp [Pool.init, h1], by simp [Pool.init, h2], by simp [Pool.init, Worker.live], by simp [Pool.init], ?_, rfl, by simp [Pool.init],
    by simp [Pool.init], by simp [Pool.init], by simp [Pool.init], by simp [Pool.init]⟩
  rintro ⟨w, hw, h0⟩
  rw [List.eq_of_mem_replicate hw] at h0; cases h0

section
variable {cap : Nat} {need : J → Nat} {jobs : List J} {n0 : Int}

/-- no worker is waiting to send once all are done -/
theorem sum_live_zero {l : List (Worker J)} (h : (l.map Worker.live).sum = 0) : ∀ w ∈ l, w = .done := by
  intro w hw
  obtain ⟨pre, post, rfl⟩ := List.append_of_mem hw
  simp only [List.map_append, List.map_cons, List.sum_append, List.sum_cons] at h
  cases w <;> first | rfl | (simp only [Worker.live] at h; omega)

theorem sum_live_pos {l : List (Worker J)} (h : (l.map Worker.live).sum ≠ 0) : ∃ w ∈ l, w.live ≠ 0 := by
  induction l with
  | nil => simp at h
  | cons w l ih =>
    by_cases hw : w.live = 0
    · obtain ⟨v, hv, h'⟩ := ih (by simp only [List.map_cons, List.sum_cons, hw] at h; omega)
      exact ⟨v, List.mem_cons_of_mem _ hv, h'⟩
    · exact ⟨w, by simp, hw⟩

theorem Pool.Inv.step {s : Pool J} {r : Next (Pool J)} (hi : s.Inv jobs n0) (hs : Pool.Step cap need s r) : ∃ t, r = .to t ∧ t.Inv jobs n0 := by
  obtain ⟨placed, finished, count, fed, left, closer, closed, gone, ids, nodup, source⟩ := hi
  have dead : ∀ pre post w, s.workers = pre ++ w :: post → w ≠ .done → s.outClosed = true → False := by
    intro pre post w hw hne hc
    have := closed hc
    rw [count] at this
    exact hne (sum_live_zero (by exact_mod_cast this) w (by rw [hw]; simp))
  cases hs with
  | spawn pre post hw =>
    rw [hw] at placed finished count left
    refine ⟨_, rfl, ?_, ?_, ?_, fed, ?_, closer, closed, gone, ids, nodup, source⟩
    · simpa [Worker.before] using placed
    · simpa [Worker.after] using finished
    · simpa [Worker.live] using count
    · intro ⟨w, h1, h2⟩
      refine left ⟨w, ?_, h2⟩
      simp only [List.mem_append, List.mem_cons] at h1 ⊢
      rcases h1 with h1 | rfl | h1
      · exact .inl h1
      · cases h2
      · exact .inr (.inr h1)
  | hand pre post j rest hw hf hc =>
    rw [hw, hf] at placed
    rw [hw] at finished count left
    refine ⟨_, rfl, ?_, ?_, ?_, ?_, ?_, closer, closed, gone, ids, nodup, source⟩
    · refine List.Perm.trans ?_ placed
      simp only [Worker.before, List.flatMap_append, List.flatMap_cons, List.cons_append, List.nil_append, List.append_assoc]
      refine List.Perm.trans (List.Perm.append_left rest ?_) List.perm_middle
      exact List.perm_middle
    · simpa [Worker.after] using finished
    · simpa [Worker.live] using count
    · intro h; rw [hc] at h; cases h
    · intro ⟨w, h1, h2⟩
      refine left ⟨w, ?_, h2⟩
      simp only [List.mem_append, List.mem_cons] at h1 ⊢
      rcases h1 with h1 | rfl | h1
      · exact .inl h1
      · cases h2
      · exact .inr (.inr h1)
  | closeStream hf hc =>
    exact ⟨_, rfl, placed, finished, count, fun _ => hf, fun _ => rfl, closer, closed, gone, ids, nodup, source⟩
  | take pre post j l hw =>
    rw [hw] at placed finished count left
    refine ⟨_, rfl, ?_, ?_, ?_, fed, ?_, closer, closed, gone, ?_, ?_, ?_⟩
    · simpa [Worker.before] using placed
    · simpa [Worker.after] using finished
    · simpa [Worker.live] using count
    · intro ⟨w, h1, h2⟩
      simp only [List.mem_append, List.mem_cons] at h1
      rcases h1 with h1 | rfl | h1
      · exact left ⟨w, by simp [h1], h2⟩
      · cases h2
      · exact left ⟨w, by simp [h1], h2⟩
    · intro x hx
      rcases List.mem_cons.1 hx with rfl | hx
      · exact ⟨by simp only [source]; omega, Int.lt_succ _⟩
      · have := ids x hx; exact ⟨this.1, by show x.2 < s.next + 1; omega⟩
    · simp only [List.map_cons, List.nodup_cons]
      refine ⟨fun hm => ?_, nodup⟩
      obtain ⟨x, hx, he⟩ := List.mem_map.1 hm
      have := ids x hx
      omega
    · simp only [List.length_cons, source]; push_cast; omega
  | finish pre post j l hw =>
    rw [hw] at placed finished count left
    refine ⟨_, rfl, ?_, ?_, ?_, fed, ?_, closer, closed, gone, ids, nodup, source⟩
    · refine List.Perm.trans ?_ placed
      simp only [Worker.before, List.flatMap_append, List.flatMap_cons, List.cons_append, List.nil_append, List.append_assoc]
      refine List.Perm.append_left _ (List.Perm.append_left _ ?_)
      exact List.perm_middle
    · simp only [Worker.after, List.flatMap_append, List.flatMap_cons, List.cons_append, List.nil_append, List.append_assoc] at finished ⊢
      exact List.perm_middle.trans (List.Perm.cons j finished)
    · simpa [Worker.live] using count
    · intro ⟨w, h1, h2⟩
      simp only [List.mem_append, List.mem_cons] at h1
      rcases h1 with h1 | rfl | h1
      · exact left ⟨w, by simp [h1], h2⟩
      · cases h2
      · exact left ⟨w, by simp [h1], h2⟩
  | send pre post j hw hc hl =>
    rw [hw] at placed finished count left
    refine ⟨_, rfl, ?_, ?_, ?_, fed, ?_, closer, closed, ?_, ids, nodup, source⟩
    · simpa [Worker.before] using placed
    · refine List.Perm.trans ?_ finished
      simp only [Worker.after, List.flatMap_append, List.flatMap_cons, List.cons_append, List.nil_append, List.append_assoc]
      refine List.Perm.append_left _ ?_
      refine (List.Perm.append_left _ List.perm_middle).trans List.perm_middle
    · simpa [Worker.live] using count
    · intro ⟨w, h1, h2⟩
      simp only [List.mem_append, List.mem_cons] at h1
      rcases h1 with h1 | rfl | h1
      · exact left ⟨w, by simp [h1], h2⟩
      · cases h2
      · exact left ⟨w, by simp [h1], h2⟩
    · intro hr; have := (gone hr).1; rw [hc] at this; cases this
  | sendClosed pre post j hw hc => exact (dead pre post _ hw (by simp) hc).elim
  | leave pre post hw hc hg =>
    rw [hw] at placed finished count left
    refine ⟨_, rfl, ?_, ?_, ?_, fed, fun _ => hc, closer, ?_, gone, ids, nodup, source⟩
    · simpa [Worker.before] using placed
    · simpa [Worker.after] using finished
    · simp only [List.map_append, List.map_cons, List.sum_append, List.sum_cons, Worker.live] at count ⊢
      rw [count]; push_cast; omega
    · intro h; exact (dead pre post _ hw (by simp) h).elim
  | leaveNegative pre post hw hc hg =>
    exfalso
    rw [hw] at count
    simp only [List.map_append, List.map_cons, List.sum_append, List.sum_cons, Worker.live] at count
    omega
  | close hw h0 hc => exact ⟨_, rfl, placed, finished, count, fed, left, rfl, fun _ => h0, fun h => absurd (gone h).1 (by rw [hc]; simp), ids, nodup, source⟩
  | closeClosed hw h0 hc => rw [closer, hc] at hw; cases hw
  | receive j rest hr ho =>
    rw [ho] at finished
    refine ⟨_, rfl, placed, ?_, count, fed, left, closer, closed, fun h => ?_, ids, nodup, source⟩
    · refine List.Perm.trans ?_ finished
      simp only [List.append_assoc, List.cons_append]
      exact List.Perm.append_left _ List.perm_middle
    · have h : s.returned = true := h
      rw [hr] at h; cases h
  | ret hr ho hc => exact ⟨_, rfl, placed, finished, count, fed, left, closer, closed, fun _ => ⟨hc, ho⟩, ids, nodup, source⟩

theorem Pool.Inv.run {n : Nat} {s t : Pool J} (hr : Run (Pool.Step cap need) n s t) (hi : s.Inv jobs n0) : t.Inv jobs n0 := by
  induction hr with
  | nil s => exact hi
  | snoc h1 h2 ih =>
    obtain ⟨t, e, h⟩ := (ih hi).step h2
    cases e
    exact h

/-- C36, no panic: no interleaving sends on a closed channel, closes a channel twice or makes the wait group negative -/
theorem C36_never_crashes {c n : Nat} {s : Pool J} (hr : Run (Pool.Step cap need) n (Pool.init c jobs n0) s) : ¬ Pool.Step cap need s .crash := by
  intro h
  obtain ⟨t, e, -⟩ := (Pool.Inv.run hr (.init c jobs n0)).step h
  cases e

/-- C36, no deadlock: as long as the call has not returned, some goroutine can make a step -/
theorem C36_no_deadlock (hcap : 0 < cap) {c n : Nat} {s : Pool J} (hr : Run (Pool.Step cap need) n (Pool.init c jobs n0) s) (hn : s.returned = false) :
    ∃ t, Pool.Step cap need s (.to t) := by
  have hi := Pool.Inv.run hr (.init c jobs n0)
  cases ho : s.out with
  | cons j rest => exact ⟨_, .receive s j rest hn ho⟩
  | nil =>
    cases hc : s.outClosed with
    | true => exact ⟨_, .ret s hn ho hc⟩
    | false =>
      by_cases hg : s.wg = 0
      · exact ⟨_, .close s (by rw [hi.closer, hc]; rfl) hg hc⟩
      · obtain ⟨w, hw, hl⟩ := sum_live_pos (l := s.workers) (fun h0 => hg (by rw [hi.count, h0]; rfl))
        obtain ⟨pre, post, e⟩ := List.append_of_mem hw
        cases w with
        | unborn => exact ⟨_, .spawn s pre post e⟩
        | idle =>
          cases hs : s.streamClosed with
          | true =>
            have := hi.count
            exact ⟨_, .leave s pre post e hs (by omega)⟩
          | false =>
            cases hf : s.feed with
            | nil => exact ⟨_, .closeStream s hf hs⟩
            | cons j rest => exact ⟨_, .hand s pre post j rest e hf hs⟩
        | busy j l => exact ⟨_, .finish s pre post j l e⟩
        | sending j => exact ⟨_, .send s pre post j e hc (by rw [ho]; exact hcap)⟩
        | done => exact absurd rfl hl

/-- work left of a worker -/
def Worker.todo : Worker J → Nat
  | .unborn => 2
  | .idle => 1
  | .busy _ l => 4 + l
  | .sending _ => 3
  | .done => 0

/-- an upper bound on the number of steps left -/
def Pool.todo (need : J → Nat) (s : Pool J) : Nat :=
  (s.feed.map (fun j => 4 + need j)).sum + (if s.streamClosed then 0 else 1) + (s.workers.map Worker.todo).sum + s.out.length +
    (if s.closerWaiting then 1 else 0) + (if s.returned then 0 else 1)

theorem Pool.Step.todo {s t : Pool J} (h : Pool.Step cap need s (.to t)) : t.todo need < s.todo need := by
  cases h with
  | spawn pre post hw => simp only [Pool.todo, hw, List.map_append, List.map_cons, List.sum_append, List.sum_cons, Worker.todo]; omega
  | hand pre post j rest hw hf hc =>
    simp only [Pool.todo, hw, hf, List.map_append, List.map_cons, List.sum_append, List.sum_cons, Worker.todo]; omega
  | closeStream hf hc => simp only [Pool.todo, hc, Bool.false_eq_true, if_true, if_false]; omega
  | take pre post j l hw => simp only [Pool.todo, hw, List.map_append, List.map_cons, List.sum_append, List.sum_cons, Worker.todo]; omega
  | finish pre post j l hw => simp only [Pool.todo, hw, List.map_append, List.map_cons, List.sum_append, List.sum_cons, Worker.todo]; omega
  | send pre post j hw hc hl =>
    simp only [Pool.todo, hw, List.map_append, List.map_cons, List.sum_append, List.sum_cons, Worker.todo, List.length_append, List.length_cons, List.length_nil]
    omega
  | leave pre post hw hc hg => simp only [Pool.todo, hw, List.map_append, List.map_cons, List.sum_append, List.sum_cons, Worker.todo]; omega
  | close hw h0 hc => simp only [Pool.todo, hw, Bool.false_eq_true, if_true, if_false]; omega
  | receive j rest hr ho => simp only [Pool.todo, ho, List.length_cons]; omega
  | ret hr ho hc => simp only [Pool.todo, hr, Bool.false_eq_true, if_true, if_false]; omega

theorem Run.todo {n : Nat} {s t : Pool J} (h : Run (Pool.Step cap need) n s t) : n + t.todo need ≤ s.todo need := by
  induction h with
  | nil s => omega
  | snoc _ h2 ih => have := h2.todo; omega

/-- C36, the call ends: every run is finite, with a bound on its length that depends only on the jobs and the number of workers.
With `C36_no_deadlock` every run that cannot be extended has returned. -/
theorem C36_terminates {c n : Nat} {s : Pool J} (hr : Run (Pool.Step cap need) n (Pool.init c jobs n0) s) :
    n ≤ (jobs.map (fun j => 4 + need j)).sum + 2 * c + 3 := by
  have := Run.todo hr
  have h : (Pool.init c jobs n0).todo need = (jobs.map (fun j => 4 + need j)).sum + 2 * c + 3 := by
    simp only [Pool.todo, Pool.init, Bool.false_eq_true, if_false, if_true, List.map_replicate, Worker.todo, List.sum_replicate_nat, List.length_nil]
    omega
  omega

/-- C36: a run that cannot be continued has returned -/
theorem C36_returns (hcap : 0 < cap) {c n : Nat} {s : Pool J} (hr : Run (Pool.Step cap need) n (Pool.init c jobs n0) s)
    (hstop : ∀ t, ¬ Pool.Step cap need s (.to t)) : s.returned = true := by
  cases h : s.returned with
  | true => rfl
  | false =>
    obtain ⟨t, ht⟩ := C36_no_deadlock hcap hr h
    exact absurd ht (hstop t)

/-- every run can be continued until the call returns (so the theorems about returned states are not vacuous) -/
theorem C36_completes (hcap : 0 < cap) {c n : Nat} {s : Pool J} (hr : Run (Pool.Step cap need) n (Pool.init c jobs n0) s) :
    ∃ m t, Run (Pool.Step cap need) (n + m) (Pool.init c jobs n0) t ∧ t.returned = true := by
  cases h : s.returned with
  | true => exact ⟨0, s, hr, h⟩
  | false =>
    obtain ⟨t, ht⟩ := C36_no_deadlock hcap hr h
    have := ht.todo
    obtain ⟨m, u, h1, h2⟩ := C36_completes hcap (hr.snoc ht)
    exact ⟨1 + m, u, by rw [← Nat.add_assoc]; exact h1, h2⟩
  termination_by s.todo need

/-- C36: when the call has returned, every job has been run exactly once and no worker is left -/
theorem C36_exactly_once {c n : Nat} (hcpos : 0 < c) {s : Pool J} (hr : Run (Pool.Step cap need) n (Pool.init c jobs n0) s) (h : s.returned = true) :
    s.ran.Perm jobs ∧ s.got.Perm jobs ∧ ∀ w ∈ s.workers, w = .done := by
  have hi := Pool.Inv.run hr (.init c jobs n0)
  obtain ⟨h1, h2⟩ := hi.gone h
  have h3 := hi.closed h1
  rw [hi.count] at h3
  have hd := sum_live_zero (l := s.workers) (by exact_mod_cast h3)
  have hlen : s.workers.length = c := by
    have : ∀ {n : Nat} {s t : Pool J}, Run (Pool.Step cap need) n s t → t.workers.length = s.workers.length := by
      intro n s t hr
      induction hr with
      | nil s => rfl
      | snoc _ h2 ih => rw [← ih]; cases h2 <;> simp_all
    rw [this hr]; simp [Pool.init]
  have hne : s.workers ≠ [] := fun h0 => by rw [h0] at hlen; simp at hlen; omega
  obtain ⟨w, hw⟩ := List.exists_mem_of_ne_nil _ hne
  have hsc := hi.left ⟨w, hw, by rw [hd w hw]; rfl⟩
  have hb : s.workers.flatMap Worker.before = [] := by rw [List.flatMap_eq_nil_iff]; intro w hw; rw [hd w hw]; rfl
  have ha : s.workers.flatMap Worker.after = [] := by rw [List.flatMap_eq_nil_iff]; intro w hw; rw [hd w hw]; rfl
  have p1 := hi.placed
  have p2 := hi.finished
  rw [hb, hi.fed hsc] at p1
  rw [ha, h2] at p2
  simp only [List.append_nil, List.nil_append] at p1 p2
  exact ⟨p1, p2.trans p1, hd⟩

/-- C36, while running: no job is run twice -/
theorem C36_at_most_once {c n : Nat} (hnd : jobs.Nodup) {s : Pool J} (hr : Run (Pool.Step cap need) n (Pool.init c jobs n0) s) : s.ran.Nodup := by
  have := (Pool.Inv.run hr (.init c jobs n0)).placed.nodup_iff.2 hnd
  exact (List.nodup_append.1 this).2.1

/-- C39: the identifiers handed out to all jobs are different, and they are exactly the values of the source passed so far -/
theorem C39_unique {c n : Nat} {s : Pool J} (hr : Run (Pool.Step cap need) n (Pool.init c jobs n0) s) :
    (s.taken.map Prod.snd).Nodup ∧ ∀ i : Int, i ∈ s.taken.map Prod.snd ↔ n0 ≤ i ∧ i < s.next := by
  have hi := Pool.Inv.run hr (.init c jobs n0)
  refine ⟨hi.nodup, fun i => ⟨fun h => ?_, fun h => ?_⟩⟩
  · obtain ⟨x, hx, rfl⟩ := List.mem_map.1 h
    exact hi.ids x hx
  · have hsub : s.taken.map Prod.snd ⊆ (List.range s.taken.length).map (fun k : Nat => n0 + (k : Int)) := by
      intro j hj
      obtain ⟨x, hx, rfl⟩ := List.mem_map.1 hj
      have := hi.ids x hx
      have := hi.source
      exact List.mem_map.2 ⟨(x.2 - n0).toNat, List.mem_range.2 (by omega), by omega⟩
    have hp := (List.subperm_of_subset hi.nodup hsub).perm_of_length_le (by simp)
    refine hp.mem_iff.2 (List.mem_map.2 ⟨(i - n0).toNat, List.mem_range.2 ?_, by omega⟩)
    have := hi.source
    omega

/-- the identifiers a job has taken, in order -/
def Pool.takenBy (s : Pool Int) (h : Int) : List Int := (s.taken.reverse.filter (fun x => x.1 = h)).map Prod.snd

/-- C39: in every interleaving the identifiers taken by the jobs are beginnings of streams as assumed for feature classes (C13, C14, C15), and the next values of
the source, taken by the joint stage, complete them -/
theorem C39_streams {need : Int → Nat} {jobs : List Int} {c n : Nat} {s : Pool Int} (hr : Run (Pool.Step cap need) n (Pool.init c jobs n0) s)
    (handles : List Int) : ∃ idsOf : Int → Nat → Int, Streams (fun k : Nat => s.next + (k : Int)) idsOf handles ∧
      ∀ (h : Int) (k : Nat) (i : Int), (s.takenBy h)[k]? = some i → idsOf h k = i := by
  have hi := Pool.Inv.run hr (.init c jobs n0)
  have hmem : ∀ (h : Int) (k : Nat) (i : Int), (s.takenBy h)[k]? = some i → (h, i) ∈ s.taken := by
    intro h k i hk
    obtain ⟨x, hx, rfl⟩ := List.mem_map.1 (List.mem_of_getElem? hk)
    have := List.mem_filter.1 hx
    have h1 : x.1 = h := by simpa using this.2
    rw [← h1]
    exact List.mem_reverse.1 this.1
  have hnd : ∀ h, (s.takenBy h).Nodup := by
    intro h
    refine List.Nodup.sublist (List.Sublist.map _ List.filter_sublist) ?_
    rw [List.map_reverse]
    exact List.nodup_reverse.2 hi.nodup
  have key : ∀ x ∈ s.taken, ∀ y ∈ s.taken, x.2 = y.2 → x = y := fun x hx y hy h => List.inj_on_of_nodup_map hi.nodup hx hy h
  have pair_inj : ∀ {a b : Int} {k l : Nat}, Nat.pair (Encodable.encode a) k = Nat.pair (Encodable.encode b) l → a = b ∧ k = l := by
    intro a b k l h
    have h1 := congrArg Nat.unpair h
    rw [Nat.unpair_pair, Nat.unpair_pair] at h1
    have := Prod.mk.inj h1
    exact ⟨Encodable.encode_injective this.1, this.2⟩
  refine ⟨fun h k => match (s.takenBy h)[k]? with | some i => i | none => n0 - 1 - (Nat.pair (Encodable.encode h) k : Int), ⟨?_, ?_, ?_, ?_⟩, ?_⟩
  · intro a b h
    have : s.next + (a : Int) = s.next + (b : Int) := h
    omega
  · intro h _ k l e
    simp only at e
    cases e1 : (s.takenBy h)[k]? with
    | none =>
      cases e2 : (s.takenBy h)[l]? with
      | none => rw [e1, e2] at e; exact (pair_inj (a := h) (b := h) (by simp only at e; omega)).2
      | some i => rw [e1, e2] at e; have := hi.ids _ (hmem h l i e2); simp only at e this; omega
    | some i =>
      cases e2 : (s.takenBy h)[l]? with
      | none => rw [e1, e2] at e; have := hi.ids _ (hmem h k i e1); simp only at e this; omega
      | some j =>
        rw [e1, e2] at e
        have h1 := List.getElem?_eq_some_iff.1 e1
        have h2 := List.getElem?_eq_some_iff.1 e2
        exact ((hnd h).getElem_inj_iff (hi := h1.1) (hj := h2.1)).1 (by rw [h1.2, h2.2]; exact e)
  · intro a _ b _ hab k l e
    cases e1 : (s.takenBy a)[k]? with
    | none =>
      cases e2 : (s.takenBy b)[l]? with
      | none => rw [e1, e2] at e; exact hab (pair_inj (k := k) (l := l) (by simp only at e; omega)).1
      | some i => rw [e1, e2] at e; have := hi.ids _ (hmem b l i e2); simp only at e this; omega
    | some i =>
      cases e2 : (s.takenBy b)[l]? with
      | none => rw [e1, e2] at e; have := hi.ids _ (hmem a k i e1); simp only at e this; omega
      | some j =>
        rw [e1, e2] at e
        exact hab (Prod.mk.inj (key _ (hmem a k i e1) _ (hmem b l j e2) e)).1
  · intro a _ k l e
    have hn := hi.source
    cases e1 : (s.takenBy a)[k]? with
    | none => rw [e1] at e; simp only at e; omega
    | some i => rw [e1] at e; have := hi.ids _ (hmem a k i e1); simp only at e this; omega
  · intro h k i hk
    simp only [hk]

end

/-- C36: the call of `Simplify` on one polyline reads no state of another polyline and writes only its own, so the order in which the workers run the calls does
not matter: every polyline gets the result it would get alone -/
theorem C36_independent {P C B K : Type} [LinearOrder B] [BoundedOrder B] [LinearOrder K] {env : Env P C B K} {pts : Int → List P} {idsOf : Int → Nat → Int}
    {js : List (Int × Int)} (he : EnvOK env) (hl : LnrOK env.lnr) {fuel : Nat} {handles : List Int} {d d' : Int → Bool} {outs : List (Int × Out P C B)}
    (hh : ∀ h ∈ handles, InstOK env h (pts h) ∧ Function.Injective (idsOf h) ∧ ∀ i ∈ junctionsOf js (env.inst h).id, 0 ≤ i ∧ i < (pts h).length)
    (hr : simplifyInstances env idsOf js fuel handles d = .ok (outs, d')) :
    outs.map Prod.fst = handles ∧ ∀ x ∈ outs, ∀ d2, simplify env (idsOf x.1) x.1 (junctionsOf js (env.inst x.1).id) d2 fuel = .ok (x.2, markClean d2 x.1) :=
  simplifyInstances_alone he hl hh hr

/-! Concrete case: two polylines, one worker and channel capacity 2; the run below takes identifiers for both, and every run of this system returns. -/

example : ∃ n s, Run (Pool.Step 2 (fun _ : Int => 3)) n (Pool.init 1 [10, 20] 7) s ∧ s.returned = true ∧ s.ran.Perm [10, 20] := by
  obtain ⟨m, t, h1, h2⟩ := C36_completes (cap := 2) (by decide) (.nil (Pool.init 1 [(10 : Int), 20] 7))
  exact ⟨_, t, h1, h2, (C36_exactly_once (by decide) h1 h2).1⟩

example : ∃ s, Run (Pool.Step 2 (fun _ : Int => 3)) 3 (Pool.init 2 [10, 20] 7) s ∧ s.taken = [(10, 7)] := by
  refine ⟨_, ((Run.nil _).snoc (.spawn _ [] [.unborn] rfl)).snoc (.hand _ [] [.unborn] 10 [20] rfl rfl rfl) |>.snoc (.take _ [] [.unborn] 10 2 rfl), rfl⟩

end Conc
end Verif
