import Mathlib.Data.List.Perm.Basic
import Mathlib.Data.List.Nodup
import Verif.Model.Conc
import Verif.Lemmas.DeformLoop

/-! C37 and C38: the concurrent search for deformable pieces under every interleaving; the partition of the work. -/

set_option linter.unusedSectionVars false

namespace Verif
namespace Conc

/-! ### C38 -/

section
variable {A : Type} {size : Nat} {vals : List A}

theorem chunkLoop_spec (hs : 1 ≤ size) (fuel : Nat) : ∀ idx, vals.length - idx ≤ fuel → (chunkLoop size vals fuel idx).flatten = vals.drop idx ∧
    (∀ c ∈ chunkLoop size vals fuel idx, c ≠ []) ∧ (chunkLoop size vals fuel idx).length * size < vals.length - idx + size := by
  induction fuel with
  | zero =>
    intro idx h
    simp only [chunkLoop, List.flatten_nil, List.not_mem_nil, false_implies, implies_true, List.length_nil, Nat.zero_mul]
    exact ⟨(List.drop_eq_nil_of_le (by omega)).symm, trivial, by omega⟩
  | succ fuel ih =>
    intro idx h
    by_cases hi : idx < vals.length
    · have hstop : ∃ stop, (if idx + size > vals.length then vals.length else idx + size) = stop ∧ idx < stop ∧ stop ≤ vals.length ∧
          (stop = vals.length ∨ stop = idx + size) := by
        by_cases h1 : idx + size > vals.length
        · exact ⟨vals.length, by simp [h1], hi, le_refl _, .inl rfl⟩
        · exact ⟨idx + size, by simp [h1], by omega, by omega, .inr rfl⟩
      obtain ⟨stop, e, s1, s2, s3⟩ := hstop
      obtain ⟨i1, i2, i3⟩ := ih stop (by omega)
      simp only [chunkLoop, hi, if_true, e, List.flatten_cons, i1, List.mem_cons, List.length_cons]
      refine ⟨?_, ?_, ?_⟩
      · conv => rhs; rw [← List.take_append_drop (stop - idx) (vals.drop idx)]
        rw [List.drop_drop, show idx + (stop - idx) = stop by omega]
      · intro c hc
        rcases hc with rfl | hc
        · intro h0
          have := congrArg List.length h0
          rw [List.length_take, List.length_drop] at this
          simp only [List.length_nil] at this
          omega
        · exact i2 c hc
      · rw [Nat.add_mul]
        rcases s3 with s3 | s3
        · rw [s3, Nat.sub_self, Nat.zero_add] at i3
          have h0 : (chunkLoop size vals fuel vals.length).length = 0 := by
            by_contra hne
            have h1 : 1 * size ≤ (chunkLoop size vals fuel vals.length).length * size := Nat.mul_le_mul_right _ (by omega)
            omega
          rw [s3, h0]; omega
        · omega
    · simp only [chunkLoop, hi, if_false, List.flatten_nil, List.not_mem_nil, false_implies, implies_true, List.length_nil, Nat.zero_mul]
      exact ⟨(List.drop_eq_nil_of_le (by omega)).symm, trivial, by omega⟩

/-- C38.  The chunks are not empty, in order they make up the list, and there are fewer than twice as many as requested workers. -/
theorem C38_chunks (vals : List A) {c : Nat} (hc : 1 ≤ c) : (chunkTasks vals c).flatten = vals ∧ (∀ x ∈ chunkTasks vals c, x ≠ []) ∧
    (chunkTasks vals c).length < 2 * c := by
  have hs : 1 ≤ (if vals.length / c = 0 then 1 else vals.length / c) := by split <;> first | exact Nat.le_refl _ | exact Nat.one_le_iff_ne_zero.2 (by assumption)
  obtain ⟨h1, h2, h3⟩ := chunkLoop_spec (vals := vals) hs vals.length 0 (by omega)
  refine ⟨by simpa [chunkTasks] using h1, h2, ?_⟩
  show (chunkLoop _ vals vals.length 0).length < 2 * c
  have hlt : vals.length < c * (vals.length / c + 1) := Nat.lt_mul_div_succ _ (by omega)
  generalize (chunkLoop (if vals.length / c = 0 then 1 else vals.length / c) vals vals.length 0).length = L at h3 ⊢
  generalize vals.length / c = q at h3 hlt hs
  rw [Nat.mul_add] at hlt
  by_cases h0 : q = 0
  · subst h0; simp only [if_true] at h3; omega
  · simp only [h0, if_false] at h3
    by_contra hge
    have hge : 2 * c * q ≤ L * q := Nat.mul_le_mul_right _ (by omega)
    obtain ⟨a, rfl⟩ : ∃ a, q = a + 1 := ⟨q - 1, by omega⟩
    obtain ⟨b, rfl⟩ : ∃ b, c = b + 1 := ⟨c - 1, by omega⟩
    by_cases ha : a = 0
    · subst ha; omega
    · by_cases hb : b = 0
      · subst hb; omega
      · have h5 : 2 * (b + 1) * (a + 1) = (b + 1) * (a + 1) + (b + 1) * (a + 1) := by rw [Nat.mul_assoc, Nat.two_mul]
        have h6 : (b + 1) * (a + 1) = b * a + b + a + 1 := by rw [Nat.add_mul, Nat.mul_add]; omega
        have h7 : b ≤ b * a := Nat.le_mul_of_pos_right _ (by omega)
        have h8 : 1 ≤ b * a := Nat.mul_pos (by omega) (by omega)
        omega

/-- the bound is reached: 3 workers requested, 5 chunks -/
example : chunkTasks [1, 2, 3, 4, 5] 3 = [[1], [2], [3], [4], [5]] := by decide
example : chunkTasks [1, 2, 3, 4, 5, 6, 7] 3 = [[1, 2], [3, 4], [5, 6], [7]] := by decide

end

/-! ### C37 -/

variable {N : Type}

/-- pieces a worker has still to send -/
def Searcher.owed (select : N → List N) : List N × Searcher N → List N
  | (c, .unborn) => c.flatMap select
  | (_, .live todo sel) => sel ++ todo.flatMap select
  | (_, .done) => []

def Searcher.open : List N × Searcher N → Nat
  | (_, .done) => 0
  | _ => 1

structure Search.Inv (select : N → List N) (all : List N) (s : Search N) : Prop where
  placed : (s.workers.flatMap (Searcher.owed select) ++ s.out ++ s.results).Perm all
  count : s.wg = ((s.workers.map Searcher.open).sum : Nat)
  closer : s.closerWaiting = !s.outClosed
  closed : s.outClosed = true → s.wg = 0
  gone : s.returned = true → s.outClosed = true ∧ s.out = []

section
variable {cap : Nat} {select : N → List N} {all : List N} {chunks : List (List N)}

theorem Search.Inv.init (select : N → List N) (chunks : List (List N)) : (Search.init chunks).Inv select (chunks.flatten.flatMap select) := by
  refine ⟨?_, ?_, rfl, by simp [Search.init], by simp [Search.init]⟩
  · simp only [Search.init, List.append_nil]
    induction chunks with
    | nil => simp
    | cons c l ih => simpa [Searcher.owed] using List.Perm.append_left _ ih
  · simp only [Search.init, List.map_map]
    induction chunks with
    | nil => simp
    | cons c l ih =>
      simp only [List.length_cons, List.map_cons, List.sum_cons, Function.comp, Searcher.open] at ih ⊢
      push_cast at ih ⊢
      omega

theorem searcher_done {l : List (List N × Searcher N)} (h : (l.map Searcher.open).sum = 0) : ∀ w ∈ l, w.2 = .done := by
  intro w hw
  obtain ⟨pre, post, rfl⟩ := List.append_of_mem hw
  simp only [List.map_append, List.map_cons, List.sum_append, List.sum_cons] at h
  obtain ⟨c, w⟩ := w
  cases w <;> first | rfl | (simp only [Searcher.open] at h; omega)

theorem searcher_live {l : List (List N × Searcher N)} (h : (l.map Searcher.open).sum ≠ 0) : ∃ w ∈ l, Searcher.open w ≠ 0 := by
  induction l with
  | nil => simp at h
  | cons w l ih =>
    by_cases hw : Searcher.open w = 0
    · obtain ⟨v, hv, h'⟩ := ih (by simp only [List.map_cons, List.sum_cons, hw] at h; omega)
      exact ⟨v, List.mem_cons_of_mem _ hv, h'⟩
    · exact ⟨w, by simp, hw⟩

theorem Search.Inv.step {s : Search N} {r : Next (Search N)} (hi : s.Inv select all) (hs : Search.Step cap select s r) : ∃ t, r = .to t ∧ t.Inv select all := by
  obtain ⟨placed, count, closer, closed, gone⟩ := hi
  have dead : ∀ pre post (w : List N × Searcher N), s.workers = pre ++ w :: post → w.2 ≠ .done → s.outClosed = true → False := by
    intro pre post w hw hne hc
    have := closed hc
    rw [count] at this
    exact hne (searcher_done (by exact_mod_cast this) w (by rw [hw]; simp))
  cases hs with
  | spawn pre post c hw =>
    rw [hw] at placed count
    refine ⟨_, rfl, ?_, ?_, closer, closed, gone⟩
    · simpa [Searcher.owed] using placed
    · simpa [Searcher.open] using count
  | work pre post c x todo hw =>
    rw [hw] at placed count
    refine ⟨_, rfl, ?_, ?_, closer, closed, gone⟩
    · simpa [Searcher.owed] using placed
    · simpa [Searcher.open] using count
  | send pre post c todo o sel hw hc hl =>
    rw [hw] at placed count
    refine ⟨_, rfl, ?_, ?_, closer, closed, fun h => absurd (gone h).1 (by rw [hc]; simp)⟩
    · refine List.Perm.trans ?_ placed
      simp only [Searcher.owed, List.flatMap_append, List.flatMap_cons, List.cons_append, List.append_assoc, List.nil_append]
      refine List.Perm.append_left _ ?_
      refine List.Perm.trans ?_ (List.perm_middle (a := o) (l₁ := []))
      rw [List.nil_append, ← List.append_assoc, ← List.append_assoc, ← List.append_assoc]
      refine List.perm_middle.trans ?_
      simp [List.append_assoc]
    · simpa [Searcher.open] using count
  | sendClosed pre post c todo o sel hw hc => exact (dead pre post _ hw (by simp) hc).elim
  | leave pre post c hw hg =>
    rw [hw] at placed count
    refine ⟨_, rfl, ?_, ?_, closer, fun h => (dead pre post _ hw (by simp) h).elim, gone⟩
    · simpa [Searcher.owed] using placed
    · simp only [List.map_append, List.map_cons, List.sum_append, List.sum_cons, Searcher.open] at count ⊢
      rw [count]; push_cast; omega
  | leaveNegative pre post c hw hg =>
    exfalso
    rw [hw] at count
    simp only [List.map_append, List.map_cons, List.sum_append, List.sum_cons, Searcher.open] at count
    omega
  | close hw h0 hc => exact ⟨_, rfl, placed, count, rfl, fun _ => h0, fun h => absurd (gone h).1 (by rw [hc]; simp)⟩
  | closeClosed hw h0 hc => rw [closer, hc] at hw; cases hw
  | receive o rest hr ho =>
    rw [ho] at placed
    refine ⟨_, rfl, ?_, count, closer, closed, fun h => ?_⟩
    · refine List.Perm.trans ?_ placed
      simp only [List.append_assoc, List.cons_append]
      exact List.Perm.append_left _ List.perm_middle
    · have h : s.returned = true := h
      rw [hr] at h; cases h
  | ret hr ho hc => exact ⟨_, rfl, placed, count, closer, closed, fun _ => ⟨hc, ho⟩⟩

theorem Search.Inv.run {n : Nat} {s t : Search N} (hr : Run (Search.Step cap select) n s t) (hi : s.Inv select all) : t.Inv select all := by
  induction hr with
  | nil s => exact hi
  | snoc h1 h2 ih =>
    obtain ⟨t, e, h⟩ := (ih hi).step h2
    cases e
    exact h

/-- C37, no panic -/
theorem C37_never_crashes {n : Nat} {s : Search N} (hr : Run (Search.Step cap select) n (Search.init chunks) s) : ¬ Search.Step cap select s .crash := by
  intro h
  obtain ⟨t, e, -⟩ := (Search.Inv.run hr (.init select chunks)).step h
  cases e

/-- C37, no deadlock -/
theorem C37_no_deadlock (hcap : 0 < cap) {n : Nat} {s : Search N} (hr : Run (Search.Step cap select) n (Search.init chunks) s) (hn : s.returned = false) :
    ∃ t, Search.Step cap select s (.to t) := by
  have hi := Search.Inv.run hr (.init select chunks)
  cases ho : s.out with
  | cons j rest => exact ⟨_, .receive s j rest hn ho⟩
  | nil =>
    cases hc : s.outClosed with
    | true => exact ⟨_, .ret s hn ho hc⟩
    | false =>
      by_cases hg : s.wg = 0
      · exact ⟨_, .close s (by rw [hi.closer, hc]; rfl) hg hc⟩
      · obtain ⟨⟨c, w⟩, hw, hl⟩ := searcher_live (l := s.workers) (fun h0 => hg (by rw [hi.count, h0]; rfl))
        obtain ⟨pre, post, e⟩ := List.append_of_mem hw
        cases w with
        | unborn => exact ⟨_, .spawn s pre post c e⟩
        | done => exact absurd rfl hl
        | live todo sel =>
          cases sel with
          | cons o sel => exact ⟨_, .send s pre post c todo o sel e hc (by rw [ho]; exact hcap)⟩
          | nil =>
            cases todo with
            | cons x todo => exact ⟨_, .work s pre post c x todo e⟩
            | nil =>
              have := hi.count
              exact ⟨_, .leave s pre post c e (by omega)⟩

/-- steps left for one worker -/
def Searcher.todo (select : N → List N) : List N × Searcher N → Nat
  | (c, .unborn) => 2 + (c.map (fun x => 1 + 2 * (select x).length)).sum
  | (_, .live todo sel) => 1 + 2 * sel.length + (todo.map (fun x => 1 + 2 * (select x).length)).sum
  | (_, .done) => 0

def Search.todo (select : N → List N) (s : Search N) : Nat :=
  (s.workers.map (Searcher.todo select)).sum + s.out.length + (if s.closerWaiting then 1 else 0) + (if s.returned then 0 else 1)

theorem Search.Step.todo {s t : Search N} (h : Search.Step cap select s (.to t)) : t.todo select < s.todo select := by
  cases h with
  | spawn pre post c hw =>
    simp only [Search.todo, hw, List.map_append, List.map_cons, List.sum_append, List.sum_cons, Searcher.todo, List.length_nil]; omega
  | work pre post c x todo hw =>
    simp only [Search.todo, hw, List.map_append, List.map_cons, List.sum_append, List.sum_cons, Searcher.todo, List.length_nil]; omega
  | send pre post c todo o sel hw hc hl =>
    simp only [Search.todo, hw, List.map_append, List.map_cons, List.sum_append, List.sum_cons, Searcher.todo, List.length_append, List.length_cons,
      List.length_nil]
    omega
  | leave pre post c hw hg =>
    simp only [Search.todo, hw, List.map_append, List.map_cons, List.sum_append, List.sum_cons, Searcher.todo, List.length_nil, List.map_nil, List.sum_nil]; omega
  | close hw h0 hc => simp only [Search.todo, hw, Bool.false_eq_true, if_true, if_false]; omega
  | receive j rest hr ho => simp only [Search.todo, ho, List.length_cons]; omega
  | ret hr ho hc => simp only [Search.todo, hr, Bool.false_eq_true, if_true, if_false]; omega

/-- C37: every run is finite -/
theorem C37_terminates {n : Nat} {s : Search N} (hr : Run (Search.Step cap select) n (Search.init chunks) s) :
    n + s.todo select ≤ (Search.init chunks).todo select := by
  generalize Search.init chunks = s0 at hr ⊢
  induction hr with
  | nil s => omega
  | snoc _ h2 ih => have := h2.todo; omega

/-- C37: a run that cannot be continued has returned -/
theorem C37_returns (hcap : 0 < cap) {n : Nat} {s : Search N} (hr : Run (Search.Step cap select) n (Search.init chunks) s)
    (hstop : ∀ t, ¬ Search.Step cap select s (.to t)) : s.returned = true := by
  cases h : s.returned with
  | true => rfl
  | false =>
    obtain ⟨t, ht⟩ := C37_no_deadlock hcap hr h
    exact absurd ht (hstop t)

/-- every run can be continued until the call returns -/
theorem C37_completes (hcap : 0 < cap) {n : Nat} {s : Search N} (hr : Run (Search.Step cap select) n (Search.init chunks) s) :
    ∃ m t, Run (Search.Step cap select) (n + m) (Search.init chunks) t ∧ t.returned = true := by
  cases h : s.returned with
  | true => exact ⟨0, s, hr, h⟩
  | false =>
    obtain ⟨t, ht⟩ := C37_no_deadlock hcap hr h
    have := ht.todo
    obtain ⟨m, u, h1, h2⟩ := C37_completes hcap (hr.snoc ht)
    exact ⟨1 + m, u, by rw [← Nat.add_assoc]; exact h1, h2⟩
  termination_by s.todo select

/-- C37: whatever the schedule, the channel delivers exactly the selections of all pieces, and the channel is closed only after all workers finished -/
theorem C37_results {n : Nat} {s : Search N} (hr : Run (Search.Step cap select) n (Search.init chunks) s) :
    (s.outClosed = true → ∀ w ∈ s.workers, w.2 = .done) ∧ (s.returned = true → s.results.Perm (chunks.flatten.flatMap select)) := by
  have hi := Search.Inv.run hr (.init select chunks)
  have hd : s.outClosed = true → ∀ w ∈ s.workers, w.2 = .done := by
    intro h
    have h3 := hi.closed h
    rw [hi.count] at h3
    exact searcher_done (by exact_mod_cast h3)
  refine ⟨hd, fun h => ?_⟩
  obtain ⟨h1, h2⟩ := hi.gone h
  have p := hi.placed
  have hb : s.workers.flatMap (Searcher.owed select) = [] := by
    rw [List.flatMap_eq_nil_iff]
    intro ⟨c, w⟩ hw
    have : w = .done := hd h1 _ hw
    rw [this]; rfl
  rw [hb, h2] at p
  simpa using p

end

/-! The concurrent search computes what the model of the deformation loop uses. -/

section
variable {P C B K : Type} [LinearOrder B] [BoundedOrder B] [LinearOrder K] {env : Env P C B K}

theorem selectionsOf_flatMap {dirty : Int → Bool} {db : Db P C B} {fuel : Nat} {select : Node P C B → List (Node P C B)} {hulls : List (Node P C B)}
    (h : ∀ x ∈ hulls, hullSelections env dirty db x fuel = .ok (select x)) : selectionsOf env dirty db fuel hulls = .ok (hulls.flatMap select) := by
  induction hulls with
  | nil => rfl
  | cons x l ih =>
    simp only [selectionsOf, h x (by simp), ih (fun y hy => h y (List.mem_cons_of_mem _ hy)), Res.ok_bind, Res.pure_eq, List.flatMap_cons]

/-- C37: the set of pieces returned by the concurrent search, in any schedule and for any number of workers, is the set used by the sequential model
(pieces are compared by identifier) -/
theorem C37_schedule {dirty : Int → Bool} {db : Db P C B} {fuel : Nat} {select : Node P C B → List (Node P C B)} {hulls : List (Node P C B)} {c n cap : Nat}
    (hc : 1 ≤ c) (h : ∀ x ∈ hulls, hullSelections env dirty db x fuel = .ok (select x)) {s : Search (Node P C B)}
    (hr : Run (Search.Step cap select) n (Search.init (chunkTasks hulls c)) s) (hret : s.returned = true) :
    ∃ sel, findDeformable env dirty hulls db fuel = .ok sel ∧ ∀ i, i ∈ sel.map Node.id ↔ i ∈ s.results.map Node.id := by
  have hp := (C37_results hr).2 hret
  rw [(C38_chunks hulls hc).1] at hp
  refine ⟨dedupId (hulls.flatMap select), by simp only [findDeformable, selectionsOf_flatMap h, Res.ok_bind, Res.pure_eq], fun i => ?_⟩
  obtain ⟨d1, -, d3⟩ := dedupId_spec (hulls.flatMap select)
  rw [(hp.map Node.id).mem_iff]
  simp only [List.mem_map]
  constructor
  · rintro ⟨x, hx, rfl⟩; exact ⟨x, d1 x hx, rfl⟩
  · rintro ⟨x, hx, rfl⟩
    obtain ⟨y, hy, e⟩ := d3 x hx
    exact ⟨y, hy, e⟩

end

/-- concrete case: six pieces, each selecting itself and its successor, three workers -/
example : ∃ n s, Run (Search.Step 6 (fun x : Nat => [x, x + 1])) n (Search.init (chunkTasks [1, 2, 3, 4, 5, 6] 3)) s ∧ s.returned = true ∧
    s.results.Perm [1, 2, 2, 3, 3, 4, 4, 5, 5, 6, 6, 7] := by
  obtain ⟨m, t, h1, h2⟩ := C37_completes (cap := 6) (select := fun x : Nat => [x, x + 1]) (by decide) (.nil (Search.init (chunkTasks [1, 2, 3, 4, 5, 6] 3)))
  exact ⟨_, t, h1, h2, (C37_results h1).2 h2⟩

end Conc
end Verif
