import Verif.Lemmas.PieceMem

/-! C90: the index keeps addresses into slices of pieces; what it points to is never overwritten. -/

set_option linter.unusedSectionVars false

namespace Verif.Piece

variable {α : Type}

/-- the pieces of a list of addresses, in the model of values -/
def vals (l : List (Ptr × α)) : List α := l.map Prod.snd

/-- what holds while the line of one goroutine is simplified; `mr`: the joint stage has not begun -/
def TInv (pc : Pc α) (hu bu : Option (Slice × List α)) (db seen : List (Ptr × α)) (mr : Prop) : Prop :=
  match pc with
  | .copying k => ∃ s gs d gd, hu = some (s, gs) ∧ bu = some (d, gd) ∧ gd = gs.take k
  | .emit todo => ∀ p v, Item.copy p v ∈ todo → (p, v) ∈ seen
  | .collect l => (∀ e ∈ l, e ∈ seen) ∧ ∃ s gs, hu = some (s, gs) ∧ (gs ++ vals l).Perm (vals db)
  | .done => mr → ∃ s gs, hu = some (s, gs) ∧ gs.Perm (vals db)
  | _ => True

/-- the list of an instance so far -/
def listOf (o : Option (Slice × List α)) : List α := o.elim [] Prod.snd

/-- the pieces of an instance -/
def piecesOf (inst : α → Nat) (i : Nat) (l : List α) : List α := l.filter (fun v => inst v = i)

/-- what holds in the joint stage -/
def MInv (insts : List Nat) (inst : α → Nat) (S : Sys α) : Prop :=
  match S.pc none with
  | .gathering is k => ∃ pre d gd, insts = pre ++ is ∧ S.val (.build none) = some (d, gd) ∧
      (∀ i ∈ is, ∃ s gs, S.val (.hulls i) = some (s, gs) ∧ gs.Perm (vals (S.db (some i)))) ∧
      gd.Perm (pre.flatMap (fun i => vals (S.db (some i))) ++ (is.head?.elim [] (fun i => listOf (S.val (.hulls i)))).take k)
  | .emit todo => ∀ p v, Item.copy p v ∈ todo → (p, v) ∈ S.seen none
  | .grouping l => (∀ e ∈ l, e ∈ S.seen none) ∧
      ∀ i, (listOf (S.val (.group i)) ++ piecesOf inst i (vals l)).Perm (piecesOf inst i (vals (S.db none)))
  | .refill is k => is.Nodup ∧ (∀ i ∈ is, S.val (.group i) ≠ none) ∧
      (∀ i, (listOf (S.val (.group i))).Perm (piecesOf inst i (vals (S.db none)))) ∧
      (∀ i s gs, S.val (.group i) = some (s, gs) → i ∉ is → ∃ s', S.val (.hulls i) = some (s', gs)) ∧
      (∀ n, k = some n → ∀ i, is.head? = some i → ∃ s gs s', S.val (.group i) = some (s, gs) ∧ S.val (.hulls i) = some (s', gs.take n))
  | .done => ∀ v ∈ vals (S.db none), ∃ s gs, S.val (.hulls (inst v)) = some (s, gs) ∧ gs.Perm (piecesOf inst (inst v) (vals (S.db none)))
  | _ => True

structure Inv (insts : List Nat) (inst : α → Nat) (S : Sys α) : Prop where
  mem : OK S.heap S.val S.seen
  sub : ∀ t, ∀ e ∈ S.db t, e ∈ S.seen t
  alone : S.pc none ≠ .ready → ∀ t, S.pc (some t) = .done ∨ (S.pc (some t) = .ready ∧ t ∉ insts)
  thread : ∀ t, TInv (S.pc (some t)) (S.val (.hulls t)) (S.val (.build (some t))) (S.db (some t)) (S.seen (some t)) (S.pc none = .ready)
  main : MInv insts inst S
  outside : ∀ t, t ∉ insts → S.pc (some t) = .ready

section
variable {insts : List Nat} {inst : α → Nat} {S S' : Sys α}

theorem setVal_eq (S : Sys α) (x : Slot) (o : Option (Slice × List α)) : S.setVal x o = upd S.val x o := rfl

/-- lines are simplified before the joint stage -/
theorem Inv.early (hI : Inv insts inst S) {t : Nat} (h1 : S.pc (some t) ≠ .done) (h2 : S.pc (some t) ≠ .ready ∨ t ∈ insts) : S.pc none = .ready := by
  by_contra hn
  rcases hI.alone hn t with h | ⟨h, h'⟩
  · exact h1 h
  · rcases h2 with h2 | h2
    · exact h2 h
    · exact h' h2

theorem Inv.inside (hI : Inv insts inst S) {t : Nat} (h : S.pc (some t) ≠ .ready) : t ∈ insts := by
  by_contra hn
  exact h (hI.outside t hn)

/-- a step of the goroutine of one line -/
theorem Inv.line (hI : Inv insts inst S) (t : Nat) (hin : t ∈ insts) (hr : S.pc none = .ready) (hr' : S'.pc none = .ready) (hm : OK S'.heap S'.val S'.seen)
    (hs : ∀ u, u ≠ some t → S'.db u = S.db u ∧ S'.seen u = S.seen u) (hp : ∀ u, u ≠ t → S'.pc (some u) = S.pc (some u) ∧
      S'.val (.hulls u) = S.val (.hulls u) ∧ S'.val (.build (some u)) = S.val (.build (some u)))
    (hsub : ∀ e ∈ S'.db (some t), e ∈ S'.seen (some t))
    (ht : TInv (S'.pc (some t)) (S'.val (.hulls t)) (S'.val (.build (some t))) (S'.db (some t)) (S'.seen (some t)) True) : Inv insts inst S' := by
  refine ⟨hm, fun u => ?_, fun hn => absurd hr' hn, fun u => ?_, ?_, fun u hu => ?_⟩
  · by_cases hu : u = some t
    · subst hu; exact hsub
    · rw [(hs u hu).1, (hs u hu).2]; exact hI.sub u
  · by_cases hu : u = t
    · subst hu
      simpa only [hr', eq_self_iff_true] using ht
    · have := hI.thread u
      rw [(hp u hu).1, (hp u hu).2.1, (hp u hu).2.2, (hs (some u) (by simpa using hu)).1, (hs (some u) (by simpa using hu)).2]
      simpa only [hr, hr', eq_self_iff_true] using this
  · rw [MInv, hr']; trivial
  · rw [(hp u (fun h => hu (h ▸ hin))).1]; exact hI.outside u hu

/-- a step of the joint stage -/
theorem Inv.jointly (hI : Inv insts inst S) (hr : ∀ t, S.pc (some t) = .done ∨ (S.pc (some t) = .ready ∧ t ∉ insts)) (hn : S'.pc none ≠ .ready) (hm : OK S'.heap S'.val S'.seen)
    (hp : ∀ u, S'.pc (some u) = S.pc (some u)) (hsub : ∀ u, ∀ e ∈ S'.db u, e ∈ S'.seen u) (h : MInv insts inst S') : Inv insts inst S' := by
  refine ⟨hm, hsub, fun _ t => by rw [hp]; exact hr t, fun t => ?_, h, fun t ht => by rw [hp]; exact hI.outside t ht⟩
  rw [hp]
  rcases hr t with h | ⟨h, -⟩ <;> rw [h]
  · exact fun hc => absurd hc hn
  · trivial

theorem setAt_same {β : Type} (f : Option Nat → β) (t : Option Nat) (b : β) : setAt f t b t = b := if_pos rfl

theorem setAt_other {β : Type} (f : Option Nat → β) {t u : Option Nat} (h : u ≠ t) (b : β) : setAt f t b u = f u := if_neg h

theorem upd_same (val : Slot → Option (Slice × List α)) (x : Slot) (o : Option (Slice × List α)) : upd val x o x = o := if_pos rfl

theorem upd_other (val : Slot → Option (Slice × List α)) {x y : Slot} (h : y ≠ x) (o : Option (Slice × List α)) : upd val x o y = val y := if_neg h

/-- the index after `Load` -/
theorem sub_load (hs : ∀ u, ∀ e ∈ S.db u, e ∈ S.seen u) (t : Option Nat) (l : List (Ptr × α)) :
    ∀ u, ∀ e ∈ setAt S.db t (S.db t ++ l) u, e ∈ setAt S.seen t (S.seen t ++ l) u := by
  intro u e he
  by_cases hu : u = t
  · subst hu
    rw [setAt_same] at he ⊢
    rcases List.mem_append.1 he with h | h
    · exact List.mem_append_left _ (hs _ e h)
    · exact List.mem_append_right _ h
  · rw [setAt_other _ hu] at he ⊢
    exact hs u e he

/-- the first piece of a group is one of its instance -/
theorem group_inst {h : Heap α} {val : Slot → Option (Slice × List α)} {seen : Option Nat → List (Ptr × α)} {l : List α} (ok : OK h val seen) {i : Nat} {s : Slice}
    {gs : List α} (hs : val (.group i) = some (s, gs)) (hp : (listOf (val (.group i))).Perm (piecesOf inst i l)) {w : α} (hw : h.cell s.arr 0 = some w)
    (hl : 0 < s.len) : inst w = i := by
  rw [hs] at hp
  have h1 : w ∈ gs := List.mem_of_getElem? (i := 0) (by rw [← hw, ok.reads _ _ _ hs 0 hl])
  have := hp.mem_iff.1 h1
  simpa using (List.mem_filter.1 this).2

theorem inv_step {grow : Nat → Nat} (hnd : insts.Nodup) (hI : Inv insts inst S) (hS : Step grow insts inst S S') : Inv insts inst S' := by
  cases hS with
  | decompose t h ht l extra cap =>
    have hr := hI.early (t := t) (by rw [h]; simp) (.inr ht)
    have h1 : OK _ (upd S.val (.hulls t) (some (⟨S.heap.next, l.length, l.length + extra⟩, l))) S.seen :=
      hI.mem.put (h' := { cell := fun a i => if a = S.heap.next then l[i]? else (S.heap.make (l.length + extra)).1.cell a i, next := S.heap.next + 1 })
        (by simp) (by simp) rfl (by simp) (by simp) (fun a ha _ i => by simp only at ha; simp [ha, Heap.make]) (.inl (by simp))
    refine hI.line t ht hr ?_ (h1.make (.build (some t)) cap) (fun u hu => ⟨rfl, rfl⟩) (fun u hu => ⟨?_, ?_, ?_⟩) (hI.sub _) ?_
    · simp [Sys.make, setAt, hr]
    · simp [Sys.make, setAt, hu]
    · simp [Sys.make, Sys.setVal, hu]
    · simp [Sys.make, Sys.setVal, hu]
    · simp only [Sys.make, setAt_same]
      exact ⟨_, _, _, _, (upd_other _ (by simp) _).trans (upd_same _ _ _), upd_same _ _ _, by simp⟩
  | copy t k h s d gs gd hs hd hk w hw =>
    have hr := hI.early (t := t) (by rw [h]; simp) (.inl (by rw [h]; simp))
    have hT := hI.thread t
    rw [h, hs, hd] at hT
    obtain ⟨_, _, _, _, e1, e2, e3⟩ := hT
    cases e1; cases e2
    refine hI.line t (hI.inside (by simp [h])) hr ?_ (hI.mem.append grow hd (by rw [hI.mem.reads _ _ _ hs k hk, hw])) (fun u hu => ⟨rfl, rfl⟩) (fun u hu => ⟨?_, ?_, ?_⟩) (hI.sub _) ?_
    · simp [Sys.push, setAt, hr]
    · simp [Sys.push, setAt, hu]
    · simp [Sys.push, Sys.setVal]
    · simp [Sys.push, Sys.setVal, hu]
    · simp only [Sys.push, setAt_same, setVal_eq, upd_same]
      refine ⟨_, _, _, _, (upd_other _ (by simp) _).trans hs, rfl, ?_⟩
      rw [e3, List.take_add_one, hw]; rfl
  | copied t k h s d gs gd hs hd hk =>
    have hr := hI.early (t := t) (by rw [h]; simp) (.inl (by rw [h]; simp))
    have h1 := (hI.mem.clear hs).freeze (x := .build (some t)) (s := d) (g := gd) (by rw [upd_other _ (by simp)]; exact hd) (some t)
    refine hI.line t (hI.inside (by simp [h])) hr ?_ h1 (fun u hu => ⟨?_, ?_⟩) (fun u hu => ⟨?_, ?_, ?_⟩) (sub_load hI.sub (some t) _ (some t)) ?_
    · simp [Sys.loadDb, Sys.clearHulls, setAt, hr]
    · simp [Sys.loadDb, Sys.clearHulls, setAt, hu]
    · simp [Sys.loadDb, Sys.clearHulls, setAt, hu]
    · simp [Sys.loadDb, Sys.clearHulls, setAt, hu]
    · simp [Sys.loadDb, Sys.clearHulls, Sys.setVal, hu]
    · simp [Sys.loadDb, Sys.clearHulls, Sys.setVal, hu]
    · simp only [Sys.loadDb, setAt_same]; trivial
  | remove t h db' hd =>
    have hsub : ∀ u, ∀ e ∈ setAt S.db t db' u, e ∈ S.seen u := by
      intro u e he
      by_cases hu : u = t
      · subst hu; rw [setAt_same] at he; exact hI.sub _ e (hd.subset he)
      · rw [setAt_other _ hu] at he; exact hI.sub u e he
    cases t with
    | none =>
      have hn : S.pc none ≠ .ready := by rcases h with h | ⟨_, h⟩ <;> rw [h] <;> simp
      refine hI.jointly (hI.alone hn) hn hI.mem (fun _ => rfl) hsub ?_
      have := hI.main
      rcases h with h | ⟨_, h⟩
      · simp only [MInv, h]
      · simpa only [MInv, h] using this
    | some t =>
      have hr := hI.early (t := t) (by rcases h with h | ⟨_, h⟩ <;> rw [h] <;> simp) (.inl (by rcases h with h | ⟨_, h⟩ <;> rw [h] <;> simp))
      refine hI.line t (hI.inside (by rcases h with h | ⟨_, h⟩ <;> rw [h] <;> simp)) hr hr hI.mem (fun u hu => ⟨setAt_other _ hu _, rfl⟩) (fun u hu => ⟨rfl, rfl, rfl⟩) (hsub _) ?_
      have := hI.thread t
      rcases h with h | ⟨_, h⟩
      · simp only [TInv, h]
      · simpa only [TInv, h] using this
  | begin t h todo hc cap =>
    cases t with
    | none =>
      have hn : S.pc none ≠ .ready := by rw [h]; simp
      refine hI.jointly (hI.alone hn) (by simp [Sys.make, setAt]) (hI.mem.make _ cap) (fun _ => by simp [Sys.make, setAt]) hI.sub ?_
      simp only [MInv, Sys.make, setAt_same]
      exact hc
    | some t =>
      have hr := hI.early (t := t) (by rw [h]; simp) (.inl (by rw [h]; simp))
      refine hI.line t (hI.inside (by simp [h])) hr (by simp [Sys.make, setAt, hr]) (hI.mem.make _ cap) (fun u hu => ⟨rfl, rfl⟩) (fun u hu => ⟨?_, ?_, ?_⟩) (hI.sub _) ?_
      · simp [Sys.make, setAt, hu]
      · simp [Sys.make, Sys.setVal]
      · simp [Sys.make, Sys.setVal, hu]
      · simp only [Sys.make, setAt_same]
        exact hc
  | fresh t v todo h d gd hd =>
    have hm := hI.mem.append grow hd (v := some v) rfl
    cases t with
    | none =>
      have hn : S.pc none ≠ .ready := by rw [h]; simp
      have hM := hI.main
      refine hI.jointly (hI.alone hn) (by simp [Sys.push, setAt]) hm (fun _ => by simp [Sys.push, setAt]) hI.sub ?_
      simp only [MInv, h] at hM
      simp only [MInv, Sys.push, setAt_same]
      exact fun p w hp => hM p w (List.mem_cons_of_mem _ hp)
    | some t =>
      have hr := hI.early (t := t) (by rw [h]; simp) (.inl (by rw [h]; simp))
      have hT := hI.thread t
      rw [h] at hT
      refine hI.line t (hI.inside (by simp [h])) hr (by simp [Sys.push, setAt, hr]) hm (fun u hu => ⟨rfl, rfl⟩) (fun u hu => ⟨?_, ?_, ?_⟩) (hI.sub _) ?_
      · simp [Sys.push, setAt, hu]
      · simp [Sys.push, Sys.setVal]
      · simp [Sys.push, Sys.setVal, hu]
      · simp only [Sys.push, setAt_same]
        exact fun p w hp => hT p w (List.mem_cons_of_mem _ hp)
  | again t p v todo h d gd hd =>
    have hpv : (p, v) ∈ S.seen t := by
      cases t with
      | none => have := hI.main; simp only [MInv, h] at this; exact this p v (by simp)
      | some t => have := hI.thread t; simp only [TInv, h] at this; exact this p v (by simp)
    have hm := hI.mem.append grow hd (hI.mem.kept t p v hpv)
    cases t with
    | none =>
      have hn : S.pc none ≠ .ready := by rw [h]; simp
      have hM := hI.main
      refine hI.jointly (hI.alone hn) (by simp [Sys.push, setAt]) hm (fun _ => by simp [Sys.push, setAt]) hI.sub ?_
      simp only [MInv, h] at hM
      simp only [MInv, Sys.push, setAt_same]
      exact fun p w hp => hM p w (List.mem_cons_of_mem _ hp)
    | some t =>
      have hr := hI.early (t := t) (by rw [h]; simp) (.inl (by rw [h]; simp))
      have hT := hI.thread t
      rw [h] at hT
      refine hI.line t (hI.inside (by simp [h])) hr (by simp [Sys.push, setAt, hr]) hm (fun u hu => ⟨rfl, rfl⟩) (fun u hu => ⟨?_, ?_, ?_⟩) (hI.sub _) ?_
      · simp [Sys.push, setAt, hu]
      · simp [Sys.push, Sys.setVal]
      · simp [Sys.push, Sys.setVal, hu]
      · simp only [Sys.push, setAt_same]
        exact fun p w hp => hT p w (List.mem_cons_of_mem _ hp)
  | loaded t h d gd hd =>
    have hm := hI.mem.freeze hd t
    cases t with
    | none =>
      have hn : S.pc none ≠ .ready := by rw [h]; simp
      refine hI.jointly (hI.alone hn) (by simp [Sys.loadDb, setAt]) hm (fun _ => by simp [Sys.loadDb, setAt]) (sub_load hI.sub none _) ?_
      simp only [MInv, Sys.loadDb, setAt_same]
    | some t =>
      have hr := hI.early (t := t) (by rw [h]; simp) (.inl (by rw [h]; simp))
      refine hI.line t (hI.inside (by simp [h])) hr (by simp [Sys.loadDb, setAt, hr]) hm (fun u hu => ⟨?_, ?_⟩) (fun u hu => ⟨?_, ?_, ?_⟩) (sub_load hI.sub (some t) _ (some t)) ?_
      · simp [Sys.loadDb, setAt, hu]
      · simp [Sys.loadDb, setAt, hu]
      · simp [Sys.loadDb, setAt, hu]
      · simp [Sys.loadDb, Sys.setVal]
      · simp [Sys.loadDb, Sys.setVal, hu]
      · simp only [Sys.loadDb, setAt_same]; trivial
  | all t h s gs hs l hl =>
    have hr := hI.early (t := t) (by rw [h]; simp) (.inl (by rw [h]; simp))
    refine hI.line t (hI.inside (by simp [h])) hr (by simp [setAt, hr]) (hI.mem.clear hs) (fun u hu => ⟨rfl, rfl⟩) (fun u hu => ⟨?_, ?_, ?_⟩) (hI.sub _) ?_
    · simp [setAt, hu]
    · simp [Sys.clearHulls, Sys.setVal, hu]
    · simp [Sys.clearHulls, Sys.setVal]
    · simp only [setAt_same, Sys.clearHulls, setVal_eq, upd_same]
      exact ⟨fun e he => hI.sub _ e (hl.mem_iff.1 he), _, _, rfl, by simpa [vals] using hl.map Prod.snd⟩
  | collect t p v l h s gs hs =>
    have hr := hI.early (t := t) (by rw [h]; simp) (.inl (by rw [h]; simp))
    have hT := hI.thread t
    rw [h, hs] at hT
    obtain ⟨h1, _, _, e, h2⟩ := hT
    cases e
    refine hI.line t (hI.inside (by simp [h])) hr (by simp [Sys.push, setAt, hr]) (hI.mem.append grow hs (hI.mem.kept _ p v (h1 _ (by simp)))) (fun u hu => ⟨rfl, rfl⟩)
      (fun u hu => ⟨?_, ?_, ?_⟩) (hI.sub _) ?_
    · simp [Sys.push, setAt, hu]
    · simp [Sys.push, Sys.setVal, hu]
    · simp [Sys.push, Sys.setVal]
    · simp only [Sys.push, setAt_same, setVal_eq, upd_same]
      refine ⟨fun e he => h1 e (List.mem_cons_of_mem _ he), _, _, rfl, ?_⟩
      simpa [vals] using h2
  | finish t h =>
    have hr := hI.early (t := t) (by rw [h]; simp) (.inl (by rw [h]; simp))
    have hT := hI.thread t
    rw [h] at hT
    obtain ⟨h1, s, gs, e, h2⟩ := hT
    refine hI.line t (hI.inside (by simp [h])) hr (by simp [setAt, hr]) hI.mem (fun u hu => ⟨rfl, rfl⟩) (fun u hu => ⟨?_, rfl, rfl⟩) (hI.sub _) ?_
    · simp [setAt, hu]
    · simp only [setAt_same]
      exact fun _ => ⟨s, gs, e, by simpa [vals] using h2⟩
  | joint h hd =>
    have hr : ∀ t, S.pc (some t) = .done ∨ (S.pc (some t) = .ready ∧ t ∉ insts) := by
      intro t
      by_cases ht : t ∈ insts
      · exact .inl (hd t ht)
      · exact .inr ⟨hI.outside t ht, ht⟩
    refine hI.jointly hr (by simp [Sys.make, setAt]) (hI.mem.make _ 0) (fun _ => by simp [Sys.make, setAt]) hI.sub ?_
    simp only [MInv, Sys.make, setAt_same, setVal_eq, upd_same]
    refine ⟨[], _, _, rfl, rfl, fun i hi => ?_, by simp⟩
    have := hI.thread i
    rw [hd i hi] at this
    obtain ⟨s, gs, e, hp⟩ := this h
    exact ⟨s, gs, (upd_other _ (by simp) _).trans e, hp⟩
  | gather i is k h s d gs gd hs hd hk w hw =>
    have hn : S.pc none ≠ .ready := by rw [h]; simp
    have hM := hI.main
    simp only [MInv, h] at hM
    obtain ⟨pre, _, _, e1, e2, h3, h4⟩ := hM
    rw [hd] at e2; cases e2
    refine hI.jointly (hI.alone hn) (by simp [Sys.push, setAt]) (hI.mem.append grow hd (by rw [hI.mem.reads _ _ _ hs k hk, hw]))
      (fun _ => by simp [Sys.push, setAt]) hI.sub ?_
    simp only [MInv, Sys.push, setAt_same, setVal_eq, upd_same]
    refine ⟨pre, _, _, e1, rfl, fun j hj => ?_, ?_⟩
    · obtain ⟨s', gs', e, hp⟩ := h3 j hj
      exact ⟨s', gs', (upd_other _ (by simp) _).trans e, hp⟩
    · simp only [List.head?_cons, Option.elim_some, hs, listOf] at h4 ⊢
      rw [upd_other _ (by simp), hs, Option.elim_some, List.take_add_one, hw, Option.toList_some, ← List.append_assoc]
      exact h4.append_right _
  | gathered i is k h s gs hs hk =>
    have hn : S.pc none ≠ .ready := by rw [h]; simp
    have hM := hI.main
    simp only [MInv, h] at hM
    obtain ⟨pre, d, gd, e1, e2, h3, h4⟩ := hM
    refine hI.jointly (hI.alone hn) (by simp [setAt]) (hI.mem.clear hs) (fun _ => by simp [setAt]) hI.sub ?_
    simp only [MInv, Sys.clearHulls, setAt_same, setVal_eq]
    refine ⟨pre ++ [i], d, gd, by simp [e1], (upd_other _ (by simp) _).trans e2, fun j hj => ?_, ?_⟩
    · obtain ⟨s', gs', e, hp⟩ := h3 j (List.mem_cons_of_mem _ hj)
      refine ⟨s', gs', (upd_other _ ?_ _).trans e, hp⟩
      rw [e1, List.nodup_append] at hnd
      have := (List.nodup_cons.1 hnd.2.1).1
      simp only [ne_eq, Slot.hulls.injEq]
      exact fun hji => this (hji ▸ hj)
    · obtain ⟨s', gs', e, hp⟩ := h3 i (by simp)
      rw [hs] at e; cases e
      simp only [List.head?_cons, Option.elim_some, hs, listOf] at h4
      rw [List.take_of_length_le (by rw [← (hI.mem.fits _ _ _ hs).2.1]; exact hk)] at h4
      simp only [List.take_zero, List.append_nil, List.flatMap_append, List.flatMap_cons, List.flatMap_nil]
      exact h4.trans (hp.append_left _)
  | gatherLoad k h d gd hd =>
    have hn : S.pc none ≠ .ready := by rw [h]; simp
    refine hI.jointly (hI.alone hn) (by simp [Sys.loadDb, setAt]) (hI.mem.freeze hd none) (fun _ => by simp [Sys.loadDb, setAt]) (sub_load hI.sub none _) ?_
    simp only [MInv, Sys.loadDb, setAt_same]
  | groups h l hl =>
    have hn : S.pc none ≠ .ready := by rw [h]; simp
    refine hI.jointly (hI.alone hn) (by simp [setAt]) (hI.mem.drop (fun x s g hx => ?_)) (fun _ => by simp [setAt]) hI.sub ?_
    · cases x <;> simp at hx <;> exact hx
    · simp only [MInv, setAt_same]
      exact ⟨fun e he => hI.sub _ e (hl.mem_iff.1 he), fun i => (hl.map Prod.snd).filter _⟩
  | groupNew p v l h w hw hg =>
    have hn : S.pc none ≠ .ready := by rw [h]; simp
    have hM := hI.main
    simp only [MInv, h] at hM
    refine hI.jointly (hI.alone hn) (by simp [Sys.make, setAt]) (hI.mem.make _ 0) (fun _ => by simp [Sys.make, setAt]) hI.sub ?_
    simp only [MInv, Sys.make, setAt_same, setVal_eq]
    refine ⟨hM.1, fun i => ?_⟩
    have := hM.2 i
    by_cases hi : i = inst w
    · subst hi
      rw [upd_same]
      rw [hg] at this
      exact this
    · rwa [upd_other _ (by simpa using hi)]
  | group p v l h w hw s gs hs =>
    have hn : S.pc none ≠ .ready := by rw [h]; simp
    have hM := hI.main
    simp only [MInv, h] at hM
    have hk := hI.mem.kept _ p v (hM.1 (p, v) (by simp))
    rw [hw] at hk; cases hk
    refine hI.jointly (hI.alone hn) (by simp [Sys.push, setAt]) (hI.mem.append grow hs rfl) (fun _ => by simp [Sys.push, setAt]) hI.sub ?_
    simp only [MInv, Sys.push, setAt_same, setVal_eq]
    refine ⟨fun e he => hM.1 e (List.mem_cons_of_mem _ he), fun i => ?_⟩
    have := hM.2 i
    by_cases hi : i = inst v
    · subst hi
      rw [upd_same]
      rw [hs] at this
      simpa [listOf, piecesOf, vals] using this
    · rw [upd_other _ (by simpa using hi)]
      have e : piecesOf inst i (vals ((p, v) :: l)) = piecesOf inst i (vals l) := by
        simp [piecesOf, vals, Ne.symm hi]
      rwa [e] at this
  | grouped h is hi hd =>
    have hn : S.pc none ≠ .ready := by rw [h]; simp
    have hM := hI.main
    simp only [MInv, h] at hM
    refine hI.jointly (hI.alone hn) (by simp [setAt]) hI.mem (fun _ => by simp [setAt]) hI.sub ?_
    simp only [MInv, setAt_same]
    refine ⟨hd, fun i h => (hi i).1 h, fun i => by simpa [vals, piecesOf] using hM.2 i, fun i s gs hg hni => ?_, fun n hn => by cases hn⟩
    exact absurd ((hi i).2 (by rw [hg]; simp)) hni
  | clear i is h s s' gs gs' hs w hw hl hs' =>
    have hn : S.pc none ≠ .ready := by rw [h]; simp
    have hM := hI.main
    simp only [MInv, h] at hM
    obtain ⟨h1, h2, h3, h4, -⟩ := hM
    have hwi : inst w = i := group_inst hI.mem hs (h3 i) hw hl
    refine hI.jointly (hI.alone hn) (by simp [setAt]) (hI.mem.clear hs') (fun _ => by simp [setAt]) hI.sub ?_
    simp only [MInv, Sys.clearHulls, setAt_same, setVal_eq]
    refine ⟨h1, fun j hj => ?_, fun j => ?_, fun j s gs hg hni => ?_, fun n hn j hj => ?_⟩
    · rw [upd_other _ (by simp)]; exact h2 j hj
    · rw [upd_other _ (by simp)]; exact h3 j
    · rw [upd_other _ (by simp)] at hg
      rw [upd_other _ (by rintro e; cases e; exact hni (by simp [hwi]))]
      exact h4 j s gs hg hni
    · cases hn; cases hj
      refine ⟨s, gs, s'.clear, (upd_other _ (by simp) _).trans hs, ?_⟩
      rw [← hwi, upd_same, List.take_zero]
  | refill i is k h s s' gs gs' hs w hw hk hs' v hv =>
    have hn : S.pc none ≠ .ready := by rw [h]; simp
    have hM := hI.main
    simp only [MInv, h] at hM
    obtain ⟨h1, h2, h3, h4, h5⟩ := hM
    have hwi : inst w = i := group_inst hI.mem hs (h3 i) hw (by omega)
    obtain ⟨_, _, _, e1, e2⟩ := h5 k rfl i rfl
    rw [hs] at e1; cases e1
    rw [← hwi, hs'] at e2; cases e2
    refine hI.jointly (hI.alone hn) (by simp [Sys.push, setAt]) (hI.mem.append grow hs' (by rw [hI.mem.reads _ _ _ hs k hk, hv]))
      (fun _ => by simp [Sys.push, setAt]) hI.sub ?_
    simp only [MInv, Sys.push, setAt_same, setVal_eq]
    refine ⟨h1, fun j hj => ?_, fun j => ?_, fun j s gs hg hni => ?_, fun n hn j hj => ?_⟩
    · rw [upd_other _ (by simp)]; exact h2 j hj
    · rw [upd_other _ (by simp)]; exact h3 j
    · rw [upd_other _ (by simp)] at hg
      rw [upd_other _ (by rintro e; cases e; exact hni (by simp [hwi]))]
      exact h4 j s gs hg hni
    · cases hn; cases hj
      refine ⟨s, gs, (S.heap.append grow s' (S.heap.cell s.arr k)).2, (upd_other _ (by simp) _).trans hs, ?_⟩
      rw [← hwi, upd_same, List.take_add_one, hv]
      rfl
  | refilled i is k h s gs hs hk =>
    have hn : S.pc none ≠ .ready := by rw [h]; simp
    have hM := hI.main
    simp only [MInv, h] at hM
    obtain ⟨h1, h2, h3, h4, h5⟩ := hM
    refine hI.jointly (hI.alone hn) (by simp [setAt]) hI.mem (fun _ => by simp [setAt]) hI.sub ?_
    simp only [MInv, setAt_same]
    refine ⟨(List.nodup_cons.1 h1).2, fun j hj => h2 j (List.mem_cons_of_mem _ hj), h3, fun j s' gs' hg hni => ?_, fun n hn => by cases hn⟩
    by_cases hj : j = i
    · subst hj
      rw [hs] at hg; cases hg
      obtain ⟨_, _, s2, e1, e2⟩ := h5 k rfl j rfl
      rw [hs] at e1; cases e1
      rw [List.take_of_length_le (by rw [← (hI.mem.fits _ _ _ hs).2.1]; exact hk)] at e2
      exact ⟨s2, e2⟩
    · exact h4 j s' gs' hg (by simp [hj, hni])
  | finishAll h =>
    have hn : S.pc none ≠ .ready := by rw [h]; simp
    have hM := hI.main
    simp only [MInv, h] at hM
    obtain ⟨h1, h2, h3, h4, h5⟩ := hM
    refine hI.jointly (hI.alone hn) (by simp [setAt]) hI.mem (fun _ => by simp [setAt]) hI.sub ?_
    simp only [MInv, setAt_same]
    intro v hv
    have hp := h3 (inst v)
    cases hg : S.val (.group (inst v)) with
    | none =>
      rw [hg] at hp
      have : v ∈ piecesOf inst (inst v) (vals (S.db none)) := List.mem_filter.2 ⟨hv, by simp⟩
      exact absurd (hp.mem_iff.2 this) (by simp [listOf])
    | some o =>
      obtain ⟨s, gs⟩ := o
      obtain ⟨s', e⟩ := h4 _ s gs hg (by simp)
      rw [hg] at hp
      exact ⟨s', gs, e, hp⟩

theorem inv_init : Inv insts inst (Sys.init : Sys α) := by
  refine ⟨⟨?_, ?_, ?_, ?_, ?_, ?_⟩, ?_, ?_, ?_, ?_, ?_⟩ <;> simp [Sys.init, TInv, MInv]

theorem inv_reach {grow : Nat → Nat} (hnd : insts.Nodup) (h : Reach grow insts inst S) : Inv insts inst S := by
  induction h with
  | init => exact inv_init
  | step _ hs ih => exact inv_step hnd ih hs

/-- **C90**: at every moment of every run, whatever was ever loaded into an index is still at the address the index has for it. -/
theorem C90_stored {grow : Nat → Nat} (hnd : insts.Nodup) (h : Reach grow insts inst S) {t : Option Nat} {p : Ptr} {v : α} (hp : (p, v) ∈ S.seen t) :
    S.heap.load p = some v := (inv_reach hnd h).mem.kept t p v hp

/-- the same for what the index holds -/
theorem C90_index {grow : Nat → Nat} (hnd : insts.Nodup) (h : Reach grow insts inst S) (t : Option Nat) :
    (S.db t).map (fun e => S.heap.load e.1) = (vals (S.db t)).map some := by
  rw [vals, List.map_map]
  refine List.map_congr_left (fun e he => ?_)
  exact C90_stored hnd h ((inv_reach hnd h).sub t e he)

/-- **C90**: every slice in use (`Hulls` of an instance, a list that is being built, a group) reads as its list in the model of values. -/
theorem C90_slices {grow : Nat → Nat} (hnd : insts.Nodup) (h : Reach grow insts inst S) {x : Slot} {s : Slice} {g : List α} (hx : S.val x = some (s, g)) :
    S.heap.read s = g.map some := (inv_reach hnd h).mem.read hx

/-- **C90**: when the simplification of a line is over, and until the joint stage begins, `Hulls` of the instance holds the pieces of its index, each once. -/
theorem C90_line {grow : Nat → Nat} (hnd : insts.Nodup) (h : Reach grow insts inst S) {t : Nat} (ht : S.pc (some t) = .done) (hr : S.pc none = .ready) :
    ∃ s g, S.val (.hulls t) = some (s, g) ∧ S.heap.read s = g.map some ∧ g.Perm (vals (S.db (some t))) := by
  have hI := inv_reach hnd h
  have := hI.thread t
  rw [ht] at this
  obtain ⟨s, g, e, hp⟩ := this hr
  exact ⟨s, g, e, hI.mem.read e, hp⟩

/-- **C90**: what the joint stage loads first are the pieces of all lines, each once. -/
theorem C90_gathered {grow : Nat → Nat} (hnd : insts.Nodup) (h : Reach grow insts inst S) {k : Nat} (hg : S.pc none = .gathering [] k) :
    ∃ d g, S.val (.build none) = some (d, g) ∧ S.heap.read d = g.map some ∧ g.Perm (insts.flatMap (fun i => vals (S.db (some i)))) := by
  have hI := inv_reach hnd h
  have := hI.main
  simp only [MInv, hg] at this
  obtain ⟨pre, d, gd, e1, e2, -, h4⟩ := this
  refine ⟨d, gd, e2, hI.mem.read e2, ?_⟩
  simpa [e1] using h4

/-- **C90**: at the end of the joint stage `Hulls` of every instance that has pieces in the index holds these, each once. -/
theorem C90_joint {grow : Nat → Nat} (hnd : insts.Nodup) (h : Reach grow insts inst S) (hd : S.pc none = .done) {v : α} (hv : v ∈ vals (S.db none)) :
    ∃ s g, S.val (.hulls (inst v)) = some (s, g) ∧ S.heap.read s = g.map some ∧ g.Perm ((vals (S.db none)).filter (fun w => inst w = inst v)) := by
  have hI := inv_reach hnd h
  have := hI.main
  simp only [MInv, hd] at this
  obtain ⟨s, g, e, hp⟩ := this v hv
  exact ⟨s, g, e, hI.mem.read e, hp⟩

end

/-! ### a concrete case -/

/-- A run with one line: the pieces 4 and 5 are loaded, 4 is replaced by 6 and 7, `Hulls` is filled from the index in another order into its old array (which is too small),
and then the joint stage takes all three over and gives them back. -/
example : ∃ S : Sys Nat, Reach (fun n => n) [0] (fun _ => 0) S ∧ S.pc none = .done ∧ vals (S.db none) = [7, 6, 5] := by
  have h := Reach.init (α := Nat) (grow := fun n => n) (insts := [0]) (inst := fun _ => 0)
  have h := h.step (.decompose _ 0 rfl (by simp) [4, 5] 0 2)
  have h := h.step (.copy _ 0 0 rfl _ _ _ _ rfl rfl (by decide) 4 rfl)
  have h := h.step (.copy _ 0 1 rfl _ _ _ _ rfl rfl (by decide) 5 rfl)
  have h := h.step (.copied _ 0 2 rfl _ _ _ _ rfl rfl (by decide))
  have h := h.step (.begin _ (some 0) rfl [.fresh 6, .fresh 7] (by simp) 4)
  have h := h.step (.fresh _ (some 0) 6 _ rfl _ _ rfl)
  have h := h.step (.fresh _ (some 0) 7 _ rfl _ _ rfl)
  have h := h.step (.loaded _ (some 0) rfl _ _ rfl)
  have h := h.step (.remove _ (some 0) (.inl rfl) [(⟨1, 1⟩, 5), (⟨2, 0⟩, 6), (⟨2, 1⟩, 7)] (List.sublist_cons_self _ _))
  have h := h.step (.all _ 0 rfl _ _ rfl [(⟨2, 1⟩, 7), (⟨2, 0⟩, 6), (⟨1, 1⟩, 5)] (List.reverse_perm [((⟨1, 1⟩ : Ptr), 5), (⟨2, 0⟩, 6), (⟨2, 1⟩, 7)]))
  have h := h.step (.collect _ 0 _ _ _ rfl _ _ rfl)
  have h := h.step (.collect _ 0 _ _ _ rfl _ _ rfl)
  have h := h.step (.collect _ 0 _ _ _ rfl _ _ rfl)
  have h := h.step (.finish _ 0 rfl)
  have h := h.step (.joint _ rfl (fun t ht => by rw [List.mem_singleton.1 ht]; rfl))
  have h := h.step (.gather _ 0 [] 0 rfl _ _ _ _ rfl rfl (by decide) 7 rfl)
  have h := h.step (.gather _ 0 [] 1 rfl _ _ _ _ rfl rfl (by decide) 6 rfl)
  have h := h.step (.gather _ 0 [] 2 rfl _ _ _ _ rfl rfl (by decide) 5 rfl)
  have h := h.step (.gathered _ 0 [] 3 rfl _ _ rfl (by decide))
  have h := h.step (.gatherLoad _ 0 rfl _ _ rfl)
  have h := h.step (.groups _ rfl _ (List.Perm.refl _))
  have h := h.step (.groupNew _ _ _ _ rfl 7 rfl rfl)
  have h := h.step (.group _ _ _ _ rfl 7 rfl _ _ rfl)
  have h := h.step (.group _ _ _ _ rfl 6 rfl _ _ rfl)
  have h := h.step (.group _ _ _ _ rfl 5 rfl _ _ rfl)
  have h := h.step (.grouped _ rfl [0] (fun i => by
    by_cases hi : i = 0
    · subst hi; simp [Sys.push, Sys.setVal]
    · simp [Sys.push, Sys.make, Sys.setVal, Sys.loadDb, Sys.clearHulls, hi]) (by simp))
  have h := h.step (.clear _ 0 [] rfl _ _ _ _ rfl 7 rfl (by decide) rfl)
  have h := h.step (.refill _ 0 [] 0 rfl _ _ _ _ rfl 7 rfl (by decide) rfl 7 rfl)
  have h := h.step (.refill _ 0 [] 1 rfl _ _ _ _ rfl 7 rfl (by decide) rfl 6 rfl)
  have h := h.step (.refill _ 0 [] 2 rfl _ _ _ _ rfl 7 rfl (by decide) rfl 5 rfl)
  have h := h.step (.refilled _ 0 [] 3 rfl _ _ rfl (by decide))
  have h := h.step (.finishAll _ rfl)
  exact ⟨_, h, rfl, rfl⟩

end Verif.Piece
