import Verif.Lemmas.Race
import Verif.Props.C36_Conc
import Verif.Props.C37_Search

/-! C97: no data races between the goroutines of package `constdp`, under every interleaving. -/

namespace Verif
namespace Conc

theorem set_get {A : Type} {pre post : List A} {w w' v : A} {k : Nat} (h : (pre ++ w' :: post)[k]? = some v) :
    (k = pre.length ∧ v = w') ∨ (k ≠ pre.length ∧ (pre ++ w :: post)[k]? = some v) := by
  rcases Nat.lt_trichotomy k pre.length with hk | rfl | hk
  · rw [List.getElem?_append_left hk] at h
    exact .inr ⟨by omega, by rw [List.getElem?_append_left hk]; exact h⟩
  · rw [List.getElem?_append_right (Nat.le_refl _), Nat.sub_self] at h
    exact .inl ⟨rfl, (Option.some.inj h).symm⟩
  · rw [List.getElem?_append_right (by omega)] at h
    refine .inr ⟨by omega, ?_⟩
    rw [List.getElem?_append_right (by omega)]
    obtain ⟨d, hd⟩ : ∃ d, k - pre.length = d + 1 := ⟨k - pre.length - 1, by omega⟩
    rw [hd] at h ⊢
    exact h

theorem get_here {A : Type} (pre post : List A) (w : A) : (pre ++ w :: post)[pre.length]? = some w := by simp

theorem get_move {A : Type} {pre post : List A} {w w' v : A} {k : Nat} (h : (pre ++ w :: post)[k]? = some v) : ∃ v', (pre ++ w' :: post)[k]? = some v' ∧
    ((k = pre.length ∧ v = w ∧ v' = w') ∨ (k ≠ pre.length ∧ v' = v)) := by
  rcases set_get (w := w') h with ⟨rfl, rfl⟩ | ⟨hk, h'⟩
  · exact ⟨w', get_here _ _ _, .inl ⟨rfl, rfl, rfl⟩⟩
  · exact ⟨v, h', .inr ⟨hk, rfl⟩⟩

/-! ### `SimplifyInstances` -/

section
variable {J X : Type} {cap : Nat} {need : J → Nat} {c : Nat} {jobs : List J} {n : Int} {pre : List (Bool × Loc J X)}

/-- every step with events is a step, or leaves the state as it is -/
theorem Pool.LStep.erase {s t : Pool J} {evs : List (Event (Loc J X))} (h : Pool.LStep cap need s evs t) : t = s ∨ Pool.Step cap need s (.to t) := by
  cases h with
  | spawn a b h => exact .inr (.spawn s a b h)
  | hand a b j r h1 h2 h3 => exact .inr (.hand s a b j r h1 h2 h3)
  | closeStream h1 h2 => exact .inr (.closeStream s h1 h2)
  | take a b j l h => exact .inr (.take s a b j l h)
  | finish a b j l h => exact .inr (.finish s a b j l h)
  | send a b j h1 h2 h3 => exact .inr (.send s a b j h1 h2 h3)
  | leave a b h1 h2 h3 => exact .inr (.leave s a b h1 h2 h3)
  | close h1 h2 h3 => exact .inr (.close s h1 h2 h3)
  | receive j r h1 h2 => exact .inr (.receive s j r h1 h2)
  | ret h1 h2 h3 => exact .inr (.ret s h1 h2 h3)
  | feed | touchOwn | touchCommon | caller => exact .inl rfl

/-- every step has events: the traces are those of all runs -/
theorem Pool.Step.traced {s t : Pool J} (h : Pool.Step cap need s (.to t)) : ∃ evs : List (Event (Loc J X)), Pool.LStep cap need s evs t := by
  cases h with
  | spawn a b h => exact ⟨_, .spawn s a b h⟩
  | hand a b j r h1 h2 h3 => exact ⟨_, .hand s a b j r h1 h2 h3⟩
  | closeStream h1 h2 => exact ⟨_, .closeStream s h1 h2⟩
  | take a b j l h => exact ⟨_, .take s a b j l h⟩
  | finish a b j l h => exact ⟨_, .finish s a b j l h⟩
  | send a b j h1 h2 h3 => exact ⟨_, .send s a b j h1 h2 h3⟩
  | leave a b h1 h2 h3 => exact ⟨_, .leave s a b h1 h2 h3⟩
  | close h1 h2 h3 => exact ⟨_, .close s h1 h2 h3⟩
  | receive j r h1 h2 => exact ⟨_, .receive s j r h1 h2⟩
  | ret h1 h2 h3 => exact ⟨_, .ret s h1 h2 h3⟩

/-- every run of `Pool.Step` has a trace -/
theorem Pool.Exec.of_run {k : Nat} {s : Pool J} (hr : Run (Pool.Step cap need) k (Pool.init c jobs n) s) : ∃ tr, Pool.Exec cap need c jobs n pre tr s := by
  generalize h0 : Pool.init c jobs n = s0 at hr
  induction hr with
  | nil => subst h0; exact ⟨_, .init⟩
  | snoc _ hs ih =>
    obtain ⟨tr, h⟩ := ih h0
    obtain ⟨evs, he⟩ := hs.traced (X := X)
    exact ⟨_, h.step he⟩

theorem Pool.Exec.inv {tr : List (Event (Loc J X))} {s : Pool J} (h : Pool.Exec cap need c jobs n pre tr s) : s.Inv jobs n := by
  induction h with
  | init => exact Pool.Inv.init c jobs n
  | step _ hs ih =>
    rcases hs.erase with rfl | hs
    · exact ih
    · obtain ⟨t', e, hi⟩ := ih.step hs
      cases e; exact hi

/-- the goroutine has been started -/
def Pool.Alive (s : Pool J) : Gor → Prop
  | .worker k => ∃ w, s.workers[k]? = some w ∧ w ≠ .unborn
  | _ => True

/-- goroutines other than the caller that touch memory -/
def Gor.Helper (g : Gor) : Prop := g = .feeder ∨ ∃ k, g = .worker k

/-- who may have touched what -/
inductive Pool.Allowed (np : Nat) (s : Pool J) (i : Nat) (w : Bool) : Gor → Loc J X → Prop where
  | before (l : Loc J X) : i < np → Allowed np s i w .main l
  | after (l : Loc J X) : s.returned = true → Allowed np s i w .main l
  | common (g : Gor) (x : X) : g.Helper → w = false → Allowed np s i w g (.common x)
  | own (k : Nat) (j : J) (x : X) : j ∉ s.feed → (∀ k' l, s.workers[k']? = some (.busy j l) → k' = k) → Allowed np s i w (.worker k) (.own j x)

/-- what holds of the trace and the state in every execution -/
structure Pool.TInv (np : Nat) (s : Pool J) (tr : List (Event (Loc J X))) : Prop where
  race : RaceFree tr
  known : ∀ i < np, ∀ g, s.Alive g → Bef tr i g
  acc : ∀ i g w l, tr[i]? = some ⟨g, .access w l⟩ → s.Allowed np i w g l
  born : ∀ (i : Nat) (e : Event (Loc J X)), tr[i]? = some e → s.Alive e.g
  stream : s.streamClosed = true → ∃ p, tr[p]? = some ⟨.feeder, .close .stream⟩ ∧ ∀ (i : Nat) (e : Event (Loc J X)), tr[i]? = some e → e.g = .feeder → i = p ∨ HB tr i p
  left : ∀ k, s.workers[k]? = some .done → ∃ p, tr[p]? = some ⟨.worker k, .done⟩ ∧ ∀ (i : Nat) (e : Event (Loc J X)), tr[i]? = some e → e.g = .worker k ∨ e.g = .feeder → i = p ∨ HB tr i p
  closed : s.outClosed = true → ∃ p, tr[p]? = some ⟨.closer, .close .out⟩ ∧ ∀ (i : Nat) (e : Event (Loc J X)), tr[i]? = some e → e.g.Helper → HB tr i p
  ret : s.returned = true → ∀ (i : Nat) (e : Event (Loc J X)), tr[i]? = some e → e.g.Helper → Bef tr i .main

/-- an event that is no access, of a goroutine that is still running -/
theorem Pool.TInv.emit {np : Nat} {s : Pool J} {tr : List (Event (Loc J X))} (h : s.TInv np tr) {e : Event (Loc J X)}
    (hr : ∀ i f, tr[i]? = some f → Conflict f e → Bef tr i e.g) (ha : ∀ w l, e.op = .access w l → s.Allowed np tr.length w e.g l) (hb : s.Alive e.g)
    (hs : s.streamClosed = true → e.g ≠ .feeder) (hl : ∀ k, s.workers[k]? = some .done → e.g ≠ .worker k ∧ e.g ≠ .feeder)
    (hc : s.outClosed = true → ¬ e.g.Helper) (hret : s.returned = true → ¬ e.g.Helper) : s.TInv np (tr ++ [e]) where
  race := h.race.snoc hr
  known i hi g hg := (h.known i hi g hg).app _
  acc i g w l hi := by
    rcases getElem?_snoc hi with ⟨_, hi⟩ | ⟨rfl, rfl⟩
    · exact h.acc i g w l hi
    · exact ha w l rfl
  born i f hi := by
    rcases getElem?_snoc hi with ⟨_, hi⟩ | ⟨rfl, rfl⟩
    · exact h.born i f hi
    · exact hb
  stream hc' := by
    obtain ⟨p, h1, h2⟩ := h.stream hc'
    refine ⟨p, getElem?_app _ h1, fun i f hi hf => ?_⟩
    rcases getElem?_snoc hi with ⟨_, hi⟩ | ⟨rfl, rfl⟩
    · exact (h2 i f hi hf).imp_right (HB.app _)
    · exact absurd hf (hs hc')
  left k hk := by
    obtain ⟨p, h1, h2⟩ := h.left k hk
    refine ⟨p, getElem?_app _ h1, fun i f hi hf => ?_⟩
    rcases getElem?_snoc hi with ⟨_, hi⟩ | ⟨rfl, rfl⟩
    · exact (h2 i f hi hf).imp_right (HB.app _)
    · exact absurd hf (by rintro (h | h); exacts [(hl k hk).1 h, (hl k hk).2 h])
  closed hc' := by
    obtain ⟨p, h1, h2⟩ := h.closed hc'
    refine ⟨p, getElem?_app _ h1, fun i f hi hf => ?_⟩
    rcases getElem?_snoc hi with ⟨_, hi⟩ | ⟨rfl, rfl⟩
    · exact (h2 i f hi hf).app _
    · exact absurd hf (hc hc')
  ret hc' i f hi hf := by
    rcases getElem?_snoc hi with ⟨_, hi⟩ | ⟨rfl, rfl⟩
    · exact (h.ret hc' i f hi hf).app _
    · exact absurd hf (hret hc')

/-- an event that is no access -/
theorem no_conflict {L : Type} {tr : List (Event L)} {e : Event L} (hq : ∀ w l, e.op ≠ .access w l) : ∀ i f, tr[i]? = some f → Conflict f e → Bef tr i e.g :=
  fun _ _ _ hc => by obtain ⟨_, l, _, w', -, h2, -⟩ := hc; exact absurd h2 (hq w' l)

theorem Pool.Alive.move {s : Pool J} {a b : List (Worker J)} {w w' : Worker J} (hw : s.workers = a ++ w :: b) (hw' : w' ≠ .unborn) {t : Pool J}
    (ht : t.workers = a ++ w' :: b) {g : Gor} (h : s.Alive g) : t.Alive g := by
  cases g with
  | worker k =>
    obtain ⟨v, h1, h2⟩ := h
    rw [hw] at h1
    obtain ⟨v', h3, h4⟩ := get_move (w' := w') h1
    refine ⟨v', by rw [ht]; exact h3, ?_⟩
    rcases h4 with ⟨_, _, rfl⟩ | ⟨_, rfl⟩
    exacts [hw', h2]
  | _ => exact trivial

theorem Pool.Alive.back {s : Pool J} {a b : List (Worker J)} {w w' : Worker J} (hw : s.workers = a ++ w :: b) (hw' : w ≠ .unborn) {t : Pool J}
    (ht : t.workers = a ++ w' :: b) {g : Gor} (h : t.Alive g) : s.Alive g := by
  cases g with
  | worker k =>
    obtain ⟨v, h1, h2⟩ := h
    rw [ht] at h1
    obtain ⟨v', h3, h4⟩ := get_move (w' := w) h1
    refine ⟨v', by rw [hw]; exact h3, ?_⟩
    rcases h4 with ⟨_, _, rfl⟩ | ⟨_, rfl⟩
    exacts [hw', h2]
  | _ => exact trivial

/-- a worker that has been started goes on; it is not done, and takes a job only from the feed -/
theorem Pool.TInv.move {np : Nat} {s : Pool J} {tr : List (Event (Loc J X))} (h : s.TInv np tr) {a b : List (Worker J)} {w w' : Worker J} (hw : s.workers = a ++ w :: b)
    (h1 : w ≠ .unborn) (h2 : w' ≠ .unborn) (h3 : w' ≠ .done) {t : Pool J} (ht : t.workers = a ++ w' :: b) (hf : ∀ j, j ∈ t.feed → j ∈ s.feed)
    (hj : ∀ j l, w' = .busy j l → (∃ l', w = .busy j l') ∨ j ∈ s.feed) (e1 : t.streamClosed = s.streamClosed) (e2 : t.outClosed = s.outClosed)
    (e3 : t.returned = s.returned) : t.TInv np tr where
  race := h.race
  known i hi g hg := h.known i hi g (hg.back hw h1 ht)
  acc i g v l hi := by
    cases h.acc i g v l hi with
    | before l h => exact .before l h
    | after l h => exact .after l (by rw [e3]; exact h)
    | common g x h h' => exact .common g x h h'
    | own k j x hn hk =>
      refine .own k j x (fun hm => hn (hf j hm)) (fun k' l hb => ?_)
      rw [ht] at hb
      rcases set_get (w := w) hb with ⟨rfl, hb'⟩ | ⟨_, hb⟩
      · rcases hj j l hb'.symm with ⟨l', rfl⟩ | hm
        · exact hk a.length l' (by rw [hw]; simp)
        · exact absurd hm hn
      · exact hk k' l (by rw [hw]; exact hb)
  born i e hi := (h.born i e hi).move hw h2 ht
  stream hc := h.stream (e1 ▸ hc)
  left k hk := by
    rw [ht] at hk
    rcases set_get (w := w) hk with ⟨_, hk⟩ | ⟨_, hk⟩
    · exact absurd hk.symm h3
    · exact h.left k (by rw [hw]; exact hk)
  closed hc := h.closed (e2 ▸ hc)
  ret hc := h.ret (e3 ▸ hc)

theorem Pool.Inv.all_done {s : Pool J} (h : s.Inv jobs n) (hc : s.outClosed = true) : ∀ w ∈ s.workers, w = .done := by
  have := h.closed hc
  rw [h.count] at this
  exact sum_live_zero (by exact_mod_cast this)

theorem opening_length {L : Type} (pre : List (Bool × L)) : (opening pre).length = pre.length + 6 := by simp [opening]

theorem Pool.TInv.init : (Pool.init c jobs n).TInv pre.length (opening pre) := by
  have hm : ∀ i < pre.length, ∃ a : Bool × Loc J X, (opening pre)[i]? = some ⟨.main, .access a.1 a.2⟩ := by
    intro i hi
    refine ⟨pre[i], ?_⟩
    simp [opening, List.getElem?_append_left, hi]
  have hg : ∀ k, ∀ e, ([⟨.main, .go .feeder⟩, ⟨.feeder, .start⟩, ⟨.main, .go .spawner⟩, ⟨.spawner, .start⟩, ⟨.main, .go .closer⟩, ⟨.closer, .start⟩] :
      List (Event (Loc J X)))[k]? = some e → (opening pre)[pre.length + k]? = some e := by
    intro k e h
    rw [opening, List.getElem?_append_right (by simp), List.length_map, Nat.add_sub_cancel_left]
    exact h
  have hcase : ∀ i e, (opening pre)[i]? = some e → (i < pre.length ∧ e.g = .main) ∨ (pre.length ≤ i ∧ (∀ w l, e.op ≠ .access w l) ∧ ∀ k, e.g ≠ .worker k) := by
    intro i e hi
    rcases Nat.lt_or_ge i pre.length with h | h
    · obtain ⟨a, ha⟩ := hm i h
      rw [ha] at hi
      exact .inl ⟨h, by rw [← Option.some.inj hi]⟩
    · refine .inr ⟨h, ?_⟩
      rw [opening, List.getElem?_append_right (by simpa using h), List.length_map] at hi
      have := List.mem_of_getElem? hi
      simp only [List.mem_cons, List.not_mem_nil, or_false] at this
      rcases this with rfl | rfl | rfl | rfl | rfl | rfl <;> exact ⟨by simp, by simp⟩
  have dead : ∀ (k : Nat) (w : Worker J), (Pool.init c jobs n).workers[k]? = some w → w = .unborn := fun k w hk => by
    have := List.mem_of_getElem? hk
    exact List.eq_of_mem_replicate this
  refine ⟨?_, ?_, ?_, ?_, by simp [Pool.init], fun k hk => (by cases dead k _ hk), by simp [Pool.init], by simp [Pool.init]⟩
  · intro i j e f hij hi hj hc
    rcases hcase i e hi with ⟨_, h1⟩ | ⟨_, h1, _⟩
    · rcases hcase j f hj with ⟨_, h2⟩ | ⟨_, h2, _⟩
      · exact absurd (h1.trans h2.symm) hc.1
      · obtain ⟨_, l, _, w', -, h3, -⟩ := hc
        exact absurd h3 (h2 w' l)
    · obtain ⟨_, l, w, _, h3, -⟩ := hc
      exact absurd h3 (h1 w l)
  · intro i hi g hal
    obtain ⟨a, ha⟩ := hm i hi
    have via : ∀ k h, ([⟨.main, .go .feeder⟩, ⟨.feeder, .start⟩, ⟨.main, .go .spawner⟩, ⟨.spawner, .start⟩, ⟨.main, .go .closer⟩, ⟨.closer, .start⟩] :
        List (Event (Loc J X)))[k]? = some ⟨.main, .go h⟩ → ([⟨.main, .go .feeder⟩, ⟨.feeder, .start⟩, ⟨.main, .go .spawner⟩, ⟨.spawner, .start⟩,
        ⟨.main, .go .closer⟩, ⟨.closer, .start⟩] : List (Event (Loc J X)))[k + 1]? = some ⟨h, .start⟩ → Bef (opening pre) i h := by
      intro k h h1 h2
      exact ⟨_, _, hg _ _ h2, rfl, .inr (.tail (.single (.program (by omega) ha (hg _ _ h1) rfl)) (.go (by omega) (hg _ _ h1) (hg _ _ h2)))⟩
    cases g with
    | main => exact ⟨i, _, ha, rfl, .inl rfl⟩
    | feeder => exact via 0 .feeder rfl rfl
    | spawner => exact via 2 .spawner rfl rfl
    | closer => exact via 4 .closer rfl rfl
    | worker k =>
      obtain ⟨w, h1, h2⟩ := hal
      exact absurd (dead k w h1) h2
  · intro i g w l hi
    rcases hcase i _ hi with ⟨h1, h2⟩ | ⟨_, h1, _⟩
    · cases h2; exact .before l h1
    · exact absurd rfl (h1 w l)
  · intro i e hi
    rcases hcase i e hi with ⟨_, h1⟩ | ⟨_, _, h1⟩
    · rw [h1]; exact trivial
    · match hg : e.g, h1 with
      | .worker k, h1 => exact absurd rfl (h1 k)
      | .main, _ | .feeder, _ | .spawner, _ | .closer, _ => exact trivial

/-- an earlier access that conflicts with an access of a running goroutine is known to it -/
theorem Pool.TInv.conflict {np : Nat} {s : Pool J} {tr : List (Event (Loc J X))} (h : s.TInv np tr) (hr : s.returned = false) {g : Gor} {w : Bool} {l : Loc J X}
    (hg : s.Alive g) (hm : g ≠ .main) (ha : s.Allowed np tr.length w g l) (hb : ∀ j x, l = .own j x → ∃ k n, g = .worker k ∧ s.workers[k]? = some (.busy j n)) :
    ∀ i f, tr[i]? = some f → Conflict f ⟨g, .access w l⟩ → Bef tr i g := by
  rintro i ⟨g', op⟩ hi ⟨hne, l', w1, w2, h1, h2, h3⟩
  simp only at h1 hne
  subst h1
  cases h2
  cases h.acc i g' w1 l hi with
  | before _ hlt => exact h.known i hlt g hg
  | after _ h' => rw [hr] at h'; cases h'
  | common _ x hh hw =>
    cases ha with
    | before _ _ => exact absurd rfl hm
    | after _ _ => exact absurd rfl hm
    | common _ _ _ hw' => subst hw; subst hw'; rcases h3 with h3 | h3 <;> cases h3
  | own k j x hn hk =>
    obtain ⟨k', n, rfl, hbusy⟩ := hb j x rfl
    exact absurd (by rw [hk k' n hbusy]) hne

theorem Pool.TInv.step {np : Nat} {s t : Pool J} {tr evs : List (Event (Loc J X))} (hnd : jobs.Nodup) (hc0 : 0 < s.workers.length) (hi : s.Inv jobs n) (h : s.TInv np tr)
    (hs : Pool.LStep cap need s evs t) : t.TInv np (tr ++ evs) := by
  have open_ : ∀ {a b : List (Worker J)} {w : Worker J}, s.workers = a ++ w :: b → w ≠ .done → s.outClosed = false ∧ s.returned = false := by
    intro a b w hw hne
    have : s.outClosed = false := by
      by_contra hc
      exact hne (hi.all_done (by simpa using hc) w (by rw [hw]; simp))
    refine ⟨this, ?_⟩
    by_contra hr
    rw [(hi.gone (by simpa using hr)).1] at this
    cases this
  have strm : s.streamClosed = false → (∀ k : Nat, s.workers[k]? ≠ some Worker.done) ∧ s.outClosed = false ∧ s.returned = false := by
    intro hs
    have hd : ∀ w ∈ s.workers, w ≠ .done := by
      rintro w hw rfl
      have := hi.left ⟨.done, hw, rfl⟩
      rw [hs] at this; cases this
    refine ⟨fun k hk => hd _ (List.mem_of_getElem? hk) rfl, ?_⟩
    have hw : s.workers[0]? = some s.workers[0] := List.getElem?_eq_getElem hc0
    obtain ⟨a, b, hab⟩ := List.append_of_mem (List.mem_of_getElem? hw)
    exact open_ hab (hd _ (List.mem_of_getElem? hw))
  cases hs with
  | spawn a b hw =>
    obtain ⟨o1, o2⟩ := open_ hw (by simp)
    have hk : s.workers[a.length]? = some .unborn := by rw [hw]; simp
    have h1 : s.TInv np (tr ++ [⟨.spawner, .go (.worker a.length)⟩]) := h.emit (no_conflict (by simp)) (by simp) trivial (by simp) (by simp)
      (by simp [o1]) (by simp [o2])
    have hmv : ∀ g, s.Alive g → Pool.Alive { s with workers := a ++ .idle :: b } g := fun g hg => hg.move hw (by simp) rfl
    have hbk : ∀ g, Pool.Alive { s with workers := a ++ .idle :: b } g → g = .worker a.length ∨ s.Alive g := by
      intro g hg
      cases g with
      | worker k =>
        obtain ⟨v, hv1, hv2⟩ := hg
        rcases set_get (w := Worker.unborn) hv1 with ⟨rfl, _⟩ | ⟨_, hv1⟩
        · exact .inl rfl
        · exact .inr ⟨v, by rw [hw]; exact hv1, hv2⟩
      | _ => exact .inr trivial
    have happ : tr ++ [(⟨.spawner, .go (.worker a.length)⟩ : Event (Loc J X)), ⟨.worker a.length, .start⟩] =
        (tr ++ [⟨.spawner, .go (.worker a.length)⟩]) ++ [⟨.worker a.length, .start⟩] := by simp
    rw [happ]
    have hedge : Edge ((tr ++ [(⟨.spawner, .go (.worker a.length)⟩ : Event (Loc J X))]) ++ [⟨.worker a.length, .start⟩]) tr.length
        (tr ++ [(⟨.spawner, .go (.worker a.length)⟩ : Event (Loc J X))]).length :=
      .go (by simp) (getElem?_app _ (getElem?_last _ _)) (getElem?_last _ _)
    refine ⟨h1.race.quiet (by simp), ?_, ?_, ?_, ?_, ?_, by simp [o1], by simp [o2]⟩
    · intro i hi' g hg
      rcases hbk g hg with rfl | hg
      · exact Bef.sync (e := ⟨.worker a.length, .start⟩) (.inr (Bef.next (e := ⟨.spawner, .go (.worker a.length)⟩) (h.known i hi' .spawner trivial))) hedge
      · exact (h1.known i hi' g hg).app _
    · intro i g w l hi'
      rcases getElem?_snoc hi' with ⟨_, hi'⟩ | ⟨_, he⟩
      · cases h1.acc i g w l hi' with
        | before l h => exact .before l h
        | after l h => exact .after l h
        | common g x h h' => exact .common g x h h'
        | own k j x hn hk =>
          refine .own k j x hn (fun k' l hb => ?_)
          rcases set_get (w := Worker.unborn) hb with ⟨_, hb⟩ | ⟨_, hb⟩
          · cases hb
          · exact hk k' l (by rw [hw]; exact hb)
      · cases he
    · intro i e hi'
      rcases getElem?_snoc hi' with ⟨_, hi'⟩ | ⟨_, rfl⟩
      · exact hmv _ (h1.born i e hi')
      · exact ⟨.idle, get_here _ _ _, by simp⟩
    · intro hcl
      obtain ⟨p, hp, hall⟩ := h1.stream hcl
      refine ⟨p, getElem?_app _ hp, fun i e hi' hf => ?_⟩
      rcases getElem?_snoc hi' with ⟨_, hi'⟩ | ⟨_, rfl⟩
      · exact (hall i e hi' hf).imp_right (HB.app _)
      · cases hf
    · intro k hkd
      rcases set_get (w := Worker.unborn) hkd with ⟨_, hkd⟩ | ⟨hne, hkd⟩
      · cases hkd
      · obtain ⟨p, hp, hall⟩ := h1.left k (by rw [hw]; exact hkd)
        refine ⟨p, getElem?_app _ hp, fun i e hi' hf => ?_⟩
        rcases getElem?_snoc hi' with ⟨_, hi'⟩ | ⟨_, rfl⟩
        · exact (hall i e hi' hf).imp_right (HB.app _)
        · rcases hf with hf | hf
          · cases hf; exact absurd rfl hne
          · cases hf
  | hand a b j rest hw hf hc =>
    rw [List.append_nil]
    exact h.move hw (by simp) (by simp) (by simp) rfl (fun x hx => by rw [hf]; exact List.mem_cons_of_mem _ hx)
      (fun x l he => by cases he; exact .inr (by rw [hf]; simp)) rfl rfl rfl
  | closeStream hf hc =>
    obtain ⟨d, o1, o2⟩ := strm hc
    have h1 : s.TInv np (tr ++ [⟨.feeder, .close .stream⟩]) := h.emit (no_conflict (by simp)) (by simp) trivial (by simp [hc]) (fun k hk => absurd hk (d k))
      (by simp [o1]) (by simp [o2])
    refine ⟨h1.race, h1.known, fun i g w l hi' => ?_, h1.born, fun _ => ⟨tr.length, getElem?_last _ _, fun i e hi' he => ?_⟩, h1.left, h1.closed, h1.ret⟩
    · cases h1.acc i g w l hi' with
      | before l h => exact .before l h
      | after l h => exact .after l h
      | common g x h h' => exact .common g x h h'
      | own k j x hn hk => exact .own k j x hn hk
    · rcases getElem?_snoc hi' with ⟨_, hi'⟩ | ⟨rfl, rfl⟩
      · exact .inr (Bef.next (e := ⟨.feeder, .close .stream⟩) (Bef.self hi' he))
      · exact .inl rfl
  | take a b j l hw =>
    rw [List.append_nil]
    exact h.move hw (by simp) (by simp) (by simp) rfl (fun _ hx => hx) (fun x l' he => by cases he; exact .inl ⟨_, rfl⟩) rfl rfl rfl
  | finish a b j l hw =>
    rw [List.append_nil]
    exact h.move hw (by simp) (by simp) (by simp) rfl (fun _ hx => hx) (fun x l' he => by cases he) rfl rfl rfl
  | send a b j hw _ _ =>
    rw [List.append_nil]
    exact h.move hw (by simp) (by simp) (by simp) rfl (fun _ hx => hx) (fun x l' he => by cases he) rfl rfl rfl
  | leave a b hw hcl _ =>
    obtain ⟨o1, o2⟩ := open_ hw (by simp)
    have hk : s.workers[a.length]? = some .idle := by rw [hw]; simp
    have hal : s.Alive (.worker a.length) := ⟨_, hk, by simp⟩
    have hd : ∀ k, s.workers[k]? = some .done → (Gor.worker a.length) ≠ .worker k ∧ (Gor.worker a.length) ≠ .feeder := by
      intro k hkd
      refine ⟨fun he => ?_, by simp⟩
      cases he
      rw [hk] at hkd; cases hkd
    have h1 : s.TInv np (tr ++ [⟨.worker a.length, .drained .stream⟩]) := h.emit (no_conflict (by simp)) (by simp) hal (by simp) hd (by simp [o1]) (by simp [o2])
    have h2 : s.TInv np ((tr ++ [⟨.worker a.length, .drained .stream⟩]) ++ [⟨.worker a.length, .done⟩]) :=
      h1.emit (no_conflict (by simp)) (by simp) hal (by simp) hd (by simp [o1]) (by simp [o2])
    have happ : tr ++ [(⟨.worker a.length, .drained .stream⟩ : Event (Loc J X)), ⟨.worker a.length, .done⟩] =
        (tr ++ [⟨.worker a.length, .drained .stream⟩]) ++ [⟨.worker a.length, .done⟩] := by simp
    rw [happ]
    refine ⟨h2.race, fun i hi' g hg => h2.known i hi' g (hg.back hw (by simp) rfl), fun i g w l hi' => ?_, fun i e hi' => (h2.born i e hi').move hw (by simp) rfl,
      h2.stream, fun k hkd => ?_, h2.closed, h2.ret⟩
    · cases h2.acc i g w l hi' with
      | before l h => exact .before l h
      | after l h => exact .after l h
      | common g x h h' => exact .common g x h h'
      | own k j x hn hk =>
        refine .own k j x hn (fun k' l hb => ?_)
        rcases set_get (w := Worker.idle) hb with ⟨_, hb⟩ | ⟨_, hb⟩
        · cases hb
        · exact hk k' l (by rw [hw]; exact hb)
    · rcases set_get (w := Worker.idle) hkd with ⟨rfl, _⟩ | ⟨_, hkd⟩
      · refine ⟨_, getElem?_last _ _, fun i e hi' he => ?_⟩
        rcases getElem?_snoc hi' with ⟨_, hi'⟩ | ⟨rfl, rfl⟩
        · refine .inr (Bef.next (e := ⟨.worker a.length, .done⟩) ?_)
          rcases he with he | he
          · exact Bef.self hi' he
          · obtain ⟨p, hp, hall⟩ := h.stream hcl
            rcases getElem?_snoc hi' with ⟨_, hi'⟩ | ⟨rfl, rfl⟩
            · exact Bef.sync (e := ⟨.worker a.length, .drained .stream⟩) (hall i e hi' he)
                (.close (List.getElem?_eq_some_iff.1 hp).1 (getElem?_app _ hp) (getElem?_last _ _))
            · cases he
        · exact .inl rfl
      · exact h2.left k (by rw [hw]; exact hkd)
  | close hcw hwg ho =>
    have hr : s.returned = false := by
      by_contra hr
      rw [(hi.gone (by simpa using hr)).1] at ho
      cases ho
    have hdone : ∀ w ∈ s.workers, w = .done := by
      rw [hi.count] at hwg
      exact sum_live_zero (by exact_mod_cast hwg)
    have hsc : s.streamClosed = true := by
      have hw : s.workers[0]? = some s.workers[0] := List.getElem?_eq_getElem hc0
      have := hdone _ (List.mem_of_getElem? hw)
      exact hi.left ⟨_, List.mem_of_getElem? hw, by rw [this]; rfl⟩
    have nh : ∀ {o : Op (Loc J X)}, ¬ (⟨.closer, o⟩ : Event (Loc J X)).g.Helper := by
      rintro o (h | ⟨k, h⟩) <;> cases h
    have h1 : s.TInv np (tr ++ [⟨.closer, .wait⟩]) := h.emit (no_conflict (by simp)) (by simp) trivial (by simp) (by simp) (fun _ => nh) (fun _ => nh)
    have h2 : s.TInv np ((tr ++ [⟨.closer, .wait⟩]) ++ [⟨.closer, .close .out⟩]) :=
      h1.emit (no_conflict (by simp)) (by simp) trivial (by simp) (by simp) (fun _ => nh) (fun _ => nh)
    have happ : tr ++ [(⟨.closer, .wait⟩ : Event (Loc J X)), ⟨.closer, .close .out⟩] = (tr ++ [⟨.closer, .wait⟩]) ++ [⟨.closer, .close .out⟩] := by simp
    rw [happ]
    refine ⟨h2.race, h2.known, fun i g w l hi' => ?_, h2.born, h2.stream, h2.left, fun _ => ⟨_, getElem?_last _ _, fun i e hi' he => ?_⟩, h2.ret⟩
    · cases h2.acc i g w l hi' with
      | before l h => exact .before l h
      | after l h => exact .after l h
      | common g x h h' => exact .common g x h h'
      | own k j x hn hk => exact .own k j x hn hk
    · rcases getElem?_snoc hi' with ⟨_, hi'⟩ | ⟨_, rfl⟩
      · refine Bef.next (e := ⟨.closer, .close .out⟩) ?_
        rcases getElem?_snoc hi' with ⟨_, hi'⟩ | ⟨_, rfl⟩
        · have hkey : ∃ k, s.workers[k]? = some .done ∧ (e.g = .worker k ∨ e.g = .feeder) := by
            rcases he with he | ⟨k, he⟩
            · have hw : s.workers[0]? = some s.workers[0] := List.getElem?_eq_getElem hc0
              exact ⟨0, by rw [hw, hdone _ (List.mem_of_getElem? hw)], .inr he⟩
            · obtain ⟨w, hw, _⟩ := he ▸ h.born i e hi'
              exact ⟨k, by rw [hw, hdone _ (List.mem_of_getElem? hw)], .inl he⟩
          obtain ⟨k, hk, hg⟩ := hkey
          obtain ⟨p, hp, hall⟩ := h.left k hk
          exact Bef.sync (e := ⟨.closer, .wait⟩) (hall i e hi' hg) (.wait (List.getElem?_eq_some_iff.1 hp).1 (getElem?_app _ hp) (getElem?_last _ _))
        · exact absurd he nh
      · exact absurd he nh
  | receive j rest _ _ =>
    rw [List.append_nil]
    refine ⟨h.race, h.known, fun i g w l hi' => ?_, h.born, h.stream, h.left, h.closed, h.ret⟩
    cases h.acc i g w l hi' with
    | before l h => exact .before l h
    | after l h => exact .after l h
    | common g x h h' => exact .common g x h h'
    | own k j x hn hk => exact .own k j x hn hk
  | ret hr _ ho =>
    have nh : ∀ {o : Op (Loc J X)}, ¬ (⟨.main, o⟩ : Event (Loc J X)).g.Helper := by
      rintro o (h | ⟨k, h⟩) <;> cases h
    have h1 : s.TInv np (tr ++ [⟨.main, .drained .out⟩]) := h.emit (no_conflict (by simp)) (by simp) trivial (by simp) (by simp) (fun _ => nh) (fun _ => nh)
    refine ⟨h1.race, h1.known, fun i g w l hi' => ?_, h1.born, h1.stream, h1.left, h1.closed, fun _ i e hi' he => ?_⟩
    · cases h1.acc i g w l hi' with
      | before l h => exact .before l h
      | after l _ => exact .after l rfl
      | common g x h h' => exact .common g x h h'
      | own k j x hn hk => exact .own k j x hn hk
    · rcases getElem?_snoc hi' with ⟨_, hi'⟩ | ⟨_, rfl⟩
      · obtain ⟨p, hp, hall⟩ := h.closed ho
        exact Bef.sync (e := ⟨.main, .drained .out⟩) (.inr (hall i e hi' he)) (.close (List.getElem?_eq_some_iff.1 hp).1 (getElem?_app _ hp) (getElem?_last _ _))
      · exact absurd he nh
  | feed x hc =>
    obtain ⟨d, o1, o2⟩ := strm hc
    have ha : s.Allowed np tr.length false .feeder (.common x : Loc J X) := .common _ x (.inl rfl) rfl
    exact h.emit (h.conflict o2 trivial (by simp) ha (by simp)) (fun w l he => by cases he; exact ha) trivial (by simp [hc]) (fun k hk => absurd hk (d k))
      (by simp [o1]) (by simp [o2])
  | touchOwn a b j l w x hw =>
    obtain ⟨o1, o2⟩ := open_ hw (by simp)
    have hk : s.workers[a.length]? = some (.busy j l) := by rw [hw]; simp
    have hal : s.Alive (.worker a.length) := ⟨_, hk, by simp⟩
    have ha : s.Allowed np tr.length w (.worker a.length) (.own j x : Loc J X) := by
      have hp := (hi.placed.nodup_iff.2 hnd)
      rw [List.append_assoc, List.nodup_append'] at hp
      obtain ⟨-, hp2, hp3⟩ := hp
      rw [List.nodup_append', List.nodup_flatMap] at hp2
      refine .own _ j x (fun hm => ?_) (fun k' l' hb => ?_)
      · exact hp3 hm (List.mem_append_left _ (List.mem_flatMap.2 ⟨_, List.mem_of_getElem? hk, by simp [Worker.before]⟩))
      · by_contra hne
        have hpw := hp2.1.2
        rw [List.pairwise_iff_getElem] at hpw
        obtain ⟨q1, e1⟩ := List.getElem?_eq_some_iff.1 hb
        obtain ⟨q2, e2⟩ := List.getElem?_eq_some_iff.1 hk
        rcases Nat.lt_or_gt_of_ne hne with hlt | hlt
        · exact hpw _ _ q1 q2 hlt (a := j) (by rw [e1]; simp [Worker.before]) (by rw [e2]; simp [Worker.before])
        · exact hpw _ _ q2 q1 hlt (a := j) (by rw [e2]; simp [Worker.before]) (by rw [e1]; simp [Worker.before])
    refine h.emit (h.conflict o2 hal (by simp) ha (fun j' x' he => by cases he; exact ⟨_, _, rfl, hk⟩)) (fun w l he => by cases he; exact ha) hal (by simp) ?_
      (by simp [o1]) (by simp [o2])
    intro k hkd
    refine ⟨fun he => ?_, by simp⟩
    cases he
    rw [hk] at hkd; cases hkd
  | touchCommon a b j l x hw =>
    obtain ⟨o1, o2⟩ := open_ hw (by simp)
    have hk : s.workers[a.length]? = some (.busy j l) := by rw [hw]; simp
    have hal : s.Alive (.worker a.length) := ⟨_, hk, by simp⟩
    have ha : s.Allowed np tr.length false (.worker a.length) (.common x : Loc J X) := .common _ x (.inr ⟨_, rfl⟩) rfl
    refine h.emit (h.conflict o2 hal (by simp) ha (by simp)) (fun w l he => by cases he; exact ha) hal (by simp) ?_ (by simp [o1]) (by simp [o2])
    intro k hkd
    refine ⟨fun he => ?_, by simp⟩
    cases he
    rw [hk] at hkd; cases hkd
  | caller w l hr =>
    have nh : ∀ {o : Op (Loc J X)}, ¬ (⟨.main, o⟩ : Event (Loc J X)).g.Helper := by
      rintro o (h | ⟨k, h⟩) <;> cases h
    refine h.emit (fun i f hi' hc => ?_) (fun w l _ => .after l hr) trivial (by simp) (by simp) (fun _ => nh) (fun _ => nh)
    obtain ⟨g, op⟩ := f
    obtain ⟨hne, l', w1, w2, h1, -⟩ := hc
    simp only at h1
    subst h1
    cases h.acc i g w1 l' hi' with
    | before _ _ => exact absurd rfl hne
    | after _ _ => exact absurd rfl hne
    | common _ x hh _ => exact h.ret hr i _ hi' hh
    | own k j x _ _ => exact h.ret hr i _ hi' (.inr ⟨k, rfl⟩)

theorem Pool.LStep.workers {s t : Pool J} {evs : List (Event (Loc J X))} (h : Pool.LStep cap need s evs t) : t.workers.length = s.workers.length := by
  cases h <;> simp_all

/-- **C97** for `SimplifyInstances`: whatever the caller did before the call and does after it, and however the goroutines interleave, two accesses of one location
by different goroutines, one of them a write, are ordered by happens-before. -/
theorem C97_instances (hc : 0 < c) (hnd : jobs.Nodup) {tr : List (Event (Loc J X))} {s : Pool J} (h : Pool.Exec cap need c jobs n pre tr s) : RaceFree tr := by
  have key : s.workers.length = c ∧ s.TInv pre.length tr := by
    induction h with
    | init => exact ⟨by simp [Pool.init], Pool.TInv.init⟩
    | step he hs ih => exact ⟨hs.workers.trans ih.1, ih.2.step hnd (by omega) he.inv hs⟩
  exact key.2.race

/-- one worker, one instance: the caller writes it, the worker writes it, the caller reads it after the call -/
example : ∃ (tr : List (Event (Loc Nat Unit))) (s : Pool Nat), Pool.Exec 2 (fun _ => 0) 1 [7] 0 [(true, .own 7 ())] tr s ∧ s.returned = true ∧ RaceFree tr ∧
    tr[0]? = some ⟨.main, .access true (.own 7 ())⟩ ∧ tr[9]? = some ⟨.worker 0, .access true (.own 7 ())⟩ ∧
    tr[16]? = some ⟨.main, .access false (.own 7 ())⟩ := by
  have e := (((((((((((Pool.Exec.init (J := Nat) (X := Unit) (cap := 2) (need := fun _ => 0) (c := 1) (jobs := [7]) (n := 0) (pre := [(true, .own 7 ())])).step
    (.spawn _ [] [] rfl)).step (.hand _ [] [] 7 [] rfl rfl rfl)).step (.touchOwn _ [] [] 7 0 true () rfl)).step (.finish _ [] [] 7 0 rfl)).step
    (.send _ [] [] 7 rfl rfl (by decide))).step (.closeStream _ rfl rfl)).step (.leave _ [] [] rfl rfl (by decide))).step (.close _ rfl rfl rfl)).step
    (.receive _ 7 [] rfl rfl)).step (.ret _ rfl rfl rfl)).step (.caller _ false (.own 7 ()) rfl)
  exact ⟨_, _, e, rfl, C97_instances (by decide) (by decide) e, rfl, rfl, rfl⟩

/-- the hypotheses on the call matter: without workers (`ConcurProcs = 0`) the call returns at once, the first goroutine still reads the slice, and the caller may
overwrite it -/
theorem C97_no_workers (cap : Nat) (need : J → Nat) (j : J) (x : X) (n : Int) : ∃ (tr : List (Event (Loc J X))) (s : Pool J),
    Pool.Exec cap need 0 [j] n [] tr s ∧ ¬ RaceFree tr := by
  have e := (((((Pool.Exec.init (X := X) (cap := cap) (need := need) (c := 0) (jobs := [j]) (n := n) (pre := [])).step (.close _ rfl rfl rfl)).step
    (.ret _ rfl rfl rfl)).step (.feed _ x rfl)).step (.caller _ true (.common x) rfl))
  refine ⟨_, _, e, fun h => ?_⟩
  have h9 := h 9 10 _ _ (by omega) rfl rfl ⟨by simp, .common x, false, true, rfl, rfl, .inr rfl⟩
  obtain ⟨b, hb, -⟩ := Relation.TransGen.head'_iff.1 h9
  cases hb with
  | program hlt h1 h2 hg =>
    cases h1
    have := (List.getElem?_eq_some_iff.1 h2).1
    simp only [opening, List.map_nil, List.nil_append, List.length_append, List.length_cons, List.length_nil] at this
    obtain rfl : b = 10 := by omega
    cases h2
    cases hg
  | go _ h1 _ => cases h1
  | close _ h1 _ => cases h1
  | wait _ h1 _ => cases h1

end

/-! ### `processConstSimplification` -/

section
variable {N L : Type} {cap : Nat} {select : N → List N} {chunks : List (List N)} {pre : List (Bool × L)}

theorem Search.LStep.erase {s t : Search N} {evs : List (Event L)} (h : Search.LStep cap select s evs t) : t = s ∨ Search.Step cap select s (.to t) := by
  cases h with
  | spawn a b c h => exact .inr (.spawn s a b c h)
  | work a b c x r h => exact .inr (.work s a b c x r h)
  | send a b c r o l h1 h2 h3 => exact .inr (.send s a b c r o l h1 h2 h3)
  | leave a b c h1 h2 => exact .inr (.leave s a b c h1 h2)
  | close h1 h2 h3 => exact .inr (.close s h1 h2 h3)
  | receive j r h1 h2 => exact .inr (.receive s j r h1 h2)
  | ret h1 h2 h3 => exact .inr (.ret s h1 h2 h3)
  | look | caller => exact .inl rfl

theorem Search.Step.traced {s t : Search N} (h : Search.Step cap select s (.to t)) : ∃ evs : List (Event L), Search.LStep cap select s evs t := by
  cases h with
  | spawn a b c h => exact ⟨_, .spawn s a b c h⟩
  | work a b c x r h => exact ⟨_, .work s a b c x r h⟩
  | send a b c r o l h1 h2 h3 => exact ⟨_, .send s a b c r o l h1 h2 h3⟩
  | leave a b c h1 h2 => exact ⟨_, .leave s a b c h1 h2⟩
  | close h1 h2 h3 => exact ⟨_, .close s h1 h2 h3⟩
  | receive j r h1 h2 => exact ⟨_, .receive s j r h1 h2⟩
  | ret h1 h2 h3 => exact ⟨_, .ret s h1 h2 h3⟩

theorem Search.Exec.of_run {k : Nat} {s : Search N} (hr : Run (Search.Step cap select) k (Search.init chunks) s) : ∃ tr, Search.Exec cap select chunks pre tr s := by
  generalize h0 : Search.init chunks = s0 at hr
  induction hr with
  | nil => subst h0; exact ⟨_, .init⟩
  | snoc _ hs ih =>
    obtain ⟨tr, h⟩ := ih h0
    obtain ⟨evs, he⟩ := hs.traced (L := L)
    exact ⟨_, h.step he⟩

theorem Search.Exec.inv {tr : List (Event L)} {s : Search N} (h : Search.Exec cap select chunks pre tr s) : s.Inv select (chunks.flatten.flatMap select) := by
  induction h with
  | init => exact Search.Inv.init select chunks
  | step _ hs ih =>
    rcases hs.erase with rfl | hs
    · exact ih
    · obtain ⟨t', e, hi⟩ := ih.step hs
      cases e; exact hi

def Search.Alive (s : Search N) : Gor → Prop
  | .worker k => ∃ w, s.workers[k]? = some w ∧ w.2 ≠ .unborn
  | .feeder => False
  | _ => True

/-- who may have touched what -/
inductive Search.Allowed (np : Nat) (s : Search N) (i : Nat) (w : Bool) : Gor → Prop where
  | before : i < np → Allowed np s i w .main
  | after : s.returned = true → Allowed np s i w .main
  | look (k : Nat) : w = false → Allowed np s i w (.worker k)

structure Search.TInv (np : Nat) (s : Search N) (tr : List (Event L)) : Prop where
  race : RaceFree tr
  known : ∀ i < np, ∀ g, s.Alive g → Bef tr i g
  acc : ∀ (i : Nat) g w l, tr[i]? = some ⟨g, .access w l⟩ → s.Allowed np i w g
  born : ∀ (i : Nat) (e : Event L), tr[i]? = some e → s.Alive e.g
  left : ∀ (k : Nat) ch, s.workers[k]? = some (ch, .done) → ∃ p, tr[p]? = some ⟨.worker k, .done⟩ ∧ ∀ (i : Nat) (e : Event L), tr[i]? = some e → e.g = .worker k →
    i = p ∨ HB tr i p
  closed : s.outClosed = true → ∃ p, tr[p]? = some ⟨.closer, .close .out⟩ ∧ ∀ (i : Nat) (e : Event L) k, tr[i]? = some e → e.g = .worker k → HB tr i p
  ret : s.returned = true → ∀ (i : Nat) (e : Event L) k, tr[i]? = some e → e.g = .worker k → Bef tr i .main

theorem Search.TInv.emit {np : Nat} {s : Search N} {tr : List (Event L)} (h : s.TInv np tr) {e : Event L}
    (hr : ∀ i f, tr[i]? = some f → Conflict f e → Bef tr i e.g) (ha : ∀ w l, e.op = .access w l → s.Allowed np tr.length w e.g) (hb : s.Alive e.g)
    (hl : ∀ (k : Nat) ch, s.workers[k]? = some (ch, .done) → e.g ≠ .worker k)
    (hc : s.outClosed = true → ∀ k, e.g ≠ .worker k) (hret : s.returned = true → ∀ k, e.g ≠ .worker k) : s.TInv np (tr ++ [e]) where
  race := h.race.snoc hr
  known i hi g hg := (h.known i hi g hg).app _
  acc i g w l hi := by
    rcases getElem?_snoc hi with ⟨_, hi⟩ | ⟨rfl, rfl⟩
    · exact h.acc i g w l hi
    · exact ha w l rfl
  born i f hi := by
    rcases getElem?_snoc hi with ⟨_, hi⟩ | ⟨rfl, rfl⟩
    · exact h.born i f hi
    · exact hb
  left k ch hk := by
    obtain ⟨p, h1, h2⟩ := h.left k ch hk
    refine ⟨p, getElem?_app _ h1, fun i f hi hf => ?_⟩
    rcases getElem?_snoc hi with ⟨_, hi⟩ | ⟨rfl, rfl⟩
    · exact (h2 i f hi hf).imp_right (HB.app _)
    · exact absurd hf (hl k ch hk)
  closed hc' := by
    obtain ⟨p, h1, h2⟩ := h.closed hc'
    refine ⟨p, getElem?_app _ h1, fun i f k hi hf => ?_⟩
    rcases getElem?_snoc hi with ⟨_, hi⟩ | ⟨rfl, rfl⟩
    · exact (h2 i f k hi hf).app _
    · exact absurd hf (hc hc' k)
  ret hc' i f k hi hf := by
    rcases getElem?_snoc hi with ⟨_, hi⟩ | ⟨rfl, rfl⟩
    · exact (h.ret hc' i f k hi hf).app _
    · exact absurd hf (hret hc' k)

theorem Search.TInv.init : (Search.init chunks).TInv pre.length (searchOpening pre) := by
  have hm : ∀ i < pre.length, ∃ a : Bool × L, (searchOpening pre)[i]? = some ⟨.main, .access a.1 a.2⟩ := by
    intro i hi
    refine ⟨pre[i], ?_⟩
    simp [searchOpening, List.getElem?_append_left, hi]
  have hg : ∀ k, ∀ e, ([⟨.main, .go .spawner⟩, ⟨.spawner, .start⟩, ⟨.main, .go .closer⟩, ⟨.closer, .start⟩] : List (Event L))[k]? = some e →
      (searchOpening pre)[pre.length + k]? = some e := by
    intro k e h
    rw [searchOpening, List.getElem?_append_right (by simp), List.length_map, Nat.add_sub_cancel_left]
    exact h
  have hcase : ∀ i e, (searchOpening pre)[i]? = some e → (i < pre.length ∧ e.g = .main) ∨ (pre.length ≤ i ∧ (∀ w l, e.op ≠ .access w l) ∧ (∀ k, e.g ≠ .worker k) ∧ e.g ≠ .feeder) := by
    intro i e hi
    rcases Nat.lt_or_ge i pre.length with h | h
    · obtain ⟨a, ha⟩ := hm i h
      rw [ha] at hi
      exact .inl ⟨h, by rw [← Option.some.inj hi]⟩
    · refine .inr ⟨h, ?_⟩
      rw [searchOpening, List.getElem?_append_right (by simpa using h), List.length_map] at hi
      have := List.mem_of_getElem? hi
      simp only [List.mem_cons, List.not_mem_nil, or_false] at this
      rcases this with rfl | rfl | rfl | rfl <;> exact ⟨by simp, by simp, by simp⟩
  have dead : ∀ (k : Nat) (w : List N × Searcher N), (Search.init chunks).workers[k]? = some w → w.2 = .unborn := fun k w hk => by
    have := List.mem_of_getElem? hk
    simp only [Search.init, List.mem_map] at this
    obtain ⟨c, -, rfl⟩ := this
    rfl
  refine ⟨?_, ?_, ?_, ?_, fun k ch hk => (by cases dead k _ hk), by simp [Search.init], by simp [Search.init]⟩
  · intro i j e f hij hi hj hc
    rcases hcase i e hi with ⟨_, h1⟩ | ⟨_, h1, _⟩
    · rcases hcase j f hj with ⟨_, h2⟩ | ⟨_, h2, _⟩
      · exact absurd (h1.trans h2.symm) hc.1
      · obtain ⟨_, l, _, w', -, h3, -⟩ := hc
        exact absurd h3 (h2 w' l)
    · obtain ⟨_, l, w, _, h3, -⟩ := hc
      exact absurd h3 (h1 w l)
  · intro i hi g hal
    obtain ⟨a, ha⟩ := hm i hi
    have via : ∀ k h, ([⟨.main, .go .spawner⟩, ⟨.spawner, .start⟩, ⟨.main, .go .closer⟩, ⟨.closer, .start⟩] : List (Event L))[k]? = some ⟨.main, .go h⟩ →
        ([⟨.main, .go .spawner⟩, ⟨.spawner, .start⟩, ⟨.main, .go .closer⟩, ⟨.closer, .start⟩] : List (Event L))[k + 1]? = some ⟨h, .start⟩ →
        Bef (searchOpening pre) i h := by
      intro k h h1 h2
      exact ⟨_, _, hg _ _ h2, rfl, .inr (.tail (.single (.program (by omega) ha (hg _ _ h1) rfl)) (.go (by omega) (hg _ _ h1) (hg _ _ h2)))⟩
    cases g with
    | main => exact ⟨i, _, ha, rfl, .inl rfl⟩
    | feeder => exact absurd hal (by simp [Search.Alive])
    | spawner => exact via 0 .spawner rfl rfl
    | closer => exact via 2 .closer rfl rfl
    | worker k =>
      obtain ⟨w, h1, h2⟩ := hal
      exact absurd (dead k w h1) h2
  · intro i g w l hi
    rcases hcase i _ hi with ⟨h1, h2⟩ | ⟨_, h1, _⟩
    · cases h2; exact .before h1
    · exact absurd rfl (h1 w l)
  · intro i e hi
    rcases hcase i e hi with ⟨_, h1⟩ | ⟨_, _, h1, h2⟩
    · rw [h1]; exact trivial
    · match hg : e.g, h1, h2 with
      | .worker k, h1, _ => exact absurd rfl (h1 k)
      | .main, _, _ | .spawner, _, _ | .closer, _, _ => exact trivial
      | .feeder, _, h2 => exact absurd rfl h2

theorem Search.Alive.move {s : Search N} {a b : List (List N × Searcher N)} {w w' : List N × Searcher N} (hw : s.workers = a ++ w :: b) (hw' : w'.2 ≠ .unborn)
    {t : Search N} (ht : t.workers = a ++ w' :: b) {g : Gor} (h : s.Alive g) : t.Alive g := by
  cases g with
  | worker k =>
    obtain ⟨v, h1, h2⟩ := h
    rw [hw] at h1
    obtain ⟨v', h3, h4⟩ := get_move (w' := w') h1
    refine ⟨v', by rw [ht]; exact h3, ?_⟩
    rcases h4 with ⟨_, _, rfl⟩ | ⟨_, rfl⟩
    exacts [hw', h2]
  | feeder => exact h
  | _ => exact trivial

theorem Search.Alive.back {s : Search N} {a b : List (List N × Searcher N)} {w w' : List N × Searcher N} (hw : s.workers = a ++ w :: b) (hw' : w.2 ≠ .unborn)
    {t : Search N} (ht : t.workers = a ++ w' :: b) {g : Gor} (h : t.Alive g) : s.Alive g := by
  cases g with
  | worker k =>
    obtain ⟨v, h1, h2⟩ := h
    rw [ht] at h1
    obtain ⟨v', h3, h4⟩ := get_move (w' := w) h1
    refine ⟨v', by rw [hw]; exact h3, ?_⟩
    rcases h4 with ⟨_, _, rfl⟩ | ⟨_, rfl⟩
    exacts [hw', h2]
  | feeder => exact h
  | _ => exact trivial

theorem Search.Allowed.keep {np : Nat} {s t : Search N} {i : Nat} {w : Bool} {g : Gor} (h : s.Allowed np i w g) (e : s.returned = true → t.returned = true) :
    t.Allowed np i w g := by
  cases h with
  | before h => exact .before h
  | after h => exact .after (e h)
  | look k h => exact .look k h

/-- a worker that has been started goes on -/
theorem Search.TInv.move {np : Nat} {s : Search N} {tr : List (Event L)} (h : s.TInv np tr) {a b : List (List N × Searcher N)} {w w' : List N × Searcher N}
    (hw : s.workers = a ++ w :: b) (h1 : w.2 ≠ .unborn) (h2 : w'.2 ≠ .unborn) (h3 : w'.2 ≠ .done) {t : Search N} (ht : t.workers = a ++ w' :: b)
    (e2 : t.outClosed = s.outClosed) (e3 : t.returned = s.returned) : t.TInv np tr where
  race := h.race
  known i hi g hg := h.known i hi g (hg.back hw h1 ht)
  acc i g v l hi := (h.acc i g v l hi).keep (fun h => by rw [e3]; exact h)
  born i e hi := (h.born i e hi).move hw h2 ht
  left k ch hk := by
    rw [ht] at hk
    rcases set_get (w := w) hk with ⟨_, hk⟩ | ⟨_, hk⟩
    · exact absurd (by rw [← hk]) h3
    · exact h.left k ch (by rw [hw]; exact hk)
  closed hc := h.closed (e2 ▸ hc)
  ret hc := h.ret (e3 ▸ hc)

theorem Search.TInv.step {np : Nat} {s t : Search N} {tr evs : List (Event L)} {all : List N} (hi : s.Inv select all) (h : s.TInv np tr)
    (hs : Search.LStep cap select s evs t) : t.TInv np (tr ++ evs) := by
  have open_ : ∀ {a b : List (List N × Searcher N)} {w : List N × Searcher N}, s.workers = a ++ w :: b → w.2 ≠ .done → s.outClosed = false ∧ s.returned = false := by
    intro a b w hw hne
    have : s.outClosed = false := by
      by_contra hc
      have h0 := hi.closed (by simpa using hc)
      rw [hi.count] at h0
      exact hne (searcher_done (by exact_mod_cast h0) w (by rw [hw]; simp))
    refine ⟨this, ?_⟩
    by_contra hr
    rw [(hi.gone (by simpa using hr)).1] at this
    cases this
  have nd : ∀ {a b : List (List N × Searcher N)} {w : List N × Searcher N}, s.workers = a ++ w :: b → w.2 ≠ .done → ∀ (k : Nat) ch, s.workers[k]? = some (ch, .done) →
      Gor.worker a.length ≠ .worker k := by
    intro a b w hw hne k ch hk he
    cases he
    rw [hw, get_here] at hk
    cases hk
    exact hne rfl
  cases hs with
  | spawn a b c hw =>
    obtain ⟨o1, o2⟩ := open_ hw (by simp)
    have h1 : s.TInv np (tr ++ [⟨.spawner, .go (.worker a.length)⟩]) := h.emit (no_conflict (by simp)) (by simp) trivial (by simp) (by simp) (by simp)
    have hbk : ∀ g, Search.Alive { s with workers := a ++ (c, .live c []) :: b } g → g = .worker a.length ∨ s.Alive g := by
      intro g hg
      cases g with
      | worker k =>
        obtain ⟨v, hv1, hv2⟩ := hg
        rcases set_get (w := (c, Searcher.unborn)) hv1 with ⟨rfl, _⟩ | ⟨_, hv1⟩
        · exact .inl rfl
        · exact .inr ⟨v, by rw [hw]; exact hv1, hv2⟩
      | feeder => exact .inr hg
      | _ => exact .inr trivial
    have happ : tr ++ [(⟨.spawner, .go (.worker a.length)⟩ : Event L), ⟨.worker a.length, .start⟩] =
        (tr ++ [⟨.spawner, .go (.worker a.length)⟩]) ++ [⟨.worker a.length, .start⟩] := by simp
    rw [happ]
    have hedge : Edge ((tr ++ [(⟨.spawner, .go (.worker a.length)⟩ : Event L)]) ++ [⟨.worker a.length, .start⟩]) tr.length
        (tr ++ [(⟨.spawner, .go (.worker a.length)⟩ : Event L)]).length :=
      .go (by simp) (getElem?_app _ (getElem?_last _ _)) (getElem?_last _ _)
    refine ⟨h1.race.quiet (by simp), ?_, ?_, ?_, ?_, by simp [o1], by simp [o2]⟩
    · intro i hi' g hg
      rcases hbk g hg with rfl | hg
      · exact Bef.sync (e := ⟨.worker a.length, .start⟩) (.inr (Bef.next (e := ⟨.spawner, .go (.worker a.length)⟩) (h.known i hi' .spawner trivial))) hedge
      · exact (h1.known i hi' g hg).app _
    · intro i g w l hi'
      rcases getElem?_snoc hi' with ⟨_, hi'⟩ | ⟨_, he⟩
      · exact (h1.acc i g w l hi').keep id
      · cases he
    · intro i e hi'
      rcases getElem?_snoc hi' with ⟨_, hi'⟩ | ⟨_, rfl⟩
      · exact (h1.born i e hi').move hw (by simp) rfl
      · exact ⟨_, get_here _ _ _, by simp⟩
    · intro k ch hkd
      rcases set_get (w := (c, Searcher.unborn)) hkd with ⟨_, hkd⟩ | ⟨hne, hkd⟩
      · cases hkd
      · obtain ⟨p, hp, hall⟩ := h1.left k ch (by rw [hw]; exact hkd)
        refine ⟨p, getElem?_app _ hp, fun i e hi' hf => ?_⟩
        rcases getElem?_snoc hi' with ⟨_, hi'⟩ | ⟨_, rfl⟩
        · exact (hall i e hi' hf).imp_right (HB.app _)
        · cases hf; exact absurd rfl hne
  | work a b c x todo hw =>
    rw [List.append_nil]
    exact h.move hw (by simp) (w' := (c, .live todo (select x))) (by simp) (by simp) rfl rfl rfl
  | send a b c todo o sel hw _ _ =>
    rw [List.append_nil]
    exact h.move hw (by simp) (w' := (c, .live todo sel)) (by simp) (by simp) rfl rfl rfl
  | leave a b c hw _ =>
    obtain ⟨o1, o2⟩ := open_ hw (by simp)
    have hal : s.Alive (.worker a.length) := ⟨_, by rw [hw]; exact get_here _ _ _, by simp⟩
    have h2 : s.TInv np (tr ++ [⟨.worker a.length, .done⟩]) :=
      h.emit (no_conflict (by simp)) (by simp) hal (nd hw (by simp)) (by simp [o1]) (by simp [o2])
    refine ⟨h2.race, fun i hi' g hg => h2.known i hi' g (hg.back hw (by simp) rfl), fun i g w l hi' => (h2.acc i g w l hi').keep id,
      fun i e hi' => (h2.born i e hi').move hw (by simp) rfl, fun k ch hkd => ?_, h2.closed, h2.ret⟩
    rcases set_get (w := (c, Searcher.live [] [])) hkd with ⟨rfl, _⟩ | ⟨_, hkd⟩
    · refine ⟨_, getElem?_last _ _, fun i e hi' he => ?_⟩
      rcases getElem?_snoc hi' with ⟨_, hi'⟩ | ⟨rfl, rfl⟩
      · exact .inr (Bef.next (e := ⟨.worker a.length, .done⟩) (Bef.self hi' he))
      · exact .inl rfl
    · exact h2.left k ch (by rw [hw]; exact hkd)
  | close hcw hwg ho =>
    have hdone : ∀ w ∈ s.workers, w.2 = .done := by
      rw [hi.count] at hwg
      exact searcher_done (by exact_mod_cast hwg)
    have h1 : s.TInv np (tr ++ [⟨.closer, .wait⟩]) := h.emit (no_conflict (by simp)) (by simp) trivial (by simp) (by simp) (by simp)
    have h2 : s.TInv np ((tr ++ [⟨.closer, .wait⟩]) ++ [⟨.closer, .close .out⟩]) :=
      h1.emit (no_conflict (by simp)) (by simp) trivial (by simp) (by simp) (by simp)
    have happ : tr ++ [(⟨.closer, .wait⟩ : Event L), ⟨.closer, .close .out⟩] = (tr ++ [⟨.closer, .wait⟩]) ++ [⟨.closer, .close .out⟩] := by simp
    rw [happ]
    refine ⟨h2.race, h2.known, fun i g w l hi' => (h2.acc i g w l hi').keep id, h2.born, h2.left, fun _ => ⟨_, getElem?_last _ _, fun i e k hi' he => ?_⟩, h2.ret⟩
    rcases getElem?_snoc hi' with ⟨_, hi'⟩ | ⟨_, rfl⟩
    · refine Bef.next (e := ⟨.closer, .close .out⟩) ?_
      rcases getElem?_snoc hi' with ⟨_, hi'⟩ | ⟨_, rfl⟩
      · obtain ⟨⟨ch, w⟩, hw, _⟩ := he ▸ h.born i e hi'
        obtain rfl : w = .done := hdone _ (List.mem_of_getElem? hw)
        obtain ⟨p, hp, hall⟩ := h.left k ch hw
        exact Bef.sync (e := ⟨.closer, .wait⟩) (hall i e hi' he) (.wait (List.getElem?_eq_some_iff.1 hp).1 (getElem?_app _ hp) (getElem?_last _ _))
      · cases he
    · cases he
  | receive j rest _ _ =>
    rw [List.append_nil]
    exact ⟨h.race, h.known, fun i g w l hi' => (h.acc i g w l hi').keep id, h.born, h.left, h.closed, h.ret⟩
  | ret hr _ ho =>
    have h1 : s.TInv np (tr ++ [⟨.main, .drained .out⟩]) := h.emit (no_conflict (by simp)) (by simp) trivial (by simp) (by simp) (by simp)
    refine ⟨h1.race, h1.known, fun i g w l hi' => (h1.acc i g w l hi').keep (fun _ => rfl), h1.born, h1.left, h1.closed, fun _ i e k hi' he => ?_⟩
    rcases getElem?_snoc hi' with ⟨_, hi'⟩ | ⟨_, rfl⟩
    · obtain ⟨p, hp, hall⟩ := h.closed ho
      exact Bef.sync (e := ⟨.main, .drained .out⟩) (.inr (hall i e k hi' he)) (.close (List.getElem?_eq_some_iff.1 hp).1 (getElem?_app _ hp) (getElem?_last _ _))
    · cases he
  | look a b c todo sel l hw =>
    obtain ⟨o1, o2⟩ := open_ hw (by simp)
    have hal : s.Alive (.worker a.length) := ⟨_, by rw [hw]; exact get_here _ _ _, by simp⟩
    refine h.emit (fun i f hi' hc => ?_) (fun w l he => by cases he; exact .look _ rfl) hal (nd hw (by simp)) (by simp [o1]) (by simp [o2])
    obtain ⟨g, op⟩ := f
    obtain ⟨_, l', w1, w2, h1, h2, h3⟩ := hc
    simp only at h1
    subst h1
    cases h2
    cases h.acc i g w1 l hi' with
    | before hlt => exact h.known i hlt _ hal
    | after h' => rw [o2] at h'; cases h'
    | look k hf => subst hf; rcases h3 with h3 | h3 <;> cases h3
  | caller w l hr =>
    refine h.emit (fun i f hi' hc => ?_) (fun w l _ => .after hr) trivial (by simp) (by simp) (by simp)
    obtain ⟨g, op⟩ := f
    obtain ⟨hne, l', w1, w2, h1, -⟩ := hc
    simp only at h1
    subst h1
    cases h.acc i g w1 l' hi' with
    | before _ => exact absurd rfl hne
    | after _ => exact absurd rfl hne
    | look k _ => exact h.ret hr i _ k hi' rfl

/-- **C97** for `processConstSimplification`: the searching goroutines only read, and what the caller writes before the call and after it is ordered with their reads
by happens-before, however they interleave. -/
theorem C97_search {tr : List (Event L)} {s : Search N} (h : Search.Exec cap select chunks pre tr s) : RaceFree tr := by
  have key : s.TInv pre.length tr := by
    induction h with
    | init => exact Search.TInv.init
    | step he hs ih => exact ih.step he.inv hs
  exact key.race

/-- one chunk: the caller writes, the worker reads, the caller writes again after the call -/
example : ∃ (tr : List (Event Unit)) (s : Search Nat), Search.Exec 2 (fun x => [x]) [[7]] [(true, ())] tr s ∧ RaceFree tr ∧ tr[0]? = some ⟨.main, .access true ()⟩ ∧
    tr[7]? = some ⟨.worker 0, .access false ()⟩ ∧ tr[12]? = some ⟨.main, .access true ()⟩ := by
  have e := ((((((((Search.Exec.init (N := Nat) (L := Unit) (cap := 2) (select := fun x => [x]) (chunks := [[7]]) (pre := [(true, ())])).step
    (.spawn _ [] [] [7] rfl)).step (.look _ [] [] [7] [7] [] () rfl)).step (.work _ [] [] [7] 7 [] rfl)).step (.send _ [] [] [7] [] 7 [] rfl rfl (by decide))).step
    (.leave _ [] [] [7] rfl (by decide))).step (.close _ rfl rfl rfl)).step (.receive _ 7 [] rfl rfl)).step (.ret _ rfl rfl rfl)
  exact ⟨_, _, e.step (.caller _ true () rfl), C97_search (e.step (.caller _ true () rfl)), rfl, rfl, rfl⟩

end

end Conc
end Verif
