import Verif.Model.Pointers
import Verif.Lemmas.Simplify
import Verif.Lemmas.FeatureClass
import Verif.Lemmas.Mono

/-! The run with pointers follows the run with identifiers. -/

set_option linter.unusedSectionVars false

namespace Verif

theorem Res.bind_assoc {α β γ : Type} (x : Res α) (f : α → Res β) (k : β → Res γ) : (x >>= f) >>= k = x >>= fun a => f a >>= k := by
  cases x <;> rfl

/-- two outcomes of the same kind, values related -/
inductive Res.Sim {α β : Type} (R : α → β → Prop) : Res α → Res β → Prop
  | ok {a : α} {b : β} (h : R a b) : Res.Sim R (.ok a) (.ok b)
  | panic : Res.Sim R .panic .panic
  | timeout : Res.Sim R .timeout .timeout

namespace Res.Sim

variable {α β γ δ : Type} {R : α → β → Prop} {S : γ → δ → Prop}

theorem bind {x : Res α} {y : Res β} {f : α → Res γ} {g : β → Res δ} (h : Res.Sim R x y) (hf : ∀ a b, x = .ok a → y = .ok b → R a b → Res.Sim S (f a) (g b)) :
    Res.Sim S (x >>= f) (y >>= g) := by
  cases h with
  | ok h => exact hf _ _ rfl rfl h
  | panic => exact .panic
  | timeout => exact .timeout

/-- the same computation first -/
theorem bind_same {x : Res α} {f : α → Res γ} {g : α → Res δ} (hf : ∀ a, x = .ok a → Res.Sim S (f a) (g a)) : Res.Sim S (x >>= f) (x >>= g) := by
  cases x with
  | ok a => exact hf a rfl
  | panic => exact .panic
  | timeout => exact .timeout

theorem mono {R' : α → β → Prop} {x : Res α} {y : Res β} (h : Res.Sim R x y) (hR : ∀ a b, x = .ok a → y = .ok b → R a b → R' a b) : Res.Sim R' x y := by
  cases h with
  | ok h => exact .ok (hR _ _ rfl rfl h)
  | panic => exact .panic
  | timeout => exact .timeout

theorem eq {x y : Res α} (h : Res.Sim (fun a b => a = b) x y) : x = y := by
  cases h with
  | ok h => rw [h]
  | panic => rfl
  | timeout => rfl

theorem refl {x : Res α} {R : α → α → Prop} (h : ∀ a, R a a) : Res.Sim R x x := by
  cases x with
  | ok a => exact .ok (h a)
  | panic => exact .panic
  | timeout => exact .timeout

end Res.Sim

namespace Ptr

variable {P C B K : Type}

/-- addresses in use are below `next`, and no address is stored for two identifiers -/
structure Mem.OK (m : Mem) : Prop where
  lt : ∀ i, m.cur i < m.next
  inj : ∀ i j, m.cur i = m.cur j → m.cur i ≠ 0 → i = j

theorem Mem.OK.empty : Mem.empty.OK := ⟨fun _ => Nat.one_pos, fun _ _ _ h => absurd rfl h⟩

theorem Mem.OK.put {m : Mem} (h : m.OK) (k : Int) : (⟨fun i => if i = k then m.next else m.cur i, m.next + 1⟩ : Mem).OK := by
  refine ⟨fun i => ?_, fun i j hij h0 => ?_⟩
  · show (if i = k then m.next else m.cur i) < m.next + 1
    have := h.lt i
    split <;> omega
  · simp only [] at hij h0
    have h1 := h.lt i
    have h2 := h.lt j
    split_ifs at hij h0 with a b <;> try omega
    exact h.inj i j hij h0

theorem Mem.OK.load {m : Mem} (h : m.OK) (l : List (Node P C B)) : (m.load l).2.OK := by
  induction l generalizing m with
  | nil => exact h
  | cons n l ih => exact ih (h.put n.id)

theorem Mem.load_next (m : Mem) (l : List (Node P C B)) : m.next ≤ (m.load l).2.next := by
  induction l generalizing m with
  | nil => exact Nat.le_refl _
  | cons n l ih => exact Nat.le_trans (Nat.le_succ m.next) (ih ⟨fun i => if i = n.id then m.next else m.cur i, m.next + 1⟩)

theorem Mem.load_other {m : Mem} {l : List (Node P C B)} {i : Int} (hi : i ∉ l.map Node.id) : (m.load l).2.cur i = m.cur i := by
  induction l generalizing m with
  | nil => rfl
  | cons n l ih =>
    rw [List.map_cons, List.mem_cons, not_or] at hi
    refine (ih hi.2).trans ?_
    show (if i = n.id then m.next else m.cur i) = m.cur i
    rw [if_neg hi.1]

theorem Mem.load_new {m : Mem} {l : List (Node P C B)} {i : Int} (hi : i ∈ l.map Node.id) : m.next ≤ (m.load l).2.cur i := by
  induction l generalizing m with
  | nil => cases hi
  | cons n l ih =>
    by_cases h : i ∈ l.map Node.id
    · exact Nat.le_trans (Nat.le_succ _) (ih (m := ⟨fun i => if i = n.id then m.next else m.cur i, m.next + 1⟩) h)
    · have hn : i = n.id := (List.mem_cons.1 hi).resolve_right h
      refine Nat.le_of_eq (Eq.trans ?_ (Mem.load_other (m := ⟨fun i => if i = n.id then m.next else m.cur i, m.next + 1⟩) h).symm)
      show m.next = if i = n.id then m.next else m.cur i
      rw [if_pos hn]

/-- what is stored never becomes nil, and is new or as before -/
theorem Mem.load_cur (m : Mem) (l : List (Node P C B)) (i : Int) : (m.load l).2.cur i = m.cur i ∨ m.next ≤ (m.load l).2.cur i := by
  by_cases h : i ∈ l.map Node.id
  · exact .inr (Mem.load_new h)
  · exact .inl (Mem.load_other h)

theorem Mem.load_refs {m : Mem} {l : List (Node P C B)} (hn : (l.map Node.id).Nodup) : (m.load l).1 = l.map (m.load l).2.at := by
  induction l generalizing m with
  | nil => rfl
  | cons n l ih =>
    rw [List.map_cons, List.nodup_cons] at hn
    show (⟨n, m.next⟩ : Ref P C B) :: (Mem.load _ l).1 = ⟨n, (Mem.load _ l).2.cur n.id⟩ :: _
    rw [ih hn.2, Mem.load_other hn.1]
    simp only [if_true]
    rfl

/-- a pointer that the index stores -/
def Stored (m : Mem) (r : Ref P C B) : Prop := r.addr = m.cur r.node.id ∧ r.addr ≠ 0

theorem Stored.iff {m : Mem} (hm : m.OK) {r s : Ref P C B} (hr : Stored m r) (hs : Stored m s) : r.addr = s.addr ↔ r.node.id = s.node.id := by
  constructor
  · intro h
    refine hm.inj _ _ ?_ ?_
    · rw [← hr.1, ← hs.1, h]
    · rw [← hr.1]; exact hr.2
  · intro h; rw [hr.1, hs.1, h]

/-- corresponding lists: the same values, every pointer with `Q` -/
def Same (Q : Ref P C B → Prop) (l : List (Ref P C B)) (l' : List (Node P C B)) : Prop := l.map Ref.node = l' ∧ ∀ r ∈ l, Q r

/-! ### selection -/

theorem dictSet_same {Q : Ref P C B → Prop} {d : List (Ref P C B)} {d' : List (Node P C B)} (h : Same Q d d') {r : Ref P C B} (hr : Q r) :
    Same Q (dictSet d r) (Verif.dictSet d' r.node) := by
  obtain ⟨rfl, h2⟩ := h
  unfold dictSet Verif.dictSet
  rw [List.any_map]
  have e : ((fun x : Node P C B => decide (x.range = r.node.range)) ∘ Ref.node) = fun x : Ref P C B => decide (x.node.range = r.node.range) := rfl
  rw [e]
  by_cases hc : (d.any fun x => decide (x.node.range = r.node.range)) = true
  · rw [if_pos hc, if_pos hc]
    refine ⟨?_, ?_⟩
    · rw [List.map_map, List.map_map]
      refine List.map_congr_left (fun x _ => ?_)
      simp only [Function.comp]
      split <;> rfl
    · intro x hx
      obtain ⟨y, hy, rfl⟩ := List.mem_map.1 hx
      split
      · exact hr
      · exact h2 y hy
  · rw [if_neg hc, if_neg hc]
    refine ⟨by simp, ?_⟩
    intro x hx
    rcases List.mem_append.1 hx with hx | hx
    · exact h2 x hx
    · rw [List.mem_singleton.1 hx]; exact hr

theorem dictAdd_same {Q : Ref P C B → Prop} {d : List (Ref P C B)} {d' : List (Node P C B)} (h : Same Q d d')
    {s : Option (Ref P C B) × Option (Ref P C B)} (h1 : ∀ r, s.1 = some r → Q r) (h2 : ∀ r, s.2 = some r → Q r) :
    Same Q (dictAdd d s) (Verif.dictAdd d' (s.1.map Ref.node, s.2.map Ref.node)) := by
  obtain ⟨s1, s2⟩ := s
  unfold dictAdd Verif.dictAdd
  cases s1 <;> cases s2 <;> simp only [Option.map_none, Option.map_some]
  · exact h
  · exact dictSet_same h (h2 _ rfl)
  · exact dictSet_same h (h1 _ rfl)
  · exact dictSet_same (dictSet_same h (h1 _ rfl)) (h2 _ rfl)

section
variable [LinearOrder B] [BoundedOrder B] [LinearOrder K]
variable {env : Env P C B K} {pts : Int → List P} {hs : List Int} {src : Int → Prop} {ids : Nat → Int} {g : Nat}

/-- deform/contig.go, deform/noncontig.go: the candidates are the arguments -/
theorem candidates_shape {lib : Lib P C B K} {d : Fl K} {a b : Node P C B} {r : Bool × Bool × Nat} {s : Option (Node P C B) × Option (Node P C B)}
    (h : Verif.candidates lib d a b r = .ok s) : (s.1 = none ∨ s.1 = some a) ∧ (s.2 = none ∨ s.2 = some b) := by
  unfold Verif.candidates at h
  split_ifs at h with h1 h2 h3
  · cases h; simp
  · unfold contiguousCandidates at h
    obtain ⟨ca, -, h⟩ := Res.bind_eq_ok.1 h
    obtain ⟨cb, -, h⟩ := Res.bind_eq_ok.1 h
    cases h
    cases ca <;> cases cb <;> simp
  · cases h
    unfold nonContiguousCandidates
    simp only []
    split_ifs <;> simp
  · cases h; simp

theorem candidates_sim (lib : Lib P C B K) (d : Fl K) (a b : Ref P C B) (r : Bool × Bool × Nat) :
    Res.Sim (fun s s' => s' = (s.1.map Ref.node, s.2.map Ref.node) ∧ (∀ x, s.1 = some x → x = a) ∧ (∀ x, s.2 = some x → x = b))
      (candidates lib d a b r) (Verif.candidates lib d a.node b.node r) := by
  unfold candidates
  cases h : Verif.candidates lib d a.node b.node r with
  | panic => exact .panic
  | timeout => exact .timeout
  | ok s =>
    refine .ok ?_
    obtain ⟨s1, s2⟩ := s
    obtain ⟨h1, h2⟩ := candidates_shape h
    simp only [] at h1 h2
    rcases h1 with rfl | rfl <;> rcases h2 with rfl | rfl <;> simp [eq_comm]

theorem selectFCLoop_sim {Q : Ref P C B → Prop} (d : Fl K) {hull : Ref P C B} (hq : Q hull) : ∀ (ns dict : List (Ref P C B)) (dict' : List (Node P C B)),
    (∀ r ∈ ns, Q r) → Same Q dict dict' →
    Res.Sim (Same Q) (selectFCLoop env d hull ns dict) (Verif.selectFCLoop env d hull.node (ns.map Ref.node) dict') := by
  intro ns
  induction ns with
  | nil => intro dict dict' _ h; exact .ok h
  | cons n ns ih =>
    intro dict dict' hn h
    rw [List.map_cons, selectFCLoop, Verif.selectFCLoop]
    refine Res.Sim.bind_same (fun r _ => ?_)
    refine Res.Sim.bind (candidates_sim env.lib d hull n r) ?_
    rintro s s' - - ⟨rfl, h1, h2⟩
    exact ih _ _ (fun r hr => hn r (List.mem_cons_of_mem _ hr))
      (dictAdd_same h (fun x hx => h1 x hx ▸ hq) (fun x hx => h2 x hx ▸ hn n (by simp)))

theorem selectLoop_sim {Q : Ref P C B → Prop} (lib : Lib P C B K) (d : Fl K) {hull : Ref P C B} (hq : Q hull) :
    ∀ (ns dict : List (Ref P C B)) (dict' : List (Node P C B)), (∀ r ∈ ns, Q r) → Same Q dict dict' →
    Res.Sim (Same Q) (selectLoop lib d hull ns dict) (Verif.selectLoop lib d hull.node (ns.map Ref.node) dict') := by
  intro ns
  induction ns with
  | nil => intro dict dict' _ h; exact .ok h
  | cons n ns ih =>
    intro dict dict' hn h
    rw [List.map_cons, selectLoop, Verif.selectLoop]
    refine Res.Sim.bind_same (fun r _ => ?_)
    refine Res.Sim.bind (candidates_sim lib d hull n r) ?_
    rintro s s' - - ⟨rfl, h1, h2⟩
    exact ih _ _ (fun r hr => hn r (List.mem_cons_of_mem _ hr))
      (dictAdd_same h (fun x hx => h1 x hx ▸ hq) (fun x hx => h2 x hx ▸ hn n (by simp)))

theorem node_at (m : Mem) (l : List (Node P C B)) : (l.map m.at).map Ref.node = l := by
  rw [List.map_map]
  exact List.map_id _

/-- constdp/validate.go:11-28: no pointer comparison can matter here, any selected piece rejects -/
theorem validateMerge_eq (self : Inst P C B K) (m : Mem) (hull : Ref P C B) (db : Db P C B) (fuel : Nat) :
    validateMerge env self m hull db fuel = Verif.validateMerge env self hull.node db fuel := by
  apply Res.Sim.eq
  simp only [validateMerge, Verif.validateMerge]
  split
  · refine Res.Sim.bind (R := Same (fun _ => True)) ?_ ?_
    · unfold select Verif.select neighboursOf
      rw [Res.bind_assoc]
      refine Res.Sim.bind_same (fun ns _ => ?_)
      have := selectLoop_sim (Q := fun _ => True) env.lib self.opts.nonPlanarDisplacement (hull := hull) trivial (ns.map m.at) [] [] (fun _ _ => trivial)
        ⟨rfl, fun _ _ => trivial⟩
      rw [node_at] at this
      exact this
    · rintro l l' - - ⟨rfl, -⟩
      cases l with
      | nil => exact Res.Sim.refl (fun _ => rfl)
      | cons r l => exact .ok rfl
  · exact Res.Sim.refl (fun _ => rfl)

/-! ### the deformation loop -/

/-- everything the index holds was stored -/
def Covers (m : Mem) (l : List (Node P C B)) : Prop := ∀ n ∈ l, m.cur n.id ≠ 0

theorem Covers.stored {m : Mem} {l : List (Node P C B)} (h : Covers m l) {n : Node P C B} (hn : n ∈ l) : Stored m (m.at n) := ⟨rfl, h n hn⟩

theorem Covers.load {m : Mem} (hm : m.OK) {l l' rest : List (Node P C B)} (h : Covers m rest) (hl : ∀ n ∈ l', n ∈ l ∨ n ∈ rest) : Covers (m.load l).2 l' := by
  intro n hn
  by_cases hi : n.id ∈ l.map Node.id
  · have h1 := Mem.load_new (m := m) hi
    have h2 := hm.lt n.id
    omega
  · rw [Mem.load_other hi]
    refine h n ((hl n hn).resolve_left (fun h => hi (List.mem_map.2 ⟨n, h, rfl⟩)))

theorem notSelected_eq {m : Mem} (hm : m.OK) {hull : Ref P C B} (hh : Stored m hull) {l : List (Ref P C B)} {l' : List (Node P C B)}
    (h : Same (Stored m) l l') : notSelected hull l = Verif.notSelected hull.node l' := by
  obtain ⟨rfl, h⟩ := h
  unfold notSelected Verif.notSelected
  rw [List.any_map]
  congr 1
  rw [Bool.eq_iff_iff, List.any_eq_true, List.any_eq_true]
  constructor
  · rintro ⟨x, hx, hd⟩
    exact ⟨x, hx, decide_eq_true (((h x hx).iff hm hh).1 (of_decide_eq_true hd))⟩
  · rintro ⟨x, hx, hd⟩
    exact ⟨x, hx, decide_eq_true (((h x hx).iff hm hh).2 (of_decide_eq_true hd))⟩

theorem dedup_same {m : Mem} (hm : m.OK) : ∀ (l : List (Ref P C B)) (l' : List (Node P C B)), Same (Stored m) l l' →
    Same (Stored m) (dedup l) (dedupId l') := by
  intro l
  induction l with
  | nil => rintro l' ⟨rfl, h⟩; exact ⟨rfl, h⟩
  | cons r l ih =>
    rintro l' ⟨rfl, h⟩
    obtain ⟨h1, h2⟩ := ih (l.map Ref.node) ⟨rfl, fun x hx => h x (List.mem_cons_of_mem _ hx)⟩
    refine ⟨?_, ?_⟩
    · rw [List.map_cons, dedup, dedupId, List.map_cons, ← h1, List.filter_map]
      congr 2
      refine List.filter_congr (fun x hx => ?_)
      simp only [Function.comp]
      rw [decide_eq_decide]
      exact not_congr ((h2 x hx).iff hm (h r (by simp)))
    · intro x hx
      rcases List.mem_cons.1 hx with rfl | hx
      · exact h x (by simp)
      · exact h2 x (List.mem_filter.1 hx).1

/-- knn/neighbours.go:15-24: neighbours are stored -/
theorem neighboursOf_sim {m : Mem} {db : Db P C B} (hd : DbOK db) (hp : ∀ x ∈ Hdb.contents db, x.mbr.Valid) (hc : Covers m (Hdb.contents db)) (hull : Ref P C B)
    (fuel : Nat) : Res.Sim (Same (Stored m)) (neighboursOf env m db hull fuel) (Verif.neighboursOf env db hull.node fuel) := by
  unfold neighboursOf
  cases h : Verif.neighboursOf env db hull.node fuel with
  | panic => exact .panic
  | timeout => exact .timeout
  | ok ns =>
    obtain ⟨ns', y, p⟩ := neighboursOf_yields (env := env) hd hp hull.node
    obtain rfl := (neighboursOf_le env db hull.node).val h y
    refine .ok ⟨node_at m ns, fun r hr => ?_⟩
    obtain ⟨n, hn, rfl⟩ := List.mem_map.1 hr
    exact hc.stored (List.mem_filter.1 (p.mem_iff.1 hn)).1

theorem hullSelections_sim {m : Mem} (hm : m.OK) (dirty : Int → Bool) {db : Db P C B} (hd : DbOK db) (hp : ∀ x ∈ Hdb.contents db, x.mbr.Valid)
    (hc : Covers m (Hdb.contents db)) {hull : Ref P C B} (hh : Stored m hull) (fuel : Nat) :
    Res.Sim (Same (Stored m)) (hullSelections env dirty m db hull fuel) (Verif.hullSelections env dirty db hull.node fuel) := by
  unfold hullSelections Verif.hullSelections
  split
  · exact .ok ⟨rfl, by simp⟩
  split
  · exact .ok ⟨rfl, by simp⟩
  refine Res.Sim.bind (R := Same (Stored m)) ?_ ?_
  · unfold fcSelections Verif.fcSelections
    simp only []
    split
    · unfold selectFeatureClass Verif.selectFeatureClass
      refine Res.Sim.bind (neighboursOf_sim hd hp hc hull fuel) ?_
      rintro ns ns' - - ⟨rfl, hn⟩
      have ho : Same (Stored m) (optimizeNeighbours env dirty hull ns) (Verif.optimizeNeighbours env dirty hull.node (ns.map Ref.node)) := by
        unfold optimizeNeighbours Verif.optimizeNeighbours
        split
        · exact ⟨rfl, hn⟩
        · refine ⟨?_, fun r hr => hn r (List.mem_filter.1 hr).1⟩
          rw [List.filter_map]; rfl
      rw [← ho.1]
      exact selectFCLoop_sim _ hh _ _ _ ho.2 ⟨rfl, by simp⟩
    · exact .ok ⟨rfl, by simp⟩
  · rintro l l' - - h
    unfold ctxSelections Verif.ctxSelections
    rw [notSelected_eq hm hh h]
    split
    · refine Res.Sim.bind_same (fun ok _ => ?_)
      obtain ⟨rfl, h⟩ := h
      cases ok
      · refine .ok ⟨by simp, fun r hr => ?_⟩
        have hr' : r ∈ l ∨ r = hull := by simpa using hr
        rcases hr' with hr | rfl
        · exact h r hr
        · exact hh
      · exact .ok ⟨rfl, h⟩
    · exact .ok h

theorem selectionsOf_sim {m : Mem} (hm : m.OK) (dirty : Int → Bool) {db : Db P C B} (hd : DbOK db) (hp : ∀ x ∈ Hdb.contents db, x.mbr.Valid)
    (hc : Covers m (Hdb.contents db)) (fuel : Nat) : ∀ hulls : List (Ref P C B), (∀ r ∈ hulls, Stored m r) →
    Res.Sim (Same (Stored m)) (selectionsOf env dirty m db fuel hulls) (Verif.selectionsOf env dirty db fuel (hulls.map Ref.node)) := by
  intro hulls
  induction hulls with
  | nil => intro _; exact .ok ⟨rfl, by simp⟩
  | cons h hulls ih =>
    intro hh
    rw [List.map_cons, selectionsOf, Verif.selectionsOf]
    refine Res.Sim.bind (hullSelections_sim hm dirty hd hp hc (hh h (by simp)) fuel) ?_
    rintro l l' - - ⟨rfl, h1⟩
    refine Res.Sim.bind (ih (fun r hr => hh r (List.mem_cons_of_mem _ hr))) ?_
    rintro k k' - - ⟨rfl, h2⟩
    refine .ok ⟨by simp, fun r hr => ?_⟩
    rcases List.mem_append.1 hr with hr | hr
    · exact h1 r hr
    · exact h2 r hr

theorem findDeformable_sim {m : Mem} (hm : m.OK) (dirty : Int → Bool) {db : Db P C B} (hd : DbOK db) (hp : ∀ x ∈ Hdb.contents db, x.mbr.Valid)
    (hc : Covers m (Hdb.contents db)) {hulls : List (Ref P C B)} (hh : ∀ r ∈ hulls, Stored m r) (fuel : Nat) :
    Res.Sim (Same (Stored m)) (findDeformable env dirty m hulls db fuel) (Verif.findDeformable env dirty (hulls.map Ref.node) db fuel) := by
  unfold findDeformable Verif.findDeformable
  refine Res.Sim.bind (selectionsOf_sim hm dirty hd hp hc fuel hulls hh) ?_
  intro l l' _ _ h
  exact .ok (dedup_same hm l l' h)

/-- constdp/simplify.go:41-55 -/
theorem deformLoop_sim (he : EnvOK env) (hi : ∀ k ∈ hs, InstOK env k (pts k)) (hinj : Function.Injective ids) : ∀ (fuel : Nat) (defs : List (Ref P C B))
    (m : Mem) (st : LoopSt P C B), m.OK → Covers m (Hdb.contents st.db) → DbOK st.db → Pieces env pts hs src ids st.g (Hdb.contents st.db) →
    (∀ r ∈ defs, Stored m r ∧ r.node ∈ Hdb.contents st.db) →
    Res.Sim (fun x st' => x.1 = st' ∧ x.2.OK ∧ Covers x.2 (Hdb.contents st'.db)) (deformLoop env ids fuel defs m st)
      (Verif.deformLoop env ids fuel (defs.map Ref.node) st) := by
  intro fuel
  induction fuel with
  | zero => intro defs m st _ _ _ _ _; exact .timeout
  | succ fuel ih =>
    intro defs m st hm hc hd hp hdefs
    rw [deformLoop, Verif.deformLoop]
    by_cases h0 : defs = []
    · subst h0
      exact .ok ⟨rfl, hm, hc⟩
    have h0' : defs.map Ref.node ≠ [] := by simpa using h0
    have h0'' : ¬ defs.length = 0 := by simpa using h0
    rw [if_neg h0', if_neg h0'']
    refine Res.Sim.bind (findDeformable_sim hm st.dirty hd (fun x hx => hp.valid hi hx) hc (fun r hr => (hdefs r hr).1) fuel) ?_
    rintro sel sel' - e1 ⟨rfl, hsel⟩
    by_cases h1 : sel = []
    · subst h1
      exact .ok ⟨rfl, hm, hc⟩
    have h1' : sel.map Ref.node ≠ [] := by simpa using h1
    have h1'' : ¬ sel.length = 0 := by simpa using h1
    rw [if_neg h1', if_neg h1'']
    obtain ⟨s, y, s1, s2, -, -⟩ := findDeformable_yields he hi st.dirty hd hp (defs.map Ref.node) (by
      intro x hx
      obtain ⟨r, hr, rfl⟩ := List.mem_map.1 hx
      exact (hdefs r hr).2)
    obtain rfl := (findDeformable_le env st.dirty (defs.map Ref.node) st.db).val e1 y
    obtain ⟨out, st', rest, y', hd', hg, hp', q1, q2, -⟩ := deformRound_yields he hi hinj hd hp s1 s2
    unfold deformRound
    rw [Res.bind_assoc]
    refine Res.Sim.bind_same (fun x hx => ?_)
    obtain rfl := (deformRound_le env ids st (sel.map Ref.node)).val hx y'
    have hnd : ((out ++ rest).map Node.id).Nodup := (q2.map Node.id).nodup_iff.1 hp'.nodup
    rw [List.map_append, List.nodup_append] at hnd
    have hc1 : Covers (m.load out).2 (Hdb.contents st'.db) := by
      refine Covers.load hm (rest := rest) (fun n hn => hc n (q1.mem_iff.2 (List.mem_append_right _ hn))) (fun n hn => ?_)
      exact List.mem_append.1 (q2.mem_iff.1 hn)
    have hmem : ∀ n ∈ out, n ∈ Hdb.contents st'.db := fun n hn => q2.mem_iff.2 (List.mem_append_left _ hn)
    have := ih (m.load out).1 (m.load out).2 st' (hm.load out) hc1 hd' hp' (by
      rw [Mem.load_refs hnd.1]
      intro r hr
      obtain ⟨n, hn, rfl⟩ := List.mem_map.1 hr
      exact ⟨hc1.stored (hmem n hn), hmem n hn⟩)
    rw [Mem.load_refs hnd.1, node_at] at this
    simp only [Res.pure_eq, Res.ok_bind]
    rw [Mem.load_refs hnd.1]
    exact this

end

end Ptr
end Verif
