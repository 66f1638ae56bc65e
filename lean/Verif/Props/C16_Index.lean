import Verif.Spec.History
import Verif.Lemmas.HdbBuild
import Verif.Lemmas.HdbRemove
import Verif.Lemmas.HdbKnn
import Verif.Props.C22_Select
import Mathlib.Data.List.Perm.Basic
import Mathlib.Order.WithBot

/-! C16–C21: the spatial index, over all histories of `Load`, `Remove` and `Clear`. -/

set_option linter.unusedSectionVars false

namespace Verif
namespace Hdb

variable {T B K : Type} [LinearOrder B] [BoundedOrder B]

/-- in the items `u`, the identifier determines the item -/
def IdsInj (ops : ItemOps T B) (u : List T) : Prop := ∀ a ∈ u, ∀ b ∈ u, ops.id a = ops.id b → a = b

theorem newHdb_wf (ops : ItemOps T B) (cap : Nat) : TreeWF ops (newHdb cap) :=
  ⟨by simp [newHdb, maxEntries], by simp [newHdb, minEntries], Or.inl rfl⟩

/-- one operation: it terminates, keeps the invariant, and acts on the contents as on a bag -/
theorem runOp_spec [DecidableEq T] {ops : ItemOps T B} {H : Heur T B} {t : Tree T B} (hw : TreeWF ops t) (hH : Legal H t.maxE) (o : Op T)
    (hid : IdsInj ops (contents t ++ o.items)) :
    ∃ t', Yields (fun fuel => runOp ops H fuel t o) t' ∧ TreeWF ops t' ∧ t'.maxE = t.maxE ∧ (contents t').Perm (bagOp (contents t) o) := by
  cases o with
  | load items =>
    obtain ⟨t', y, w, m1, m2, c⟩ := load_yields hw hH items
    exact ⟨t', y, w, m1, c⟩
  | remove item =>
    obtain ⟨t', N, e, w, m1, m2, c⟩ := remove_spec hw item
    refine ⟨t', ⟨N, e⟩, w, m1, ?_⟩
    rcases c with ⟨x, hx, hp⟩ | ⟨rfl, hn⟩
    · have hxm : x ∈ contents t := hp.mem_iff.2 (by simp)
      have : x = item := hid x (by simp [hxm]) item (by simp [Op.items]) hx
      subst this
      have := hp.erase x
      simpa [bagOp] using this.symm
    · have : item ∉ contents t' := fun h => hn ⟨item, h, rfl, rfl⟩
      simp [bagOp, List.erase_of_not_mem this]
  | clear =>
    exact ⟨clear t, Yields.const _, ⟨hw.cap, hw.fill, Or.inl rfl⟩, rfl, by simp [bagOp, clear, contents, emptyRoot, flat]⟩

theorem IdsInj.mono {ops : ItemOps T B} {u v : List T} (h : IdsInj ops u) (hs : ∀ x ∈ v, x ∈ u) : IdsInj ops v :=
  fun a ha b hb => h a (hs a ha) b (hs b hb)

theorem mem_bagOp [DecidableEq T] {c : List T} {o : Op T} {x : T} (h : x ∈ bagOp c o) : x ∈ c ∨ x ∈ o.items := by
  cases o with
  | load items => simpa [bagOp, Op.items] using h
  | remove item => exact Or.inl (List.mem_of_mem_erase h)
  | clear => simp [bagOp] at h

theorem bagOp_perm [DecidableEq T] {c c' : List T} (h : c.Perm c') (o : Op T) : (bagOp c o).Perm (bagOp c' o) := by
  cases o with
  | load items => exact h.append_right _
  | remove item => exact h.erase _
  | clear => exact List.Perm.refl _

theorem bag_perm [DecidableEq T] (os : List (Op T)) : ∀ {c c' : List T}, c.Perm c' → (bag c os).Perm (bag c' os) := by
  induction os with
  | nil => intro c c' h; exact h
  | cons o os ih => intro c c' h; exact ih (bagOp_perm h o)

/-- every history terminates, keeps the invariant, and acts on the contents as on a bag -/
theorem run_spec [DecidableEq T] {ops : ItemOps T B} {H : Heur T B} : ∀ (os : List (Op T)) {t : Tree T B}, TreeWF ops t → Legal H t.maxE →
    IdsInj ops (contents t ++ os.flatMap Op.items) →
    ∃ t', Yields (fun fuel => run ops H fuel t os) t' ∧ TreeWF ops t' ∧ t'.maxE = t.maxE ∧ (contents t').Perm (bag (contents t) os) := by
  intro os
  induction os with
  | nil => intro t hw hH hid; exact ⟨t, Yields.const t, hw, rfl, List.Perm.refl _⟩
  | cons o os ih =>
    intro t hw hH hid
    rw [List.flatMap_cons] at hid
    obtain ⟨t1, y1, w1, m1, c1⟩ := runOp_spec hw hH o (hid.mono (by intro x hx; simp at hx ⊢; tauto))
    obtain ⟨t2, y2, w2, m2, c2⟩ := ih w1 (by rw [m1]; exact hH) (hid.mono (by
      intro x hx
      rcases List.mem_append.1 hx with hx | hx
      · rcases mem_bagOp (c1.mem_iff.1 hx) with h | h <;> simp [h]
      · simp only [List.mem_append]; exact Or.inr (Or.inr hx)))
    exact ⟨t2, Yields.bind y1 y2, w2, m2.trans m1, c2.trans (bag_perm os c1)⟩

/-- the bag only holds items that were loaded -/
theorem mem_bag [DecidableEq T] (os : List (Op T)) : ∀ {c : List T} {x : T}, x ∈ bag c os → x ∈ c ∨ x ∈ os.flatMap Op.items := by
  induction os with
  | nil => intro c x h; exact Or.inl h
  | cons o os ih =>
    intro c x h
    rcases ih h with h | h
    · rcases mem_bagOp h with h | h
      · exact Or.inl h
      · right; rw [List.flatMap_cons]; exact List.mem_append.2 (Or.inl h)
    · right; rw [List.flatMap_cons]; exact List.mem_append.2 (Or.inr h)

/-- C16.  For every bucket size, all (legal) heuristics and every history of `Load`, `Remove` and `Clear` on a new index: the history terminates
without panic, and listing the index then returns exactly the loaded and not removed items, each as often as it was loaded. -/
theorem C16_contents [DecidableEq T] (ops : ItemOps T B) (cap : Nat) {H : Heur T B} (hH : Legal H (maxEntries cap)) (os : List (Op T))
    (hid : IdsInj ops (os.flatMap Op.items)) :
    ∃ t, Yields (fun fuel => run ops H fuel (newHdb cap) os) t ∧
      ∀ fuel, cntN t.data ≤ fuel → ∃ out, all t fuel = .ok out ∧ out.Perm (bag [] os) := by
  obtain ⟨t, y, w, -, c⟩ := run_spec (ops := ops) (H := H) os (newHdb_wf ops cap) hH (by simpa [newHdb, contents, emptyRoot, flat] using hid)
  refine ⟨t, y, fun fuel hf => ?_⟩
  obtain ⟨out, e, p⟩ := all_spec w fuel hf
  exact ⟨out, e, p.trans (by simpa [newHdb, contents, emptyRoot, flat] using c)⟩

/-- C17.  After every history, `Search(query)` returns exactly the stored items whose box intersects the query box (touching counts). -/
theorem C17_search [DecidableEq T] (ops : ItemOps T B) (cap : Nat) {H : Heur T B} (hH : Legal H (maxEntries cap)) (os : List (Op T))
    (hid : IdsInj ops (os.flatMap Op.items)) (hv : ∀ x ∈ os.flatMap Op.items, (ops.mbr x).Valid) :
    ∃ t, Yields (fun fuel => run ops H fuel (newHdb cap) os) t ∧
      ∀ q fuel, cntN t.data ≤ fuel → ∃ out, search t q fuel = .ok out ∧ out.Perm ((bag [] os).filter (fun x => q.intersects (ops.mbr x))) := by
  obtain ⟨t, y, w, -, c⟩ := run_spec (ops := ops) (H := H) os (newHdb_wf ops cap) hH (by simpa [newHdb, contents, emptyRoot, flat] using hid)
  have c' : (contents t).Perm (bag [] os) := by simpa [newHdb, contents, emptyRoot, flat] using c
  refine ⟨t, y, fun q fuel hf => ?_⟩
  obtain ⟨out, e, p⟩ := search_spec w (fun x hx => hv x ((mem_bag os (c'.mem_iff.1 hx)).resolve_left (by simp))) q fuel hf
  exact ⟨out, e, p.trans (c'.filter _)⟩

/-- C17.  What "intersects" means: the two closed boxes have a common point. -/
theorem C17_intersects_iff (a b : Box B) (ha : a.Valid) (hb : b.Valid) :
    a.intersects b = true ↔ ∃ x y, (a.minX ≤ x ∧ x ≤ a.maxX ∧ a.minY ≤ y ∧ y ≤ a.maxY) ∧ (b.minX ≤ x ∧ x ≤ b.maxX ∧ b.minY ≤ y ∧ y ≤ b.maxY) := by
  rw [Box.intersects_iff]
  constructor
  · rintro ⟨h1, h2, h3, h4⟩
    exact ⟨max a.minX b.minX, max a.minY b.minY,
      ⟨le_max_left _ _, max_le ha.1 h1, le_max_left _ _, max_le ha.2 h3⟩, ⟨le_max_right _ _, max_le h2 hb.1, le_max_right _ _, max_le h4 hb.2⟩⟩
  · rintro ⟨x, y, ⟨h1, h2, h3, h4⟩, ⟨h5, h6, h7, h8⟩⟩
    exact ⟨le_trans h5 h2, le_trans h1 h6, le_trans h7 h4, le_trans h3 h8⟩

/-- C21.  After every history, `Collides(query)` is true exactly when some stored item's box intersects the query box. -/
theorem C21_collides [DecidableEq T] (ops : ItemOps T B) (cap : Nat) {H : Heur T B} (hH : Legal H (maxEntries cap)) (os : List (Op T))
    (hid : IdsInj ops (os.flatMap Op.items)) (hv : ∀ x ∈ os.flatMap Op.items, (ops.mbr x).Valid) :
    ∃ t, Yields (fun fuel => run ops H fuel (newHdb cap) os) t ∧
      ∀ q fuel, cntN t.data ≤ fuel → ∃ b, collides t q fuel = .ok b ∧ (b = true ↔ ∃ x ∈ bag [] os, q.intersects (ops.mbr x) = true) := by
  obtain ⟨t, y, w, -, c⟩ := run_spec (ops := ops) (H := H) os (newHdb_wf ops cap) hH (by simpa [newHdb, contents, emptyRoot, flat] using hid)
  have c' : (contents t).Perm (bag [] os) := by simpa [newHdb, contents, emptyRoot, flat] using c
  refine ⟨t, y, fun q fuel hf => ?_⟩
  obtain ⟨b, e, p⟩ := collides_spec w (fun x hx => hv x ((mem_bag os (c'.mem_iff.1 hx)).resolve_left (by simp))) q fuel hf
  refine ⟨b, e, p.trans ?_⟩
  constructor
  · rintro ⟨x, hx, h⟩; exact ⟨x, c'.mem_iff.1 hx, h⟩
  · rintro ⟨x, hx, h⟩; exact ⟨x, c'.mem_iff.2 hx, h⟩

/-- the order a correct minimum queue guarantees -/
def nearLe [LinearOrder K] (a b : Fl K) : Prop := a.le b = true

/-- a queue with a tolerance is as good when nothing lies where it could be mistaken: no item too far away may come out before one that is near enough -/
theorem KOut_band [LinearOrder K] {near : Fl K → Fl K → Prop} {itemDist : T → Fl K} {dist : Fl K} {all out : List T} (h : KOut True near itemDist dist all out)
    (hband : ∀ x ∈ all, ∀ y ∈ all, (itemDist x).le dist = true → (itemDist y).le dist = false → ¬ near (itemDist y) (itemDist x)) :
    out.Perm (all.filter (fun t => (itemDist t).le dist)) := by
  obtain ⟨rest, p, le, h⟩ := h
  obtain ⟨-, miss⟩ := h trivial
  have hf := p.filter (fun t => (itemDist t).le dist)
  rw [List.filter_append, List.filter_eq_self.2 le] at hf
  have h2 : rest.filter (fun t => (itemDist t).le dist) = [] := by
    rw [List.filter_eq_nil_iff]
    intro t ht hle
    have hm := fun {x} (hx : x ∈ rest) => p.mem_iff.1 (List.mem_append_right out hx)
    rcases miss t ht with h | ⟨u, hu, hn, hd⟩
    · rw [h] at hle; cases hle
    · exact hband t (hm ht) u (hm hu) hle hd hn
  rw [h2, List.append_nil] at hf
  exact hf

theorem KOut_exact [LinearOrder K] {itemDist : T → Fl K} {dist : Fl K} {all out : List T} (h : KOut True nearLe itemDist dist all out) :
    out.Perm (all.filter (fun t => (itemDist t).le dist)) ∧ out.Pairwise (fun a b => (itemDist a).le (itemDist b) = true) := by
  obtain ⟨rest, p, le, h⟩ := h
  obtain ⟨srt, miss⟩ := h trivial
  refine ⟨?_, srt⟩
  have hf := p.filter (fun t => (itemDist t).le dist)
  rw [List.filter_append] at hf
  have h1 : out.filter (fun t => (itemDist t).le dist) = out := List.filter_eq_self.2 le
  have h2 : rest.filter (fun t => (itemDist t).le dist) = [] := by
    rw [List.filter_eq_nil_iff]
    intro t ht
    rcases miss t ht with h | ⟨u, -, hn, hd⟩
    · simp [h]
    · intro hle
      have := Fl.le_trans hn hle
      rw [hd] at this; cases this
  rw [h1, h2, List.append_nil] at hf
  exact hf

/-- C18.  After every history, the neighbour search with bound `dist` returns exactly the stored items whose distance is at most `dist`, nearest first;
for every queue that always pops a minimum, provided a box is never farther than an item inside it. -/
theorem C18_knn_partial [DecidableEq T] [LinearOrder K] (ops : ItemOps T B) (cap : Nat) {H : Heur T B} (hH : Legal H (maxEntries cap)) (os : List (Op T))
    (hid : IdsInj ops (os.flatMap Op.items)) {hp : Heap (KObj T B K)} (hl : hp.Legal nearLe) {boxDist : Box B → Fl K} {itemDist : T → Fl K}
    (hb : BoxBound ops boxDist itemDist (os.flatMap Op.items)) :
    ∃ t, Yields (fun fuel => run ops H fuel (newHdb cap) os) t ∧
      ∀ dist fuel, treeFuel t ≤ fuel → ∃ out, contextNeighbours hp t boxDist itemDist dist fuel = .ok out ∧
        out.Perm ((bag [] os).filter (fun x => (itemDist x).le dist)) ∧ out.Pairwise (fun a b => (itemDist a).le (itemDist b) = true) := by
  obtain ⟨t, y, w, -, c⟩ := run_spec (ops := ops) (H := H) os (newHdb_wf ops cap) hH (by simpa [newHdb, contents, emptyRoot, flat] using hid)
  have c' : (contents t).Perm (bag [] os) := by simpa [newHdb, contents, emptyRoot, flat] using c
  refine ⟨t, y, fun dist fuel hf => ?_⟩
  obtain ⟨out, e, p⟩ := contextNeighbours_spec w hl (fun a b c h1 h2 => Fl.le_trans h1 h2)
    (fun x hx => hb x ((mem_bag os (c'.mem_iff.1 hx)).resolve_left (by simp))) dist fuel hf
  obtain ⟨p1, p2⟩ := KOut_exact p
  exact ⟨out, e, p1.trans (c'.filter _), p2⟩

/-- C18.  With a queue that pops only approximately in order (the code compares distances with a tolerance): every returned item is stored and within
`dist`, no stored copy is returned twice, and an item can be missed only if it is not within `dist`, or if the queue could pop another stored item, farther
than `dist` and not returned either, before it. -/
theorem C18_knn_tolerant_partial [DecidableEq T] [LinearOrder K] (ops : ItemOps T B) (cap : Nat) {H : Heur T B} (hH : Legal H (maxEntries cap))
    (os : List (Op T)) (hid : IdsInj ops (os.flatMap Op.items)) {hp : Heap (KObj T B K)} {near : Fl K → Fl K → Prop} (hl : hp.Legal near)
    (hmono : ∀ a b c, near a b → b.le c = true → near a c) {boxDist : Box B → Fl K} {itemDist : T → Fl K}
    (hb : BoxBound ops boxDist itemDist (os.flatMap Op.items)) :
    ∃ t, Yields (fun fuel => run ops H fuel (newHdb cap) os) t ∧
      ∀ dist fuel, treeFuel t ≤ fuel → ∃ out missed, contextNeighbours hp t boxDist itemDist dist fuel = .ok out ∧
        (out ++ missed).Perm (bag [] os) ∧ (∀ x ∈ out, (itemDist x).le dist = true) ∧
        ∀ x ∈ missed, (itemDist x).le dist = true → ∃ y ∈ missed, near (itemDist y) (itemDist x) ∧ (itemDist y).le dist = false := by
  obtain ⟨t, y, w, -, c⟩ := run_spec (ops := ops) (H := H) os (newHdb_wf ops cap) hH (by simpa [newHdb, contents, emptyRoot, flat] using hid)
  have c' : (contents t).Perm (bag [] os) := by simpa [newHdb, contents, emptyRoot, flat] using c
  refine ⟨t, y, fun dist fuel hf => ?_⟩
  obtain ⟨out, e, rest, p1, p2, p34⟩ := contextNeighbours_spec w hl hmono
    (fun x hx => hb x ((mem_bag os (c'.mem_iff.1 hx)).resolve_left (by simp))) dist fuel hf
  obtain ⟨p3, p4⟩ := p34 trivial
  refine ⟨out, rest, e, p1.trans c', p2, fun x hx hle => ?_⟩
  rcases p4 x hx with h | h
  · rw [h] at hle; cases hle
  · exact h

/-- C18.  With such a queue the search is exact all the same when no stored item lies where it could be mistaken: farther than `dist`, but not so much farther than an
item within `dist` that the queue tells the two apart. -/
theorem C18_knn_band [DecidableEq T] [LinearOrder K] (ops : ItemOps T B) (cap : Nat) {H : Heur T B} (hH : Legal H (maxEntries cap))
    (os : List (Op T)) (hid : IdsInj ops (os.flatMap Op.items)) {hp : Heap (KObj T B K)} {near : Fl K → Fl K → Prop} (hl : hp.Legal near)
    (hmono : ∀ a b c, near a b → b.le c = true → near a c) {boxDist : Box B → Fl K} {itemDist : T → Fl K}
    (hb : BoxBound ops boxDist itemDist (os.flatMap Op.items)) :
    ∃ t, Yields (fun fuel => run ops H fuel (newHdb cap) os) t ∧
      ∀ dist fuel, treeFuel t ≤ fuel →
        (∀ x ∈ bag [] os, ∀ y ∈ bag [] os, (itemDist x).le dist = true → (itemDist y).le dist = false → ¬ near (itemDist y) (itemDist x)) →
        ∃ out, contextNeighbours hp t boxDist itemDist dist fuel = .ok out ∧ out.Perm ((bag [] os).filter (fun x => (itemDist x).le dist)) := by
  obtain ⟨t, y, w, -, c⟩ := run_spec (ops := ops) (H := H) os (newHdb_wf ops cap) hH (by simpa [newHdb, contents, emptyRoot, flat] using hid)
  have c' : (contents t).Perm (bag [] os) := by simpa [newHdb, contents, emptyRoot, flat] using c
  refine ⟨t, y, fun dist fuel hf hband => ?_⟩
  obtain ⟨out, e, p⟩ := contextNeighbours_spec w hl hmono (fun x hx => hb x ((mem_bag os (c'.mem_iff.1 hx)).resolve_left (by simp))) dist fuel hf
  exact ⟨out, e, (KOut_band p (fun x hx y hy => hband x (c'.mem_iff.1 hx) y (c'.mem_iff.1 hy))).trans (c'.filter _)⟩

/-- C19.  `Remove` on an index whose stored identifiers are distinct: it terminates; if an item with that identifier and box is stored, exactly that item is
deleted and every other item stays; if no item with that identifier is stored, nothing changes. -/
theorem C19_remove {ops : ItemOps T B} {t : Tree T B} (hw : TreeWF ops t) (hd : ((contents t).map ops.id).Nodup) (item : T) :
    ∃ t', Yields (fun fuel => remove ops t item fuel) t' ∧ TreeWF ops t' ∧
      ((∃ x ∈ contents t, ops.id x = ops.id item ∧ ops.mbr x = ops.mbr item) →
        (contents t').Perm ((contents t).filter (fun x => ops.id x ≠ ops.id item))) ∧
      ((∀ x ∈ contents t, ops.id x ≠ ops.id item) → t' = t) := by
  obtain ⟨t', N, e, w, m1, m2, c⟩ := remove_spec hw item
  refine ⟨t', ⟨N, e⟩, w, ?_, ?_⟩
  · intro hex
    rcases c with ⟨x, hx, hp⟩ | ⟨-, hn⟩
    · have h1 := hp.filter (fun x => decide (ops.id x ≠ ops.id item))
      rw [List.filter_cons_of_neg (by simp [hx])] at h1
      refine List.Perm.trans (List.Perm.of_eq ?_) h1.symm
      symm
      rw [List.filter_eq_self]
      intro y hy
      have hnd := (hp.map ops.id).nodup_iff.1 hd
      simp only [List.map_cons, List.nodup_cons] at hnd
      simp only [decide_eq_true_eq]
      intro heq
      apply hnd.1
      rw [hx, ← heq]
      exact List.mem_map_of_mem hy
    · exact absurd hex hn
  · intro hno
    rcases c with ⟨x, hx, hp⟩ | ⟨h, -⟩
    · exact absurd hx (hno x (hp.mem_iff.2 (by simp)))
    · exact h

/-- `nd` is `d` levels below `root` -/
inductive Below (root : DbNode T B) : Nat → DbNode T B → Prop where
  | root : Below root 0 root
  | child {d : Nat} {nd c : DbNode T B} : Below root d nd → c ∈ nd.children → Below root (d + 1) c

theorem WF.below {ops : ItemOps T B} {M h : Nat} {root : DbNode T B} (hw : WF ops M h root) {d : Nat} {nd : DbNode T B}
    (hb : Below root d nd) : d ≤ h ∧ WF ops M (h - d) nd := by
  induction hb with
  | root => exact ⟨by omega, by simpa using hw⟩
  | child hb hc ih =>
    rename_i d nd c
    obtain ⟨h1, h2⟩ := ih
    by_cases hd : d = h
    · subst hd
      rw [Nat.sub_self] at h2
      obtain ⟨t, rfl⟩ := h2
      simp [newLeafNode] at hc
    · obtain ⟨k, hk⟩ : ∃ k, h - d = k + 1 := ⟨h - d - 1, by omega⟩
      rw [hk] at h2
      refine ⟨by omega, ?_⟩
      rw [show h - (d + 1) = k by omega]
      exact h2.child hc

/-- C20.  After every history: every item sits at the same depth (the recorded height of the root), every inner node `d` levels down has recorded
height `height - d`, is marked leaf exactly at height 1, has between 1 and bucket-size children unless the index is empty, and its box contains every
box below it. -/
theorem C20_structure [DecidableEq T] (ops : ItemOps T B) (cap : Nat) {H : Heur T B} (hH : Legal H (maxEntries cap)) (os : List (Op T))
    (hid : IdsInj ops (os.flatMap Op.items)) :
    ∃ t, Yields (fun fuel => run ops H fuel (newHdb cap) os) t ∧ t.maxE = maxEntries cap ∧
      (bag [] os ≠ [] → 1 ≤ t.data.height ∧
        (∀ d nd, Below t.data d nd → ∀ x, nd.item = some x → d = t.data.height ∧ nd.bbox = ops.mbr x) ∧
        (∀ d nd, Below t.data d nd → d ≤ t.data.height) ∧
        (∀ d nd, Below t.data d nd → d < t.data.height → nd.height = t.data.height - d ∧ (nd.leaf = true ↔ nd.height = 1) ∧
          1 ≤ nd.children.length ∧ nd.children.length ≤ maxEntries cap ∧ (∀ e c, Below nd e c → c.bbox ≤ nd.bbox) ∧ nd.item = none)) := by
  obtain ⟨t, y, w, m, c⟩ := run_spec (ops := ops) (H := H) os (newHdb_wf ops cap) hH (by simpa [newHdb, contents, emptyRoot, flat] using hid)
  have c' : (contents t).Perm (bag [] os) := by simpa [newHdb, contents, emptyRoot, flat] using c
  refine ⟨t, y, m, fun hne => ?_⟩
  rcases w.root with hr | ⟨h, hr⟩
  · exfalso
    apply hne
    have h0 : contents t = [] := by simp [contents, hr, flat]
    rw [h0] at c'
    exact List.Perm.nil_eq c' |>.symm
  · have hm : t.maxE = maxEntries cap := m
    rw [hm] at hr
    have hh := hr.2.1
    rw [hh]
    have hle : ∀ {k : Nat} {nd : DbNode T B}, WF ops (maxEntries cap) k nd → ∀ e x, Below nd e x → x.bbox ≤ nd.bbox := by
      intro k nd hk e x hb
      induction hb with
      | root => exact Box.le_refl' _
      | child hb hc ih =>
        rename_i d p c
        refine Box.le_trans' ?_ ih
        have := hk.below hb
        obtain ⟨j, hj⟩ : ∃ j, k - d = j + 1 := by
          refine ⟨k - d - 1, ?_⟩
          by_contra hz
          have h0 : k - d = 0 := by omega
          rw [h0] at this
          obtain ⟨-, t, rfl⟩ := this
          simp [newLeafNode] at hc
        rw [hj] at this
        rw [this.2.bbox]
        exact Box.le_unionAll (List.mem_map_of_mem hc)
    refine ⟨by omega, ?_, fun d nd hb => (hr.below hb).1, ?_⟩
    · intro d nd hb x hx
      obtain ⟨b1, b2⟩ := hr.below hb
      by_cases hd : d = h + 1
      · subst hd
        rw [Nat.sub_self] at b2
        obtain ⟨s, rfl⟩ := b2
        simp only [newLeafNode, DbNode.item_mk, Option.some.injEq] at hx
        subst hx
        exact ⟨rfl, rfl⟩
      · obtain ⟨j, hj⟩ : ∃ j, h + 1 - d = j + 1 := ⟨h - d, by omega⟩
        rw [hj] at b2
        rw [b2.1] at hx; cases hx
    · intro d nd hb hlt
      obtain ⟨b1, b2⟩ := hr.below hb
      obtain ⟨j, hj⟩ : ∃ j, h + 1 - d = j + 1 := ⟨h - d, by omega⟩
      rw [hj] at b2 ⊢
      refine ⟨b2.2.1, ?_, ?_, b2.2.2.2.2.1, fun e c hc => hle b2 e c hc, b2.1⟩
      · rw [b2.2.2.1, b2.2.1]; simp
      · exact List.length_pos_iff.2 b2.2.2.2.1

/-! ### the statements are about something: a concrete index -/

/-- items: identifier and box, coordinates 0..15 -/
abbrev DemoItem := Int × Box (Fin 16)

def demoOps : ItemOps DemoItem (Fin 16) := ⟨Prod.snd, Prod.fst⟩

/-- simple computable heuristics -/
def demoHeur : Heur DemoItem (Fin 16) where
  choose _ _ := some 0
  arrange l := l
  splitIdx bs := bs.length / 2
  select _ _ l := l
  height n := Nat.clog 4 n

theorem demo_legal : Legal demoHeur 4 := by
  refine ⟨fun b bs h => ⟨0, List.length_pos_iff.2 h, rfl⟩, fun l => List.Perm.refl _, fun bs h => ?_, fun _ _ _ l => List.Perm.refl _, fun n hn => ?_⟩
  · simp only [demoHeur, h]; omega
  · simp only [demoHeur]
    exact ⟨Nat.le_of_lt (Nat.pow_pred_clog_lt_self (by omega) (by omega)), Nat.le_pow_clog (by omega) n⟩

/-- an item with box `[x, x+1] × [0, 1]` -/
def demoItem (i : Int) (x : Fin 15) : DemoItem := (i, ⟨x.castSucc, 0, x.succ, 1⟩)

/-- single inserts until the root splits, a bulk load, a removal -/
def demoHistory : List (Op DemoItem) :=
  [.load [demoItem 1 0], .load [demoItem 2 2], .load [demoItem 3 4], .load [demoItem 4 6], .load [demoItem 5 8],
   .load [demoItem 6 1, demoItem 7 3, demoItem 8 5, demoItem 9 7], .remove (demoItem 3 4)]

example : (match run demoOps demoHeur 50 (newHdb 4) demoHistory with
    | .ok t => (t.data.height, match all t 50 with | .ok out => out.map Prod.fst | _ => [], match search t ⟨1, 0, 3, 0⟩ 50 with | .ok out => out.map Prod.fst | _ => [])
    | _ => (0, [], [])) = (2, [6, 7, 8, 9, 4, 5, 1, 2], [6, 7, 1, 2]) := by decide +kernel

example : IdsInj demoOps (demoHistory.flatMap Op.items) ∧ ∀ x ∈ demoHistory.flatMap Op.items, (demoOps.mbr x).Valid := by
  unfold IdsInj Box.Valid; decide +kernel

/-- a minimum queue on lists -/
def popMin [LinearOrder K] : List (KObj T B K) → Option (KObj T B K × List (KObj T B K))
  | [] => none
  | a :: l =>
    match popMin l with
    | none => some (a, [])
    | some (m, r) => if a.dist.le m.dist then some (a, l) else some (m, a :: r)

def listHeap [LinearOrder K] : Heap (KObj T B K) := ⟨fun q o => o :: q, popMin⟩

theorem popMin_none [LinearOrder K] {q : List (KObj T B K)} (h : popMin q = none) : q = [] := by
  cases q with
  | nil => rfl
  | cons a l =>
    simp only [popMin] at h
    split at h
    · cases h
    · split at h <;> cases h

theorem popMin_perm [LinearOrder K] : ∀ {q r : List (KObj T B K)} {x}, popMin q = some (x, r) → q.Perm (x :: r) := by
  intro q
  induction q with
  | nil => intro r x h; cases h
  | cons a l ih =>
    intro r x h
    simp only [popMin] at h
    split at h
    · rename_i hn
      cases h; rw [popMin_none hn]
    · rename_i m r' hm
      split at h
      · cases h; exact List.Perm.refl _
      · cases h
        exact ((ih hm).cons a).trans (List.Perm.swap _ _ _)

theorem popMin_min [LinearOrder K] : ∀ {q r : List (KObj T B K)} {x}, popMin q = some (x, r) → (∀ o ∈ q, o.dist ≠ .nan) →
    ∀ y ∈ r, nearLe x.dist y.dist := by
  intro q
  induction q with
  | nil => intro r x h; cases h
  | cons a l ih =>
    intro r x h hn y hy
    simp only [popMin] at h
    split at h
    · cases h; cases hy
    · rename_i m r' hm
      have ihm := ih hm (fun o ho => hn o (List.mem_cons_of_mem _ ho))
      have hmem : m ∈ l := (popMin_perm hm).mem_iff.2 (by simp)
      split at h
      · rename_i hle
        cases h
        rcases List.mem_cons.1 ((popMin_perm hm).mem_iff.1 hy) with rfl | hy'
        · exact hle
        · exact Fl.le_trans hle (ihm y hy')
      · rename_i hle
        cases h
        rcases List.mem_cons.1 hy with rfl | hy'
        · exact (Fl.le_total (hn x (List.mem_cons_of_mem _ hmem)) (hn y List.mem_cons_self)).resolve_right hle
        · exact ihm y hy'

theorem listHeap_legal [LinearOrder K] : (listHeap : Heap (KObj T B K)).Legal nearLe :=
  ⟨fun _ _ => List.Perm.refl _, fun _ h => popMin_none h, fun _ _ _ h => popMin_perm h, fun _ _ _ h hn => popMin_min h hn⟩

/-- distance of the origin to a box along x -/
def demoBoxDist (b : Box (Fin 16)) : Fl Nat := .fin b.minX.val

example : BoxBound demoOps demoBoxDist (fun x => demoBoxDist x.2) (demoHistory.flatMap Op.items) := by
  intro x _ b hb
  simp only [demoBoxDist, Fl.fin_le_fin, decide_eq_true_eq]
  exact hb.1

example : (match run demoOps demoHeur 50 (newHdb 4) demoHistory with
    | .ok t => (match contextNeighbours listHeap t demoBoxDist (fun x => demoBoxDist x.2) (.fin 4) 50 with | .ok out => out.map Prod.fst | _ => [])
    | _ => []) = [1, 6, 2, 7] := by decide +kernel

end Hdb
end Verif
