import Verif.Model.Knn
import Verif.Lemmas.HdbSearch

/-! Best-first search against the contents. -/

set_option linter.unusedSectionVars false

namespace Verif
namespace Hdb

variable {T B K : Type} [LinearOrder B] [BoundedOrder B] [LinearOrder K]

/-- what is assumed of the priority queue: it loses nothing, and pops an element that is `near` (not much farther than) the rest, unless a
NaN score is in the queue -/
structure Heap.Legal (hp : Heap (KObj T B K)) (near : Fl K → Fl K → Prop) : Prop where
  push : ∀ q o, (hp.push q o).Perm (o :: q)
  pop_none : ∀ q, hp.pop q = none → q = []
  pop_perm : ∀ q x r, hp.pop q = some (x, r) → q.Perm (x :: r)
  pop_min : ∀ q x r, hp.pop q = some (x, r) → (∀ o ∈ q, o.dist ≠ .nan) → ∀ y ∈ r, near x.dist y.dist

/-- a node that can be in the queue: an entry or a well-formed inner node -/
def QOK (ops : ItemOps T B) (M : Nat) (nd : DbNode T B) : Prop := (∃ t, nd = newLeafNode ops t) ∨ ∃ h, WF ops M (h + 1) nd

/-- items below a queue element -/
def pend (nd : DbNode T B) : List T := nd.item.toList ++ flatN nd

/-- cost of a queue element -/
def cost (nd : DbNode T B) : Nat := if nd.item.isSome then 1 else cntN nd + (flatN nd).length

theorem pend_leaf (ops : ItemOps T B) (t : T) : pend (newLeafNode ops t) = [t] := by
  simp [pend, newLeafNode, flatN, flat]

theorem pend_wf {ops : ItemOps T B} {M h : Nat} {nd : DbNode T B} (hw : WF ops M (h + 1) nd) : pend nd = flatN nd := by
  simp [pend, hw.1]

theorem cost_leaf (ops : ItemOps T B) (t : T) : cost (newLeafNode ops t) = 1 := by simp [cost, newLeafNode]

theorem cost_pos {ops : ItemOps T B} {M : Nat} {nd : DbNode T B} (h : QOK ops M nd) : 0 < cost nd := by
  rcases h with ⟨t, rfl⟩ | ⟨h, hw⟩
  · rw [cost_leaf]; omega
  · have := cntN_pos (ops := ops) (M := M) (nd := nd) (Or.inr ⟨h, hw⟩)
    simp only [cost, hw.1, Option.isSome_none, Bool.false_eq_true, if_false]; omega

theorem QOK.item {ops : ItemOps T B} {M : Nat} {o : KObj T B K} (h : QOK ops M o.node) (hi : o.isItem = true) :
    ∃ t, o.node = newLeafNode ops t := by
  rcases h with h | ⟨h, hw⟩
  · exact h
  · exfalso
    simp only [KObj.isItem, List.isEmpty_iff] at hi
    exact hw.ne_nil hi

theorem QOK.inner {ops : ItemOps T B} {M : Nat} {o : KObj T B K} (h : QOK ops M o.node) (hi : ¬ o.isItem = true) :
    ∃ h, WF ops M (h + 1) o.node := by
  rcases h with ⟨t, h⟩ | h
  · exfalso; apply hi; simp [KObj.isItem, h, newLeafNode]
  · exact h

/-- expanding a node: the children carry the same items, at smaller cost -/
theorem expand_node {ops : ItemOps T B} {M : Nat} {nd : DbNode T B} (h : RootWF ops M nd) :
    (∀ c ∈ nd.children, QOK ops M c) ∧ nd.children.flatMap pend = flatN nd ∧
      (nd.children.map cost).sum + 1 ≤ cntN nd + (flatN nd).length := by
  rcases rootWF_cases h with ⟨l1, l2, l3⟩ | ⟨l1, l2, l3, l4⟩
  · have hp := cntN_pos h
    refine ⟨fun c hc => Or.inl (l3 c hc), ?_, ?_⟩
    · rw [l2]
      clear l2 hp
      revert l3
      generalize nd.children = cs
      intro l3
      induction cs with
      | nil => rfl
      | cons c cs ih =>
        obtain ⟨t, rfl⟩ := l3 c (by simp)
        rw [List.flatMap_cons, List.flatMap_cons, ih (fun x hx => l3 x (by simp [hx])), pend_leaf]; rfl
    · rw [l2]
      clear l2
      have : (nd.children.map cost).sum = (nd.children.flatMap (fun c => c.item.toList)).length := by
        clear hp
        revert l3
        generalize nd.children = cs
        intro l3
        induction cs with
        | nil => rfl
        | cons c cs ih =>
          obtain ⟨t, rfl⟩ := l3 c (by simp)
          rw [List.map_cons, List.sum_cons, ih (fun x hx => l3 x (by simp [hx])), cost_leaf]
          simp [newLeafNode]; omega
      omega
  · refine ⟨fun c hc => Or.inr (l4 c hc), ?_, ?_⟩
    · rw [l2]
      rw [List.flatMap_def, List.flatMap_def]
      congr 1
      apply List.map_congr_left
      intro c hc
      obtain ⟨k, hk⟩ := l4 c hc
      exact pend_wf hk
    · rw [l2, l3]
      have : (nd.children.map cost).sum = (nd.children.map cntN).sum + (nd.children.flatMap flatN).length := by
        clear l2 l3
        revert l4
        generalize nd.children = cs
        intro l4
        induction cs with
        | nil => rfl
        | cons c cs ih =>
          obtain ⟨k, hk⟩ := l4 c (by simp)
          simp only [List.map_cons, List.sum_cons, ih (fun x hx => l4 x (by simp [hx])), List.flatMap_cons, List.length_append]
          simp only [cost, hk.1, Option.isSome_none, Bool.false_eq_true, if_false]
          omega
      omega

/-- the assumptions of the search about distances: a box is never farther than an item inside it (in particular no NaN) -/
def BoxBound (ops : ItemOps T B) (boxDist : Box B → Fl K) (itemDist : T → Fl K) (items : List T) : Prop :=
  ∀ t ∈ items, ∀ b, ops.mbr t ≤ b → (boxDist b).le (itemDist t) = true

/-- the assumption of the search about distances, where boxes may seem farther than items inside them: no distance is NaN, and what the queue may hand out before an item or
a box around it (`near`) counts as handed out too early for the item (`far`) at worst.  Only distances to the least boxes around some of the items matter. -/
def BoxNear (ops : ItemOps T B) (near far : Fl K → Fl K → Prop) (boxDist : Box B → Fl K) (itemDist : T → Fl K) (items : List T) : Prop :=
  ∀ t ∈ items, itemDist t ≠ .nan ∧ (∀ a, near a (itemDist t) → far a (itemDist t)) ∧
    ∀ (b : Box B) (ts : List T), t ∈ ts → (∀ u ∈ ts, u ∈ items) → (∀ c, b ≤ c ↔ ∀ u ∈ ts, ops.mbr u ≤ c) → boxDist b ≠ .nan ∧ ∀ a, near a (boxDist b) → far a (itemDist t)

theorem BoxNear.mono {ops : ItemOps T B} {near far : Fl K → Fl K → Prop} {boxDist : Box B → Fl K} {itemDist : T → Fl K} {items few : List T}
    (h : BoxNear ops near far boxDist itemDist items) (hs : ∀ t ∈ few, t ∈ items) : BoxNear ops near far boxDist itemDist few :=
  fun t ht => ⟨(h t (hs t ht)).1, (h t (hs t ht)).2.1, fun b ts h1 h2 h3 => (h t (hs t ht)).2.2 b ts h1 (fun u hu => hs u (h2 u hu)) h3⟩

theorem BoxBound.boxNear {ops : ItemOps T B} {near : Fl K → Fl K → Prop} (hmono : ∀ a b c, near a b → b.le c = true → near a c) {boxDist : Box B → Fl K}
    {itemDist : T → Fl K} {items : List T} (h : BoxBound ops boxDist itemDist items) : BoxNear ops near near boxDist itemDist items :=
  fun t ht => ⟨Fl.ne_nan_of_le_right (h t ht _ (Box.le_refl' _)), fun _ h => h, fun b ts hts _ hb => by
    have hb := (hb b).1 (Box.le_refl' b) t hts
    exact ⟨Fl.ne_nan_of_le_left (h t ht b hb), fun _ ha => hmono _ _ _ ha (h t ht b hb)⟩⟩

/-- items the search may have missed: not within the distance, or the queue may have popped something too far before it -/
def Missed (near : Fl K → Fl K → Prop) (itemDist : T → Fl K) (dist : Fl K) (t : T) : Prop :=
  (itemDist t).le dist = false ∨ ∃ d, near d (itemDist t) ∧ d.le dist = false

/-- items the search leaves over: not within the distance, or another one left over is not within the distance and may have come out of the queue before it -/
def Passed (near : Fl K → Fl K → Prop) (itemDist : T → Fl K) (dist : Fl K) (rest : List T) (t : T) : Prop :=
  (itemDist t).le dist = false ∨ ∃ u ∈ rest, near (itemDist u) (itemDist t) ∧ (itemDist u).le dist = false

omit [LinearOrder B] [BoundedOrder B] in
theorem Passed.missed {near : Fl K → Fl K → Prop} {itemDist : T → Fl K} {dist : Fl K} {rest : List T} {t : T} (h : Passed near itemDist dist rest t) :
    Missed near itemDist dist t :=
  h.imp id (fun ⟨u, _, h1, h2⟩ => ⟨itemDist u, h1, h2⟩)

/-- state of the search between steps; the statements about distances only under the hypothesis `strong` -/
structure KInv (strong : Prop) (ops : ItemOps T B) (M : Nat) (near far : Fl K → Fl K → Prop) (boxDist : Box B → Fl K) (itemDist : T → Fl K) (dist : Fl K)
    (extra : List T) (queue : List (KObj T B K)) (acc : List T) : Prop where
  ok : ∀ o ∈ queue, QOK ops M o.node ∧ o.dist = scoreFn boxDist itemDist o.node.item o.node.bbox
  acc_le : ∀ r ∈ acc, (itemDist r).le dist = true
  sorted : strong → acc.Pairwise (fun a b => far (itemDist a) (itemDist b))
  sep : strong → ∀ r ∈ acc, ∀ t ∈ extra ++ queue.flatMap (fun o => pend o.node), far (itemDist r) (itemDist t)
  bound : strong → BoxNear ops near far boxDist itemDist (extra ++ queue.flatMap (fun o => pend o.node))

/-- final outcome -/
def KOut (strong : Prop) (near : Fl K → Fl K → Prop) (itemDist : T → Fl K) (dist : Fl K) (all : List T) (out : List T) : Prop :=
  ∃ rest, (out ++ rest).Perm all ∧ (∀ t ∈ out, (itemDist t).le dist = true) ∧
    (strong → out.Pairwise (fun a b => near (itemDist a) (itemDist b)) ∧ ∀ t ∈ rest, Passed near itemDist dist rest t)

theorem pend_dist {ops : ItemOps T B} {M : Nat} {near far : Fl K → Fl K → Prop} {boxDist : Box B → Fl K} {itemDist : T → Fl K} {o : KObj T B K} (h : QOK ops M o.node)
    (hd : o.dist = scoreFn boxDist itemDist o.node.item o.node.bbox) (hb : BoxNear ops near far boxDist itemDist (pend o.node)) :
    o.dist ≠ .nan ∧ ∀ t ∈ pend o.node, ∀ a, near a o.dist → far a (itemDist t) := by
  rcases h with ⟨t, h⟩ | ⟨k, h⟩
  · rw [h] at hd hb ⊢
    rw [pend_leaf] at hb ⊢
    have hd : o.dist = itemDist t := hd
    rw [hd]
    obtain ⟨h1, h2, -⟩ := hb t (by simp)
    refine ⟨h1, ?_⟩
    intro t' ht'
    simp at ht'; subst ht'
    exact h2
  · have hp := pend_wf h
    have hf : flatN o.node = flat (k + 1) o.node := by rw [flatN, h.2.1]
    have hne : pend o.node ≠ [] := by rw [hp, hf]; exact h.flat_ne_nil
    have hd : o.dist = boxDist o.node.bbox := by rw [hd, h.1]; rfl
    rw [hd]
    have key : ∀ t ∈ pend o.node, boxDist o.node.bbox ≠ .nan ∧ ∀ a, near a (boxDist o.node.bbox) → far a (itemDist t) := by
      intro t ht
      refine (hb t ht).2.2 _ _ ht (fun _ hu => hu) (fun c => ?_)
      rw [hp, hf]
      exact h.bbox_le_iff c
    obtain ⟨t, ht⟩ := List.exists_mem_of_ne_nil _ hne
    exact ⟨(key t ht).1, fun t ht => (key t ht).2⟩

theorem queue_no_nan {strong : Prop} (hs : strong) {ops : ItemOps T B} {M : Nat} {near far : Fl K → Fl K → Prop} {boxDist : Box B → Fl K} {itemDist : T → Fl K} {dist : Fl K}
    {extra : List T} {queue : List (KObj T B K)} {acc : List T} (inv : KInv strong ops M near far boxDist itemDist dist extra queue acc) :
    ∀ o ∈ queue, o.dist ≠ .nan ∧ ∀ t ∈ pend o.node, ∀ a, near a o.dist → far a (itemDist t) := by
  intro o ho
  obtain ⟨h1, h2⟩ := inv.ok o ho
  exact pend_dist h1 h2 ((inv.bound hs).mono fun t ht => List.mem_append.2 (Or.inr (List.mem_flatMap.2 ⟨o, ho, ht⟩)))

theorem drain_spec {strong : Prop} {ops : ItemOps T B} {M : Nat} {hp : Heap (KObj T B K)} {near far : Fl K → Fl K → Prop} (hl : hp.Legal near)
    {boxDist : Box B → Fl K} {itemDist : T → Fl K} {dist : Fl K} : ∀ (fuel : Nat) (queue : List (KObj T B K)) (acc : List T),
    KInv strong ops M near far boxDist itemDist dist [] queue acc → queue.length < fuel →
    (∃ out, knnDrain hp (-1) (predicateFn dist) fuel queue (acc.map some) = .ok (.inl (out.map some)) ∧
      KOut strong far itemDist dist (acc ++ queue.flatMap (fun o => pend o.node)) out) ∨
    (∃ queue' acc', knnDrain hp (-1) (predicateFn dist) fuel queue (acc.map some) = .ok (.inr (queue', acc'.map some)) ∧
      KInv strong ops M near far boxDist itemDist dist [] queue' acc' ∧ (acc' ++ queue'.flatMap (fun o => pend o.node)).Perm (acc ++ queue.flatMap (fun o => pend o.node)) ∧
      (queue'.map (fun o => cost o.node)).sum ≤ (queue.map (fun o => cost o.node)).sum ∧
      ∀ x r, hp.pop queue' = some (x, r) → x.isItem = false) := by
  intro fuel
  induction fuel with
  | zero => intro queue acc _ h; omega
  | succ fuel ih =>
    intro queue acc inv hlen
    have hnn := fun hs : strong => queue_no_nan hs inv
    cases hpop : hp.pop queue with
    | none =>
      right
      refine ⟨queue, acc, by simp [knnDrain, hpop], inv, List.Perm.refl _, Nat.le_refl _, ?_⟩
      intro x r h; rw [hpop] at h; cases h
    | some p =>
      obtain ⟨x, rest⟩ := p
      have hperm := hl.pop_perm _ _ _ hpop
      have hx : x ∈ queue := hperm.mem_iff.2 (by simp)
      have hpp : (queue.flatMap (fun o => pend o.node)).Perm (pend x.node ++ rest.flatMap (fun o => pend o.node)) := by
        have := hperm.flatMap_right (fun o => pend o.node)
        simpa using this
      by_cases hi : x.isItem = true
      · obtain ⟨t, ht⟩ := (inv.ok x hx).1.item hi
        have hpx : pend x.node = [t] := by rw [ht, pend_leaf]
        have hitem : x.node.item = some t := by rw [ht]; rfl
        have hdist : x.dist = itemDist t := by rw [(inv.ok x hx).2, hitem]; rfl
        have hmin := fun hs => hl.pop_min _ _ _ hpop (fun o ho => (hnn hs o ho).1)
        have hnear : strong → ∀ u ∈ rest.flatMap (fun o => pend o.node), far x.dist (itemDist u) := by
          intro hs u hu
          obtain ⟨y, hy, huy⟩ := List.mem_flatMap.1 hu
          exact (hnn hs y (hperm.mem_iff.2 (by simp [hy]))).2 u huy _ (hmin hs y hy)
        rw [hpx] at hpp
        by_cases hd : x.dist.le dist = true
        · -- accepted
          have inv' : KInv strong ops M near far boxDist itemDist dist [] rest (acc ++ [t]) := by
            refine ⟨?_, ?_, ?_, ?_, ?_⟩
            · intro o ho; exact inv.ok o (hperm.mem_iff.2 (by simp [ho]))
            · intro r hr
              rcases List.mem_append.1 hr with hr | hr
              · exact inv.acc_le r hr
              · simp at hr; subst hr; rw [← hdist]; exact hd
            · intro hs
              rw [List.pairwise_append]
              refine ⟨inv.sorted hs, by simp, ?_⟩
              intro a ha b hb
              simp at hb; subst hb
              exact inv.sep hs a ha b (by
                simp only [List.nil_append]
                exact hpp.mem_iff.2 (by simp))
            · intro hs r hr u hu
              simp only [List.nil_append] at hu
              rcases List.mem_append.1 hr with hr | hr
              · exact inv.sep hs r hr u (by simp only [List.nil_append]; exact hpp.mem_iff.2 (by simp [hu]))
              · simp at hr; subst hr; rw [← hdist]; exact hnear hs u hu
            · exact fun hs => (inv.bound hs).mono fun u hu => by
                simp only [List.nil_append] at hu ⊢
                exact hpp.mem_iff.2 (by simp [hu])
          have hlen' : rest.length < fuel := by
            have := hperm.length_eq
            simp at this; omega
          have hunfold : knnDrain hp (-1) (predicateFn dist) (fuel + 1) queue (acc.map some) =
              knnDrain hp (-1) (predicateFn dist) fuel rest ((acc ++ [t]).map some) := by
            simp only [knnDrain, hpop, hi, if_true, predicateFn, hd, hitem, Bool.false_eq_true, if_false]
            rw [if_neg (by intro h; have := h.2; simp at this; omega)]
            simp
          rw [hunfold]
          have hpa : (acc ++ [t] ++ rest.flatMap (fun o => pend o.node)).Perm (acc ++ queue.flatMap (fun o => pend o.node)) := by
            rw [List.append_assoc]; exact (hpp.symm).append_left acc
          rcases ih rest (acc ++ [t]) inv' hlen' with ⟨out, e, ho⟩ | ⟨q', a', e, i1, i2, i3, i4⟩
          · left
            obtain ⟨rs, h1, h2, h3⟩ := ho
            exact ⟨out, e, rs, h1.trans hpa, h2, h3⟩
          · right
            refine ⟨q', a', e, i1, i2.trans hpa, i3.trans ?_, i4⟩
            have := (hperm.map (fun o => cost o.node)).sum_nat
            simp only [List.map_cons, List.sum_cons] at this; omega
        · -- stop
          left
          have hd' : x.dist.le dist = false := by simpa using hd
          refine ⟨acc, ?_, queue.flatMap (fun o => pend o.node), List.Perm.refl _, inv.acc_le, fun hs => ⟨inv.sorted hs, ?_⟩⟩
          · simp [knnDrain, hpop, hi, predicateFn, hd']
          · intro u hu
            have hu' := hpp.mem_iff.1 hu
            simp only [List.singleton_append, List.mem_cons] at hu'
            rcases hu' with rfl | hu'
            · left; rw [← hdist]; exact hd'
            · right; exact ⟨t, hpp.mem_iff.2 (by simp), by rw [← hdist]; exact hnear hs u hu', by rw [← hdist]; exact hd'⟩
      · right
        refine ⟨queue, acc, by simp [knnDrain, hpop, hi], inv, List.Perm.refl _, Nat.le_refl _, ?_⟩
        intro x' r h; rw [hpop] at h; cases h; simpa using hi

omit [LinearOrder B] [BoundedOrder B] [LinearOrder K] in
theorem pushAll {hp : Heap (KObj T B K)} (hpush : ∀ q o, (hp.push q o).Perm (o :: q)) (score : Option T → Box B → Fl K) : ∀ (cs : List (DbNode T B)) (q : List (KObj T B K)),
    (cs.foldl (fun q c => hp.push q { node := c, dist := score c.item c.bbox }) q).Perm
      (cs.map (fun c => ({ node := c, dist := score c.item c.bbox } : KObj T B K)) ++ q) := by
  intro cs
  induction cs with
  | nil => intro q; simp
  | cons c cs ih =>
    intro q
    refine (ih _).trans ?_
    refine ((hpush q _).append_left _).trans ?_
    simp only [List.map_cons, List.cons_append]
    exact List.perm_middle

theorem knnLoop_spec {strong : Prop} {ops : ItemOps T B} {M : Nat} {hp : Heap (KObj T B K)} {near far : Fl K → Fl K → Prop} (hl : hp.Legal near)
    {boxDist : Box B → Fl K} {itemDist : T → Fl K} {dist : Fl K} : ∀ (fuel : Nat) (nd : DbNode T B) (queue : List (KObj T B K)) (acc : List T),
    RootWF ops M nd → KInv strong ops M near far boxDist itemDist dist (flatN nd) queue acc →
    cntN nd + (flatN nd).length + (queue.map (fun o => cost o.node)).sum ≤ fuel →
    ∃ out, knnLoop hp (-1) (scoreFn boxDist itemDist) (predicateFn dist) fuel nd queue (acc.map some) = .ok (out.map some) ∧
      KOut strong far itemDist dist (acc ++ (flatN nd ++ queue.flatMap (fun o => pend o.node))) out := by
  intro fuel
  induction fuel with
  | zero =>
    intro nd queue acc hw _ hf
    have := cntN_pos hw; omega
  | succ fuel ih =>
    intro nd queue acc hw inv hf
    obtain ⟨x1, x2, x3⟩ := expand_node hw
    let mk : DbNode T B → KObj T B K := fun c => { node := c, dist := scoreFn boxDist itemDist c.item c.bbox }
    let q1 := nd.children.foldl (fun q c => hp.push q (mk c)) queue
    have hq1 : q1.Perm (nd.children.map mk ++ queue) := pushAll hl.push _ _ _
    have hpend : (q1.flatMap (fun o => pend o.node)).Perm (flatN nd ++ queue.flatMap (fun o => pend o.node)) := by
      refine (hq1.flatMap_right _).trans ?_
      rw [List.flatMap_append, List.flatMap_map, ← x2]
    have hcost : (q1.map (fun o => cost o.node)).sum = (nd.children.map cost).sum + (queue.map (fun o => cost o.node)).sum := by
      rw [(hq1.map (fun o => cost o.node)).sum_nat, List.map_append, List.sum_append, List.map_map]; rfl
    have inv1 : KInv strong ops M near far boxDist itemDist dist [] q1 acc := by
      refine ⟨?_, inv.acc_le, inv.sorted, ?_, ?_⟩
      · intro o ho
        rcases List.mem_append.1 (hq1.mem_iff.1 ho) with ho | ho
        · obtain ⟨c, hc, rfl⟩ := List.mem_map.1 ho
          exact ⟨x1 c hc, rfl⟩
        · exact inv.ok o ho
      · intro hs r hr t ht
        exact inv.sep hs r hr t (hpend.mem_iff.1 (by simpa using ht))
      · exact fun hs => (inv.bound hs).mono fun t ht => hpend.mem_iff.1 (by simpa using ht)
    have hlen : ∀ q : List (KObj T B K), (∀ o ∈ q, QOK ops M o.node) → q.length ≤ (q.map (fun o => cost o.node)).sum := by
      intro q
      induction q with
      | nil => intro _; simp
      | cons o q ihq =>
        intro h
        have := cost_pos (h o (by simp))
        have := ihq (fun x hx => h x (by simp [hx]))
        simp only [List.length_cons, List.map_cons, List.sum_cons]; omega
    have hl1 := hlen q1 (fun o ho => (inv1.ok o ho).1)
    simp only [knnLoop]
    change ∃ out, ((knnDrain hp (-1) (predicateFn dist) (fuel + 1) q1 (acc.map some) >>= _) : Res _) = _ ∧ _
    rcases drain_spec hl (fuel + 1) q1 acc inv1 (by omega) with ⟨out, e, ho⟩ | ⟨q', a', e, i1, i2, i3, i4⟩
    · rw [e]
      refine ⟨out, rfl, ?_⟩
      obtain ⟨rs, h1, h2⟩ := ho
      exact ⟨rs, h1.trans (hpend.append_left _), h2⟩
    · rw [e]
      simp only [Res.ok_bind]
      have hfin := i2.trans (hpend.append_left acc)
      cases hpop : hp.pop q' with
      | none =>
        refine ⟨a', rfl, [], ?_, i1.acc_le, fun hs => ⟨i1.sorted hs, by simp⟩⟩
        have := hl.pop_none _ hpop
        subst this
        simpa using hfin
      | some p =>
        obtain ⟨x, rest⟩ := p
        have hperm := hl.pop_perm _ _ _ hpop
        obtain ⟨k, hk⟩ := (i1.ok x (hperm.mem_iff.2 (by simp))).1.inner (by simp [i4 x rest hpop])
        have hp2 : (q'.flatMap (fun o => pend o.node)).Perm (flatN x.node ++ rest.flatMap (fun o => pend o.node)) := by
          have := hperm.flatMap_right (fun o => pend o.node)
          simpa [pend_wf hk] using this
        have hc2 := (hperm.map (fun o => cost o.node)).sum_nat
        have hcx : cost x.node = cntN x.node + (flatN x.node).length := by simp [cost, hk.1]
        simp only [List.map_cons, List.sum_cons] at hc2
        have inv2 : KInv strong ops M near far boxDist itemDist dist (flatN x.node) rest a' := by
          refine ⟨fun o ho => i1.ok o (hperm.mem_iff.2 (by simp [ho])), i1.acc_le, i1.sorted, ?_, ?_⟩
          · intro hs r hr t ht
            exact i1.sep hs r hr t (by simpa using hp2.mem_iff.2 ht)
          · exact fun hs => (i1.bound hs).mono fun t ht => by simpa using hp2.mem_iff.2 ht
        obtain ⟨out, e2, rs, h1, h2⟩ := ih x.node rest a' (Or.inr ⟨k, hk⟩) inv2 (by omega)
        refine ⟨out, e2, rs, h1.trans (((hp2.symm).append_left a').trans hfin), h2⟩

/-- fuel that suffices for any traversal of a tree -/
def treeFuel (t : Tree T B) : Nat := cntN t.data + (contents t).length

theorem contextNeighbours_rough {strong : Prop} {ops : ItemOps T B} {t : Tree T B} (hw : TreeWF ops t) {hp : Heap (KObj T B K)} {near far : Fl K → Fl K → Prop}
    (hl : hp.Legal near) {boxDist : Box B → Fl K} {itemDist : T → Fl K} (hb : strong → BoxNear ops near far boxDist itemDist (contents t)) (dist : Fl K)
    (fuel : Nat) (hf : treeFuel t ≤ fuel) :
    ∃ out, contextNeighbours hp t boxDist itemDist dist fuel = .ok out ∧ KOut strong far itemDist dist (contents t) out := by
  have inv : KInv strong ops t.maxE near far boxDist itemDist dist (flatN t.data) [] [] := by
    refine ⟨by simp, by simp, by simp, by simp, ?_⟩
    simpa [flatN, contents] using hb
  obtain ⟨out, e, h⟩ := knnLoop_spec hl fuel t.data [] [] hw.root inv (by simpa [treeFuel, contents, flatN] using hf)
  refine ⟨out, ?_, by simpa [flatN, contents] using h⟩
  simp only [List.map_nil] at e
  simp only [contextNeighbours, knn, e, Res.ok_bind, derefAll_map_some]

theorem contextNeighbours_gen {strong : Prop} {ops : ItemOps T B} {t : Tree T B} (hw : TreeWF ops t) {hp : Heap (KObj T B K)} {near : Fl K → Fl K → Prop}
    (hl : hp.Legal near) (hmono : ∀ a b c, near a b → b.le c = true → near a c)
    {boxDist : Box B → Fl K} {itemDist : T → Fl K} (hb : strong → BoxBound ops boxDist itemDist (contents t)) (dist : Fl K)
    (fuel : Nat) (hf : treeFuel t ≤ fuel) :
    ∃ out, contextNeighbours hp t boxDist itemDist dist fuel = .ok out ∧ KOut strong near itemDist dist (contents t) out :=
  contextNeighbours_rough hw hl (fun h => (hb h).boxNear hmono) dist fuel hf

theorem contextNeighbours_spec {ops : ItemOps T B} {t : Tree T B} (hw : TreeWF ops t) {hp : Heap (KObj T B K)} {near : Fl K → Fl K → Prop}
    (hl : hp.Legal near) (hmono : ∀ a b c, near a b → b.le c = true → near a c)
    {boxDist : Box B → Fl K} {itemDist : T → Fl K} (hb : BoxBound ops boxDist itemDist (contents t)) (dist : Fl K)
    (fuel : Nat) (hf : treeFuel t ≤ fuel) :
    ∃ out, contextNeighbours hp t boxDist itemDist dist fuel = .ok out ∧ KOut True near itemDist dist (contents t) out :=
  contextNeighbours_gen hw hl hmono (fun _ => hb) dist fuel hf

end Hdb
end Verif
