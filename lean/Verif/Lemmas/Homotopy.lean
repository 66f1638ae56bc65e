import Verif.Model.Relate

/-! The pointer chain of package `homotopy` represents a list of vertices; deformation is a sequence of triangle collapses on that list. -/

set_option linter.unusedSectionVars false

namespace Verif
namespace Homotopy

variable {P C B K : Type} [LinearOrder B]

/-- the pointer fields describe exactly the list `l` -/
def Linked (ch : Chain) (l : List Nat) : Prop :=
  ∀ u v w, l = u ++ v :: w → ch.prev v = u.getLast? ∧ ch.next v = w.head?

/-- no context geometry whose box meets the triangle's box meets the triangle -/
def Free (lib : Lib P C B K) (pt : Nat → P) (db : List (Geo P C)) (a b c : Nat) : Prop :=
  ∀ g ∈ db, (lib.bounds (triangle (C := C) (pt a) (pt b) (pt c))).intersects (lib.bounds g) = true →
    lib.intersects (triangle (pt a) (pt b) (pt c)) g = false

/-- one collapse: an interior vertex goes, together with a free triangle -/
inductive Step (lib : Lib P C B K) (pt : Nat → P) (db : List (Geo P C)) : List Nat → List Nat → Prop
  | mk (u : List Nat) (a b c : Nat) (w : List Nat) (h : Free lib pt db a b c) : Step lib pt db (u ++ a :: b :: c :: w) (u ++ a :: c :: w)

/-- any number of collapses -/
inductive Steps (lib : Lib P C B K) (pt : Nat → P) (db : List (Geo P C)) : List Nat → List Nat → Prop
  | refl (l) : Steps lib pt db l l
  | tail {l m n} (h : Steps lib pt db l m) (h' : Step lib pt db m n) : Steps lib pt db l n

theorem Steps.trans {lib : Lib P C B K} {pt db} {l m n : List Nat} (h1 : Steps lib pt db l m) (h2 : Steps lib pt db m n) : Steps lib pt db l n := by
  induction h2 with
  | refl => exact h1
  | tail _ h ih => exact ih.tail h

theorem Step.ends {lib : Lib P C B K} {pt db} {l m : List Nat} (h : Step lib pt db l m) :
    m.head? = l.head? ∧ m.getLast? = l.getLast? ∧ m.length + 1 = l.length ∧ m.Sublist l := by
  cases h with
  | mk u a b c w _ =>
    refine ⟨by cases u <;> rfl, by simp, by simp; omega, ?_⟩
    exact List.Sublist.append_left ((List.sublist_cons_self b (c :: w)).cons_cons a) u

theorem Steps.ends {lib : Lib P C B K} {pt db} {l m : List Nat} (h : Steps lib pt db l m) :
    m.head? = l.head? ∧ m.getLast? = l.getLast? ∧ m.length ≤ l.length ∧ m.Sublist l := by
  induction h with
  | refl => exact ⟨rfl, rfl, Nat.le_refl _, List.Sublist.refl _⟩
  | tail _ h' ih =>
    obtain ⟨h1, h2, h3, h4⟩ := h'.ends
    exact ⟨h1.trans ih.1, h2.trans ih.2.1, by omega, h4.trans ih.2.2.2⟩

theorem isTriangleCollapsible_iff (lib : Lib P C B K) (a b c : P) (gs : List (Geo P C)) :
    isTriangleCollapsible lib a b c gs = true ↔ ∀ g ∈ gs, lib.intersects (triangle a b c) g = false := by
  induction gs with
  | nil => simp [isTriangleCollapsible]
  | cons g gs ih =>
    simp only [isTriangleCollapsible, List.mem_cons, forall_eq_or_imp, ← ih]
    cases lib.intersects (triangle a b c) g <;> simp

theorem collapseVertex_iff (lib : Lib P C B K) (pt : Nat → P) (db : List (Geo P C)) (ch : Chain) (v : Nat) :
    collapseVertex lib pt db ch v = true ↔ ∃ a c, ch.prev v = some a ∧ ch.next v = some c ∧ Free lib pt db a v c := by
  have key : ∀ a c, (let neighbours := db.filter (fun g => (lib.bounds (triangle (C := C) (pt a) (pt v) (pt c))).intersects (lib.bounds g));
      if neighbours.length > 0 then isTriangleCollapsible lib (pt a) (pt v) (pt c) neighbours else true) = true ↔ Free lib pt db a v c := by
    intro a c
    have h : isTriangleCollapsible lib (pt a) (pt v) (pt c)
        (db.filter (fun g => (lib.bounds (triangle (C := C) (pt a) (pt v) (pt c))).intersects (lib.bounds g))) = true ↔ Free lib pt db a v c := by
      rw [isTriangleCollapsible_iff]
      simp only [List.mem_filter, and_imp, Free]
    dsimp only
    split
    · exact h
    · rename_i h0
      have h0 : db.filter (fun g => (lib.bounds (triangle (C := C) (pt a) (pt v) (pt c))).intersects (lib.bounds g)) = [] :=
        List.eq_nil_of_length_eq_zero (by omega)
      rw [h0] at h
      simpa [isTriangleCollapsible] using h
  unfold collapseVertex
  cases hp : ch.prev v with
  | none => simp
  | some a =>
    cases hn : ch.next v with
    | none => simp
    | some c =>
      simp only [Option.some.injEq]
      constructor
      · intro h; exact ⟨a, c, rfl, rfl, (key a c).1 h⟩
      · rintro ⟨a', c', rfl, rfl, h⟩; exact (key _ _).2 h

theorem newChain_linked (n : Nat) : Linked (newChain n) (List.range n) := by
  intro u v w h
  have hl : n = u.length + (w.length + 1) := by
    have := congrArg List.length h; simpa using this
  have hv : v = u.length := by
    have h1 : (List.range n)[u.length]? = some v := by rw [h]; simp
    rw [List.getElem?_range (by omega)] at h1
    exact (Option.some.inj h1).symm
  refine ⟨?_, ?_⟩
  · simp only [newChain]
    rw [List.getLast?_eq_getElem?]
    by_cases h0 : u.length = 0
    · rw [List.length_eq_zero_iff.1 h0] at hv ⊢
      simp [hv]
    · have h1 : (List.range n)[u.length - 1]? = u[u.length - 1]? := by
        rw [h, List.getElem?_append_left (by omega)]
      rw [List.getElem?_range (by omega)] at h1
      rw [← h1, hv, if_neg h0]
  · simp only [newChain]
    rw [List.head?_eq_getElem?]
    have h1 : (List.range n)[u.length + 1]? = w[0]? := by
      rw [h, List.getElem?_append_right (by omega)]; simp
    rw [← h1, hv]
    by_cases h0 : u.length + 1 < n
    · rw [if_pos h0, List.getElem?_range h0]
    · rw [if_neg h0, List.getElem?_eq_none (by simp; omega)]

/-- removing an interior vertex -/
theorem remove_linked {ch : Chain} {u : List Nat} {a b c : Nat} {w : List Nat} (h : Linked ch (u ++ a :: b :: c :: w))
    (hn : (u ++ a :: b :: c :: w).Nodup) :
    Linked (remove ch b) (u ++ a :: c :: w) ∧ (remove ch b).next b = some c ∧ (remove ch b).size = ch.size := by
  obtain ⟨hbp, hbn⟩ := h (u ++ [a]) b (c :: w) (by simp)
  simp only [List.getLast?_append, List.getLast?_singleton, Option.some_or, List.head?_cons] at hbp hbn
  have hab : a ≠ b ∧ b ≠ c ∧ a ≠ c := by
    rw [List.nodup_append] at hn
    have := hn.2.1
    simp at this
    grind
  have hr : remove ch b = { prev := fun i => if i = c then some a else ch.prev i, next := fun i => if i = a then some c else ch.next i, size := ch.size } := by
    simp [remove, ptrs, hbp, hbn]
  rw [hr]
  refine ⟨?_, by simp [hbn, hab.1.symm], rfl⟩
  have hsub : (u ++ a :: c :: w).Nodup :=
    hn.sublist (List.Sublist.append_left ((List.sublist_cons_self b (c :: w)).cons_cons a) u)
  intro u' v w' he
  have hcases : (∃ t, u = u' ++ v :: t ∧ w' = t ++ a :: c :: w) ∨ (u' = u ∧ v = a ∧ w' = c :: w) ∨ (u' = u ++ [a] ∧ v = c ∧ w' = w) ∨
      (∃ t, u' = u ++ a :: c :: t ∧ w = t ++ v :: w') := by
    rcases List.append_eq_append_iff.1 he with ⟨t, h1, h2⟩ | ⟨t, h1, h2⟩
    · match t, h1, h2 with
      | [], h1, h2 => simp at h1 h2; grind
      | [x], h1, h2 => simp at h2; right; right; left; grind
      | x :: y :: t, h1, h2 => simp at h2; right; right; right; exact ⟨t, by grind, by grind⟩
    · match t, h1, h2 with
      | [], h1, h2 => simp at h1 h2; grind
      | x :: t, h1, h2 => simp at h2; left; exact ⟨t, by grind, by grind⟩
  rw [List.nodup_append] at hsub
  obtain ⟨hs1, hs2, hs3⟩ := hsub
  rcases hcases with ⟨t, rfl, rfl⟩ | ⟨rfl, rfl, rfl⟩ | ⟨rfl, rfl, rfl⟩ | ⟨t, rfl, rfl⟩
  · obtain ⟨h1, h2⟩ := h u' v (t ++ a :: b :: c :: w) (by simp)
    have hva : v ≠ a := hs3 v (by simp) a (by simp)
    have hvc : v ≠ c := hs3 v (by simp) c (by simp)
    refine ⟨by simp [hvc, h1], ?_⟩
    simp only [if_neg hva, h2]
    cases t <;> rfl
  · obtain ⟨h1, h2⟩ := h u' v (b :: c :: w) (by simp)
    simp [hab.2.2, h1]
  · obtain ⟨h1, h2⟩ := h (u ++ [a, b]) v w' (by simp)
    have : v ≠ a := hab.2.2.symm
    simp [this, h2]
  · obtain ⟨h1, h2⟩ := h (u ++ a :: b :: c :: t) v w' (by simp)
    have hva : v ≠ a := by simp at hs2; grind
    have hvc : v ≠ c := by simp at hs2; grind
    simp only [if_neg hva, if_neg hvc]
    refine ⟨?_, h2⟩
    rw [h1]; simp [List.getLast?_append, List.getLast?_cons]

/-- one pass, started at the head of `w` -/
theorem pass_spec (lib : Lib P C B K) (pt : Nat → P) (db : List (Geo P C)) : ∀ (w : List Nat) (u : List Nat) (ch : Chain) (d : Bool),
    Linked ch (u ++ w) → (u ++ w).Nodup → ch.size = (u ++ w).length →
    ∃ ch' d' l', (∀ fuel, w.length ≤ fuel → pass lib pt db fuel w.head? ch d = .ok (ch', d')) ∧ Linked ch' l' ∧ l'.Nodup ∧ ch'.size = l'.length ∧ Steps lib pt db (u ++ w) l' ∧
      (d' = true → d = true ∨ l'.length < (u ++ w).length) ∧
      (d' = false → d = false ∧ l' = u ++ w ∧ ∀ x a b c y, u ++ w = x ++ a :: b :: c :: y → b ∈ w → ¬ Free lib pt db a b c) := by
  intro w
  induction w with
  | nil =>
    intro u ch d hl hn hs
    refine ⟨ch, d, u, by intro fuel _; cases fuel <;> simp [pass], by simpa using hl, by simpa using hn, by simpa using hs, by simpa using Steps.refl _, fun h => .inl h, ?_⟩
    intro h
    exact ⟨h, by simp, by simp⟩
  | cons v w ih =>
    intro u ch d hl hn hs
    obtain ⟨hp, hx⟩ := hl u v w rfl
    by_cases hc : collapseVertex lib pt db ch v = true
    · obtain ⟨a, c, ha, hc', hfree⟩ := (collapseVertex_iff ..).1 hc
      obtain ⟨u', rfl⟩ : ∃ u', u = u' ++ [a] := by
        rw [hp] at ha
        exact (List.getLast?_eq_some_iff).1 ha
      obtain ⟨w', rfl⟩ : ∃ w', w = c :: w' := by
        rw [hx] at hc'
        exact List.head?_eq_some_iff.1 hc'
      have hl2 : Linked ch (u' ++ a :: v :: c :: w') := by simpa using hl
      have hn2 : (u' ++ a :: v :: c :: w').Nodup := by simpa using hn
      obtain ⟨l1, l2, l3⟩ := remove_linked hl2 hn2
      have hnodup : (u' ++ a :: c :: w').Nodup :=
        hn2.sublist (List.Sublist.append_left ((List.sublist_cons_self v (c :: w')).cons_cons a) u')
      have hL : Linked { remove ch v with size := (remove ch v).size - 1 } (u' ++ [a] ++ c :: w') := by
        intro x y z he; exact l1 x y z (by simpa using he)
      obtain ⟨ch', d', l', e, i1, i2, i3, i4, i5, i6⟩ := ih (u' ++ [a]) _ true hL (by simpa using hnodup)
        (by simp [l3, hs])
      refine ⟨ch', d', l', ?_, i1, i2, i3, ?_, ?_, ?_⟩
      · intro fuel hf
        obtain ⟨fuel, rfl⟩ : ∃ k, fuel = k + 1 := ⟨fuel - 1, by simp at hf; omega⟩
        simp only [List.head?_cons, pass, if_pos hc, l2]
        exact e fuel (by simp at hf ⊢; omega)
      · have h1 : Step lib pt db (u' ++ a :: v :: c :: w') (u' ++ a :: c :: w') := Step.mk u' a v c w' hfree
        have h2 : Steps lib pt db (u' ++ a :: v :: c :: w') (u' ++ a :: c :: w') := (Steps.refl _).tail h1
        simpa using h2.trans (by simpa using i4)
      · intro _
        right
        have := i4.ends.2.2.1
        simp at this ⊢; omega
      · intro h; have := (i6 h).1; cases this
    · have hL : Linked ch (u ++ [v] ++ w) := by simpa using hl
      obtain ⟨ch', d', l', e, i1, i2, i3, i4, i5, i6⟩ := ih (u ++ [v]) ch d hL (by simpa using hn) (by simpa using hs)
      have e' : ∀ fuel, (v :: w).length ≤ fuel → pass lib pt db fuel (v :: w).head? ch d = .ok (ch', d') := by
        intro fuel hf
        obtain ⟨fuel, rfl⟩ : ∃ k, fuel = k + 1 := ⟨fuel - 1, by simp at hf; omega⟩
        simp only [List.head?_cons, pass, if_neg hc, hx]
        exact e fuel (by simp at hf; omega)
      refine ⟨ch', d', l', e', i1, i2, i3, by simpa using i4, by simpa using i5, ?_⟩
      intro h
      obtain ⟨j1, j2, j3⟩ := i6 h
      refine ⟨j1, by simpa using j2, ?_⟩
      intro x a b c y he hb
      rcases List.mem_cons.1 hb with rfl | hb
      · intro hfree
        apply hc
        rw [collapseVertex_iff]
        obtain ⟨q1, q2⟩ := hl (x ++ [a]) b (c :: y) (by simpa using he)
        exact ⟨a, c, by simpa using q1, by simpa using q2, hfree⟩
      · exact j3 x a b c y (by simpa using he) hb

/-- the loop over passes ends; the result is reached by collapses and, unless two vertices are left, no vertex can be collapsed -/
theorem deformLoop_spec (lib : Lib P C B K) (pt : Nat → P) (db : List (Geo P C)) : ∀ (m : Nat) (l : List Nat) (ch : Chain),
    l.length ≤ m → Linked ch l → l.Nodup → ch.size = l.length → (∀ x, l.head? = some x → x = 0) → l ≠ [] →
    ∃ ch' l', (∀ fuel, 2 * m + 1 ≤ fuel → deformLoop lib pt db fuel ch = .ok ch') ∧ Linked ch' l' ∧ ch'.size = l'.length ∧ Steps lib pt db l l' ∧
      (2 < l'.length → ∀ x a b c y, l' = x ++ a :: b :: c :: y → ¬ Free lib pt db a b c) := by
  intro m
  induction m with
  | zero => intro l ch h0 _ _ _ _ hne; exact absurd (List.eq_nil_of_length_eq_zero (by omega)) hne
  | succ m ih =>
    intro l ch hm hl hn hs h0 hne
    by_cases hsz : ch.size > 2
    · have hh : l.head? = some 0 := by
        cases l with
        | nil => exact absurd rfl hne
        | cons a l => simp at h0; simp [h0]
      obtain ⟨ch', d', l', e, i1, i2, i3, i4, i5, i6⟩ := pass_spec lib pt db l [] ch false (by simpa using hl) (by simpa using hn) (by simpa using hs)
      rw [hh] at e
      have hi := i4.ends
      simp only [List.nil_append] at hi i4 i5 i6
      cases d' with
      | true =>
        have hlt : l'.length < l.length := (i5 rfl).resolve_left (by simp)
        have hne' : l' ≠ [] := by
          intro h; rw [h] at hi; rw [hh] at hi; simp at hi
        obtain ⟨ch2, l2, e2, k1, k2, k3, k4⟩ := ih l' ch' (by omega) i1 i2 i3 (by rw [hi.1]; exact h0) hne'
        have e' : ∀ fuel, 2 * (m + 1) + 1 ≤ fuel → deformLoop lib pt db fuel ch = .ok ch2 := by
          intro fuel hf
          obtain ⟨fuel, rfl⟩ : ∃ k, fuel = k + 1 := ⟨fuel - 1, by omega⟩
          simp only [deformLoop, if_pos hsz, e fuel (by omega), Res.ok_bind, if_true]
          exact e2 fuel (by omega)
        exact ⟨ch2, l2, e', k1, k2, i4.trans k3, k4⟩
      | false =>
        obtain ⟨_, j2, j3⟩ := i6 rfl
        have e' : ∀ fuel, 2 * (m + 1) + 1 ≤ fuel → deformLoop lib pt db fuel ch = .ok ch' := by
          intro fuel hf
          obtain ⟨fuel, rfl⟩ : ∃ k, fuel = k + 1 := ⟨fuel - 1, by omega⟩
          simp [deformLoop, if_pos hsz, e fuel (by omega)]
        refine ⟨ch', l', e', i1, i3, i4, ?_⟩
        intro _ x a b c y he
        rw [j2] at he
        exact j3 x a b c y he (by rw [he]; simp)
    · have e' : ∀ fuel, 2 * (m + 1) + 1 ≤ fuel → deformLoop lib pt db fuel ch = .ok ch := by
        intro fuel hf
        obtain ⟨fuel, rfl⟩ : ∃ k, fuel = k + 1 := ⟨fuel - 1, by omega⟩
        simp [deformLoop, if_neg hsz]
      exact ⟨ch, l, e', hl, hs, Steps.refl _, by omega⟩

end Homotopy
end Verif
