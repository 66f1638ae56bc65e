import Verif.Model.HdbHeur

/-! What the two scanning loops of the tree (`chooseSubtree`, `chooseSplitIndex`) find. -/

namespace Verif
namespace Hdb

variable {T B K : Type} [LinearOrder B] [BoundedOrder B] [LinearOrder K]

/-- after a prefix `ps` of the children: `e` the least enlarged area, `k` the target, `a` the area kept for comparison -/
structure Scan (N : Num T B K) (b : Box B) (ps : List (Box B)) (a e : K) (k : Nat) : Prop where
  attained : ∃ c, c ∈ ps ∧ N.area (b.expand c) = e
  least : ∀ c ∈ ps, e ≤ N.area (b.expand c)
  target : ∃ c, ps[k]? = some c ∧ (N.area (b.expand c) = e ∨ N.close (N.area (b.expand c)) e = true) ∧
    (N.area c = a ∨ ∃ i c', i < k ∧ ps[i]? = some c' ∧ e < N.area (b.expand c') ∧ N.area c' = a) ∧ a ≤ N.area c
  kept : ∀ c ∈ ps, N.area (b.expand c) = e → a ≤ N.area c

theorem getElem?_snoc_lt {α : Type} {ps : List α} {k : Nat} {c : α} (d : α) (h : ps[k]? = some c) : (ps ++ [d])[k]? = some c := by
  have hk : k < ps.length := (List.getElem?_eq_some_iff.mp h).1
  rw [List.getElem?_append_left hk]; exact h

theorem chooseLoop_scan (N : Num T B K) (b : Box B) : ∀ (cs ps : List (Box B)) (a e : K) (k : Nat), Scan N b ps a e k →
    ∃ a' e' k', chooseLoop N b cs ps.length (some a) (some e) (some k) = some k' ∧ Scan N b (ps ++ cs) a' e' k' := by
  intro cs
  induction cs with
  | nil => intro ps a e k h; exact ⟨a, e, k, rfl, by simpa using h⟩
  | cons d cs ih =>
    intro ps a e k h
    have key : ∀ a' e' k', Scan N b (ps ++ [d]) a' e' k' →
        ∃ a'' e'' k'', chooseLoop N b cs (ps.length + 1) (some a') (some e') (some k') = some k'' ∧ Scan N b (ps ++ d :: cs) a'' e'' k'' := by
      intro a' e' k' hs
      have := ih (ps ++ [d]) a' e' k' hs
      simpa using this
    obtain ⟨c0, hc0, htc, hta, hle⟩ := h.target
    have hget : (ps ++ [d])[ps.length]? = some d := by simp
    simp only [chooseLoop, ltInf]
    by_cases hlt : N.area (b.expand d) < e
    · simp only [hlt, decide_true, if_true]
      have hold : ∀ c ∈ ps, N.area (b.expand d) < N.area (b.expand c) := fun c hc => lt_of_lt_of_le hlt (h.least c hc)
      have hatt : ∃ c, c ∈ ps ++ [d] ∧ N.area (b.expand c) = N.area (b.expand d) := ⟨d, by simp, rfl⟩
      have hleast : ∀ c ∈ ps ++ [d], N.area (b.expand d) ≤ N.area (b.expand c) := by
        intro c hc
        rcases List.mem_append.mp hc with hc | hc
        · exact (hold c hc).le
        · simp only [List.mem_singleton] at hc; rw [hc]
      by_cases ha : N.area d < a
      · simp only [ha, decide_true, if_true]
        refine key _ _ _ ⟨hatt, hleast, ⟨d, hget, .inl rfl, .inl rfl, le_refl _⟩, ?_⟩
        intro c hc he
        rcases List.mem_append.mp hc with hc | hc
        · exact absurd he (ne_of_gt (hold c hc))
        · simp only [List.mem_singleton] at hc; rw [hc]
      · simp only [ha, decide_false, Bool.false_eq_true, if_false]
        have hw : ∃ i c', i < ps.length ∧ (ps ++ [d])[i]? = some c' ∧ N.area (b.expand d) < N.area (b.expand c') ∧ N.area c' = a := by
          rcases hta with h1 | ⟨i, c', hi, hc', hgt, hA⟩
          · exact ⟨k, c0, (List.getElem?_eq_some_iff.mp hc0).1, getElem?_snoc_lt d hc0, hold c0 (List.mem_of_getElem? hc0), h1⟩
          · exact ⟨i, c', (List.getElem?_eq_some_iff.mp hc').1, getElem?_snoc_lt d hc', hold c' (List.mem_of_getElem? hc'), hA⟩
        refine key _ _ _ ⟨hatt, hleast, ⟨d, hget, .inl rfl, .inr hw, le_of_not_gt ha⟩, ?_⟩
        intro c hc he
        rcases List.mem_append.mp hc with hc | hc
        · exact absurd he (ne_of_gt (hold c hc))
        · simp only [List.mem_singleton] at hc; rw [hc]; exact le_of_not_gt ha
    · simp only [hlt, decide_false, Bool.false_eq_true, if_false]
      have hge := le_of_not_gt hlt
      have hatt : ∃ c, c ∈ ps ++ [d] ∧ N.area (b.expand c) = e := by
        obtain ⟨c, hc, he⟩ := h.attained
        exact ⟨c, by simp [hc], he⟩
      have hleast : ∀ c ∈ ps ++ [d], e ≤ N.area (b.expand c) := by
        intro c hc
        rcases List.mem_append.mp hc with hc | hc
        · exact h.least c hc
        · simp only [List.mem_singleton] at hc; rw [hc]; exact hge
      have hstay : (N.area (b.expand d) = e → a ≤ N.area d) → Scan N b (ps ++ [d]) a e k := by
        intro hd
        refine ⟨hatt, hleast, ⟨c0, getElem?_snoc_lt d hc0, htc, ?_, hle⟩, ?_⟩
        · rcases hta with h1 | ⟨i, c', hi, hc', hgt, hA⟩
          · exact .inl h1
          · exact .inr ⟨i, c', hi, getElem?_snoc_lt d hc', hgt, hA⟩
        · intro c hc he
          rcases List.mem_append.mp hc with hc | hc
          · exact h.kept c hc he
          · simp only [List.mem_singleton] at hc; rw [hc] at he ⊢; exact hd he
      by_cases hcl : N.area (b.expand d) = e ∨ N.close (N.area (b.expand d)) e = true
      · have : closeInf N (N.area (b.expand d)) (some e) = true := by simpa [closeInf] using hcl
        rw [if_pos this]
        by_cases ha : N.area d < a
        · simp only [ha, decide_true, if_true]
          refine key _ _ _ ⟨hatt, hleast, ⟨d, hget, hcl, .inl rfl, le_refl _⟩, ?_⟩
          intro c hc he
          rcases List.mem_append.mp hc with hc | hc
          · exact ha.le.trans (h.kept c hc he)
          · simp only [List.mem_singleton] at hc; rw [hc]
        · simp only [ha, decide_false, Bool.false_eq_true, if_false]
          exact key _ _ _ (hstay (fun _ => le_of_not_gt ha))
      · have : ¬ closeInf N (N.area (b.expand d)) (some e) = true := by simpa [closeInf] using hcl
        rw [if_neg this]
        exact key _ _ _ (hstay (fun he => absurd (.inl he) hcl))

theorem chooseLoop_result (N : Num T B K) (b : Box B) {bs : List (Box B)} (hne : bs ≠ []) :
    ∃ a e k, chooseLoop N b bs 0 none none none = some k ∧ Scan N b bs a e k := by
  cases bs with
  | nil => exact absurd rfl hne
  | cons d cs =>
    simp only [chooseLoop, ltInf, if_true]
    have := chooseLoop_scan N b cs [d] (N.area d) (N.area (b.expand d)) 0
      ⟨⟨d, by simp, rfl⟩, by simp, ⟨d, rfl, .inl rfl, .inl rfl, le_refl _⟩, by simp⟩
    simpa using this

/-- overlap of the two groups when the first `i` boxes are split off -/
def overlapAt (N : Num T B K) (bs : List (Box B)) (i : Nat) : K := intersectionArea N (Box.unionAll (bs.take i)) (Box.unionAll (bs.drop i))

/-- sum of their areas -/
def areaAt (N : Num T B K) (bs : List (Box B)) (i : Nat) : K := N.add (N.area (Box.unionAll (bs.take i))) (N.area (Box.unionAll (bs.drop i)))

/-- after the positions `lo ≤ j < i` -/
structure SplitScan (N : Num T B K) (bs : List (Box B)) (lo i : Nat) (o a : K) (k : Nat) : Prop where
  inRange : lo ≤ k ∧ k < i
  target : overlapAt N bs k = o
  least : ∀ j, lo ≤ j → j < i → o ≤ overlapAt N bs j
  area : areaAt N bs k = a ∨ ∃ j, lo ≤ j ∧ j < k ∧ o < overlapAt N bs j ∧ areaAt N bs j = a
  le : a ≤ areaAt N bs k
  kept : ∀ j, lo ≤ j → j < i → overlapAt N bs j = o → a ≤ areaAt N bs j

theorem splitLoop_scan (N : Num T B K) (bs : List (Box B)) (lo : Nat) : ∀ (left i : Nat) (o a : K) (k : Nat), SplitScan N bs lo i o a k →
    ∃ o' a', SplitScan N bs lo (i + left) o' a' (splitLoop N bs left i (some o) (some a) k) := by
  intro left
  induction left with
  | zero => intro i o a k h; exact ⟨o, a, h⟩
  | succ left ih =>
    intro i o a k h
    rw [show i + (left + 1) = i + 1 + left by omega]
    obtain ⟨hlo, hki⟩ := h.inRange
    have step : ∀ j, lo ≤ j → j < i + 1 → (j < i ∨ j = i) := fun j _ hj => by omega
    simp only [splitLoop, ltInf]
    change ∃ o' a', SplitScan N bs lo (i + 1 + left) o' a' (if decide (overlapAt N bs i < o) = true then
        splitLoop N bs left (i + 1) (some (overlapAt N bs i)) (if decide (areaAt N bs i < a) = true then some (areaAt N bs i) else some a) i
      else if some o = some (overlapAt N bs i) then
        if decide (areaAt N bs i < a) = true then splitLoop N bs left (i + 1) (some o) (some (areaAt N bs i)) i
        else splitLoop N bs left (i + 1) (some o) (some a) k
      else splitLoop N bs left (i + 1) (some o) (some a) k)
    by_cases hlt : overlapAt N bs i < o
    · simp only [hlt, decide_true, if_true]
      have hold : ∀ j, lo ≤ j → j < i → overlapAt N bs i < overlapAt N bs j := fun j h1 h2 => lt_of_lt_of_le hlt (h.least j h1 h2)
      have hleast : ∀ j, lo ≤ j → j < i + 1 → overlapAt N bs i ≤ overlapAt N bs j := by
        intro j h1 h2
        rcases step j h1 h2 with h3 | rfl
        · exact (hold j h1 h3).le
        · exact le_refl _
      by_cases ha : areaAt N bs i < a
      · simp only [ha, decide_true, if_true]
        refine ih _ _ _ _ ⟨⟨by omega, by omega⟩, rfl, hleast, .inl rfl, le_refl _, ?_⟩
        intro j h1 h2 he
        rcases step j h1 h2 with h3 | rfl
        · exact absurd he (ne_of_gt (hold j h1 h3))
        · exact le_refl _
      · simp only [ha, decide_false, Bool.false_eq_true, if_false]
        refine ih _ _ _ _ ⟨⟨by omega, by omega⟩, rfl, hleast, .inr ?_, le_of_not_gt ha, ?_⟩
        · rcases h.area with h1 | ⟨j, h1, h2, h3, h4⟩
          · exact ⟨k, hlo, hki, hold k hlo hki, h1⟩
          · exact ⟨j, h1, by omega, hold j h1 (by omega), h4⟩
        · intro j h1 h2 he
          rcases step j h1 h2 with h3 | rfl
          · exact absurd he (ne_of_gt (hold j h1 h3))
          · exact le_of_not_gt ha
    · simp only [hlt, decide_false, Bool.false_eq_true, if_false]
      have hge := le_of_not_gt hlt
      have hleast : ∀ j, lo ≤ j → j < i + 1 → o ≤ overlapAt N bs j := by
        intro j h1 h2
        rcases step j h1 h2 with h3 | rfl
        · exact h.least j h1 h3
        · exact hge
      have hstay : (overlapAt N bs i = o → a ≤ areaAt N bs i) → SplitScan N bs lo (i + 1) o a k := by
        intro hd
        refine ⟨⟨hlo, by omega⟩, h.target, hleast, h.area, h.le, ?_⟩
        intro j h1 h2 he
        rcases step j h1 h2 with h3 | rfl
        · exact h.kept j h1 h3 he
        · exact hd he
      by_cases he : some o = some (overlapAt N bs i)
      · rw [if_pos he]
        have he' : overlapAt N bs i = o := (Option.some.inj he).symm
        by_cases ha : areaAt N bs i < a
        · simp only [ha, decide_true, if_true]
          refine ih _ _ _ _ ⟨⟨by omega, by omega⟩, he', hleast, .inl rfl, le_refl _, ?_⟩
          intro j h1 h2 hj
          rcases step j h1 h2 with h3 | rfl
          · exact ha.le.trans (h.kept j h1 h3 hj)
          · exact le_refl _
        · simp only [ha, decide_false, Bool.false_eq_true, if_false]
          exact ih _ _ _ _ (hstay (fun _ => le_of_not_gt ha))
      · rw [if_neg he]
        exact ih _ _ _ _ (hstay (fun h' => absurd (by rw [h']) he))

theorem chooseSplitIndex_result (N : Num T B K) (m : Nat) (bs : List (Box B)) (h : 2 * m ≤ bs.length) :
    ∃ o a, SplitScan N bs m (bs.length - m + 1) o a (chooseSplitIndex N m bs) := by
  unfold chooseSplitIndex
  obtain ⟨l, hl⟩ : ∃ l, bs.length - m + 1 - m = l + 1 := ⟨bs.length - m - m, by omega⟩
  rw [hl]
  simp only [splitLoop, ltInf, if_true]
  have := splitLoop_scan N bs m l (m + 1) (overlapAt N bs m) (areaAt N bs m) m
    ⟨⟨by omega, by omega⟩, rfl, fun j h1 h2 => by have : j = m := by omega
                                                  rw [this], .inl rfl, le_refl _, fun j h1 h2 _ => by
                                                    have : j = m := by omega
                                                    rw [this]⟩
  rwa [show m + 1 + l = bs.length - m + 1 by omega] at this

end Hdb
end Verif
