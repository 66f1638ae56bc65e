import Verif.Props.C107_FullSpec

/-! A line through some of the vertices of another line: the recursive procedures cut it at the same vertices. -/

set_option linter.unusedSectionVars false

namespace Verif

/-- The vertices with the numbers in `S`, of a line with `n` vertices, are the vertices of a line with `n'` vertices, in the same order: `v` is the vertex `ρ v` there. -/
structure Selected (S : Int → Prop) (ρ : Int → Int) (n n' : Int) : Prop where
  range : ∀ v, S v → 0 ≤ v ∧ v < n
  inside : ∀ v, S v → 0 ≤ ρ v ∧ ρ v < n'
  mono : ∀ u v, S u → S v → u < v → ρ u < ρ v
  onto : ∀ a : Int, 0 ≤ a → a < n' → ∃ v, S v ∧ ρ v = a

theorem Selected.lt_iff {S : Int → Prop} {ρ : Int → Int} {n n' : Int} (h : Selected S ρ n n') {u v : Int} (hu : S u) (hv : S v) : u < v ↔ ρ u < ρ v := by
  refine ⟨h.mono u v hu hv, fun hlt => ?_⟩
  rcases Int.lt_trichotomy u v with h1 | rfl | h1
  · exact h1
  · omega
  · have := h.mono v u hv hu h1; omega

/-- no vertex of the selection between two of them: they are neighbours -/
theorem Selected.next {S : Int → Prop} {ρ : Int → Int} {n n' : Int} (h : Selected S ρ n n') {u v : Int} (hu : S u) (hv : S v) (huv : u < v) (hno : ∀ x, S x → ¬ (u < x ∧ x < v)) :
    ρ v = ρ u + 1 := by
  have h1 := h.mono u v hu hv huv
  have h2 := h.inside u hu
  have h3 := h.inside v hv
  by_contra hne
  obtain ⟨x, hx, e⟩ := h.onto (ρ u + 1) (by omega) (by omega)
  refine hno x hx ⟨(h.lt_iff hu hx).2 (by omega), (h.lt_iff hx hv).2 (by omega)⟩

/-- a segment in the numbers of the selection -/
def Rng.via (ρ : Int → Int) (r : Rng) : Rng := ⟨ρ r.I, ρ r.J⟩

section
variable {P K P' K' : Type} [LinearOrder K]
variable {score : ScoreFn P K} {rel : Fl K → Bool} {fixed : Int → Prop} {bad : Int → Int → Prop} {ps : List P}
variable {score' : ScoreFn P' K'} {rel' : Fl K' → Bool} {fixed' : Int → Prop} {bad' : Int → Int → Prop} {ps' : List P'}
variable {S : Int → Prop} {ρ : Int → Int}

/-- The scores on the selection follow the scores on the line: what is accepted stays accepted; if the vertex the score names is in the selection, it is named again,
with the same comparison. -/
def ScoresFollow (S : Int → Prop) (ρ : Int → Int) (score : ScoreFn P K) (rel : Fl K → Bool) (ps : List P) (score' : ScoreFn P' K') (rel' : Fl K' → Bool) (ps' : List P') : Prop :=
  ∀ i j : Int, S i → S j → i < j → ∀ k v, score (Coords.sub ps i j) = .ok (k, v) → ∃ k' v', score' (Coords.sub ps' (ρ i) (ρ j)) = .ok (k', v') ∧
    (rel v = true → rel' v' = true) ∧ (0 < k → k < j - i → S (i + k) → ρ i + k' = ρ (i + k) ∧ rel' v' = rel v)

theorem endOf_via {ρ : Int → Int} {rs : List Rng} {v : Int} (h : EndOf rs v) : EndOf (rs.map (Rng.via ρ)) (ρ v) := by
  obtain ⟨r, hr, hv⟩ := h
  refine ⟨_, List.mem_map_of_mem hr, ?_⟩
  rcases hv with rfl | rfl
  · exact .inl rfl
  · exact .inr rfl

theorem endOf_via_iff {ρ : Int → Int} {rs : List Rng} {w : Int} : EndOf (rs.map (Rng.via ρ)) w ↔ ∃ v, EndOf rs v ∧ w = ρ v := by
  constructor
  · rintro ⟨r, hr, hw⟩
    obtain ⟨q, hq, rfl⟩ := List.mem_map.1 hr
    rcases hw with rfl | rfl
    · exact ⟨q.I, ⟨q, hq, .inl rfl⟩, rfl⟩
    · exact ⟨q.J, ⟨q, hq, .inr rfl⟩, rfl⟩
  · rintro ⟨v, hv, rfl⟩; exact endOf_via hv

theorem Chain.via {n n' : Int} (hS : Selected S ρ n n') : ∀ {rs : List Rng} {a b : Int}, Chain a b rs → (∀ v, EndOf rs v → S v) → Chain (ρ a) (ρ b) (rs.map (Rng.via ρ)) := by
  intro rs
  induction rs with
  | nil => intro a b h _; have : a = b := h; rw [this]; exact rfl
  | cons r rs ih =>
    intro a b h hs
    obtain ⟨h1, h2, h3⟩ := h
    refine ⟨by simp only [Rng.via]; rw [h1], hS.mono _ _ (hs _ ⟨r, by simp, .inl rfl⟩) (hs _ ⟨r, by simp, .inr rfl⟩) h2, ?_⟩
    exact ih h3 (fun v hv => by obtain ⟨q, hq, hv⟩ := hv; exact hs v ⟨q, List.mem_cons_of_mem _ hq, hv⟩)

theorem EndOf.left {xs ys : List Rng} {v : Int} (h : EndOf xs v) : EndOf (xs ++ ys) v := by
  obtain ⟨r, hr, hv⟩ := h; exact ⟨r, List.mem_append_left _ hr, hv⟩

theorem EndOf.right {xs ys : List Rng} {v : Int} (h : EndOf ys v) : EndOf (xs ++ ys) v := by
  obtain ⟨r, hr, hv⟩ := h; exact ⟨r, List.mem_append_right _ hr, hv⟩

theorem RecDP.ends_of {i j : Int} {rs : List Rng} (h : RecDP score rel ps i j rs) : EndOf rs i ∧ EndOf rs j := by
  induction h with
  | keep i j k v hs hv => exact ⟨⟨⟨i, j⟩, by simp, .inl rfl⟩, ⟨⟨i, j⟩, by simp, .inr rfl⟩⟩
  | cut i j k v xs ys hs hv hx hy ihx ihy => exact ⟨ihx.1.left, ihy.2.right⟩

theorem RecDP.select {n' : Int} (hS : Selected S ρ ps.length n') (hf : ScoresFollow S ρ score rel ps score' rel' ps') (hin : SplitsInside score rel ps) {i j : Int} {rs : List Rng}
    (h : RecDP score rel ps i j rs) : i < j → (∀ v, EndOf rs v → S v) → RecDP score' rel' ps' (ρ i) (ρ j) (rs.map (Rng.via ρ)) := by
  induction h with
  | keep i j k v hs hv =>
    intro h1 hrs
    obtain ⟨k', v', hs', hr, -⟩ := hf i j (hrs _ ⟨⟨i, j⟩, by simp, .inl rfl⟩) (hrs _ ⟨⟨i, j⟩, by simp, .inr rfl⟩) h1 k v hs
    exact .keep _ _ k' v' hs' (hr hv)
  | cut i j k v xs ys hs hv hx hy ihx ihy =>
    intro h1 hrs
    have hi := hrs _ hx.ends_of.1.left
    have hj := hrs _ hy.ends_of.2.right
    have hm := hrs _ hy.ends_of.1.right
    have ri := hS.range i hi
    have rj := hS.range j hj
    obtain ⟨k0, v0, hs0, hk0⟩ := hin i j ri.1 h1 rj.2
    rw [hs] at hs0
    cases hs0
    have hk := hk0 hv
    obtain ⟨k', v', hs', -, hr⟩ := hf i j hi hj h1 k v hs
    obtain ⟨e1, e2⟩ := hr (by omega) (by omega) hm
    rw [List.map_append]
    exact .cut _ _ k' v' _ _ hs' (by rw [e2]; exact hv) (by rw [e1]; exact ihx (by omega) (fun v hv => hrs v hv.left)) (by rw [e1]; exact ihy (by omega) (fun v hv => hrs v hv.right))

theorem RecCut.not_bad {i j : Int} {rs : List Rng} (h : RecCut score bad ps i j rs) : ∀ r ∈ rs, ¬ bad r.I r.J := by
  induction h with
  | keep i j h => intro r hr; rw [List.mem_singleton] at hr; rw [hr]; exact h
  | cut i j k v xs ys hb hs hx hy ihx ihy =>
    intro r hr
    rcases List.mem_append.1 hr with hr | hr
    · exact ihx r hr
    · exact ihy r hr

theorem RecCut.select {n' : Int} (hS : Selected S ρ ps.length n') (hf : ScoresFollow S ρ score rel ps score' rel' ps')
    (hin : ∀ i j : Int, 0 ≤ i → i < j → j < ps.length → bad i j → ∃ k v, score (Coords.sub ps i j) = .ok (k, v) ∧ 0 < k ∧ k < j - i)
    (hbad : ∀ (i j : Int) (rs : List Rng), Chain i j rs → (∀ v, EndOf rs v → S v) → (∀ r ∈ rs, ¬ bad r.I r.J ∧ ρ r.J = ρ r.I + 1) → bad i j → bad' (ρ i) (ρ j))
    (hun : ∀ a, ¬ bad' a (a + 1)) {i j : Int} {rs : List Rng}
    (h : RecCut score bad ps i j rs) : i < j → (∀ v, EndOf rs v → S v) → (∀ r ∈ rs, ρ r.J = ρ r.I + 1) → RecCut score' bad' ps' (ρ i) (ρ j) (rs.map (Rng.via ρ)) := by
  induction h with
  | keep i j h =>
    intro h1 hrs hu
    refine .keep _ _ ?_
    rw [hu ⟨i, j⟩ (by simp)]
    exact hun _
  | cut i j k v xs ys hb hs hx hy ihx ihy =>
    intro h1 hrs hu
    have hi := hrs _ hx.ends.1.left
    have hj := hrs _ hy.ends.2.right
    have hm := hrs _ hy.ends.1.right
    have ri := hS.range i hi
    have rj := hS.range j hj
    obtain ⟨k0, v0, hs0, hk0, hk1⟩ := hin i j ri.1 h1 rj.2 hb
    rw [hs] at hs0
    cases hs0
    have hc : Chain i j (xs ++ ys) := (RecCut.cut i j k v xs ys hb hs hx hy).chain_inside hin ri.1 h1 rj.2
    obtain ⟨k', v', hs', -, hr⟩ := hf i j hi hj h1 k v hs
    obtain ⟨e1, -⟩ := hr hk0 hk1 hm
    rw [List.map_append]
    refine .cut _ _ k' v' _ _ (hbad i j _ hc hrs (fun r hr => ⟨(RecCut.cut i j k v xs ys hb hs hx hy).not_bad r hr, hu r hr⟩) hb) hs' ?_ ?_
    · rw [e1]; exact ihx (by omega) (fun v hv => hrs v hv.left) (fun r hr => hu r (List.mem_append_left _ hr))
    · rw [e1]; exact ihy (by omega) (fun v hv => hrs v hv.right) (fun r hr => hu r (List.mem_append_right _ hr))

theorem Each.select {R R' : Rng → List Rng → Prop} {l : List Rng} {xs : List Rng} (h : Each R l xs) :
    (∀ r ∈ l, ∀ ys, R r ys → (∀ y ∈ ys, y ∈ xs) → R' (r.via ρ) (ys.map (Rng.via ρ))) → Each R' (l.map (Rng.via ρ)) (xs.map (Rng.via ρ)) := by
  induction h with
  | nil => intro _; exact .nil
  | @cons a l xs ys h t ih =>
    intro hR
    rw [List.map_cons, List.map_append]
    exact .cons (hR a (by simp) _ h (fun y hy => List.mem_append_left _ hy)) (ih (fun r hr zs hz hy => hR r (List.mem_cons_of_mem _ hr) zs hz (fun y h => List.mem_append_right _ (hy y h))))

theorem Each.mem_of {R : Rng → List Rng → Prop} {l : List Rng} {xs : List Rng} (h : Each R l xs) : ∀ r ∈ l, ∃ ys, R r ys ∧ ∀ y ∈ ys, y ∈ xs := by
  induction h with
  | nil => intro r hr; cases hr
  | @cons a l xs ys h t ih =>
    intro r hr
    rcases List.mem_cons.1 hr with rfl | hr
    · exact ⟨xs, h, fun y hy => List.mem_append_left _ hy⟩
    · obtain ⟨zs, h1, h2⟩ := ih r hr
      exact ⟨zs, h1, fun y hy => List.mem_append_right _ (h2 y hy)⟩

/-- On the line through the ends of the segments `ls` of the procedure of C103, the procedure keeps every vertex. -/
theorem ConstrainedDP.select {ls : List Rng} (h : ConstrainedDP score rel fixed bad ps ls) (h2 : 2 ≤ ps.length) (hS : Selected (EndOf ls) ρ ps.length ps'.length)
    (hf : ScoresFollow (EndOf ls) ρ score rel ps score' rel' ps') (hin : SplitsInside score rel ps)
    (hins : ∀ i j : Int, 0 ≤ i → i < j → j < ps.length → bad i j → ∃ k v, score (Coords.sub ps i j) = .ok (k, v) ∧ 0 < k ∧ k < j - i)
    (hfix : ∀ v, EndOf ls v → (fixed v ↔ fixed' (ρ v))) (hfix' : ∀ w, fixed' w → 0 ≤ w ∧ w < ps'.length)
    (hbad : ∀ (i j : Int) (rs : List Rng), Chain i j rs → (∀ v, EndOf rs v → EndOf ls v) → (∀ r ∈ rs, ¬ bad r.I r.J ∧ ρ r.J = ρ r.I + 1) → bad i j → bad' (ρ i) (ρ j))
    (hun : ∀ a, ¬ bad' a (a + 1)) :
    ConstrainedDP score' rel' fixed' bad' ps' (ls.map (Rng.via ρ)) ∧ ∀ r ∈ ls, ρ r.J = ρ r.I + 1 := by
  have hch := h.chain hins
  obtain ⟨rs, ms, a1, b1, c1, d1⟩ := h
  have hno : ∀ r ∈ ls, ∀ x, EndOf ls x → ¬ (r.I < x ∧ x < r.J) := by
    rintro r hr x ⟨q, hq, hx⟩ hh
    have hend : x = 0 ∨ x ∈ ls.map Rng.J := by
      rcases hx with rfl | rfl
      · exact hch.start hq
      · exact .inr (List.mem_map_of_mem hq)
    rcases hend with rfl | hend
    · have := hch.mem hr; omega
    · exact hch.end_not_inside hend hr hh
  have hu : ∀ r ∈ ls, ρ r.J = ρ r.I + 1 := fun r hr => hS.next ⟨r, hr, .inl rfl⟩ ⟨r, hr, .inr rfl⟩ (hch.mem hr).2.1 (hno r hr)
  have hms : ∀ v, EndOf ms v → EndOf ls v := by
    rintro v ⟨r, hr, hv⟩
    obtain ⟨ys, hy, hy'⟩ := d1.mem_of r hr
    obtain ⟨q, hq, hv'⟩ : EndOf ys v := by
      rcases hv with rfl | rfl
      · exact hy.ends.1
      · exact hy.ends.2
    exact ⟨q, hy' q hq, hv'⟩
  have hrs : ∀ v, EndOf rs v → EndOf ls v := fun v hv => hms v ((c1 v).2 (.inl hv))
  have s0 := hrs _ a1.ends_of.1
  have s1 := hrs _ a1.ends_of.2
  -- the first and the last vertex keep their places
  have hn' : 0 < (ps'.length : Int) := by have := hS.inside _ s0; omega
  have r0 : ρ 0 = 0 := by
    obtain ⟨v, hv, e⟩ := hS.onto 0 (Int.le_refl _) hn'
    have := hS.range v hv
    rcases Int.lt_or_le 0 v with hlt | hle
    · have h1 := hS.mono 0 v s0 hv hlt; have := hS.inside _ s0; omega
    · have : v = 0 := by omega
      rw [← this]; rw [e]; exact this.symm
  have r1 : ρ (ps.length - 1) = ps'.length - 1 := by
    obtain ⟨v, hv, e⟩ := hS.onto (ps'.length - 1) (by omega) (by omega)
    have := hS.range v hv
    rcases Int.lt_or_le v (ps.length - 1) with hlt | hle
    · have h1 := hS.mono v _ hv s1 hlt; have := hS.inside _ s1; omega
    · have : v = ps.length - 1 := by omega
      rw [← this]; exact e
  refine ⟨⟨rs.map (Rng.via ρ), ms.map (Rng.via ρ), ?_, ?_, fun w => ?_, d1.select fun r hr l hl hy => ?_⟩, hu⟩
  · have := a1.select hS hf hin (by omega) hrs
    rwa [r0, r1] at this
  · have := b1.via hS hms
    rwa [r0, r1] at this
  · rw [endOf_via_iff, endOf_via_iff]
    constructor
    · rintro ⟨v, hv, rfl⟩
      rcases (c1 v).1 hv with h1 | h1
      · exact .inl ⟨v, h1, rfl⟩
      · exact .inr ((hfix v (hms v hv)).1 h1)
    · rintro (⟨v, hv, rfl⟩ | hw)
      · exact ⟨v, (c1 v).2 (.inl hv), rfl⟩
      · obtain ⟨v, hv, rfl⟩ := hS.onto w (hfix' w hw).1 (hfix' w hw).2
        exact ⟨v, (c1 v).2 (.inr ((hfix v hv).2 hw)), rfl⟩
  · have hrm := b1.mem hr
    exact RecCut.select hS hf hins hbad hun hl hrm.2.1 (fun v ⟨q, hq, hv⟩ => ⟨q, hy q hq, hv⟩) (fun q hq => hu q (hy q hq))

end

end Verif
