import Verif.Lemmas.PlanarExact

/-! From pieces to the whole line: removals inside parts of a list, pieces whose vertices lie on one line, output vertices as a list of places. -/

set_option linter.unusedSectionVars false

namespace Verif

section
variable {α β : Type} {free free' : α → α → α → Prop}

theorem Collapse.trans {l m n : List α} (h1 : Collapse free l m) (h2 : Collapse free m n) : Collapse free l n := by
  induction h2 with
  | refl => exact h1
  | tail _ hf ih => exact ih.tail hf

/-- removals in a part of a list -/
theorem Collapse.context {l m : List α} (h : Collapse free l m) (u w : List α) : Collapse free (u ++ l ++ w) (u ++ m ++ w) := by
  induction h with
  | refl => exact .refl _
  | @tail x a b c y h hf ih =>
    have e1 : u ++ (x ++ a :: b :: c :: y) ++ w = (u ++ x) ++ a :: b :: c :: (y ++ w) := by simp
    have e2 : u ++ (x ++ a :: c :: y) ++ w = (u ++ x) ++ a :: c :: (y ++ w) := by simp
    rw [e1] at ih
    rw [e2]
    exact ih.tail hf

theorem Collapse.map {free'' : β → β → β → Prop} (f : α → β) (hf : ∀ a b c, free a b c → free'' (f a) (f b) (f c)) {l m : List α} (h : Collapse free l m) :
    Collapse free'' (l.map f) (m.map f) := by
  induction h with
  | refl => exact .refl _
  | @tail x a b c y h hx ih =>
    simp only [List.map_append, List.map_cons] at ih ⊢
    exact ih.tail (hf _ _ _ hx)

/-- when every triple of vertices is free, all interior vertices can be removed -/
theorem Collapse.all_mem : ∀ (l : List α) (a z : α), (∀ x ∈ a :: (l ++ [z]), ∀ y ∈ a :: (l ++ [z]), ∀ w ∈ a :: (l ++ [z]), free x y w) →
    Collapse free (a :: (l ++ [z])) [a, z]
  | [], a, z, _ => .refl _
  | b :: l, a, z, h => by
    have h0 : Collapse free (a :: (b :: l ++ [z])) (a :: (l ++ [z])) := by
      cases l with
      | nil => exact Collapse.tail (u := []) (a := a) (b := b) (c := z) (w := []) (.refl _) (h a (by simp) b (by simp) z (by simp))
      | cons c l => exact Collapse.tail (u := []) (a := a) (b := b) (c := c) (w := l ++ [z]) (.refl _) (h a (by simp) b (by simp) c (by simp))
    refine h0.trans (Collapse.all_mem l a z ?_)
    have hsub : ∀ x ∈ a :: (l ++ [z]), x ∈ a :: (b :: l ++ [z]) := by
      intro x hx
      simp only [List.mem_cons, List.mem_append, List.cons_append] at hx ⊢
      tauto
    exact fun x hx y hy w hw => h x (hsub x hx) y (hsub y hy) w (hsub w hw)

theorem Collapse.all_of_ends {l : List α} {a z : α} (h2 : 2 ≤ l.length) (ha : l.head? = some a) (hz : l.getLast? = some z)
    (h : ∀ x ∈ l, ∀ y ∈ l, ∀ w ∈ l, free x y w) : Collapse free l [a, z] := by
  match l, h2 with
  | x :: y :: l, _ =>
    simp only [List.head?_cons, Option.some.injEq] at ha
    subst ha
    have hd : (y :: l).dropLast ++ [z] = y :: l := by
      rw [List.getLast?_cons_cons] at hz
      exact List.dropLast_append_getLast? z hz
    rw [← hd] at h ⊢
    exact Collapse.all_mem _ _ _ h

end

namespace Planar

theorem isPreconnected_lineSet : ∀ l : List ℂ, IsPreconnected (lineSet l)
  | [] => isPreconnected_empty
  | [a] => isPreconnected_singleton
  | a :: b :: l => by
    refine IsPreconnected.union b (right_mem_segment ℝ a b) (mem_lineSet_of_mem (by simp)) (convex_segment a b).isPreconnected (isPreconnected_lineSet (b :: l))

/-- a coordinate along a segment -/
theorem segment_coordinate {a b : ℂ} (hab : a ≠ b) : ∃ φ : ℂ → ℝ, Continuous φ ∧ ∀ z ∈ segment ℝ a b, z = a + (φ z : ℝ) • (b - a) := by
  have hne : (b - a) ≠ 0 := sub_ne_zero.2 hab.symm
  refine ⟨fun z => ((z - a) / (b - a)).re, Complex.continuous_re.comp ((continuous_id.sub continuous_const).div_const _), ?_⟩
  rintro z ⟨s, t, hs0, ht0, hst, rfl⟩
  have e : (s • a + t • b - a) / (b - a) = ((t : ℝ) : ℂ) := by
    rw [div_eq_iff hne]
    have : s = 1 - t := by linarith
    subst this
    simp only [Complex.real_smul]
    push_cast
    ring
  simp only [e, Complex.ofReal_re]
  have : s = 1 - t := by linarith
  subst this
  module

/-- a line whose vertices have a segment as hull runs over the whole segment -/
theorem hullSet_subset_lineSet {l : List ℂ} {a b : ℂ} (ha : a ∈ l) (hb : b ∈ l) (hs : hullSet l = segment ℝ a b) : hullSet l ⊆ lineSet l := by
  rw [hs]
  rcases eq_or_ne a b with rfl | hab
  · intro z hz
    rw [segment_same, Set.mem_singleton_iff] at hz
    exact hz ▸ mem_lineSet_of_mem ha
  obtain ⟨φ, hφ, hpar⟩ := segment_coordinate hab
  have hne : (b - a) ≠ 0 := sub_ne_zero.2 hab.symm
  have hcoord : ∀ t : ℝ, ∀ z ∈ segment ℝ a b, z = a + t • (b - a) → φ z = t := by
    intro t z hz e
    have := (hpar z hz).symm.trans e
    rw [add_right_inj, ← sub_eq_zero, ← sub_smul, smul_eq_zero] at this
    rcases this with h | h
    · linarith
    · exact absurd h hne
  have h0 : φ a = 0 := hcoord 0 a (left_mem_segment ℝ a b) (by simp)
  have h1 : φ b = 1 := hcoord 1 b (right_mem_segment ℝ a b) (by simp)
  intro z hz
  have hline : lineSet l ⊆ segment ℝ a b := hs ▸ lineSet_subset_hullSet l
  have hconn := (isPreconnected_lineSet l).image φ hφ.continuousOn
  have hz01 : φ z ∈ Set.Icc (φ a) (φ b) := by
    rw [h0, h1]
    obtain ⟨s, t, hs0, ht0, hst, rfl⟩ := hz
    have e : φ (s • a + t • b) = t := by
      refine hcoord t _ ⟨s, t, hs0, ht0, hst, rfl⟩ ?_
      have : s = 1 - t := by linarith
      subst this
      module
    rw [e]
    exact ⟨ht0, by linarith⟩
  obtain ⟨w, hw, hwz⟩ := hconn.Icc_subset ⟨a, mem_lineSet_of_mem ha, rfl⟩ ⟨b, mem_lineSet_of_mem hb, rfl⟩ hz01
  have : w = z := by rw [hpar w (hline hw), hpar z hz, hwz]
  exact this ▸ hw

section
variable {P C : Type} {pos : P → ℂ} {region : C → Set ℂ} {lib : Lib P C EReal ℝ}

/-- a hull with two corners is a segment between two of the vertices -/
theorem Exact.two_corners (he : Exact pos region lib) {c : Coords P} (hw : WellIndexed c) (h2 : (lib.convexHull c).len = 2) :
    ∃ a ∈ c.points.map pos, ∃ b ∈ c.points.map pos, hullSet (c.points.map pos) = segment ℝ a b := by
  have hx := he.hullCorners c hw
  have hc := hull_corners hx
  have hl := (he.hullIndexed c hw).length
  have h2' : (lib.convexHull c).points.length = 2 := by omega
  obtain ⟨p, q, hpq⟩ := List.length_eq_two.1 h2'
  have hsub : ∀ z ∈ (lib.convexHull c).points.map pos, z ∈ c.points.map pos := by
    intro z hz
    have : z ∈ (hullSet (c.points.map pos)).extremePoints ℝ := by rw [← hx]; exact hz
    have h3 : z ∈ ({z | z ∈ c.points.map pos} : Set ℂ) := extremePoints_convexHull_subset (𝕜 := ℝ) this
    exact h3
  refine ⟨pos p, hsub _ (by rw [hpq]; simp), pos q, hsub _ (by rw [hpq]; simp), ?_⟩
  rw [← hc, hpq]
  have hset : {z | z ∈ [pos p, pos q]} = ({pos p, pos q} : Set ℂ) := by ext z; simp
  simp only [List.map_cons, List.map_nil, hullSet, hset, convexHull_pair]

end

section
variable {P : Type} {pos : P → ℂ} {ps : List P}

/-- splitting the vertices from `a` to `b` at `j` -/
theorem places_split {a j b : Int} (h0 : 0 ≤ a) (h1 : a ≤ j) (h2 : j ≤ b) (h3 : b < ps.length) :
    ∃ x t, places pos ps j b = x :: t ∧ placesAt pos ps [j] = [x] ∧ places pos ps a b = places pos ps a j ++ t := by
  have hj : j.toNat < ps.length := by omega
  refine ⟨pos ps[j.toNat], ((ps.drop (j.toNat + 1)).take (b - j).toNat).map pos, ?_, ?_, ?_⟩
  · rw [places, between, List.drop_eq_getElem_cons hj, show (b + 1 - j).toNat = (b - j).toNat + 1 by omega, List.take_succ_cons, List.map_cons]
  · simp [placesAt, List.getElem?_eq_getElem hj]
  · rw [places, places, between, between, ← List.map_append]
    congr 1
    rw [show (b + 1 - a).toNat = (j + 1 - a).toNat + (b - j).toNat by omega, List.take_add, List.drop_drop,
      show a.toNat + (j + 1 - a).toNat = j.toNat + 1 by omega]

theorem places_self {a : Int} (h0 : 0 ≤ a) (h1 : a < ps.length) : places pos ps a a = placesAt pos ps [a] := by
  obtain ⟨x, t, h2, h3, h4⟩ := places_split (pos := pos) (ps := ps) h0 le_rfl le_rfl h1
  have : t = [] := by
    have := congrArg List.length h4
    rw [List.length_append] at this
    exact List.eq_nil_of_length_eq_zero (by omega)
  rw [h2, h3, this]

theorem placesAt_cons (i : Int) (is : List Int) : placesAt pos ps (i :: is) = placesAt pos ps [i] ++ placesAt pos ps is := by
  simp only [placesAt, List.filterMap_cons, List.filterMap_nil]
  cases (ps[i.toNat]?).map pos <;> rfl

/-- removals in the pieces of a chain, put together -/
theorem collapse_chain {free : ℂ → ℂ → ℂ → Prop} : ∀ (rs : List Rng) (a b : Int), 0 ≤ a → b < ps.length → Chain a b rs →
    (∀ r ∈ rs, Collapse free (places pos ps r.I r.J) (placesAt pos ps [r.I, r.J])) →
    Collapse free (places pos ps a b) (placesAt pos ps (a :: rs.map Rng.J))
  | [], a, b, h0, h1, hc, _ => by
    have : a = b := hc
    subst this
    rw [List.map_nil, ← places_self h0 h1]
    exact .refl _
  | r :: rs, a, b, h0, h1, hc, hr => by
    obtain ⟨c1, c2, c3⟩ := hc
    have hle := c3.le
    obtain ⟨x, t, e1, e2, e3⟩ := places_split (pos := pos) (ps := ps) (a := a) (j := r.J) (b := b) h0 (by omega) hle h1
    have s1 := (hr r (by simp)).context [] t
    rw [List.nil_append, List.nil_append, c1, ← e3, placesAt_cons, e2] at s1
    have s2 := (collapse_chain rs r.J b (by omega) h1 c3 (fun r hr' => hr r (by simp [hr']))).context (placesAt pos ps [a]) []
    rw [List.append_nil, List.append_nil, e1, ← placesAt_cons] at s2
    rw [List.append_assoc] at s1
    exact s1.trans s2

/-- the places between two vertices lie on the line -/
theorem places_ends {i j : Int} (h0 : 0 ≤ i) (h1 : i < j) (h2 : j < ps.length) : ∃ x y, placesAt pos ps [i, j] = [x, y] ∧
    (places pos ps i j).head? = some x ∧ (places pos ps i j).getLast? = some y ∧ 2 ≤ (places pos ps i j).length := by
  have hi : i.toNat < ps.length := by omega
  have hj : j.toNat < ps.length := by omega
  have hlen : (places pos ps i j).length = (j + 1 - i).toNat := by
    rw [places, List.length_map, between, List.length_take, List.length_drop]; omega
  refine ⟨pos ps[i.toNat], pos ps[j.toNat], ?_, ?_, ?_, by omega⟩
  · simp [placesAt, List.getElem?_eq_getElem hi, List.getElem?_eq_getElem hj]
  · rw [places, List.head?_map, between, List.head?_take, if_neg (by omega), List.head?_drop, List.getElem?_eq_getElem hi]; rfl
  · rw [List.getLast?_eq_getElem?, hlen, places, List.getElem?_map, between, List.getElem?_take_of_lt (by omega), List.getElem?_drop,
      show i.toNat + ((j + 1 - i).toNat - 1) = j.toNat by omega, List.getElem?_eq_getElem hj]; rfl

theorem lineSet_infix : ∀ (u l w : List ℂ), lineSet l ⊆ lineSet (u ++ l ++ w) := by
  intro u l w
  cases l with
  | nil => simp [lineSet]
  | cons a l =>
    have h1 : lineSet (a :: l) ⊆ lineSet (a :: l ++ w) := by
      cases w with
      | nil => simp
      | cons b w =>
        rcases List.eq_nil_or_concat (a :: l) with h | ⟨m, z, h⟩
        · cases h
        · rw [h, List.concat_eq_append, List.append_assoc, List.singleton_append, lineSet_append_cons m z (b :: w)]
          exact Set.subset_union_left
    rw [List.append_assoc, List.cons_append, lineSet_append_cons u a (l ++ w)]
    exact h1.trans Set.subset_union_right

theorem places_subset {i j : Int} (h0 : 0 ≤ i) (h1 : i ≤ j) : lineSet (places pos ps i j) ⊆ lineSet (ps.map pos) := by
  have : ps = ps.take i.toNat ++ between ps i j ++ ps.drop (j + 1).toNat := by
    rw [between, List.append_assoc]
    conv => lhs; rw [← List.take_append_drop i.toNat ps]
    congr 1
    conv => lhs; rw [← List.take_append_drop (j + 1 - i).toNat (ps.drop i.toNat)]
    rw [List.drop_drop, show i.toNat + (j + 1 - i).toNat = (j + 1).toNat by omega]
  conv => rhs; rw [this]
  rw [List.map_append, List.map_append]
  exact lineSet_infix _ _ _

theorem places_all (h : ps ≠ []) : places pos ps 0 ((ps.length : Int) - 1) = ps.map pos := by
  have : 0 < ps.length := List.length_pos_iff.2 h
  rw [places, between, List.take_of_length_le (by simp)]
  simp

/-- consecutive output vertices are the ends of a piece -/
theorem consecutive_chain {i j : Int} : ∀ (rs : List Rng) (a b : Int), Chain a b rs → Consecutive (a :: rs.map Rng.J) i j → ∃ r ∈ rs, r.I = i ∧ r.J = j
  | [], a, b, _, ⟨u, w, e⟩ => by
    have := congrArg List.length e
    simp at this
    omega
  | r :: rs, a, b, hc, ⟨u, w, e⟩ => by
    obtain ⟨c1, c2, c3⟩ := hc
    cases u with
    | nil =>
      simp only [List.map_cons, List.nil_append, List.cons.injEq] at e
      exact ⟨r, by simp, by rw [c1]; exact e.1, e.2.1⟩
    | cons x u =>
      simp only [List.map_cons, List.cons_append, List.cons.injEq] at e
      obtain ⟨r', h1, h2⟩ := consecutive_chain rs r.J b c3 ⟨u, w, e.2⟩
      exact ⟨r', by simp [h1], h2⟩

end

theorem within_mono {τ : ℝ} : ∀ a b c : Fl ℝ, within τ a b → b.le c = true → within τ a c := by
  intro a b c h1 h2
  cases a <;> cases b <;> cases c <;> simp_all [within, Fl.le]
  linarith

theorem within_zero {d x : Fl ℝ} (h : d.le x = true) : within 0 d x := by
  cases d <;> cases x <;> simp_all [within, Fl.le]

end Planar
end Verif
