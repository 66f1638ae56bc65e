import Verif.Props.C04_Decompose

/-! C08: `Simple` returns the kept vertex indices, strictly increasing, from the first to the last vertex. -/

namespace Verif

variable {P C B K : Type}

theorem mem_ssetAdd {s : List Int} {x y : Int} : y ∈ ssetAdd s x ↔ y = x ∨ y ∈ s := by
  unfold ssetAdd
  split
  · constructor
    · exact Or.inr
    · rintro (rfl | h) <;> assumption
  · simp [List.mem_orderedInsert]

theorem ssetAdd_pairwise {s : List Int} {x : Int} (h : s.Pairwise (· < ·)) : (ssetAdd s x).Pairwise (· < ·) := by
  unfold ssetAdd
  split
  · exact h
  · rename_i hx
    induction s with
    | nil => simp
    | cons a s ih =>
      simp only [List.mem_cons, not_or] at hx
      simp only [List.orderedInsert]
      rw [List.pairwise_cons] at h
      split
      · rename_i hxa
        refine List.pairwise_cons.2 ⟨?_, List.pairwise_cons.2 h⟩
        intro y hy
        rcases List.mem_cons.1 hy with rfl | hy
        · omega
        · have := h.1 y hy; omega
      · rename_i hxa
        refine List.pairwise_cons.2 ⟨?_, ih h.2 hx.2⟩
        intro y hy
        rw [List.mem_orderedInsert] at hy
        rcases hy with rfl | hy
        · omega
        · exact h.1 y hy

theorem simpleSet_foldl_mem (hulls : List (Node P C B)) : ∀ (s : List Int) (y : Int),
    y ∈ hulls.foldl (fun s h => ssetAdd (ssetAdd s h.range.I) h.range.J) s ↔
      y ∈ s ∨ ∃ nd ∈ hulls, y = nd.range.I ∨ y = nd.range.J := by
  induction hulls with
  | nil => simp
  | cons h hs ih =>
    intro s y
    rw [List.foldl_cons, ih]
    simp only [mem_ssetAdd, List.mem_cons, exists_eq_or_imp]
    grind

theorem mem_simpleSet (hulls : List (Node P C B)) (y : Int) :
    y ∈ simpleSet hulls ↔ ∃ nd ∈ hulls, y = nd.range.I ∨ y = nd.range.J := by
  unfold simpleSet
  rw [simpleSet_foldl_mem]; simp

theorem simpleSet_pairwise (hulls : List (Node P C B)) : (simpleSet hulls).Pairwise (· < ·) := by
  unfold simpleSet
  suffices h : ∀ s : List Int, s.Pairwise (· < ·) →
      (hulls.foldl (fun s h => ssetAdd (ssetAdd s h.range.I) h.range.J) s).Pairwise (· < ·) from h [] List.Pairwise.nil
  induction hulls with
  | nil => intro s h; exact h
  | cons h hs ih => intro s hs'; exact ih _ (ssetAdd_pairwise (ssetAdd_pairwise hs'))

/-- the boundary list of a chain is strictly increasing -/
theorem Chain.bounds_pairwise {a b : Int} {rs : List Rng} (h : Chain a b rs) : (a :: rs.map Rng.J).Pairwise (· < ·) := by
  induction rs generalizing a with
  | nil => simp
  | cons x rs ih =>
    obtain ⟨h1, h2, h3⟩ := h
    have := ih h3
    rw [List.map_cons]
    refine List.pairwise_cons.2 ⟨?_, this⟩
    intro y hy
    rcases List.mem_cons.1 hy with rfl | hy
    · omega
    · have := (List.pairwise_cons.1 this).1 y hy; omega

theorem Chain.mem_bounds {a b : Int} {rs : List Rng} (h : Chain a b rs) (hne : rs ≠ []) (y : Int) :
    y ∈ (a :: rs.map Rng.J) ↔ ∃ r ∈ rs, y = r.I ∨ y = r.J := by
  induction rs generalizing a with
  | nil => exact absurd rfl hne
  | cons x rs ih =>
    obtain ⟨h1, h2, h3⟩ := h
    by_cases hrs : rs = []
    · subst hrs; simp [h1]
    · have := ih h3 hrs
      simp only [List.map_cons, List.mem_cons, exists_eq_or_imp] at this ⊢
      rw [this, ← h1]
      grind

/-- two strictly increasing lists with the same members are equal -/
theorem pairwise_lt_ext {xs ys : List Int} (hx : xs.Pairwise (· < ·)) (hy : ys.Pairwise (· < ·)) (h : ∀ y, y ∈ xs ↔ y ∈ ys) :
    xs = ys := by
  have hp : xs.Perm ys := (List.perm_ext_iff_of_nodup (hx.imp (fun h => by omega)) (hy.imp (fun h => by omega))).2 h
  exact hp.eq_of_pairwise (fun a b _ _ h1 h2 => by omega) hx hy

/-- the sorted set of the ends of a chain of pieces is the list of its boundaries -/
theorem simpleSet_chain {a b : Int} {hulls : List (Node P C B)} (h : Chain a b (hulls.map Node.range)) (hne : hulls ≠ []) :
    simpleSet hulls = a :: hulls.map (fun nd => nd.range.J) := by
  refine pairwise_lt_ext (simpleSet_pairwise hulls) ?_ ?_
  · have := h.bounds_pairwise; rwa [List.map_map] at this
  · intro y
    have := h.mem_bounds (by simpa using hne) y
    rw [List.map_map] at this
    rw [mem_simpleSet]
    rw [show (fun nd : Node P C B => nd.range.J) = Rng.J ∘ Node.range from rfl, this]
    simp

theorem Chain.getLast {a b : Int} {rs : List Rng} (h : Chain a b rs) : (a :: rs.map Rng.J).getLast? = some b := by
  induction rs generalizing a with
  | nil => simp only [Chain] at h; simp [h]
  | cons x rs ih =>
    obtain ⟨h1, h2, h3⟩ := h
    rw [List.map_cons, List.getLast?_cons_cons]; exact ih h3

/-- C08.  `dp.Simplify(...).Simple()` on a polyline of `n >= 2` vertices, threshold accepting zero: it returns, the result is strictly
increasing, starts with 0, ends with `n-1`, and contains precisely the ends of the pieces of the decomposition. -/
theorem C08_simple [LinearOrder K] (lib : Lib P C B K) (ids : Nat → Int) (g : Nat) (pts : List P)
    (score : ScoreFn P K) (square : Option (ScoreFn P K)) (threshold sq : Fl K) (inst : Int) (hlen : 2 ≤ pts.length)
    (hhull : HullOk lib pts) (hs : SplitsInside (scoreOf score square) (relationOf threshold sq square) pts)
    (fuel : Nat) (hf : 2 * pts.length ≤ fuel) :
    ∃ out, dpSimplify lib ids g ⟨some (coordsOf pts)⟩ score square threshold sq inst fuel = .ok out ∧
      out.Pairwise (· < ·) ∧ out.head? = some 0 ∧ out.getLast? = some ((pts.length : Int) - 1) ∧
      ∃ hulls g', decompose lib ids g ⟨some (coordsOf pts)⟩ (scoreOf score square) (relationOf threshold sq square) inst fuel
          = .ok (hulls, g') ∧ ∀ y, y ∈ out ↔ ∃ nd ∈ hulls, y = nd.range.I ∨ y = nd.range.J := by
  obtain ⟨⟨hulls, g'⟩, hr⟩ := C05_decompose_terminates lib ids g pts _ _ inst hlen hhull hs fuel hf
  have hc := (C04_decompose_cover lib ids g pts _ _ inst fuel hlen hhull hs hulls g' hr).1
  have hne : hulls ≠ [] := by
    rintro rfl
    simp only [List.map_nil, Chain] at hc; omega
  refine ⟨simpleSet hulls, ?_, simpleSet_pairwise hulls, ?_, ?_, hulls, g', hr, mem_simpleSet hulls⟩
  · simp only [dpSimplify, hr, Res.ok_bind, Res.pure_eq]
  · rw [simpleSet_chain hc hne]; rfl
  · rw [simpleSet_chain hc hne]
    have := hc.getLast
    rwa [List.map_map] at this

/-- heights 0 3 1 7 0, threshold 2: vertices 0 1 3 4 are kept -/
example : dpSimplify demoLib (fun n => n) 0 ⟨some (coordsOf [0, 3, 1, 7, 0])⟩ (maxOffset fun _ _ p => .fin p)
    none (.fin 2) (.fin 4) 9 20 = .ok [0, 1, 3, 4] := by decide

end Verif
