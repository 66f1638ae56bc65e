import Verif.Lemmas.Merge

/-! What the search for conflicting pieces returns: nothing whose deformation is asked for is lost, except for equal index ranges. -/

set_option linter.unusedSectionVars false

namespace Verif

variable {P C B K : Type} [LinearOrder B] [BoundedOrder B] [LinearOrder K]
variable {env : Env P C B K} {pts : Int → List P} {hs : List Int}

theorem dictSet_self (d : List (Node P C B)) (nd : Node P C B) : nd ∈ dictSet d nd := by
  unfold dictSet
  split_ifs with h
  · obtain ⟨x, hx, hr⟩ := List.any_eq_true.1 h
    exact List.mem_map.2 ⟨x, hx, by simp only [of_decide_eq_true hr, if_true]⟩
  · simp

theorem dictSet_keep {d : List (Node P C B)} {nd x : Node P C B} (hx : x ∈ d) (h : nd.range = x.range → nd = x) : x ∈ dictSet d nd := by
  unfold dictSet
  split_ifs
  · refine List.mem_map.2 ⟨x, hx, ?_⟩
    split_ifs with hr
    · exact h hr.symm
    · rfl
  · exact List.mem_append_left _ hx

/-- Specification: the comparison of `hull` with the neighbour `n` asks for the deformation of `x` -/
def Wanted (env : Env P C B K) (d : Fl K) (hull n x : Node P C B) : Prop :=
  ∃ r s, fcContiguous env hull n = .ok r ∧ candidates env.lib d hull n r = .ok s ∧ (s.1 = some x ∨ s.2 = some x)

theorem selectFCLoop_complete {d : Fl K} {hull : Node P C B} : ∀ (ns dict out : List (Node P C B)), selectFCLoop env d hull ns dict = .ok out → ∀ x,
    (x ∈ dict ∨ ∃ n ∈ ns, Wanted env d hull n x) → (∀ n ∈ ns, ∀ y, Wanted env d hull n y → y.range = x.range → y = x) → x ∈ out := by
  intro ns
  induction ns with
  | nil =>
    intro dict out h x hx _
    cases h
    rcases hx with hx | ⟨n, hn, -⟩
    · exact hx
    · cases hn
  | cons n ns ih =>
    intro dict out h x hx hu
    simp only [selectFCLoop, Res.bind_eq_ok] at h
    obtain ⟨r, e1, s, e2, h⟩ := h
    have hwant : ∀ y, s.1 = some y ∨ s.2 = some y → Wanted env d hull n y := fun y hy => ⟨r, s, e1, e2, hy⟩
    refine ih _ out h x ?_ (fun m hm => hu m (List.mem_cons_of_mem _ hm))
    have keep : ∀ y, s.1 = some y ∨ s.2 = some y → y.range = x.range → y = x := fun y hy => hu n (by simp) y (hwant y hy)
    obtain ⟨s1, s2⟩ := s
    have hin : x ∈ dict ∨ s1 = some x ∨ s2 = some x → x ∈ dictAdd dict (s1, s2) := by
      intro hx
      unfold dictAdd
      have h1 : x ∈ dict ∨ s1 = some x → x ∈ (match s1 with | some sa => dictSet dict sa | none => dict) := by
        intro hx
        cases s1 with
        | none => rcases hx with hx | hx
                  · exact hx
                  · cases hx
        | some a => rcases hx with hx | hx
                    · exact dictSet_keep hx (keep a (.inl rfl))
                    · cases hx; exact dictSet_self _ _
      cases s2 with
      | none =>
        rcases hx with hx | hx | hx
        · exact h1 (.inl hx)
        · exact h1 (.inr hx)
        · cases hx
      | some b =>
        rcases hx with hx | hx | hx
        · exact dictSet_keep (h1 (.inl hx)) (keep b (.inr rfl))
        · exact dictSet_keep (h1 (.inr hx)) (keep b (.inr rfl))
        · cases hx; exact dictSet_self _ _
    rcases hx with hx | ⟨m, hm, hx⟩
    · exact .inl (hin (.inl hx))
    · rcases List.mem_cons.1 hm with rfl | hm
      · obtain ⟨r', s', e1', e2', hx⟩ := hx
        rw [e1] at e1'; cases e1'
        rw [e2] at e2'; cases e2'
        exact .inl (hin (.inr hx))
      · exact .inr ⟨m, hm, hx⟩

theorem dictSet_ne_nil (d : List (Node P C B)) (nd : Node P C B) : dictSet d nd ≠ [] := List.ne_nil_of_mem (dictSet_self d nd)

theorem dictAdd_nil {d : List (Node P C B)} {s : Option (Node P C B) × Option (Node P C B)} (h : dictAdd d s = []) : d = [] ∧ s = (none, none) := by
  obtain ⟨s1, s2⟩ := s
  unfold dictAdd at h
  cases s1 <;> cases s2 <;> simp only [] at h
  · exact ⟨h, rfl⟩
  · exact absurd h (dictSet_ne_nil _ _)
  · exact absurd h (dictSet_ne_nil _ _)
  · exact absurd h (dictSet_ne_nil _ _)

/-- deform/ln.go:11-50: an empty result means that no neighbour asks for a deformation -/
theorem selectLoop_nil {d : Fl K} {lib : Lib P C B K} {hull : Node P C B} : ∀ (ns dict : List (Node P C B)), selectLoop lib d hull ns dict = .ok [] →
    dict = [] ∧ ∀ n ∈ ns, ∃ r, Node.isContiguous lib hull n = .ok r ∧ candidates lib d hull n r = .ok (none, none) := by
  intro ns
  induction ns with
  | nil => intro dict h; cases h; exact ⟨rfl, by simp⟩
  | cons n ns ih =>
    intro dict h
    simp only [selectLoop, Res.bind_eq_ok] at h
    obtain ⟨r, e1, s, e2, h⟩ := h
    obtain ⟨h1, h2⟩ := ih _ h
    obtain ⟨h3, h4⟩ := dictAdd_nil h1
    refine ⟨h3, fun m hm => ?_⟩
    rcases List.mem_cons.1 hm with rfl | hm
    · exact ⟨r, e1, h4 ▸ e2⟩
    · exact h2 m hm

end Verif
