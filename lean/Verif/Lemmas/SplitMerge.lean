import Verif.Lemmas.Cover
import Verif.Props.C01_RngSplit
import Verif.Props.C02_Contiguous

/-! Splitting and merging of pieces: packages `split` and `merge`. -/

set_option linter.unusedSectionVars false

namespace Verif

variable {P C B K : Type}

/-- no piece of a chain runs over an end of another -/
theorem Chain.end_not_inside {a b : Int} {rs : List Rng} (h : Chain a b rs) {v : Int} (hv : v ∈ rs.map Rng.J) {r : Rng} (hr : r ∈ rs) :
    ¬ (r.I < v ∧ v < r.J) := by
  induction rs generalizing a with
  | nil => cases hr
  | cons x rs ih =>
    obtain ⟨h1, h2, h3⟩ := h
    rw [List.map_cons] at hv
    rcases List.mem_cons.1 hv with rfl | hv'
    · rcases List.mem_cons.1 hr with rfl | hr
      · omega
      · have := h3.mem hr; omega
    · rcases List.mem_cons.1 hr with rfl | hr
      · obtain ⟨y, hy, rfl⟩ := List.mem_map.1 hv'
        have := h3.mem hy; omega
      · exact ih h3 hv' hr

/-- split/split.go:13-25: a piece is cut at the vertex named by the score -/
theorem atScoreSelection_spec {lib : Lib P C B K} {pts : List P} (hh : HullOk lib pts) {hull : Node P C B} {inst : Int} (hp : IsPiece lib pts inst hull)
    (h0 : 0 ≤ hull.range.I) (hJ : hull.range.J < pts.length) {score : ScoreFn P K} {k : Int} {v : Fl K}
    (hs : score (Coords.sub pts hull.range.I hull.range.J) = .ok (k, v)) (hk0 : 0 < k) (hk1 : k < hull.range.J - hull.range.I) (ids : Nat → Int) (g : Nat) :
    ∃ ha hb, atScoreSelection lib ids g score hull = .ok (ha, hb, g + 2) ∧ IsPiece lib pts inst ha ∧ IsPiece lib pts inst hb ∧
      ha.range = ⟨hull.range.I, hull.range.I + k⟩ ∧ hb.range = ⟨hull.range.I + k, hull.range.J⟩ ∧ ha.id = ids g ∧ hb.id = ids (g + 1) := by
  obtain ⟨ha, e1, p1, r1, i1⟩ := createNode_isPiece hh (i := hull.range.I) (j := hull.range.I + k) h0 (by omega) (by omega) (ids g) inst
  obtain ⟨hb, e2, p2, r2, i2⟩ := createNode_isPiece hh (i := hull.range.I + k) (j := hull.range.J) (by omega) (by omega) hJ (ids (g + 1)) inst
  refine ⟨ha, hb, ?_, p1, p2, r1, r2, i1, i2⟩
  have hl : (Coords.sub pts hull.range.I hull.range.J).len = hull.range.J + 1 - hull.range.I := Coords.len_sub _ _ _ (by omega)
  have s1 := Coords.slice_sub (pts := pts) (i := hull.range.I) (j := hull.range.J) (a := 0) (b := k + 1) (by omega) (by omega) (by omega)
  have s2 := Coords.slice_sub (pts := pts) (i := hull.range.I) (j := hull.range.J) (a := k) (b := hull.range.J + 1 - hull.range.I) (by omega) (by omega) (by omega)
  rw [show hull.range.I + 0 = hull.range.I by omega, show hull.range.I + (k + 1) - 1 = hull.range.I + k by omega] at s1
  rw [show hull.range.I + (hull.range.J + 1 - hull.range.I) - 1 = hull.range.J by omega] at s2
  simp only [atScoreSelection, hp.coords, hs, Res.ok_bind, hl, s1, s2, hp.inst, e1, e2, Res.pure_eq]

/-- split/split.go:34-36 -/
theorem atIndexLoop_spec {lib : Lib P C B K} {pts : List P} (hh : HullOk lib pts) {hull : Node P C B} {inst : Int} (hp : IsPiece lib pts inst hull)
    (h0 : 0 ≤ hull.range.I) (hJ : hull.range.J < pts.length) (ids : Nat → Int) : ∀ (rs : List Rng) (g : Nat),
    (∀ r ∈ rs, hull.range.I ≤ r.I ∧ r.I < r.J ∧ r.J ≤ hull.range.J) →
    ∃ ns, atIndexLoop lib ids hull rs g = .ok (ns, g + rs.length) ∧ ns.map Node.range = rs ∧ (∀ n ∈ ns, IsPiece lib pts inst n) ∧
      ns.map Node.id = (List.range rs.length).map (fun t => ids (g + t)) := by
  intro rs
  induction rs with
  | nil => intro g _; exact ⟨[], rfl, rfl, by simp, rfl⟩
  | cons r rs ih =>
    intro g hr
    obtain ⟨hr1, hr2, hr3⟩ := hr r (by simp)
    obtain ⟨n, e1, p1, r1, i1⟩ := createNode_isPiece hh (i := r.I) (j := r.J) (by omega) hr2 (by omega) (ids g) inst
    obtain ⟨ns, e2, m2, p2, i2⟩ := ih (g + 1) (fun r' h' => hr r' (List.mem_cons_of_mem _ h'))
    have s1 := Coords.slice_sub (pts := pts) (i := hull.range.I) (j := hull.range.J) (a := r.I - hull.range.I) (b := r.J - hull.range.I + 1)
      (by omega) (by omega) (by omega)
    rw [show hull.range.I + (r.I - hull.range.I) = r.I by omega, show hull.range.I + (r.J - hull.range.I + 1) - 1 = r.J by omega] at s1
    refine ⟨n :: ns, ?_, by simp [r1, m2], ?_, ?_⟩
    · simp only [atIndexLoop, hp.coords, s1, hp.inst, e1, e2, Res.ok_bind, Res.pure_eq, List.length_cons]
      rw [show g + 1 + rs.length = g + (rs.length + 1) by omega]
    · intro m hm
      rcases List.mem_cons.1 hm with rfl | hm
      · exact p1
      · exact p2 m hm
    · rw [List.map_cons, i1, i2, List.length_cons, List.range_succ_eq_map]
      simp only [List.map_cons, List.map_map, Nat.add_zero]
      congr 1
      apply List.map_congr_left
      intro t _
      simp only [Function.comp]
      congr 1; omega

/-- split/split.go:28-38: a piece is cut at the requested interior indices; nothing happens if there is none -/
theorem atIndex_spec {lib : Lib P C B K} {pts : List P} (hh : HullOk lib pts) {hull : Node P C B} {inst : Int} (hp : IsPiece lib pts inst hull)
    (h0 : 0 ≤ hull.range.I) (hJ : hull.range.J < pts.length) (ids : Nat → Int) (g : Nat) (idxs : List Int) :
    ((∀ v ∈ idxs, ¬ (hull.range.I < v ∧ v < hull.range.J)) ∧ atIndex lib ids g hull idxs = .ok ([], g)) ∨
    ((∃ v ∈ idxs, hull.range.I < v ∧ v < hull.range.J) ∧
      ∃ ns, atIndex lib ids g hull idxs = .ok (ns, g + ns.length) ∧ ns ≠ [] ∧ Chain hull.range.I hull.range.J (ns.map Node.range) ∧
      (∀ n ∈ ns, IsPiece lib pts inst n) ∧ (∀ n ∈ ns, ∃ k, g ≤ k ∧ k < g + ns.length ∧ n.id = ids k) ∧
      (Function.Injective ids → (ns.map Node.id).Nodup) ∧
      (∀ v ∈ idxs, ∀ n ∈ ns, ¬ (n.range.I < v ∧ v < n.range.J))) := by
  by_cases hv : ∃ v ∈ idxs, hull.range.I < v ∧ v < hull.range.J
  · right
    refine ⟨hv, ?_⟩
    obtain ⟨c1, c2⟩ := C01_split_cover hull.range idxs hv
    obtain ⟨ns, e, m, p, i⟩ := atIndexLoop_spec hh hp h0 hJ ids (hull.range.split idxs) g (fun r hr => c1.mem hr)
    have hlen : ns.length = (hull.range.split idxs).length := by rw [← m, List.length_map]
    refine ⟨ns, by rw [atIndex, e, hlen], ?_, m ▸ c1, p, ?_, ?_, ?_⟩
    · rintro rfl
      obtain ⟨v, hv, h1, h2⟩ := hv
      have := (c2 v (by omega)).2 ⟨hv, h1, h2⟩
      rw [← m] at this
      simp at this
    · intro n hn
      have : n.id ∈ ns.map Node.id := List.mem_map_of_mem hn
      rw [i] at this
      obtain ⟨t, ht, ht'⟩ := List.mem_map.1 this
      have := List.mem_range.1 ht
      exact ⟨g + t, by omega, by omega, ht'.symm⟩
    · intro hinj
      rw [i]
      exact List.Nodup.map (fun a b hab => by have := hinj hab; omega) List.nodup_range
    · intro v hv n hn hin
      have hb := c1.mem (m ▸ List.mem_map_of_mem hn)
      have := (c2 v (by omega)).2 ⟨hv, by omega, by omega⟩
      exact c1.end_not_inside this (m ▸ List.mem_map_of_mem hn) hin
  · left
    have hv' : ∀ v ∈ idxs, ¬ (hull.range.I < v ∧ v < hull.range.J) := fun v h1 h2 => hv ⟨v, h1, h2⟩
    exact ⟨hv', by simp [atIndex, C01_split_empty _ _ hv', atIndexLoop]⟩

end Verif
