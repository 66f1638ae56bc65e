import Verif.Demo.Exact

/-! Exact geometry for any representation of places: points of a type `P` with a place each, and a point for every place. -/

set_option linter.unusedSectionVars false

namespace Verif
namespace Planar

variable {P : Type} {pos : P → ℂ} {sec : ℂ → P}

open Classical in
/-- the library that computes with the places -/
noncomputable def repLib (pos : P → ℂ) (sec : ℂ → P) : Lib P Region EReal ℝ where
  convexHull c := coordsOf ((corners (c.points.map pos)).map sec)
  bounds g := leastBox (shape pos (fun r : Region => r.1) g)
  intersects a b := decide (shape pos (fun r : Region => r.1) a ∩ shape pos (fun r : Region => r.1) b).Nonempty
  intersection a b := if h : (shape pos (fun r : Region => r.1) a ∩ shape pos (fun r : Region => r.1) b).Finite then h.toFinset.toList.map sec else []
  distance a b := .fin (gap (shape pos (fun r : Region => r.1) a) (shape pos (fun r : Region => r.1) b))
  boxDistance a b := .fin (gap (shape pos (fun r : Region => r.1) a) (boxSet b))
  ptInRing c p := decide (pos p ∈ hullSet (c.points.map pos))
  equals2D a b := decide (pos a = pos b)
  ptDistance a b := .fin (dist (pos a) (pos b))

open Classical in
theorem repLib_exact (hs : ∀ z, pos (sec z) = z) : Exact pos (fun r : Region => r.1) (repLib pos sec) where
  nonempty g := g.2
  intersects a b := by simp [repLib]
  distance a b _ _ := rfl
  boxDistance a b _ _ := rfl
  bounds a _ b := leastBox_le
  hullIndexed c _ := coordsOf_wellIndexed _
  hullCorners c _ := by
    have : pos ∘ sec = id := funext hs
    ext z
    simp only [repLib, coordsOf_points, List.map_map, this, List.map_id, Set.mem_ofPred_eq]
    exact mem_corners
  hullOnce c _ := by
    have : pos ∘ sec = id := funext hs
    simp only [repLib, coordsOf_points, List.map_map, this, List.map_id, corners]
    exact List.nodup_dedup _
  equals2D p q := by simp [repLib]

theorem repLib_point (p : P) (g : Geo P Region) : ((repLib pos sec).intersection (.point p) g).length ≤ 1 ∧ ((repLib pos sec).intersection g (.point p)).length ≤ 1 := by
  have key : ∀ s : Set ℂ, s.Subsingleton → ∀ h : s.Finite, (h.toFinset.toList.map sec).length ≤ 1 := by
    intro s hs h
    rw [List.length_map, Finset.length_toList, Finset.card_le_one]
    intro a ha b hb
    exact hs (h.mem_toFinset.1 ha) (h.mem_toFinset.1 hb)
  have hp : (shape pos (fun r : Region => r.1) (.point p) : Set ℂ).Subsingleton := Set.subsingleton_singleton
  constructor
  · simp only [repLib]
    split_ifs
    · exact key _ (hp.anti Set.inter_subset_left) _
    all_goals simp
  · simp only [repLib]
    split_ifs
    · exact key _ (hp.anti Set.inter_subset_right) _
    all_goals simp

open Classical in
/-- linear referencing that computes with the places -/
noncomputable def repLnr (pos : P → ℂ) (sec : ℂ → P) : LnrLib P EReal where
  sortV l := l.insertionSort (fun a b => LexLe (pos a.pt) (pos b.pt))
  segBox a b := leastBox (segment ℝ (pos a) (pos b))
  segSeg a b c d := (exactLnr.segSeg (pos a) (pos b) (pos c) (pos d)).map (fun x => (sec x.1, x.2))
  segSearch := exactLnr.segSearch

open Classical in
theorem repLnr_exact (hs : ∀ z, pos (sec z) = z) : ExactLnr pos (repLnr pos sec) where
  perm l := List.perm_insertionSort _ l
  sorted l := by
    have : Std.Total (fun a b : Vtx P => LexLe (pos a.pt) (pos b.pt)) := ⟨fun a b => lexLe_total (pos a.pt) (pos b.pt)⟩
    have : IsTrans (Vtx P) (fun a b : Vtx P => LexLe (pos a.pt) (pos b.pt)) := ⟨fun a b c => lexLe_trans⟩
    exact List.pairwise_insertionSort (fun a b : Vtx P => LexLe (pos a.pt) (pos b.pt)) l
  segBox a b x := leastBox_le
  segSeg a b c d := by
    have := exactLnr_exact.segSeg (pos a) (pos b) (pos c) (pos d)
    rw [id, id, id, id] at this
    rw [← this]
    ext z
    simp only [repLnr, List.mem_map, Set.mem_ofPred_eq, id]
    constructor
    · rintro ⟨x, ⟨y, hy, rfl⟩, hz⟩
      exact ⟨y, hy, by rw [← hz, hs]⟩
    · rintro ⟨y, hy, hz⟩
      exact ⟨_, ⟨y, hy, rfl⟩, by rw [hs, hz]⟩
  flag a b c d x hx := by
    obtain ⟨y, hy, rfl⟩ := List.mem_map.1 hx
    simp only [hs]
    exact exactLnr_exact.flag _ _ _ _ y hy
  search := exactLnr_exact.search

theorem repLnr_ok (hs : ∀ z, pos (sec z) = z) : LnrOK (repLnr pos sec) :=
  ⟨(repLnr_exact hs).perm, fun _ _ _ ho => List.mem_range.1 (List.mem_filter.1 ho).1⟩

end Planar
end Verif
