import Verif.Lemmas.PlanarLine
import Mathlib.LinearAlgebra.AffineSpace.FiniteDimensional

/-! What the checks say about the pieces of a result, in terms of sets of points. -/

set_option linter.unusedSectionVars false

namespace Verif
namespace Planar

section
variable {C : Type} {region : C → Set ℂ} {cs : List C}

theorem lineSet_clear (l : List ℂ) : lineSet l ⊆ clear region cs l := fun _ hz _ _ hd hg => Set.disjoint_left.1 hd hz hg

theorem clear_mono {l m : List ℂ} (h : lineSet l ⊆ lineSet m) : clear region cs l ⊆ clear region cs m :=
  fun _ hz g hg hd => hz g hg (hd.mono_left h)

theorem lineSet_clearUp {inner outer : C → Set ℂ} (hs : ∀ g, inner g ⊆ outer g) (l : List ℂ) : lineSet l ⊆ clearUp inner outer cs l :=
  fun _ hz g _ hd hg => Set.disjoint_left.1 hd hz (hs g hg)

theorem clearUp_mono {inner outer : C → Set ℂ} {l m : List ℂ} (h : lineSet l ⊆ lineSet m) : clearUp inner outer cs l ⊆ clearUp inner outer cs m :=
  fun _ hz g hg hd => hz g hg (hd.mono_left h)

theorem disjoint_iff_not {s t : Set ℂ} : Disjoint s t ↔ ¬ (s ∩ t).Nonempty := by
  rw [Set.disjoint_iff_inter_eq_empty, Set.not_nonempty_iff_eq_empty]

theorem collinear_of_segment {l : List ℂ} {a b : ℂ} (hs : hullSet l = segment ℝ a b) : Collinear ℝ {z | z ∈ l} := by
  rw [collinear_iff_exists_forall_eq_smul_vadd]
  refine ⟨a, b - a, fun p hp => ?_⟩
  have : p ∈ segment ℝ a b := hs ▸ subset_convexHull ℝ {z | z ∈ l} hp
  rw [segment_eq_image_lineMap] at this
  obtain ⟨t, -, rfl⟩ := this
  exact ⟨t, by simp [AffineMap.lineMap_apply]⟩

theorem Collapse.weaken {α : Type} {f f' : α → α → α → Prop} (hf : ∀ a b c, f a b c → f' a b c) {l m : List α} (h : Collapse f l m) : Collapse f' l m := by
  have := h.map (free'' := f') id hf
  simpa using this

end

section
variable {P C : Type} {pos : P → ℂ} {region : C → Set ℂ} {env : Env P C EReal ℝ} {pts : Int → List P} {h : Int} {cs : List C} {τ m : ℝ}

/-- exact geometry, a queue with tolerance `τ`, a minimum distance `m` and the constraints `cs` of line `h` -/
structure Setting (pos : P → ℂ) (region : C → Set ℂ) (env : Env P C EReal ℝ) (h : Int) (cs : List C) (τ m : ℝ) : Prop where
  exact : Exact pos region env.lib
  heap : env.heap.Legal (within τ)
  tol : 0 ≤ τ ∧ τ ≤ m
  minDist : (env.inst h).opts.minDist = .fin m
  indexed : Constraints env h cs

theorem Setting.ctxSound (hs : Setting pos region env h cs τ m) : CtxSound env (within τ) pts h := by
  refine hs.exact.ctxSound hs.heap within_mono (fun d x h1 h2 => ?_) ?_ hs.indexed
  · rw [hs.minDist] at h2
    have := hs.tol
    cases d <;> cases x <;> simp_all [within, Fl.le]
    linarith
  · rw [hs.minDist, Fl.fin_le_fin, decide_eq_true_eq]
    linarith [hs.tol.1, hs.tol.2]

/-- the requested relations of chord and sub-line, for sets of points -/
structure Respected (region : C → Set ℂ) (cs : List C) (o : Opts ℝ) (τ m : ℝ) (l : List ℂ) : Prop where
  geom : o.geomRelation = true → ∀ g ∈ cs, (chordSet l ∩ region g).Nonempty ↔ (lineSet l ∩ region g).Nonempty
  dist : o.distRelation = true → ∀ g ∈ cs, m - τ ≤ gap (chordSet l) (region g) ∨ gap (lineSet l) (region g) < m
  side : o.dirRelation = true → (∀ g ∈ cs, (chordSet l ∩ region g).Nonempty ↔ (lineSet l ∩ region g).Nonempty) ∧
    ∀ x y, l.head? = some x → l.getLast? = some y → Collapse (fun a b c => hullSet [a, b, c] ⊆ clear region cs l) l [x, y]

theorem Setting.piece (hs : Setting pos region env h cs τ m) (hi : InstOK env h (pts h)) {nd : Node P C EReal} (hk : Known env pts [h] nd)
    (hn : Settled env nd) : nd.range.J = nd.range.I + 1 ∨
    (∃ a ∈ places pos (pts h) nd.range.I nd.range.J, ∃ b ∈ places pos (pts h) nd.range.I nd.range.J,
      hullSet (places pos (pts h) nd.range.I nd.range.J) = segment ℝ a b) ∨
    Respected region cs (env.inst h).opts τ m (places pos (pts h) nd.range.I nd.range.J) := by
  have hins : nd.inst = h := by simpa using hk.inst
  have hpc := hk.piece
  have hhi := hk.hi
  rw [hins] at hpc hhi
  have hp := points_sub (pts h) hk.lo hk.lt.le hhi
  obtain ⟨-, k2, k3, k4, -⟩ := hs.exact.known hk
  refine (hn.respects hi hs.ctxSound hk).imp_right (fun hn => ?_)
  rcases hn with hn | hn
  · left
    have hw := wellIndexed_sub (pts := pts h) hk.lo hhi
    rw [hpc.coords] at hn
    obtain ⟨a, ha, b, hb, e⟩ := hs.exact.two_corners hw hn
    rw [hp] at ha hb e
    exact ⟨a, ha, b, hb, e⟩
  · right
    have hgm : ∀ g ∈ cs, Geo.ctx g ∈ (Hdb.contents (env.inst h).ctxdb).map Node.geom :=
      fun g hg => (hs.indexed.geoms.mem_iff).2 (List.mem_map_of_mem hg)
    have hsame : (∀ g ∈ (Hdb.contents (env.inst h).ctxdb).map Node.geom, env.lib.intersects (.seg nd.coords) g = env.lib.intersects (.line nd.coords) g) →
        ∀ g ∈ cs, (chordSet (places pos (pts h) nd.range.I nd.range.J) ∩ region g).Nonempty ↔
          (lineSet (places pos (pts h) nd.range.I nd.range.J) ∩ region g).Nonempty := by
      intro hx g hg
      have h1 := hs.exact.intersects (.seg nd.coords) (.ctx g)
      have h2 := hs.exact.intersects (.line nd.coords) (.ctx g)
      rw [hx _ (hgm g hg)] at h1
      rw [k3] at h1
      rw [k2] at h2
      exact h1.symm.trans h2
    refine ⟨fun hg => hsame (hn.geom hg), fun hd g hg => ?_, fun hd => ?_⟩
    · have hd := hn.dist hd _ (hgm g hg)
      have hne := hs.exact.nonempty g
      rw [hs.minDist, hs.exact.distance (.seg nd.coords) (.ctx g) (by rw [k3]; exact chordSet_nonempty k4) hne,
        hs.exact.distance (.line nd.coords) (.ctx g) (by rw [k2]; exact lineSet_nonempty k4) hne, k2, k3] at hd
      simp only [shape] at hd
      rcases hd with hd | hd | ⟨d, hd, hd'⟩
      · rw [Fl.fin_le_fin, decide_eq_true_eq] at hd
        left; linarith [hs.tol.1]
      · right
        simpa [Fl.lt] using hd
      · left
        cases d <;> simp_all [within, Fl.le]
        linarith
    · obtain ⟨h1, h2⟩ := hn.side hd
      have h1' := hsame h1
      refine ⟨h1', fun x y hx hy => ?_⟩
      rw [places, List.head?_map] at hx
      rw [places, List.getLast?_map] at hy
      obtain ⟨p, hp1, rfl⟩ := Option.map_eq_some_iff.1 hx
      obtain ⟨q, hq1, rfl⟩ := Option.map_eq_some_iff.1 hy
      refine (h2 p q hp1 hq1).map pos (fun a b c hf => ?_)
      intro z hz g hg hdis hzg
      have hl : env.lib.intersects (.line nd.coords) (.ctx g) = false := by
        rw [Bool.eq_false_iff, ne_eq, hs.exact.intersects, k2]
        exact disjoint_iff_not.1 hdis
      have := hf _ (hgm g hg) (by rw [h1 _ (hgm g hg)]; exact hl) hl
      rw [Bool.eq_false_iff, ne_eq, hs.exact.intersects, triangle_shape] at this
      exact this ⟨z, hz, hzg⟩

/-- what is used of the checks below: every settled piece is a single segment, or has its vertices on one segment, or respects the constraints -/
structure Judged (pos : P → ℂ) (region : C → Set ℂ) (env : Env P C EReal ℝ) (pts : Int → List P) (h : Int) (cs : List C) (τ m : ℝ) : Prop where
  nonempty : ∀ g, (region g).Nonempty
  tol : 0 ≤ τ
  piece : ∀ nd, Known env pts [h] nd → Settled env nd → nd.range.J = nd.range.I + 1 ∨
    (∃ a ∈ places pos (pts h) nd.range.I nd.range.J, ∃ b ∈ places pos (pts h) nd.range.I nd.range.J,
      hullSet (places pos (pts h) nd.range.I nd.range.J) = segment ℝ a b) ∨
    Respected region cs (env.inst h).opts τ m (places pos (pts h) nd.range.I nd.range.J)

/-- as `Respected`, where of each constraint an inner and an outer part are known: what meets the inner part is seen, what does not meet the outer part is not -/
structure RespectedUp (inner outer region : C → Set ℂ) (cs : List C) (o : Opts ℝ) (τ m : ℝ) (l : List ℂ) : Prop where
  geom : o.geomRelation = true → ∀ g ∈ cs, (chordSet l ∩ inner g).Nonempty → (lineSet l ∩ outer g).Nonempty
  dist : o.distRelation = true → ∀ g ∈ cs, m - τ ≤ gap (chordSet l) (region g) ∨ gap (lineSet l) (region g) < m
  side : o.dirRelation = true → ∀ x y, l.head? = some x → l.getLast? = some y → Collapse (fun a b c => hullSet [a, b, c] ⊆ clearUp inner outer cs l) l [x, y]

/-- The hull of the vertices stays within `s` of the line, for an `s` up to `τ` that the constraints leave between their inner and outer parts.  (With `s = 0`: the line
covers its hull.) -/
def Flat (inner outer : C → Set ℂ) (cs : List C) (τ : ℝ) (l : List ℂ) : Prop :=
  ∃ s ≤ τ, (∀ z ∈ hullSet l, ∃ w ∈ lineSet l, dist z w ≤ s) ∧ ∀ g ∈ cs, ∀ z ∈ inner g, ∀ w, dist z w ≤ s → w ∈ outer g

theorem Flat.of_segment {inner outer : C → Set ℂ} (hs : ∀ g, inner g ⊆ outer g) (hτ : 0 ≤ τ) {l : List ℂ} {a b : ℂ} (ha : a ∈ l) (hb : b ∈ l)
    (h : hullSet l = segment ℝ a b) : Flat inner outer cs τ l :=
  ⟨0, hτ, fun z hz => ⟨z, hullSet_subset_lineSet ha hb h hz, by simp⟩, fun g _ z hz w hd => by
    rw [← dist_le_zero.1 hd]; exact hs g hz⟩

theorem Flat.clear {inner outer : C → Set ℂ} {l : List ℂ} (h : Flat inner outer cs τ l) : hullSet l ⊆ clearUp inner outer cs l := by
  obtain ⟨s, -, h1, h2⟩ := h
  intro z hz g hg hd hzg
  obtain ⟨w, hw, hdw⟩ := h1 z hz
  exact Set.disjoint_left.1 hd hw (h2 g hg z hzg w hdw)

structure JudgedUp (pos : P → ℂ) (inner outer region : C → Set ℂ) (env : Env P C EReal ℝ) (pts : Int → List P) (h : Int) (cs : List C) (τ m : ℝ) : Prop where
  nonempty : ∀ g, (region g).Nonempty
  sub : ∀ g, inner g ⊆ outer g
  tol : 0 ≤ τ
  piece : ∀ nd, Known env pts [h] nd → Settled env nd → nd.range.J = nd.range.I + 1 ∨
    Flat inner outer cs τ (places pos (pts h) nd.range.I nd.range.J) ∨
    RespectedUp inner outer region cs (env.inst h).opts τ m (places pos (pts h) nd.range.I nd.range.J)

theorem Judged.up (hs : Judged pos region env pts h cs τ m) : JudgedUp pos region region region env pts h cs τ m :=
  ⟨hs.nonempty, fun _ _ h => h, hs.tol, fun nd hk hn => (hs.piece nd hk hn).imp_right (Or.imp
    (fun ⟨_, ha, _, hb, e⟩ => Flat.of_segment (fun _ _ h => h) hs.tol ha hb e)
    (fun hr => ⟨fun ho g hg => (hr.geom ho g hg).1, hr.dist, fun ho => (hr.side ho).2⟩))⟩

theorem Setting.judged (hs : Setting pos region env h cs τ m) (hi : InstOK env h (pts h)) : Judged pos region env pts h cs τ m :=
  ⟨hs.exact.nonempty, hs.tol.1, fun _ hk hn => hs.piece hi hk hn⟩

end

section
variable {P : Type} {pos : P → ℂ} {ps : List P}

/-- the points of the output line lie on chords of pieces -/
theorem mem_chain_line {z : ℂ} : ∀ (rs : List Rng) (a b : Int), 0 ≤ a → b < ps.length → Chain a b rs → rs ≠ [] →
    z ∈ lineSet (placesAt pos ps (a :: rs.map Rng.J)) → ∃ r ∈ rs, z ∈ chordSet (places pos ps r.I r.J)
  | [], _, _, _, _, _, hne, _ => absurd rfl hne
  | r :: rs, a, b, h0, h1, hc, _, hz => by
    obtain ⟨c1, c2, c3⟩ := hc
    have hle := c3.le
    have c2' : r.I < r.J := by omega
    obtain ⟨x, y, e1, e2, e3, e4⟩ := places_ends (pos := pos) (ps := ps) (i := r.I) (j := r.J) (by omega) c2' (by omega)
    rw [placesAt_cons] at e1
    have e5 : placesAt pos ps [r.I] = [x] ∧ placesAt pos ps [r.J] = [y] := by
      have hi : r.I.toNat < ps.length := by omega
      have hj : r.J.toNat < ps.length := by omega
      simp only [placesAt, List.filterMap_cons, List.filterMap_nil, List.getElem?_eq_getElem hi, List.getElem?_eq_getElem hj, Option.map_some,
        List.cons_append, List.nil_append, List.cons.injEq, and_true] at e1 ⊢
      exact e1
    rw [List.map_cons, placesAt_cons, placesAt_cons (i := r.J), ← c1, e5.1, e5.2] at hz
    rcases hz with hz | hz
    · exact ⟨r, by simp, x, y, e2, e3, hz⟩
    · rcases eq_or_ne rs [] with rfl | hne
      · simp only [List.map_nil, placesAt, List.filterMap_nil] at hz
        have hzy : z = y := hz
        exact ⟨r, by simp, x, y, e2, e3, hzy ▸ right_mem_segment ℝ x y⟩
      · rw [List.append_eq, List.nil_append, ← List.singleton_append, ← e5.2, ← placesAt_cons] at hz
        obtain ⟨r', h1', h2'⟩ := mem_chain_line rs r.J b (by omega) h1 c3 hne hz
        exact ⟨r', by simp [h1'], h2'⟩

end

section
variable {P C : Type} {pos : P → ℂ} {region : C → Set ℂ} {env : Env P C EReal ℝ} {pts : Int → List P} {h : Int} {cs : List C} {τ m : ℝ}
  {src : Int → Prop} {ids : Nat → Int} {g : Nat} {hulls : List (Node P C EReal)}

/-- the ranges of the pieces in order, and the kept indices -/
theorem pieces_chain (hi : InstOK env h (pts h)) (hp : Pieces env pts [h] src ids g hulls) : ∃ rs : List Rng, Chain 0 ((pts h).length - 1) rs ∧ rs ≠ [] ∧
    simpleSet hulls = 0 :: rs.map Rng.J ∧ ∀ r ∈ rs, ∃ nd ∈ hulls, nd.range = r := by
  have hc := sortNodes_chain hp
  have h2 := hi.two
  have hne : sortNodes hulls ≠ [] := by
    intro hn
    rw [hn] at hc
    have : (0 : Int) = (pts h).length - 1 := hc
    omega
  refine ⟨(sortNodes hulls).map Node.range, hc, by simpa using hne, ?_, fun r hr => ?_⟩
  · have hs : simpleSet hulls = simpleSet (sortNodes hulls) := by
      refine pairwise_lt_ext (simpleSet_pairwise _) (simpleSet_pairwise _) (fun y => ?_)
      rw [mem_simpleSet, mem_simpleSet]
      simp only [(mem_sortNodes (l := hulls)).mem_iff]
    rw [hs, simpleSet_chain hc hne, List.map_map]
    rfl
  · obtain ⟨nd, h1, h2⟩ := List.mem_map.1 hr
    exact ⟨nd, (mem_sortNodes.mem_iff).1 h1, h2⟩

theorem chordSet_single {ps : List P} {i : Int} (h0 : 0 ≤ i) (h1 : i + 1 < ps.length) : chordSet (places pos ps i (i + 1)) = lineSet (places pos ps i (i + 1)) := by
  obtain ⟨x, y, -, e2, e3, e4⟩ := places_ends (pos := pos) (ps := ps) h0 (by omega : i < i + 1) h1
  have hlen : (places pos ps i (i + 1)).length = 2 := by
    rw [places, List.length_map, between, List.length_take, List.length_drop]; omega
  obtain ⟨a, b, e⟩ := List.length_eq_two.1 hlen
  rw [e, chordSet_pair]
  simp [lineSet, Set.union_eq_self_of_subset_right, right_mem_segment]

/-- the whole line: deformation -/
theorem JudgedUp.deforms {inner outer : C → Set ℂ} (hs : JudgedUp pos inner outer region env pts h cs τ m) (hi : InstOK env h (pts h)) (hp : Pieces env pts [h] src ids g hulls)
    (hn : ∀ x ∈ hulls, Settled env x) (hd : (env.inst h).opts.dirRelation = true) :
    Deforms (clearUp inner outer cs ((pts h).map pos)) (curve ((pts h).map pos)) (curve (placesAt pos (pts h) (simpleSet hulls))) ∧
    lineSet (placesAt pos (pts h) (simpleSet hulls)) ⊆ clearUp inner outer cs ((pts h).map pos) := by
  obtain ⟨rs, hc, hne, e, hr⟩ := pieces_chain hi hp
  have hnil : pts h ≠ [] := by
    intro hn
    have := hi.two
    rw [hn] at this
    simp at this
  rw [e]
  refine deforms_collapse ?_ (lineSet_clearUp hs.sub _) (by simpa using hnil)
  rw [← places_all hnil]
  refine collapse_chain rs 0 _ le_rfl (by omega) hc (fun r hrm => ?_)
  obtain ⟨nd, hnd, rfl⟩ := hr r hrm
  have hk := hp.known hnd
  have hins : nd.inst = h := by simpa using hk.inst
  have hhi := hk.hi
  rw [hins] at hhi
  obtain ⟨x, y, e1, e2, e3, e4⟩ := places_ends (pos := pos) (ps := pts h) hk.lo hk.lt hhi
  have hsub := places_subset (pos := pos) (ps := pts h) hk.lo hk.lt.le
  rw [places_all hnil, e1]
  rcases hs.piece nd hk (hn nd hnd) with h1 | h1 | h1
  · have hlen : (places pos (pts h) nd.range.I nd.range.J).length = 2 := by
      rw [places, List.length_map, between, List.length_take, List.length_drop]; have := hk.lo; omega
    obtain ⟨p, q, e5⟩ := List.length_eq_two.1 hlen
    rw [e5] at e2 e3 ⊢
    simp only [List.head?_cons, Option.some.injEq, List.getLast?_cons_cons, List.getLast?_singleton] at e2 e3
    subst e2 e3
    exact .refl _
  · exact Collapse.all_of_ends e4 e2 e3 (fun p hp q hq r hr => (hullSet_mono (fun w hw => by
      simp only [List.mem_cons, List.not_mem_nil, or_false] at hw
      rcases hw with rfl | rfl | rfl <;> assumption)).trans (h1.clear.trans (clearUp_mono hsub)))
  · exact Collapse.weaken (fun a b c hf => hf.trans (clearUp_mono hsub)) (h1.side hd x y e2 e3)

/-- the whole line: regions met -/
theorem JudgedUp.meets {inner outer : C → Set ℂ} (hs : JudgedUp pos inner outer region env pts h cs τ m) (hi : InstOK env h (pts h)) (hp : Pieces env pts [h] src ids g hulls)
    (hn : ∀ x ∈ hulls, Settled env x) (hd : (env.inst h).opts.geomRelation = true) {g : C} (hg : g ∈ cs)
    (hm : (lineSet (placesAt pos (pts h) (simpleSet hulls)) ∩ inner g).Nonempty) : (lineSet ((pts h).map pos) ∩ outer g).Nonempty := by
  obtain ⟨rs, hc, hne, e, hr⟩ := pieces_chain hi hp
  obtain ⟨z, hz, hzg⟩ := hm
  rw [e] at hz
  obtain ⟨r, hrm, hz⟩ := mem_chain_line rs 0 _ le_rfl (by omega) hc hne hz
  obtain ⟨nd, hnd, rfl⟩ := hr r hrm
  have hk := hp.known hnd
  have hins : nd.inst = h := by simpa using hk.inst
  have hhi := hk.hi
  rw [hins] at hhi
  have hsub := places_subset (pos := pos) (ps := pts h) hk.lo hk.lt.le
  rcases hs.piece nd hk (hn nd hnd) with h1 | h1 | h1
  · rw [h1] at hz hhi hsub
    rw [chordSet_single hk.lo hhi] at hz
    exact ⟨z, hsub hz, hs.sub _ hzg⟩
  · by_contra hno
    exact h1.clear (chordSet_subset_hullSet _ hz) g hg (disjoint_iff_not.2 (fun hm => hno (hm.mono (Set.inter_subset_inter_left _ hsub)))) hzg
  · exact (h1.geom hd g hg ⟨z, hz, hzg⟩).mono (Set.inter_subset_inter_left _ hsub)

/-- the whole line: distances -/
theorem JudgedUp.gaps {inner outer : C → Set ℂ} (hs : JudgedUp pos inner outer region env pts h cs τ m) (hi : InstOK env h (pts h)) (hp : Pieces env pts [h] src ids g hulls)
    (hn : ∀ x ∈ hulls, Settled env x) (hd : (env.inst h).opts.distRelation = true) {g : C} (hg : g ∈ cs)
    (hm : m ≤ gap (lineSet ((pts h).map pos)) (region g)) : m - τ ≤ gap (lineSet (placesAt pos (pts h) (simpleSet hulls))) (region g) := by
  obtain ⟨rs, hc, hne, e, hr⟩ := pieces_chain hi hp
  have hreg := hs.nonempty g
  rw [e]
  have hout : (lineSet (placesAt pos (pts h) (0 :: rs.map Rng.J))).Nonempty := by
    have h2 := hi.two
    have : (0 : Int).toNat < (pts h).length := by simp; omega
    refine lineSet_nonempty ?_
    rw [placesAt_cons]
    simp [placesAt, show (pts h)[0]? = some (pts h)[0] from List.getElem?_eq_getElem (by omega)]
  obtain ⟨w, hw⟩ := hout
  obtain ⟨w', hw'⟩ := hreg
  refine le_csInf ⟨_, w, hw, w', hw', rfl⟩ ?_
  rintro d ⟨z, hz, v, hv, rfl⟩
  obtain ⟨r, hrm, hz⟩ := mem_chain_line rs 0 _ le_rfl (by omega) hc hne hz
  obtain ⟨nd, hnd, rfl⟩ := hr r hrm
  have hk := hp.known hnd
  have hins : nd.inst = h := by simpa using hk.inst
  have hhi := hk.hi
  rw [hins] at hhi
  have hsub := places_subset (pos := pos) (ps := pts h) hk.lo hk.lt.le
  have htol := hs.tol
  rcases hs.piece nd hk (hn nd hnd) with h1 | h1 | h1
  · rw [h1] at hz hhi hsub
    rw [chordSet_single hk.lo hhi] at hz
    linarith [gap_le (hsub hz) hv]
  · obtain ⟨s, hs1, hs2, -⟩ := h1
    obtain ⟨u, hu, hzu⟩ := hs2 z (chordSet_subset_hullSet _ hz)
    linarith [gap_le (hsub hu) hv, dist_triangle_left u v z]
  · have k4 : places pos (pts h) nd.range.I nd.range.J ≠ [] := by simpa [places] using between_ne_nil hk.lo hk.lt.le hhi
    rcases h1.dist hd g hg with h2 | h2
    · linarith [gap_le hz hv]
    · have := gap_mono (t := region g) hsub (fun _ h => h) (lineSet_nonempty k4) ⟨w', hw'⟩
      linarith

/-- the same with regions seen exactly -/
theorem Judged.deforms (hs : Judged pos region env pts h cs τ m) (hi : InstOK env h (pts h)) (hp : Pieces env pts [h] src ids g hulls)
    (hn : ∀ x ∈ hulls, Settled env x) (hd : (env.inst h).opts.dirRelation = true) :
    Deforms (clear region cs ((pts h).map pos)) (curve ((pts h).map pos)) (curve (placesAt pos (pts h) (simpleSet hulls))) ∧
    lineSet (placesAt pos (pts h) (simpleSet hulls)) ⊆ clear region cs ((pts h).map pos) :=
  hs.up.deforms hi hp hn hd

theorem Judged.meets (hs : Judged pos region env pts h cs τ m) (hi : InstOK env h (pts h)) (hp : Pieces env pts [h] src ids g hulls)
    (hn : ∀ x ∈ hulls, Settled env x) (hd : (env.inst h).opts.geomRelation = true) {g : C} (hg : g ∈ cs)
    (hm : (lineSet (placesAt pos (pts h) (simpleSet hulls)) ∩ region g).Nonempty) : (lineSet ((pts h).map pos) ∩ region g).Nonempty :=
  hs.up.meets hi hp hn hd hg hm

theorem Judged.gaps (hs : Judged pos region env pts h cs τ m) (hi : InstOK env h (pts h)) (hp : Pieces env pts [h] src ids g hulls)
    (hn : ∀ x ∈ hulls, Settled env x) (hd : (env.inst h).opts.distRelation = true) {g : C} (hg : g ∈ cs)
    (hm : m ≤ gap (lineSet ((pts h).map pos)) (region g)) : m - τ ≤ gap (lineSet (placesAt pos (pts h) (simpleSet hulls))) (region g) :=
  hs.up.gaps hi hp hn hd hg hm

/-- the same with exact geometry -/
theorem Setting.deforms (hs : Setting pos region env h cs τ m) (hi : InstOK env h (pts h)) (hp : Pieces env pts [h] src ids g hulls)
    (hn : ∀ x ∈ hulls, Settled env x) (hd : (env.inst h).opts.dirRelation = true) :
    Deforms (clear region cs ((pts h).map pos)) (curve ((pts h).map pos)) (curve (placesAt pos (pts h) (simpleSet hulls))) ∧
    lineSet (placesAt pos (pts h) (simpleSet hulls)) ⊆ clear region cs ((pts h).map pos) :=
  (hs.judged hi).deforms hi hp hn hd

theorem Setting.meets (hs : Setting pos region env h cs τ m) (hi : InstOK env h (pts h)) (hp : Pieces env pts [h] src ids g hulls)
    (hn : ∀ x ∈ hulls, Settled env x) (hd : (env.inst h).opts.geomRelation = true) {g : C} (hg : g ∈ cs)
    (hm : (lineSet (placesAt pos (pts h) (simpleSet hulls)) ∩ region g).Nonempty) : (lineSet ((pts h).map pos) ∩ region g).Nonempty :=
  (hs.judged hi).meets hi hp hn hd hg hm

theorem Setting.gaps (hs : Setting pos region env h cs τ m) (hi : InstOK env h (pts h)) (hp : Pieces env pts [h] src ids g hulls)
    (hn : ∀ x ∈ hulls, Settled env x) (hd : (env.inst h).opts.distRelation = true) {g : C} (hg : g ∈ cs)
    (hm : m ≤ gap (lineSet ((pts h).map pos)) (region g)) : m - τ ≤ gap (lineSet (placesAt pos (pts h) (simpleSet hulls))) (region g) :=
  (hs.judged hi).gaps hi hp hn hd hg hm

end

end Planar
end Verif
