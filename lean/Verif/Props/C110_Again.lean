import Verif.Lemmas.Subline
import Verif.Props.C77_NoCrossing
import Verif.Props.C109_Reversal

/-! C110: whether simplifying a simplified line again changes nothing. -/

set_option linter.unusedSectionVars false

namespace Verif

/-! ### the merge pass on single segments -/

/-- Specification: from the line with the vertices `0 .. n` no single inner vertex can be taken out. -/
def NoneToSpare (fixed : Int → Prop) (ok : Int → Int → Prop) (n : Int) : Prop := ∀ v, 0 < v → v < n → fixed v ∨ ¬ ok (v - 1) (v + 1)

theorem MergeSpec.length_le {fixed : Int → Prop} {ok : Int → Int → Prop} {d rs out : List Rng} (h : MergeSpec fixed ok d rs out) : out.length ≤ d.length + rs.length := by
  induction h with
  | done d => simp
  | keep r h t ih => simp only [List.length_append, List.length_cons, List.length_nil] at ih ⊢; omega
  | next r n h hf hn t ih => simp only [List.length_append, List.length_cons, List.length_nil] at ih ⊢; omega
  | prev p r h hn hf hp t ih => simp only [List.length_append, List.length_cons, List.length_nil] at ih ⊢; omega

/-- a pass that changes nothing on single segments: no two of them could be joined -/
theorem MergeSpec.again {fixed : Int → Prop} {ok : Int → Int → Prop} {d rs out : List Rng} (h : MergeSpec fixed ok d rs out) : out.length = d.length + rs.length →
    (∀ r ∈ rs, r.J = r.I + 1) → ∀ r s u w, rs = u ++ r :: s :: w → fixed r.J ∨ ¬ ok r.I s.J := by
  induction h with
  | done d => intro _ _ r s u w e; simp at e
  | @keep d rs out q h t ih =>
    intro hl hu r s u w e
    cases u with
    | nil =>
      simp only [List.nil_append, List.cons.injEq] at e
      obtain ⟨rfl, rfl⟩ := e
      by_cases hf : fixed q.J
      · exact .inl hf
      · exact .inr ((h (hu q (by simp))).1 s (by simp) hf)
    | cons x u =>
      simp only [List.cons_append, List.cons.injEq] at e
      refine ih ?_ (fun r hr => hu r (List.mem_cons_of_mem _ hr)) r s u w e.2
      simp only [List.length_append, List.length_cons, List.length_nil] at hl ⊢; omega
  | next r n h hf hn t ih =>
    intro hl
    have := t.length_le
    simp only [List.length_append, List.length_cons, List.length_nil] at hl this; omega
  | prev p r h hn hf hp t ih =>
    intro hl
    have := t.length_le
    simp only [List.length_append, List.length_cons, List.length_nil] at hl this; omega

theorem Chain.unit_length {a b : Int} : ∀ {rs : List Rng}, Chain a b rs → (∀ r ∈ rs, r.J = r.I + 1) → (rs.length : Int) = b - a := by
  intro rs
  induction rs generalizing a with
  | nil => intro h _; have : a = b := h; simp [this]
  | cons r rs ih =>
    intro h hu
    obtain ⟨h1, h2, h3⟩ := h
    have := ih h3 (fun q hq => hu q (List.mem_cons_of_mem _ hq))
    have := hu r (by simp)
    simp only [List.length_cons]
    omega

theorem Chain.unit_pair {a b v : Int} : ∀ {rs : List Rng}, Chain a b rs → (∀ r ∈ rs, r.J = r.I + 1) → a < v → v < b → ∃ u w, rs = u ++ ⟨v - 1, v⟩ :: ⟨v, v + 1⟩ :: w := by
  intro rs
  induction rs generalizing a with
  | nil => intro h _ h1 h2; have : a = b := h; omega
  | cons r rs ih =>
    intro h hu h1 h2
    obtain ⟨c1, c2, c3⟩ := h
    have hr := hu r (by simp)
    rcases Int.lt_or_le r.J v with hlt | hge
    · obtain ⟨u, w, e⟩ := ih c3 (fun q hq => hu q (List.mem_cons_of_mem _ hq)) hlt h2
      exact ⟨r :: u, w, by rw [e]; rfl⟩
    · cases rs with
      | nil => have : r.J = b := c3; omega
      | cons s rs =>
        obtain ⟨d1, d2, d3⟩ := c3
        have hs := hu s (by simp)
        refine ⟨[], rs, ?_⟩
        have e1 : r = ⟨v - 1, v⟩ := by cases r; simp only [Rng.mk.injEq] at *; omega
        have e2 : s = ⟨v, v + 1⟩ := by cases s; simp only [Rng.mk.injEq] at *; omega
        rw [e1, e2]; rfl

theorem Chain.ends_of {a b : Int} {rs : List Rng} (h : Chain a b rs) (hab : a < b) : EndOf rs a ∧ EndOf rs b := by
  cases rs with
  | nil => have : a = b := h; omega
  | cons r rs =>
    refine ⟨⟨r, by simp, .inl h.1.symm⟩, ?_⟩
    have hm := List.mem_of_getLast? h.getLast
    rcases List.mem_cons.1 hm with h1 | h1
    · omega
    · obtain ⟨q, hq, hq'⟩ := List.mem_map.1 h1
      exact ⟨q, hq, .inr hq'.symm⟩

namespace Planar

/-- Specification: the line does not run back on itself: a stretch of it that is straight does not leave the segment between its ends. -/
def NoSpikes (l : List ℂ) : Prop :=
  ∀ i j : Int, 0 ≤ i → i < j → j < l.length → Collinear ℝ {z | z ∈ between l i j} → lineSet (between l i j) ⊆ chordSet (between l i j)

theorem places_between {P : Type} (pos : P → ℂ) (ps : List P) (i j : Int) : places pos ps i j = between (ps.map pos) i j := by
  simp only [places, between, List.map_take, List.map_drop]

theorem getD_map {P : Type} (pos : P → ℂ) {ps : List P} {i : Int} (h0 : 0 ≤ i) (h1 : i < ps.length) : placesAt pos ps [i] = [(ps.map pos).getD i.toNat 0] := by
  have : i.toNat < ps.length := by omega
  simp [placesAt, List.getElem?_eq_getElem this]

theorem chordSet_places {P : Type} (pos : P → ℂ) {ps : List P} {i j : Int} (h0 : 0 ≤ i) (h1 : i < j) (h2 : j < ps.length) :
    chordSet (places pos ps i j) = segment ℝ ((ps.map pos).getD i.toNat 0) ((ps.map pos).getD j.toNat 0) := by
  obtain ⟨x, y, e1, e2, e3, -⟩ := places_ends (pos := pos) (ps := ps) h0 h1 h2
  have hx := getD_map pos h0 (by omega : i < ps.length)
  have hy := getD_map pos (by omega : 0 ≤ j) h2
  have : placesAt pos ps [i, j] = placesAt pos ps [i] ++ placesAt pos ps [j] := by simp only [placesAt]; rw [← List.filterMap_append]; rfl
  rw [e1, hx, hy] at this
  simp only [List.cons_append, List.nil_append, List.cons.injEq, and_true] at this
  ext z
  simp only [chordSet, e2, e3, Option.some.injEq, Set.mem_ofPred_eq]
  rw [← this.1, ← this.2]
  constructor
  · rintro ⟨a, b, rfl, rfl, hz⟩; exact hz
  · intro hz; exact ⟨x, y, rfl, rfl, hz⟩

/-- the points of a stretch are those of its parts -/
theorem lineSet_chain {P : Type} (pos : P → ℂ) {ps : List P} : ∀ {rs : List Rng} {i j : Int}, Chain i j rs → 0 ≤ i → i < j → j < ps.length → ∀ z,
    z ∈ lineSet (places pos ps i j) ↔ ∃ r ∈ rs, z ∈ lineSet (places pos ps r.I r.J) := by
  intro rs
  induction rs with
  | nil => intro i j h _ h1; have : i = j := h; omega
  | cons r rs ih =>
    intro i j h h0 h1 h2 z
    obtain ⟨a1, a2, a3⟩ := h
    have hle := a3.le
    rcases Int.lt_or_le r.J j with hlt | hge
    · obtain ⟨x, t, e1, e2, e3⟩ := places_split (pos := pos) (ps := ps) h0 (by omega : i ≤ r.J) (by omega : r.J ≤ j) h2
      obtain ⟨y1, y2, -, -, f3, -⟩ := places_ends (pos := pos) (ps := ps) h0 (by omega : i < r.J) (by omega)
      have f3' : y2 = x := by
        have hy := places_ends (pos := pos) (ps := ps) h0 (by omega : i < r.J) (by omega)
        obtain ⟨u, w, g1, g2, g3, -⟩ := hy
        rw [f3] at g3
        cases g3
        have : placesAt pos ps [i, r.J] = placesAt pos ps [i] ++ placesAt pos ps [r.J] := by simp only [placesAt]; rw [← List.filterMap_append]; rfl
        rw [g1, e2, getD_map pos h0 (by omega)] at this
        simp only [List.cons_append, List.nil_append, List.cons.injEq, and_true] at this
        exact this.2
      obtain ⟨u, hu⟩ : ∃ u, places pos ps i r.J = u ++ [x] := ⟨_, by rw [← f3']; exact (List.dropLast_append_getLast? _ f3).symm⟩
      rw [e3, hu, List.append_assoc, List.cons_append, List.nil_append, lineSet_append_cons, ← hu, ← e1]
      simp only [Set.mem_union, List.mem_cons, exists_eq_or_imp]
      rw [ih a3 (by omega) hlt h2, a1]
    · have hj : r.J = j := by omega
      have : rs = [] := by
        cases rs with
        | nil => rfl
        | cons q rs => obtain ⟨b1, b2, b3⟩ := a3; have := b3.le; omega
      subst this
      simp [a1, hj]

theorem le_gap_iff {s t : Set ℂ} {m : ℝ} (h1 : s.Nonempty) (h2 : t.Nonempty) : m ≤ gap s t ↔ ∀ x ∈ s, ∀ y ∈ t, m ≤ dist x y := by
  constructor
  · intro h x hx y hy; exact h.trans (gap_le hx hy)
  · intro h
    obtain ⟨x, hx⟩ := h1
    obtain ⟨y, hy⟩ := h2
    refine le_csInf ⟨_, x, hx, y, hy, rfl⟩ ?_
    rintro r ⟨x, hx, y, hy, rfl⟩
    exact h x hx y hy

section
variable {P C P' C' : Type} {pos : P → ℂ} {region : C → Set ℂ} {env : Env P C EReal ℝ} {pts : Int → List P} {h : Int} {cs : List C} {t m : ℝ}
variable {pos' : P' → ℂ} {region' : C' → Set ℂ} {env' : Env P' C' EReal ℝ} {pts' : Int → List P'} {h' : Int} {cs' : List C'}
variable {S : Int → Prop} {ρ : Int → Int}

/-- The second line goes through the vertices in `S` of the first one; the constraints are the same. -/
structure Through (S : Int → Prop) (ρ : Int → Int) (pos : P → ℂ) (region : C → Set ℂ) (ps : List P) (cs : List C) (pos' : P' → ℂ) (region' : C' → Set ℂ) (ps' : List P')
    (cs' : List C') : Prop where
  sel : Selected S ρ ps.length ps'.length
  place : ∀ v, S v → (ps'.map pos').getD (ρ v).toNat 0 = (ps.map pos).getD v.toNat 0
  image : ∀ g ∈ cs, ∃ g' ∈ cs', region' g' = region g
  back : ∀ g' ∈ cs', ∃ g ∈ cs, region' g' = region g

theorem Through.chordGap {ps : List P} {ps' : List P'} (hv : Through S ρ pos region ps cs pos' region' ps' cs') {i j x : Int} (hi : S i) (hj : S j) (hx : S x) :
    chordGap (ps'.map pos') (ρ i) (ρ j) (ρ x) = chordGap (ps.map pos) i j x := by
  simp only [Planar.chordGap, hv.place _ hi, hv.place _ hj, hv.place _ hx]

/-- the scores of the sub-lines follow -/
theorem Through.scores (hv : Through S ρ pos region (pts h) cs pos' region' (pts' h') cs') (hr : ExactRun pos region env h cs t m)
    (hr' : ExactRun pos' region' env' h' cs' t m) (hi' : InstOK env' h' (pts' h')) :
    ScoresFollow S ρ (env.inst h).scoreFn (env.inst h).rel (pts h) (env'.inst h').scoreFn (env'.inst h').rel (pts' h') := by
  intro i j si sj hij k v e
  have ri := hv.sel.range i si
  have rj := hv.sel.range j sj
  have ti := hv.sel.inside i si
  have tj := hv.sel.inside j sj
  have hlt := hv.sel.mono i j si sj hij
  by_cases hn : ρ i + 1 < ρ j
  · have hij1 : i + 1 < j := by
      obtain ⟨x, hx, ex⟩ := hv.sel.onto (ρ i + 1) (by omega) (by omega)
      have h1 := (hv.sel.lt_iff si hx).2 (by omega)
      have h2 := (hv.sel.lt_iff hx sj).2 (by omega)
      omega
    obtain ⟨k1, v1, e1, a1, b1, c1, d1, f1⟩ := hr.lastFarthest ri.1 hij1 rj.2
    rw [e] at e1
    cases e1
    obtain ⟨k2, v2, e2, a2, b2, c2, d2, f2⟩ := hr'.lastFarthest (pts := pts') ti.1 hn tj.2
    obtain ⟨y, sy, ey⟩ := hv.sel.onto (ρ i + k2) (by omega) (by omega)
    have y1 := (hv.sel.lt_iff si sy).2 (by omega)
    have y2 := (hv.sel.lt_iff sy sj).2 (by omega)
    have g1 := d1 y y1 y2
    rw [← ey, hv.chordGap si sj sy] at c2 d2
    refine ⟨k2, v2, e2, fun hv1 => c2.2 (g1.trans (c1.1 hv1)), fun k0 k3 sk => ?_⟩
    have z1 := hv.sel.mono _ _ si sk (by omega)
    have z2 := hv.sel.mono _ _ sk sj (by omega)
    have g2 := d2 _ z1 z2
    rw [hv.chordGap si sj sk] at g2
    have geq := le_antisymm g1 g2
    have hyk : y = i + k := by
      rcases Int.lt_trichotomy y (i + k) with hl | hl | hl
      · have := f2 (ρ (i + k)) (by rw [← ey]; exact hv.sel.mono _ _ sy sk hl) z2
        rw [← ey, hv.chordGap si sj sk, hv.chordGap si sj sy, geq] at this
        exact absurd this (lt_irrefl _)
      · exact hl
      · have := f1 y hl y2
        rw [geq] at this
        exact absurd this (lt_irrefl _)
    refine ⟨by rw [← ey, hyk], ?_⟩
    rw [Bool.eq_iff_iff, c1, c2, geq]
  · obtain ⟨k2, v2, x1, x2⟩ := hi'.inside (ρ i) (ρ j) ti.1 hlt tj.2
    have r2 : (env'.inst h').rel v2 = true := by
      cases hh : (env'.inst h').rel v2 with
      | true => rfl
      | false => have := x2 hh; omega
    refine ⟨k2, v2, x1, fun _ => r2, fun k0 k3 sk => ?_⟩
    have z1 := hv.sel.mono _ _ si sk (by omega)
    have z2 := hv.sel.mono _ _ sk sj (by omega)
    omega

/-- a piece whose hull is a line is straight -/
theorem straight_of_isLine (he : Exact pos region env.lib) {nd : Node P C EReal} (hk : Known env pts [h] nd) (hl : nd.geom.isLineString = true) :
    Collinear ℝ {z | z ∈ places pos (pts h) nd.range.I nd.range.J} := by
  obtain ⟨p1, p2⟩ := known_points hk
  have hg := hk.piece.geom
  rw [← hk.piece.coords] at hg
  have h2 : (env.lib.convexHull nd.coords).len = 2 := by
    unfold hullGeometry at hg
    split at hg
    · rw [← Res.ok.inj hg] at hl; simp [Geo.isLineString] at hl
    · split at hg
      · assumption
      · obtain ⟨p, -, hp⟩ := Res.bind_eq_ok.1 hg
        rw [← Res.ok.inj hp] at hl; simp [Geo.isLineString] at hl
  obtain ⟨a, -, b, -, e⟩ := he.two_corners p2 h2
  rw [p1] at e
  exact collinear_of_segment e

/-- Specification: the requested relations hold between the stretch `i .. j`, its chord and the constraints. -/
def Fits (pos : P → ℂ) (region : C → Set ℂ) (ps : List P) (cs : List C) (m : ℝ) (geom dist : Bool) (i j : Int) : Prop :=
  (geom = true → ∀ g ∈ cs, (chordSet (places pos ps i j) ∩ region g).Nonempty ↔ (lineSet (places pos ps i j) ∩ region g).Nonempty) ∧
  (dist = true → ∀ g ∈ cs, m ≤ gap (chordSet (places pos ps i j)) (region g) ∨ gap (lineSet (places pos ps i j)) (region g) < m)

theorem fits_of_eq {ps : List P} {geom dist : Bool} {i j : Int} (e : chordSet (places pos ps i j) = lineSet (places pos ps i j)) : Fits pos region ps cs m geom dist i j := by
  rw [Fits, e]
  exact ⟨fun _ _ _ => Iff.rfl, fun _ _ _ => le_or_gt _ _⟩

/-- without spikes, exactly the stretches that do not fit are rejected -/
theorem ExactRun.rejected (hr : ExactRun pos region env h cs t m) (hi : InstOK env h (pts h)) (hs : (env.inst h).opts.dirRelation = false)
    (hns : NoSpikes ((pts h).map pos)) {i j : Int} (h0 : 0 ≤ i) (h1 : i < j) (h2 : j < (pts h).length) :
    Rejected env pts h i j ↔ ¬ Fits pos region (pts h) cs m (env.inst h).opts.geomRelation (env.inst h).opts.distRelation i j := by
  constructor
  · rintro ⟨-, nd, q1, q2, q3, q4⟩ hf
    have hk := known_of_piece q1 q2 h0 h1 h2
    obtain ⟨b, hb, hbt⟩ := hr.verdict hi hk
    have := q4.unique hb
    subst this
    have e1 : nd.range.I = i := by rw [q2]
    have e2 : nd.range.J = j := by rw [q2]
    rw [e1, e2, hs] at hbt
    have := hbt.2 ⟨hf.1, hf.2, by simp⟩
    cases this
  · intro hf
    have hn : i + 1 < j := by
      by_contra hn
      have hj : j = i + 1 := by omega
      subst hj
      exact hf (fits_of_eq (chordSet_single h0 h2))
    obtain ⟨nd, hk, q1, q2⟩ := known_of_range hi h0 h1 h2
    have e1 : nd.range.I = i := by rw [q2]
    have e2 : nd.range.J = j := by rw [q2]
    refine ⟨hn, nd, q1, q2, ?_, ?_⟩
    · by_contra hl
      rw [Bool.not_eq_false] at hl
      have hc := straight_of_isLine hr.exact hk hl
      rw [e1, e2] at hc
      refine hf (fits_of_eq (Set.Subset.antisymm (chord_subset_of_collinear hc) ?_))
      rw [places_between] at hc ⊢
      exact hns i j h0 h1 (by simpa using h2) hc
    · obtain ⟨b, hb, hbt⟩ := hr.verdict hi hk
      rw [e1, e2, hs] at hbt
      cases b with
      | false => exact hb
      | true => have := hbt.1 rfl; exact absurd ⟨this.1, this.2.1⟩ hf

/-- a stretch that does not fit although its parts do, does not fit when its parts are replaced by their chords -/
theorem Through.fits {ps : List P} {ps' : List P'} (hne : ∀ g, (region g).Nonempty) (hv : Through S ρ pos region ps cs pos' region' ps' cs') {geom dist : Bool} {i j : Int} {rs : List Rng} (hij : i < j)
    (hc : Chain i j rs) (hS : ∀ v, EndOf rs v → S v) (hrs : ∀ r ∈ rs, Fits pos region ps cs m geom dist r.I r.J ∧ ρ r.J = ρ r.I + 1)
    (hf : Fits pos' region' ps' cs' m geom dist (ρ i) (ρ j)) : Fits pos region ps cs m geom dist i j := by
  obtain ⟨si, sj⟩ := And.imp (hS i) (hS j) (hc.ends_of hij)
  have ri := hv.sel.range i si
  have rj := hv.sel.range j sj
  have ti := hv.sel.inside i si
  have tj := hv.sel.inside j sj
  have hlt := hv.sel.mono i j si sj hij
  have L1 := lineSet_chain pos hc ri.1 hij rj.2
  have L2 := lineSet_chain pos' (hc.via hv.sel hS) ti.1 hlt tj.2
  have hch : ∀ {u v : Int}, S u → S v → u < v → chordSet (places pos' ps' (ρ u) (ρ v)) = chordSet (places pos ps u v) := by
    intro u v su sv huv
    have ru := hv.sel.range u su
    have rv := hv.sel.range v sv
    have tu := hv.sel.inside u su
    have tv := hv.sel.inside v sv
    rw [chordSet_places pos ru.1 huv rv.2, chordSet_places pos' tu.1 (hv.sel.mono u v su sv huv) tv.2, hv.place u su, hv.place v sv]
  have L3 : ∀ z, z ∈ lineSet (places pos' ps' (ρ i) (ρ j)) ↔ ∃ r ∈ rs, z ∈ chordSet (places pos ps r.I r.J) := by
    intro z
    rw [L2 z]
    simp only [List.mem_map, exists_exists_and_eq_and, Rng.via]
    refine exists_congr fun r => and_congr_right fun hr => ?_
    have sI := hS r.I ⟨r, hr, .inl rfl⟩
    have sJ := hS r.J ⟨r, hr, .inr rfl⟩
    have := hv.sel.inside r.I sI
    have := hv.sel.inside r.J sJ
    have hu := (hrs r hr).2
    rw [← hch sI sJ (hc.mem hr).2.1, hu, chordSet_single (by omega) (by omega)]
  have hn1 : ∀ {u v : Int}, 0 ≤ u → u < v → v < ps.length → places pos ps u v ≠ [] := by
    intro u v a b c hn
    obtain ⟨x, y, -, e, -⟩ := places_ends (pos := pos) (ps := ps) a b c
    rw [hn] at e; cases e
  have hn2 : places pos' ps' (ρ i) (ρ j) ≠ [] := by
    intro hn
    obtain ⟨x, y, -, e, -⟩ := places_ends (pos := pos') (ps := ps') ti.1 hlt tj.2
    rw [hn] at e; cases e
  refine ⟨fun hg g hgc => ?_, fun hd g hgc => ?_⟩
  · obtain ⟨g', hg', eg⟩ := hv.image g hgc
    have h1 := hf.1 hg g' hg'
    rw [eg, hch si sj hij] at h1
    rw [h1]
    constructor
    · rintro ⟨z, hz, hzg⟩
      obtain ⟨r, hr, hz⟩ := (L3 z).1 hz
      obtain ⟨w, hw, hwg⟩ := ((hrs r hr).1.1 hg g hgc).1 ⟨z, hz, hzg⟩
      exact ⟨w, (L1 w).2 ⟨r, hr, hw⟩, hwg⟩
    · rintro ⟨z, hz, hzg⟩
      obtain ⟨r, hr, hz⟩ := (L1 z).1 hz
      obtain ⟨w, hw, hwg⟩ := ((hrs r hr).1.1 hg g hgc).2 ⟨z, hz, hzg⟩
      exact ⟨w, (L3 w).2 ⟨r, hr, hw⟩, hwg⟩
  · obtain ⟨g', hg', eg⟩ := hv.image g hgc
    have h1 := hf.2 hd g' hg'
    rw [eg, hch si sj hij] at h1
    rcases h1 with h1 | h1
    · exact .inl h1
    · refine .inr (lt_of_not_ge fun hge => absurd h1 (not_lt.2 ?_))
      rw [le_gap_iff (lineSet_nonempty hn2) (hne g)]
      intro z hz y hy
      obtain ⟨r, hr, hz⟩ := (L3 z).1 hz
      have b := hc.mem hr
      have hsub : lineSet (places pos ps r.I r.J) ⊆ lineSet (places pos ps i j) := fun w hw => (L1 w).2 ⟨r, hr, hw⟩
      have hnr := hn1 (u := r.I) (v := r.J) (by omega) (by omega) (by omega)
      rcases (hrs r hr).1.2 hd g hgc with h2 | h2
      · exact h2.trans (gap_le hz hy)
      · exact absurd (lt_of_le_of_lt (le_trans hge (gap_mono hsub le_rfl (lineSet_nonempty hnr) (hne g))) h2) (lt_irrefl _)

/-- the vertices of a strictly increasing list of numbers -/
theorem selected_of_list {xs : List Int} (hp : xs.Pairwise (· < ·)) {n : Int} (hx : ∀ v ∈ xs, 0 ≤ v ∧ v < n) : Selected (· ∈ xs) (fun v => (xs.idxOf v : Int)) n xs.length where
  range := hx
  inside v hv := ⟨by omega, by have := List.idxOf_lt_length_iff.2 hv; omega⟩
  mono u v hu hv huv := by
    have h1 := List.idxOf_lt_length_iff.2 hu
    have h2 := List.idxOf_lt_length_iff.2 hv
    by_contra hle
    rcases Nat.lt_or_ge (xs.idxOf v) (xs.idxOf u) with h3 | h3
    · have := List.pairwise_iff_getElem.1 hp _ _ h2 h1 h3
      rw [List.getElem_idxOf, List.getElem_idxOf] at this
      omega
    · have h4 : xs.idxOf u = xs.idxOf v := by omega
      have e1 := List.getElem_idxOf h1
      have e2 := List.getElem_idxOf h2
      simp only [h4] at e1
      omega
  onto a h0 h1 := by
    have h2 : a.toNat < xs.length := by omega
    refine ⟨xs[a.toNat], List.getElem_mem h2, ?_⟩
    have hnd : xs.Nodup := hp.imp (fun h => by omega)
    rw [hnd.idxOf_getElem]
    omega

/-- the line through the vertices in a list of numbers -/
theorem through_of_list {ps : List P} {ps' : List P'} {xs : List Int} (hp : xs.Pairwise (· < ·)) (hx : ∀ v ∈ xs, 0 ≤ v ∧ v < ps.length)
    (hl : ps'.map pos' = placesAt pos ps xs) (h1 : ∀ g ∈ cs, ∃ g' ∈ cs', region' g' = region g) (h2 : ∀ g' ∈ cs', ∃ g ∈ cs, region' g' = region g) :
    Through (· ∈ xs) (fun v => (xs.idxOf v : Int)) pos region ps cs pos' region' ps' cs' := by
  have hl' : ps'.map pos' = xs.map (fun v => (ps.map pos).getD v.toNat 0) := by
    rw [hl, placesAt]
    have : ∀ ys : List Int, (∀ v ∈ ys, 0 ≤ v ∧ v < ps.length) → ys.filterMap (fun i => (ps[i.toNat]?).map pos) = ys.map (fun v => (ps.map pos).getD v.toNat 0) := by
      intro ys
      induction ys with
      | nil => intro _; rfl
      | cons y ys ih =>
        intro hy
        have b := hy y (by simp)
        have : y.toNat < ps.length := by omega
        rw [List.filterMap_cons, List.map_cons, ih (fun v hv => hy v (List.mem_cons_of_mem _ hv))]
        simp [List.getElem?_eq_getElem this]
    exact this xs hx
  have hlen : ps'.length = xs.length := by have := congrArg List.length hl'; simpa using this
  refine ⟨by rw [hlen]; exact selected_of_list hp hx, fun v hv => ?_, h1, h2⟩
  have hlt := List.idxOf_lt_length_iff.2 hv
  rw [hl']
  simp only [Int.toNat_natCast, List.getD_eq_getElem?_getD]
  rw [List.getElem?_map, List.getElem?_eq_getElem hlt, List.getElem_idxOf]
  simp

variable {ids ids' : Nat → Int}

/-- C110, the part that holds.  A line in exact plane geometry is simplified, and the line through the kept vertices is simplified again, with the same constraints and
options; the direction relation is not requested, new self-intersections need not be avoided, the same vertices are fixed, neither line runs back on itself, and
the merge pass of the first run had nothing to join.  Then the second run keeps all vertices if and only if no single vertex of the simplified line can be taken out.
Missing for the full statement: simplified lines from which a vertex can be taken out, `C110_refuted`, and first runs with merges. -/
theorem C110_again_partial (he : EnvOK env) (hl : LnrOK env.lnr) (hi : InstOK env h (pts h)) (hinj : Function.Injective ids) (hr : ExactRun pos region env h cs t m)
    (he' : EnvOK env') (hl' : LnrOK env'.lnr) (hi' : InstOK env' h' (pts' h')) (hinj' : Function.Injective ids') (hr' : ExactRun pos' region' env' h' cs' t m)
    (hav : (env.inst h).opts.avoidNewSelfIntersects = false) (hav' : (env'.inst h').opts.avoidNewSelfIntersects = false)
    (hg : (env'.inst h').opts.geomRelation = (env.inst h).opts.geomRelation) (hd : (env'.inst h').opts.distRelation = (env.inst h).opts.distRelation)
    (hs : (env.inst h).opts.dirRelation = false) (hs' : (env'.inst h').opts.dirRelation = false)
    {cv cv' : List Int} (hcv : ∀ i ∈ cv, 0 ≤ i ∧ i < (pts h).length) (hcv' : ∀ i ∈ cv', 0 ≤ i ∧ i < (pts' h').length)
    (hns : NoSpikes ((pts h).map pos)) (hns' : NoSpikes ((pts' h').map pos'))
    (hnj : ∀ ls, ConstrainedDP (env.inst h).scoreFn (env.inst h).rel (FixedVertex env h cv) (Rejected env pts h) (pts h) ls →
      NothingToJoin (FixedVertex env h cv) (Joinable env pts h) ls)
    {d1 d1' d2 d2' : Int → Bool} {n1 n2 : Nat} {o1 : Out P C EReal} {o2 : Out P' C' EReal}
    (e1 : simplify env ids h cv d1 n1 = .ok (o1, d1')) (hsub : (pts' h').map pos' = placesAt pos (pts h) o1.simple)
    (himg : ∀ g ∈ cs, ∃ g' ∈ cs', region' g' = region g) (hbck : ∀ g' ∈ cs', ∃ g ∈ cs, region' g' = region g)
    (hfix : ∀ v ∈ o1.simple, FixedVertex env h cv v ↔ FixedVertex env' h' cv' (o1.simple.idxOf v))
    (e2 : simplify env' ids' h' cv' d2 n2 = .ok (o2, d2')) :
    (∀ v : Int, 0 ≤ v → v < (pts' h').length → v ∈ o2.simple) ↔ NoneToSpare (FixedVertex env' h' cv') (Joinable env' pts' h') ((pts' h').length - 1) := by
  obtain ⟨rs1, ⟨ls, hls, m1⟩, c1, p1, w1, q1⟩ := C107_run he hl hi hr.touching hinj hav hcv (fun _ => hr.splittable hi hcv) e1
  obtain ⟨rs2, ⟨ls2, hls2, m2⟩, c2, p2, w2, q2⟩ := C107_run he' hl' hi' hr'.touching hinj' hav' hcv' (fun _ => hr'.splittable hi' hcv') e2
  have hch := hls.chain (rejected_inside hi)
  have r1 : rs1 = ls := m1.unique (MergeSpec.nothing ls [] (by simpa using hch) (by simpa using hnj ls hls))
  subst r1
  have hS : (· ∈ o1.simple) = EndOf rs1 := funext fun v => propext (q1 v)
  have hth : Through (EndOf rs1) (fun v => (o1.simple.idxOf v : Int)) pos region (pts h) cs pos' region' (pts' h') cs' := by
    rw [← hS]
    refine through_of_list w1 (fun v hv => ?_) hsub himg hbck
    obtain ⟨r, hr, hv⟩ := (q1 v).1 hv
    have := hch.mem hr
    omega
  have hfx' : ∀ w, FixedVertex env' h' cv' w → 0 ≤ w ∧ w < (pts' h').length := fun w hw => fixed_inside hl' hi' hcv' hw
  have hbad : ∀ (i j : Int) (rs : List Rng), Chain i j rs → (∀ v, EndOf rs v → EndOf rs1 v) →
      (∀ r ∈ rs, ¬ Rejected env pts h r.I r.J ∧ (o1.simple.idxOf r.J : Int) = o1.simple.idxOf r.I + 1) → Rejected env pts h i j →
      Rejected env' pts' h' (o1.simple.idxOf i) (o1.simple.idxOf j) := by
    intro i j rs hc hends hrs hb
    have hij := hb.1
    have bds : ∀ v, EndOf rs v → 0 ≤ v ∧ v < (pts h).length := fun v hv => hth.sel.range v (hends v hv)
    obtain ⟨si, sj⟩ := hc.ends_of (by omega)
    have ri := bds i si
    have rj := bds j sj
    have ti := hth.sel.inside i (hends i si)
    have tj := hth.sel.inside j (hends j sj)
    have hlt := hth.sel.mono i j (hends i si) (hends j sj) (by omega)
    rw [hr.rejected hi hs hns ri.1 (by omega) rj.2] at hb
    rw [hr'.rejected hi' hs' hns' ti.1 hlt tj.2, hg, hd]
    refine fun hf => hb (hth.fits hr.exact.nonempty (by omega) hc hends (fun r hr2 => ⟨?_, (hrs r hr2).2⟩) hf)
    have b1 := bds r.I ⟨r, hr2, .inl rfl⟩
    have b2 := bds r.J ⟨r, hr2, .inr rfl⟩
    have := (hrs r hr2).1
    rw [hr.rejected hi hs hns b1.1 (hc.mem hr2).2.1 b2.2, not_not] at this
    exact this
  obtain ⟨hsel, hun⟩ := hls.select (score' := (env'.inst h').scoreFn) (rel' := (env'.inst h').rel) (fixed' := FixedVertex env' h' cv') (bad' := Rejected env' pts' h') (ps' := pts' h')
    hi.two hth.sel (hth.scores hr hr' hi') hi.inside (rejected_inside hi) (fun v hv => hfix v ((q1 v).2 hv)) hfx' hbad (fun a ha => by have := ha.1; omega)
  have := hsel.unique hls2
  subst this
  have hch2 := hls2.chain (rejected_inside hi')
  have hu2 : ∀ r ∈ rs1.map (Rng.via fun v => (o1.simple.idxOf v : Int)), r.J = r.I + 1 := by
    intro r hr
    obtain ⟨q, hq, rfl⟩ := List.mem_map.1 hr
    exact hun q hq
  generalize rs1.map (Rng.via fun v => (o1.simple.idxOf v : Int)) = us at m2 hls2 hch2 hu2
  have htwo := hi'.two
  constructor
  · intro hall v v0 v1
    have hu3 : ∀ r ∈ rs2, r.J = r.I + 1 := by
      intro r hr
      have b := c2.mem hr
      by_contra hne
      obtain ⟨q, hq, hq'⟩ := (q2 _).1 (hall (r.I + 1) (by omega) (by omega))
      have : r.I + 1 ∈ rs2.map Rng.J := by
        rcases hq' with h1 | h1
        · rcases c2.start hq with h2 | h2
          · omega
          · rw [h1]; exact h2
        · rw [h1]; exact List.mem_map_of_mem hq
      exact c2.end_not_inside this hr ⟨by omega, by omega⟩
    have l1 := hch2.unit_length hu2
    have l2 := c2.unit_length hu3
    obtain ⟨u, w, e⟩ := hch2.unit_pair hu2 (v := v) (by omega) (by omega)
    have := m2.again (by simp only [List.length_nil]; omega) hu2 _ _ u w e
    simpa using this
  · intro hn v v0 v1
    have r2 : rs2 = us := m2.unique (MergeSpec.nothing us [] (by simpa using hch2) (by
      intro r hr s hsm hrs _
      simp only [List.nil_append] at hr hsm
      have b1 := hch2.mem hr
      have b2 := hch2.mem hsm
      have u1 := hu2 r hr
      have u2 := hu2 s hsm
      have ea : r.I = r.J - 1 := by omega
      have eb : s.J = r.J + 1 := by omega
      rw [ea, eb]
      exact hn r.J (by omega) (by omega)))
    subst r2
    obtain ⟨r, hr, h1, h2⟩ := c2.exists_mem (t := v) (by omega) (by omega) (by omega)
    have := hu2 r hr
    exact (q2 v).2 ⟨r, hr, by omega⟩

end

/-! ### concrete case: a line of the exact plane -/

/-- a line that always goes to the right does not run back -/
theorem noSpikes_of_increasing {l : List ℂ} (hp : l.Pairwise (fun z w => z.re < w.re)) : NoSpikes l := by
  intro i j h0 h1 h2 hc
  obtain ⟨a, b, -, ha, hb, -⟩ := places_ends (pos := id) (ps := l) h0 h1 h2
  rw [places_between, List.map_id] at ha hb
  have hps : (between l i j).Pairwise (fun z w => z.re < w.re) := hp.sublist ((List.take_sublist _ _).trans (List.drop_sublist _ _))
  generalize between l i j = k at hc ha hb hps
  have hle : ∀ w ∈ k, a.re ≤ w.re ∧ w.re ≤ b.re := by
    intro w hw
    constructor
    · cases k with
      | nil => cases ha
      | cons x k =>
        cases ha
        rcases List.mem_cons.1 hw with rfl | hw
        · exact le_rfl
        · exact ((List.pairwise_cons.1 hps).1 w hw).le
    · obtain ⟨k', rfl⟩ : ∃ k', k = k' ++ [b] := ⟨_, (List.dropLast_append_getLast? b hb).symm⟩
      rcases List.mem_append.1 hw with hw | hw
      · exact ((List.pairwise_append.1 hps).2.2 w hw b (by simp)).le
      · rw [List.mem_singleton] at hw; rw [hw]
  have hch : chordSet k = segment ℝ a b := by
    ext z
    simp [chordSet, ha, hb]
  rw [hch]
  refine (lineSet_subset_hullSet k).trans (convexHull_min ?_ (convex_segment a b))
  intro w hw
  obtain ⟨v, hv⟩ := (collinear_iff_of_mem (p₀ := a) (List.mem_of_head? ha)).1 hc
  obtain ⟨r, hr⟩ := hv b (List.mem_of_getLast? hb)
  obtain ⟨q, hq⟩ := hv w hw
  simp only [vadd_eq_add] at hr hq
  obtain ⟨w1, w2⟩ := hle w hw
  rcases eq_or_ne (r * v.re) 0 with h3 | h3
  · have e1 : b.re = a.re := by rw [hr]; simp [h3]
    -- all vertices have the same first ordinate: there is only one
    have hba : b = a ∧ w = a := by
      obtain ⟨k', rfl⟩ : ∃ k', k = a :: k' := by
        cases k with
        | nil => cases ha
        | cons x k => cases ha; exact ⟨k, rfl⟩
      constructor
      · rcases List.mem_cons.1 (List.mem_of_getLast? hb) with h4 | h4
        · exact h4
        · have := (List.pairwise_cons.1 hps).1 b h4; linarith
      · rcases List.mem_cons.1 hw with h4 | h4
        · exact h4
        · have := (List.pairwise_cons.1 hps).1 w h4; linarith
    rw [hba.1, hba.2, segment_same]; rfl
  · have e1 : b.re = a.re + r * v.re := by rw [hr]; simp [add_comm]
    have e2 : w.re = a.re + q * v.re := by rw [hq]; simp [add_comm]
    have hpos : 0 < r * v.re := lt_of_le_of_ne (by linarith) (Ne.symm h3)
    have hv0 : v.re ≠ 0 := fun h => h3 (by rw [h, mul_zero])
    have hr0 : r ≠ 0 := fun h => h3 (by rw [h, zero_mul])
    have e3 : q / r = q * v.re / (r * v.re) := by field_simp
    rw [segment_eq_image_lineMap]
    refine ⟨q / r, ⟨?_, ?_⟩, ?_⟩
    · rw [e3]; exact div_nonneg (by linarith) hpos.le
    · rw [e3, div_le_one hpos]; linarith
    · simp only [AffineMap.lineMap_apply, vsub_eq_sub, vadd_eq_add]
      rw [hr, hq]
      simp only [add_sub_cancel_right, smul_smul, div_mul_cancel₀ _ hr0]

/-- the points with second ordinate at least 1 -/
def ridge : Region := ⟨{z | 1 ≤ z.im}, ⟨⟨0, 1⟩, le_refl (1 : ℝ)⟩⟩

noncomputable def ridgeOpts : Opts ℝ := { peakOpts with sqThreshold := .fin 2, dirRelation := false, distRelation := false }

/-- a line that touches the ridge with its second vertex -/
noncomputable def ridgeLine : Demo.Line ℂ Region ℝ := ⟨[0, ⟨2, 1⟩, ⟨3, 1 / 4⟩, 4], [ridge], ridgeOpts⟩

/-- the same without its third vertex -/
noncomputable def ridgeLine2 : Demo.Line ℂ Region ℝ := ⟨[0, ⟨2, 1⟩, 4], [ridge], ridgeOpts⟩

theorem ridge_chord : ¬ (segment ℝ (0 : ℂ) 4 ∩ ridge.1).Nonempty := by
  rintro ⟨z, ⟨a, b, -, -, -, rfl⟩, hz⟩
  have e : (4 : ℂ).im = 0 := rfl
  have : (1 : ℝ) ≤ (a • (0 : ℂ) + b • (4 : ℂ)).im := hz
  simp only [smul_zero, zero_add, Complex.real_smul, Complex.im_ofReal_mul, e, mul_zero] at this
  linarith

theorem ridgeLine_gap1 : 1 ≤ chordGap ridgeLine.pts 0 3 1 ∧ chordGap ridgeLine.pts 0 3 1 ≤ 2 := by
  constructor
  · refine le_csInf ⟨_, _, rfl, _, left_mem_segment ℝ _ _, rfl⟩ ?_
    rintro r ⟨x, rfl, y, ⟨a, b, ha, hb, hab, rfl⟩, rfl⟩
    have := Complex.abs_im_le_norm ((⟨2, 1⟩ : ℂ) - (a • (0 : ℂ) + b • (4 : ℂ)))
    have e : (4 : ℂ).im = 0 := rfl
    simp only [Complex.sub_im, Complex.add_im, smul_zero, Complex.zero_im, Complex.real_smul, Complex.im_ofReal_mul, e] at this
    show (1 : ℝ) ≤ dist (⟨2, 1⟩ : ℂ) (a • (0 : ℂ) + b • (4 : ℂ))
    rw [dist_eq_norm]
    norm_num at this ⊢
    exact this
  · have h3 : (2 : ℂ) ∈ segment ℝ (0 : ℂ) 4 := ⟨1 / 2, 1 / 2, by norm_num, by norm_num, by norm_num, by simp only [Complex.real_smul]; push_cast; norm_num⟩
    have : gap {(⟨2, 1⟩ : ℂ)} (segment ℝ (0 : ℂ) 4) ≤ dist (⟨2, 1⟩ : ℂ) 2 := gap_le rfl h3
    refine this.trans ?_
    have e : (⟨2, 1⟩ : ℂ) - 2 = Complex.I := by apply Complex.ext <;> simp
    rw [dist_eq_norm, e, Complex.norm_I]
    norm_num

theorem ridgeLine_gap2 : chordGap ridgeLine.pts 0 3 2 < 1 := by
  have h3 : (3 : ℂ) ∈ segment ℝ (0 : ℂ) 4 := ⟨1 / 4, 3 / 4, by norm_num, by norm_num, by norm_num, by simp only [Complex.real_smul]; push_cast; norm_num⟩
  have : gap {(⟨3, 1 / 4⟩ : ℂ)} (segment ℝ (0 : ℂ) 4) ≤ dist (⟨3, 1 / 4⟩ : ℂ) 3 := gap_le rfl h3
  refine lt_of_le_of_lt this ?_
  have e : (⟨3, 1 / 4⟩ : ℂ) - 3 = ((1 / 4 : ℝ) : ℂ) * Complex.I := by apply Complex.ext <;> simp
  rw [dist_eq_norm, e, norm_mul, Complex.norm_I, Complex.norm_real]
  norm_num

theorem ridgeLine_noSpikes : NoSpikes ridgeLine.pts ∧ NoSpikes ridgeLine2.pts := by
  have e : (4 : ℂ).re = 4 := rfl
  constructor <;> refine noSpikes_of_increasing ?_
  · simp only [ridgeLine, List.pairwise_cons, List.mem_cons, List.not_mem_nil, or_false, forall_eq_or_imp, forall_eq, Complex.zero_re, e]
    norm_num
  · simp only [ridgeLine2, List.pairwise_cons, List.mem_cons, List.not_mem_nil, or_false, forall_eq_or_imp, forall_eq, Complex.zero_re, e]
    norm_num

/-- one line of the exact plane -/
noncomputable abbrev ridgeEnv (l : Demo.Line ℂ Region ℝ) : Env ℂ Region EReal ℝ := exactEnv (fun _ => l)

theorem ridge_run (l : Demo.Line ℂ Region ℝ) (hl : l.opts = ridgeOpts) : ExactRun id (fun r : Region => r.1) (ridgeEnv l) 0 l.ctx 2 (1 / 2) :=
  exactRun (lines := fun _ => l) (h := 0) (by rw [hl]; rfl) (by rw [hl]; rfl) (by norm_num)

theorem ridge_inst (l : Demo.Line ℂ Region ℝ) (hl : l.opts = ridgeOpts) (h2 : 2 ≤ l.pts.length) : InstOK (ridgeEnv l) 0 l.pts :=
  exactInst_ok (lines := fun _ => l) (h := 0) h2 (by show (Fl.fin 0).le l.opts.sqThreshold = true; rw [hl]; simp [ridgeOpts])

/-- the whole stretch of either line is rejected: it touches the ridge, its chord does not -/
theorem ridge_rejected : Rejected (ridgeEnv ridgeLine) (fun _ => ridgeLine.pts) 0 0 3 ∧ Rejected (ridgeEnv ridgeLine2) (fun _ => ridgeLine2.pts) 0 0 2 ∧
    ¬ Rejected (ridgeEnv ridgeLine) (fun _ => ridgeLine.pts) 0 1 3 := by
  have hr := ridge_run ridgeLine rfl
  have hi := ridge_inst ridgeLine rfl (by simp [ridgeLine])
  have hr2 := ridge_run ridgeLine2 rfl
  have hi2 := ridge_inst ridgeLine2 rfl (by simp [ridgeLine2])
  have htop : (⟨2, 1⟩ : ℂ) ∈ ridge.1 := le_refl (1 : ℝ)
  refine ⟨?_, ?_, ?_⟩
  · rw [hr.rejected (pts := fun _ => ridgeLine.pts) hi rfl (by simpa using ridgeLine_noSpikes.1) (by omega) (by omega) (by simp [ridgeLine])]
    intro hf
    have := (hf.1 rfl ridge (by simp [ridgeLine])).2 ⟨⟨2, 1⟩, mem_lineSet_of_mem (by simp [places, between, ridgeLine]), htop⟩
    rw [chordSet_places id (by omega) (by omega) (by simp [ridgeLine])] at this
    exact ridge_chord (by simpa [ridgeLine] using this)
  · rw [hr2.rejected (pts := fun _ => ridgeLine2.pts) hi2 rfl (by simpa using ridgeLine_noSpikes.2) (by omega) (by omega) (by simp [ridgeLine2])]
    intro hf
    have := (hf.1 rfl ridge (by simp [ridgeLine2])).2 ⟨⟨2, 1⟩, mem_lineSet_of_mem (by simp [places, between, ridgeLine2]), htop⟩
    rw [chordSet_places id (by omega) (by omega) (by simp [ridgeLine2])] at this
    exact ridge_chord (by simpa [ridgeLine2] using this)
  · rw [hr.rejected (pts := fun _ => ridgeLine.pts) hi rfl (by simpa using ridgeLine_noSpikes.1) (by omega) (by omega) (by simp [ridgeLine]), not_not]
    refine ⟨fun _ g hg => ?_, fun h => by cases h⟩
    have hg' : g = ridge := by simpa [ridgeLine] using hg
    subst hg'
    refine iff_of_true ⟨⟨2, 1⟩, ?_, htop⟩ ⟨⟨2, 1⟩, mem_lineSet_of_mem (by simp [places, between, ridgeLine]), htop⟩
    rw [chordSet_places id (by omega) (by omega) (by simp [ridgeLine])]
    have e : (ridgeLine.pts.map id).getD (1 : Int).toNat 0 = ⟨2, 1⟩ := by simp [ridgeLine]
    rw [e]
    exact left_mem_segment ℝ _ _

/-- what is rejected is not joined -/
theorem not_joinable_of_rejected {P C B K : Type} [LinearOrder B] [BoundedOrder B] [LinearOrder K] {env : Env P C B K} {pts : Int → List P} {h i j : Int} (hr : Rejected env pts h i j) :
    ¬ Joinable env pts h i j := by
  rintro ⟨-, nd, q1, q2, q3⟩
  obtain ⟨-, nd', p1, p2, -, p4⟩ := hr
  have e := p1.same q2 (by rw [p2, q1])
  rw [e] at p4
  have : true = false := q3.unique p4
  cases this

/-- the segments of the first run before the merge pass -/
theorem ridgeLine_segments : ConstrainedDP ((ridgeEnv ridgeLine).inst 0).scoreFn ((ridgeEnv ridgeLine).inst 0).rel (FixedVertex (ridgeEnv ridgeLine) 0 [])
    (Rejected (ridgeEnv ridgeLine) (fun _ => ridgeLine.pts) 0) ridgeLine.pts [⟨0, 1⟩, ⟨1, 3⟩] := by
  have hr := ridge_run ridgeLine rfl
  have hi := ridge_inst ridgeLine rfl (by simp [ridgeLine])
  obtain ⟨k, v, e, k0, k1, k2, k3, -⟩ := hr.lastFarthest (pts := fun _ => ridgeLine.pts) (i := 0) (j := 3) (by omega) (by omega) (by simp [ridgeLine])
  rw [List.map_id] at k2 k3
  have hk : k = 1 := by
    by_contra hne
    have : k = 2 := by omega
    subst this
    have h1 := k3 1 (by omega) (by omega)
    have h2 := ridgeLine_gap1
    have h3 := ridgeLine_gap2
    simp only [Int.zero_add] at h1
    linarith
  subst hk
  have hlen : ((ridgeLine.pts.length : Int) - 1) = 3 := by simp [ridgeLine]
  refine ⟨[⟨0, 3⟩], [⟨0, 3⟩], ?_, ?_, fun w => ?_, ?_⟩
  · rw [hlen]
    exact .keep 0 3 1 v e (k2.2 ridgeLine_gap1.2)
  · rw [hlen]; exact Chain.singleton (by omega)
  · refine ⟨.inl, fun h => h.resolve_right ?_⟩
    rintro ⟨h, -⟩
    cases h
  · have h1 : RecCut ((ridgeEnv ridgeLine).inst 0).scoreFn (Rejected (ridgeEnv ridgeLine) (fun _ => ridgeLine.pts) 0) ridgeLine.pts 0 3 ([⟨0, 1⟩] ++ [⟨1, 3⟩]) :=
      .cut 0 3 1 v _ _ ridge_rejected.1 e (.keep 0 1 (fun h => by have := h.1; omega)) (.keep 1 3 ridge_rejected.2.2)
    have := Each.cons (R := fun (r : Rng) l => RecCut ((ridgeEnv ridgeLine).inst 0).scoreFn (Rejected (ridgeEnv ridgeLine) (fun _ => ridgeLine.pts) 0) ridgeLine.pts r.I r.J l)
      (a := ⟨0, 3⟩) h1 .nil
    simpa using this

/-- The line is simplified to the vertices 0, 1 and 3; the line through these is not simplified further. -/
theorem C110_concrete : ∃ fuel o1 d1 o2 d2, simplify (ridgeEnv ridgeLine) (fun n => n) 0 [] (fun _ => false) fuel = .ok (o1, d1) ∧ o1.simple = [0, 1, 3] ∧
    simplify (ridgeEnv ridgeLine2) (fun n => n) 0 [] (fun _ => false) fuel = .ok (o2, d2) ∧ ridgeLine2.pts = placesAt id ridgeLine.pts o1.simple ∧ ∀ v : Int, 0 ≤ v → v < 3 → v ∈ o2.simple := by
  have hinj : Function.Injective (fun n : Nat => (n : Int)) := fun a b h => by simpa using h
  have hr := ridge_run ridgeLine rfl
  have hi := ridge_inst ridgeLine rfl (by simp [ridgeLine])
  have hr2 := ridge_run ridgeLine2 rfl
  have hi2 := ridge_inst ridgeLine2 rfl (by simp [ridgeLine2])
  obtain ⟨⟨o1, d1⟩, N1, y1⟩ := C10_terminates (pts := fun _ => ridgeLine.pts) (cv := []) exactEnv_ok exactLnr_ok hi hinj (by simp) (fun _ => false)
  obtain ⟨⟨o2, d2⟩, N2, y2⟩ := C10_terminates (pts := fun _ => ridgeLine2.pts) (cv := []) exactEnv_ok exactLnr_ok hi2 hinj (by simp) (fun _ => false)
  have e1 := y1 (max N1 N2) (Nat.le_max_left _ _)
  have e2 := y2 (max N1 N2) (Nat.le_max_right _ _)
  have hnj : ∀ ls, ConstrainedDP ((ridgeEnv ridgeLine).inst 0).scoreFn ((ridgeEnv ridgeLine).inst 0).rel (FixedVertex (ridgeEnv ridgeLine) 0 [])
      (Rejected (ridgeEnv ridgeLine) (fun _ => ridgeLine.pts) 0) ridgeLine.pts ls → NothingToJoin (FixedVertex (ridgeEnv ridgeLine) 0 []) (Joinable (ridgeEnv ridgeLine) (fun _ => ridgeLine.pts) 0) ls := by
    intro ls hls
    rw [hls.unique ridgeLine_segments]
    intro r hr s hs hrs _
    simp only [List.mem_cons, List.not_mem_nil, or_false] at hr hs
    rcases hr with rfl | rfl <;> rcases hs with rfl | rfl
    · simp at hrs
    · exact .inr (not_joinable_of_rejected ridge_rejected.1)
    · simp at hrs
    · simp at hrs
  have hs1 : o1.simple = [0, 1, 3] := by
    obtain ⟨rs1, ⟨ls, hls, m1⟩, c1, p1, w1, q1⟩ := C107_run (pts := fun _ => ridgeLine.pts) exactEnv_ok exactLnr_ok hi hr.touching hinj rfl (by simp) (fun _ => hr.splittable hi (by simp)) e1
    have hch := hls.chain (rejected_inside hi)
    have r1 : rs1 = ls := m1.unique (MergeSpec.nothing ls [] (by simpa using hch) (by simpa using hnj ls hls))
    rw [r1, hls.unique ridgeLine_segments] at q1
    refine pairwise_lt_ext w1 (by simp) (fun v => ?_)
    rw [q1]
    simp only [EndOf, List.mem_cons, List.not_mem_nil, or_false, exists_eq_or_imp, exists_eq_left]
    tauto
  have hsub : ridgeLine2.pts = placesAt id ridgeLine.pts o1.simple := by
    rw [hs1]; simp [placesAt, ridgeLine, ridgeLine2]
  refine ⟨max N1 N2, o1, d1, o2, d2, e1, hs1, e2, hsub, ?_⟩
  have := C110_again_partial (pts := fun _ => ridgeLine.pts) (pts' := fun _ => ridgeLine2.pts) exactEnv_ok exactLnr_ok hi hinj hr exactEnv_ok exactLnr_ok hi2 hinj hr2 rfl rfl rfl rfl rfl rfl
    (cv := []) (cv' := []) (by simp) (by simp) (by simpa using ridgeLine_noSpikes.1) (by simpa using ridgeLine_noSpikes.2) hnj e1 (by simpa using hsub)
    (fun g hg => ⟨g, hg, rfl⟩) (fun g hg => ⟨g, hg, rfl⟩) (fun v _ => iff_of_false (fun h => by cases h.1) (fun h => by cases h.1)) e2
  refine this.2 (fun v v0 v1 => .inr ?_)
  have hv : v = 1 := by simp [ridgeLine2] at v1; omega
  subst hv
  exact not_joinable_of_rejected ridge_rejected.2.1

end Planar

/-! ### the witnesses -/

/-- a line over a constraint point -/
def twiceLine : Demo.Line Plane.Pt (List Plane.Pt) ℚ :=
  ⟨[(0, 5), (5, 0), (4, 7), (0, 0), (1, 7), (5, 5)], [[(4, 1)]], { Plane.opts 40 1 with geomRelation := true }⟩

/-- the line through its kept vertices -/
def onceLine : Demo.Line Plane.Pt (List Plane.Pt) ℚ := ⟨[(0, 5), (5, 0), (0, 0), (5, 5)], [[(4, 1)]], { Plane.opts 40 1 with geomRelation := true }⟩

/-- C110 refuted.  The simplified line keeps the vertices 0, 1, 3 and 5; its last two segments were open to the merge pass only with the first one, since they are no single
segments of the given line.  Simplified again, all segments are single, and the merge pass joins the last two.  (Without constraints: C66.) -/
theorem C110_refuted : ∃ o1 d1 o2 d2, Plane.run twiceLine [] = .ok (o1, d1) ∧ o1.simple = [0, 1, 3, 5] ∧
    onceLine.pts = o1.simple.filterMap (fun v => twiceLine.pts[v.toNat]?) ∧ Plane.run onceLine [] = .ok (o2, d2) ∧ o2.simple = [0, 1, 3] := by
  have key : ∀ {r : Res (Out Plane.Pt (List Plane.Pt) Plane.Bx × (Int → Bool))} {l : List Int}, (match r with | .ok (o, _) => o.simple | _ => []) = l → l ≠ [] →
      ∃ o d, r = .ok (o, d) ∧ o.simple = l := by
    intro r l h1 h2
    cases r with
    | ok r => exact ⟨r.1, r.2, rfl, h1⟩
    | panic => exact absurd h1.symm h2
    | timeout => exact absurd h1.symm h2
  obtain ⟨o1, d1, e1, h1⟩ := key (r := Plane.run twiceLine []) (l := [0, 1, 3, 5]) (by decide +kernel) (by simp)
  obtain ⟨o2, d2, e2, h2⟩ := key (r := Plane.run onceLine []) (l := [0, 1, 3]) (by decide +kernel) (by simp)
  exact ⟨o1, d1, o2, d2, e1, h1, by rw [h1]; decide +kernel, e2, h2⟩

end Verif
