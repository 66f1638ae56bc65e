import Verif.Lemmas.Mirror
import Verif.Lemmas.PlanarPath
import Verif.Props.C108_Similar

/-! C109: whether a line given in the other direction keeps the same vertices. -/

set_option linter.unusedSectionVars false

namespace Verif

/-! ### when the merge pass has nothing to do -/

/-- Specification: among the connected segments `ls`, no single segment of the line can be joined with the one after or before it. -/
def NothingToJoin (fixed : Int → Prop) (ok : Int → Int → Prop) (ls : List Rng) : Prop :=
  ∀ r ∈ ls, ∀ s ∈ ls, r.J = s.I → r.J = r.I + 1 ∨ s.J = s.I + 1 → fixed r.J ∨ ¬ ok r.I s.J

theorem MergeSpec.nothing {fixed : Int → Prop} {ok : Int → Int → Prop} {a b : Int} : ∀ (rs d : List Rng), Chain a b (d ++ rs) → NothingToJoin fixed ok (d ++ rs) →
    MergeSpec fixed ok d rs (d ++ rs) := by
  intro rs
  induction rs with
  | nil => intro d _ _; rw [List.append_nil]; exact .done d
  | cons r rs ih =>
    intro d hc hn
    have e : d ++ r :: rs = (d ++ [r]) ++ rs := by simp
    rw [e]
    refine .keep r (fun h1 => ⟨fun n hr hf hok => ?_, fun p hp hf hok => ?_⟩) (ih _ (by rw [← e]; exact hc) (by rw [← e]; exact hn))
    · obtain ⟨n', rs', rfl⟩ : ∃ x l, rs = x :: l := by cases rs with | nil => cases hr | cons x l => exact ⟨x, l, rfl⟩
      cases hr
      obtain ⟨c, -, -, -, h4, -, -⟩ := Chain.append_iff.1 hc
      rcases hn r (by simp) n (by simp) h4.symm (.inl h1) with h | h
      · exact hf h
      · exact h hok
    · have hpm := List.mem_of_getLast? hp
      obtain ⟨d', rfl⟩ : ∃ d', d = d' ++ [p] := ⟨_, (List.dropLast_append_getLast? p hp).symm⟩
      rw [List.append_assoc] at hc
      obtain ⟨c, -, -, -, h4, -, -⟩ := Chain.append_iff.1 hc
      rcases hn p (by simp) r (by simp) h4.symm (.inr h1) with h | h
      · rw [← h4] at h; exact hf h
      · exact h hok

namespace Planar

theorem lineSet_reverse : ∀ l : List ℂ, lineSet l.reverse = lineSet l
  | [] => rfl
  | [a] => rfl
  | a :: b :: l => by
    have ih := lineSet_reverse (b :: l)
    rw [List.reverse_cons] at ih
    rw [List.reverse_cons, List.reverse_cons, List.append_assoc, List.cons_append, List.nil_append, lineSet_append_cons, ih]
    simp only [lineSet]
    rw [Set.union_comm (segment ℝ b a), Set.union_comm (segment ℝ a b), segment_symm, ← Set.union_assoc]
    have : b ∈ lineSet (b :: l) := mem_lineSet_of_mem (by simp)
    ext z
    simp only [Set.mem_union, Set.mem_singleton_iff]
    constructor
    · rintro ((h | rfl) | h)
      · exact .inl h
      · exact .inr (left_mem_segment ℝ z b)
      · exact .inr h
    · rintro (h | h)
      · exact .inl (.inl h)
      · exact .inr h

theorem chordSet_reverse (l : List ℂ) : chordSet l.reverse = chordSet l := by
  ext z
  simp only [chordSet, List.head?_reverse, List.getLast?_reverse, Set.mem_ofPred_eq]
  constructor
  · rintro ⟨a, b, h1, h2, h3⟩; exact ⟨b, a, h2, h1, by rwa [segment_symm]⟩
  · rintro ⟨a, b, h1, h2, h3⟩; exact ⟨b, a, h2, h1, by rwa [segment_symm]⟩

theorem hullSet_reverse (l : List ℂ) : hullSet l.reverse = hullSet l := by
  simp only [hullSet, List.mem_reverse]

/-- the distance of the vertex `v` of a line from the segment between its vertices `i` and `j` -/
noncomputable def chordGap (l : List ℂ) (i j v : Int) : ℝ := gap {l.getD v.toNat 0} (segment ℝ (l.getD i.toNat 0) (l.getD j.toNat 0))

theorem getD_reverse (l : List ℂ) {v : Int} (h0 : 0 ≤ v) (h1 : v < l.length) : l.reverse.getD v.toNat 0 = l.getD (l.length - 1 - v).toNat 0 := by
  simp only [List.getD_eq_getElem?_getD]
  rw [List.getElem?_reverse (by omega)]
  congr 3
  omega

theorem chordGap_reverse (l : List ℂ) {i j v : Int} (h0 : 0 ≤ i) (h1 : i < l.length) (h2 : 0 ≤ j) (h3 : j < l.length) (h4 : 0 ≤ v) (h5 : v < l.length) :
    chordGap l.reverse (l.length - 1 - j) (l.length - 1 - i) (l.length - 1 - v) = chordGap l i j v := by
  have e : ∀ x : Int, (l.length : Int) - 1 - (l.length - 1 - x) = x := fun x => by omega
  rw [chordGap, getD_reverse l (by omega) (by omega), getD_reverse l (by omega) (by omega), getD_reverse l (by omega) (by omega), e, e, e, segment_symm, chordGap]

section
variable {P C : Type} {pos : P → ℂ} {region : C → Set ℂ} {env : Env P C EReal ℝ} {pts : Int → List P} {h : Int} {cs : List C} {t m : ℝ}

/-- the score of a sub-line: the last vertex of the greatest distance from the chord -/
theorem ExactRun.lastFarthest (hr : ExactRun pos region env h cs t m) {i j : Int} (h0 : 0 ≤ i) (h1 : i + 1 < j) (h2 : j < (pts h).length) :
    ∃ k v, (env.inst h).scoreFn (Coords.sub (pts h) i j) = .ok (k, v) ∧ 0 < k ∧ k < j - i ∧
      ((env.inst h).rel v = true ↔ chordGap ((pts h).map pos) i j (i + k) ≤ t) ∧
      (∀ x, i < x → x < j → chordGap ((pts h).map pos) i j x ≤ chordGap ((pts h).map pos) i j (i + k)) ∧
      ∀ x, i + k < x → x < j → chordGap ((pts h).map pos) i j x < chordGap ((pts h).map pos) i j (i + k) := by
  obtain ⟨w, w0, hw, hrel, hsc⟩ := hr.score
  have p1 := points_sub (pts h) h0 (by omega : i ≤ j) h2
  have p2 := wellIndexed_sub (pts := pts h) (i := i) (j := j) h0 h2
  have l1 : (Coords.sub (pts h) i j).len = j - i + 1 := by
    rw [p2.length, p1, between, List.length_take, List.length_drop]; omega
  have hne : pts h ≠ [] := fun hn => by rw [hn] at h2; simp at h2; omega
  obtain ⟨p0, q0, hpq⟩ := List.exists_cons_of_ne_nil hne
  have hq : ∀ k : Int, 0 ≤ k → k < (Coords.sub (pts h) i j).len → (Coords.sub (pts h) i j).pt k = .ok ((pts h).getD (i + k).toNat p0) := by
    intro k k0 k1
    obtain ⟨n, rfl⟩ := Int.eq_ofNat_of_zero_le k0
    have a1 : n < (Coords.sub (pts h) i j).points.length := by have := p2.length; omega
    rw [p2.pt_get a1]
    have e : (Coords.sub (pts h) i j).points[n]? = some ((pts h).getD (i + (n : Int)).toNat p0) := by
      rw [p1, between, List.getElem?_take_of_lt (by omega), List.getElem?_drop]
      have e1 : i.toNat + n = (i + (n : Int)).toNat := by omega
      rw [e1, List.getD_eq_getElem?_getD, List.getElem?_eq_getElem (by omega), Option.getD_some]
    rw [List.getElem?_eq_getElem a1] at e
    rw [Option.some.injEq] at e
    rw [e]
  have hg : ∀ x : Int, 0 ≤ x → x < (pts h).length → pos ((pts h).getD x.toNat p0) = ((pts h).map pos).getD x.toNat 0 := by
    intro x x0 x1
    simp only [List.getD_eq_getElem?_getD, List.getElem?_map]
    rw [List.getElem?_eq_getElem (by omega), Option.getD_some, Option.map_some, Option.getD_some]
  obtain ⟨k, e, k0, k1, k2, k3⟩ := C03_maxOffset (fun a b p => .fin (w (gap {pos p} (segment ℝ (pos a) (pos b))))) (Coords.sub (pts h) i j)
    (fun k => (pts h).getD (i + k).toNat p0) (by omega) hq (fun x _ _ => by
      have := (hw 0 _ le_rfl (gap_nonneg {pos ((pts h).getD (i + x).toNat p0)} (segment ℝ (pos ((pts h).getD (i + 0).toNat p0))
        (pos ((pts h).getD (i + ((Coords.sub (pts h) i j).len - 1)).toNat p0))))).2 (gap_nonneg _ _)
      rw [w0] at this
      exact decide_eq_true this)
  have ej : i + ((Coords.sub (pts h) i j).len - 1) = j := by omega
  have hd : ∀ x : Int, 0 < x → x < j - i → gap {pos ((pts h).getD (i + x).toNat p0)} (segment ℝ (pos ((pts h).getD (i + 0).toNat p0))
      (pos ((pts h).getD (i + ((Coords.sub (pts h) i j).len - 1)).toNat p0))) = chordGap ((pts h).map pos) i j (i + x) := by
    intro x x0 x1
    rw [ej, Int.add_zero, hg _ (by omega) (by omega), hg _ (by omega) (by omega), hg _ (by omega) (by omega), chordGap]
  rw [hsc]
  refine ⟨k, _, e, k0, by omega, ?_, fun x x0 x1 => ?_, fun x x0 x1 => ?_⟩
  · rw [hd k k0 (by omega)]
    exact hrel _ (gap_nonneg _ _)
  · have := k2 (x - i) (by omega) (by omega)
    rw [hd _ (by omega) (by omega), hd k k0 (by omega)] at this
    have := (hw _ _ (gap_nonneg _ _) (gap_nonneg _ _)).1 (of_decide_eq_true this)
    have ex : i + (x - i) = x := by omega
    rwa [ex] at this
  · have := k3 (x - i) (by omega) (by omega)
    rw [hd _ (by omega) (by omega), hd k k0 (by omega)] at this
    have ex : i + (x - i) = x := by omega
    rw [ex] at this
    have := of_decide_eq_true this
    refine lt_of_not_ge fun hle => absurd this (not_lt.2 ((hw _ _ (gap_nonneg _ _) (gap_nonneg _ _)).2 hle))

/-- the score of a sub-line: a vertex of the greatest distance from the chord -/
theorem ExactRun.farthest (hr : ExactRun pos region env h cs t m) {i j : Int} (h0 : 0 ≤ i) (h1 : i + 1 < j) (h2 : j < (pts h).length) :
    ∃ k v, (env.inst h).scoreFn (Coords.sub (pts h) i j) = .ok (k, v) ∧ 0 < k ∧ k < j - i ∧
      ((env.inst h).rel v = true ↔ chordGap ((pts h).map pos) i j (i + k) ≤ t) ∧
      ∀ x, i < x → x < j → chordGap ((pts h).map pos) i j x ≤ chordGap ((pts h).map pos) i j (i + k) := by
  obtain ⟨k, v, a, b, c, d, e, -⟩ := hr.lastFarthest h0 h1 h2
  exact ⟨k, v, a, b, c, d, e⟩

end

section
variable {P C P' C' : Type} {pos : P → ℂ} {region : C → Set ℂ} {env : Env P C EReal ℝ} {pts : Int → List P} {h : Int} {cs : List C} {t m : ℝ}
variable {pos' : P' → ℂ} {region' : C' → Set ℂ} {env' : Env P' C' EReal ℝ} {pts' : Int → List P'} {h' : Int} {cs' : List C'}

/-- The second line is the first one in the other direction; the constraints are the same. -/
structure Reversed (pos : P → ℂ) (region : C → Set ℂ) (ps : List P) (cs : List C) (pos' : P' → ℂ) (region' : C' → Set ℂ) (ps' : List P') (cs' : List C') : Prop where
  line : ps'.map pos' = (ps.map pos).reverse
  image : ∀ g ∈ cs, ∃ g' ∈ cs', region' g' = region g
  back : ∀ g' ∈ cs', ∃ g ∈ cs, region' g' = region g

theorem Reversed.length {ps : List P} {ps' : List P'} (hv : Reversed pos region ps cs pos' region' ps' cs') : ps.length = ps'.length := by
  have := congrArg List.length hv.line
  simpa using this.symm

theorem Reversed.places {ps : List P} {ps' : List P'} (hv : Reversed pos region ps cs pos' region' ps' cs') {i j : Int} (h0 : 0 ≤ i) (h1 : i < j) (h2 : j < ps.length) :
    places pos' ps' (ps.length - 1 - j) (ps.length - 1 - i) = (places pos ps i j).reverse := by
  simp only [Planar.places, between, List.map_take, List.map_drop, hv.line]
  rw [List.drop_reverse, List.take_reverse, List.length_take, List.length_map, List.drop_take]
  have e1 : min (ps.length - ((ps.length : Int) - 1 - j).toNat) ps.length - ((ps.length : Int) - 1 - i + 1 - (ps.length - 1 - j)).toNat = i.toNat := by omega
  have e2 : ps.length - ((ps.length : Int) - 1 - j).toNat - i.toNat = (j + 1 - i).toNat := by omega
  rw [e1, e2]

theorem Reversed.get {ps : List P} {ps' : List P'} (hv : Reversed pos region ps cs pos' region' ps' cs') {k : Nat} {p : P} (hk : ps[k]? = some p) :
    ∃ p', ps'[ps.length - 1 - k]? = some p' ∧ pos' p' = pos p := by
  have hlen := hv.length
  have hlt := (List.getElem?_eq_some_iff.1 hk).1
  refine ⟨ps'[ps.length - 1 - k], List.getElem?_eq_getElem (by omega), ?_⟩
  have := congrArg (fun l => l[ps.length - 1 - k]?) hv.line
  simp only [List.getElem?_map] at this
  rw [List.getElem?_reverse (by simp; omega), List.getElem?_eq_getElem (by omega), Option.map_some, List.length_map, List.getElem?_map] at this
  have e : ps.length - 1 - (ps.length - 1 - k) = k := by omega
  rw [e, hk] at this
  simpa using this

/-- the other way round -/
theorem Reversed.symm {ps : List P} {ps' : List P'} (hv : Reversed pos region ps cs pos' region' ps' cs') : Reversed pos' region' ps' cs' pos region ps cs where
  line := by rw [hv.line, List.reverse_reverse]
  image g' hg' := by obtain ⟨g, hg, e⟩ := hv.back g' hg'; exact ⟨g, hg, e.symm⟩
  back g hg := by obtain ⟨g', hg', e⟩ := hv.image g hg; exact ⟨g', hg', e.symm⟩

theorem Reversed.crossed_imp {ps : List P} {ps' : List P'} (hv : Reversed pos region ps cs pos' region' ps' cs') {k : Nat} (hk : Crossed pos ps k) :
    k < ps.length ∧ Crossed pos' ps' (ps.length - 1 - k) := by
  obtain ⟨a, b, p, p', q, q', z, hab, h1, h2, h3, h4, hz, hn, hk⟩ := hk
  have hb := (List.getElem?_eq_some_iff.1 h4).1
  obtain ⟨x1, y1, e1⟩ := hv.get h1
  obtain ⟨x2, y2, e2⟩ := hv.get h2
  obtain ⟨x3, y3, e3⟩ := hv.get h3
  obtain ⟨x4, y4, e4⟩ := hv.get h4
  refine ⟨by omega, ps.length - 1 - (b + 1), ps.length - 1 - (a + 1), x4, x3, x2, x1, z, by omega, y4, ?_, y2, ?_, ?_, ?_, by omega⟩
  · rw [← y3]; congr 1; omega
  · rw [← y1]; congr 1; omega
  · rw [e1, e2, e3, e4, segment_symm ℝ (pos q'), segment_symm ℝ (pos p'), Set.inter_comm]; exact hz
  · rw [e1, e2, e3, e4]; tauto

/-- crossings stay crossings -/
theorem Reversed.crossed {ps : List P} {ps' : List P'} (hv : Reversed pos region ps cs pos' region' ps' cs') {k : Nat} (hk : k < ps.length) :
    Crossed pos ps k ↔ Crossed pos' ps' (ps.length - 1 - k) := by
  refine ⟨fun hc => (hv.crossed_imp hc).2, fun hc => ?_⟩
  have := (hv.symm.crossed_imp hc).2
  have e : ps'.length - 1 - (ps.length - 1 - k) = k := by have := hv.length; omega
  rwa [e] at this

theorem Reversed.revisited_imp {ps : List P} {ps' : List P'} (hv : Reversed pos region ps cs pos' region' ps' cs') {k : Nat} (hk : Revisited pos ps k) :
    k < ps.length ∧ Revisited pos' ps' (ps.length - 1 - k) := by
  obtain ⟨l, p, q, s, hkl, h1, h2, h3, h4, h5⟩ := hk
  have b1 := (List.getElem?_eq_some_iff.1 h1).1
  have b2 := (List.getElem?_eq_some_iff.1 h2).1
  obtain ⟨n, hn⟩ := List.getElem?_of_mem h4
  obtain ⟨x1, y1, e1⟩ := hv.get h1
  obtain ⟨x2, y2, e2⟩ := hv.get h2
  obtain ⟨x3, y3, e3⟩ := hv.get hn
  exact ⟨b1, ps.length - 1 - l, x1, x2, x3, by omega, y1, y2, by rw [e1, e2, h3], List.mem_of_getElem? y3, by rwa [e1, e3]⟩

/-- the repeated places that are found are the same -/
theorem Reversed.revisited {ps : List P} {ps' : List P'} (hv : Reversed pos region ps cs pos' region' ps' cs') {k : Nat} (hk : k < ps.length) :
    Revisited pos ps k ↔ Revisited pos' ps' (ps.length - 1 - k) := by
  refine ⟨fun hc => (hv.revisited_imp hc).2, fun hc => ?_⟩
  have := (hv.symm.revisited_imp hc).2
  have e : ps'.length - 1 - (ps.length - 1 - k) = k := by have := hv.length; omega
  rwa [e] at this

/-- a piece and the piece of the mirrored range get the same verdict, unless the direction relation is requested -/
theorem Reversed.verdict (hv : Reversed pos region (pts h) cs pos' region' (pts' h') cs') (hr : ExactRun pos region env h cs t m) (hi : InstOK env h (pts h))
    (hr' : ExactRun pos' region' env' h' cs' t m) (hi' : InstOK env' h' (pts' h')) (hg : (env'.inst h').opts.geomRelation = (env.inst h).opts.geomRelation)
    (hd : (env'.inst h').opts.distRelation = (env.inst h).opts.distRelation) (hs : (env.inst h).opts.dirRelation = false) (hs' : (env'.inst h').opts.dirRelation = false)
    {nd : Node P C EReal} (hk : Known env pts [h] nd) {nd' : Node P' C' EReal} (hk' : Known env' pts' [h'] nd') (hrng : nd'.range = nd.range.mirror ((pts h).length - 1)) (b : Bool) :
    Yields (validateContextRelation env nd (env.inst h)) b ↔ Yields (validateContextRelation env' nd' (env'.inst h')) b := by
  obtain ⟨x, hx, hxt⟩ := hr.verdict hi hk
  obtain ⟨y, hy, hyt⟩ := hr'.verdict hi' hk'
  have hins : nd.inst = h := by simpa using hk.inst
  have hhi := hk.hi
  rw [hins] at hhi
  have hpl := hv.places hk.lo hk.lt hhi
  have e1 : nd'.range.I = (pts h).length - 1 - nd.range.J := by rw [hrng]; rfl
  have e2 : nd'.range.J = (pts h).length - 1 - nd.range.I := by rw [hrng]; rfl
  have hxy : x = true ↔ y = true := by
    rw [hxt, hyt, hg, hd, hs, hs', e1, e2, hpl, chordSet_reverse, lineSet_reverse]
    refine and_congr (imp_congr_right fun _ => ?_) (and_congr (imp_congr_right fun _ => ?_) (by simp))
    · constructor
      · intro H g' hg'
        obtain ⟨g, hg, e⟩ := hv.back g' hg'
        rw [e]; exact H g hg
      · intro H g hg
        obtain ⟨g', hg', e⟩ := hv.image g hg
        rw [← e]; exact H g' hg'
    · constructor
      · intro H g' hg'
        obtain ⟨g, hg, e⟩ := hv.back g' hg'
        rw [e]; exact H g hg
      · intro H g hg
        obtain ⟨g', hg', e⟩ := hv.image g hg
        rw [← e]; exact H g' hg'
  have hxy' : x = y := Bool.eq_iff_iff.2 hxy
  exact ⟨fun hb => by rw [hb.unique hx, hxy']; exact hy, fun hb => by rw [hb.unique hy, ← hxy']; exact hx⟩

/-- hulls are lines alike -/
theorem Reversed.isLine (hv : Reversed pos region (pts h) cs pos' region' (pts' h') cs') (he : Exact pos region env.lib) (he' : Exact pos' region' env'.lib)
    {nd : Node P C EReal} (hk : Known env pts [h] nd) {nd' : Node P' C' EReal} (hk' : Known env' pts' [h'] nd') (hrng : nd'.range = nd.range.mirror ((pts h).length - 1)) :
    nd.geom.isLineString = nd'.geom.isLineString := by
  have key : ∀ {P C : Type} {c : Coords P} {g : Geo P C}, hullGeometry c = .ok g → (g.isLineString = true ↔ c.len = 2) := by
    intro P C c g hg
    unfold hullGeometry at hg
    split at hg
    · cases hg; simp only [Geo.isLineString, Bool.false_eq_true, false_iff]; omega
    · split at hg
      · cases hg; simpa [Geo.isLineString]
      · obtain ⟨p, -, hp⟩ := Res.bind_eq_ok.1 hg
        cases hp
        simp only [Geo.isLineString, Bool.false_eq_true, false_iff]; assumption
  have hins : nd.inst = h := by simpa using hk.inst
  have hhi := hk.hi
  rw [hins] at hhi
  have hlo := hk.lo
  have hlt := hk.lt
  obtain ⟨p1, p2⟩ := known_points hk
  obtain ⟨p1', p2'⟩ := known_points hk'
  have hg := hk.piece.geom
  have hg' := hk'.piece.geom
  rw [← hk.piece.coords] at hg
  rw [← hk'.piece.coords] at hg'
  rw [Bool.eq_iff_iff, key hg, key hg', (he.hullIndexed _ p2).length, (he'.hullIndexed _ p2').length]
  have e1 := he.hullCorners _ p2
  have e2 := he'.hullCorners _ p2'
  have n1 := he.hullOnce _ p2
  have n2 := he'.hullOnce _ p2'
  have hpl : nd'.coords.points.map pos' = (nd.coords.points.map pos).reverse := by
    rw [p1, p1', hrng]; exact hv.places hlo hlt hhi
  rw [hpl, hullSet_reverse, ← e1] at e2
  have hperm : ((env'.lib.convexHull nd'.coords).points.map pos').Perm ((env.lib.convexHull nd.coords).points.map pos) := by
    refine (List.perm_ext_iff_of_nodup n2 n1).2 (fun z => ?_)
    have := Set.ext_iff.1 e2 z
    simpa using this
  have := hperm.length_eq
  simp only [List.length_map] at this
  omega

/-- Specification: no sub-line that is cut — because a vertex is farther than `t` from the chord, or because it is `bad` — has two farthest vertices. -/
def NoTies (l : List ℂ) (t : ℝ) (bad : Int → Int → Prop) : Prop :=
  ∀ i j u v : Int, 0 ≤ i → j < l.length → i < u → u < j → i < v → v < j → chordGap l i j u = chordGap l i j v →
    (∀ x, i < x → x < j → chordGap l i j x ≤ chordGap l i j u) → t < chordGap l i j u ∨ bad i j → u = v

/-- a sub-line is rejected when its mirror image is -/
theorem Reversed.rejected (hv : Reversed pos region (pts h) cs pos' region' (pts' h') cs') (hr : ExactRun pos region env h cs t m) (hi : InstOK env h (pts h))
    (hr' : ExactRun pos' region' env' h' cs' t m) (hi' : InstOK env' h' (pts' h')) (hg : (env'.inst h').opts.geomRelation = (env.inst h).opts.geomRelation)
    (hd : (env'.inst h').opts.distRelation = (env.inst h).opts.distRelation) (hs : (env.inst h).opts.dirRelation = false) (hs' : (env'.inst h').opts.dirRelation = false)
    {i j : Int} (h0 : 0 ≤ i) (h1 : i < j) (h2 : j < (pts h).length) :
    Rejected env pts h i j ↔ Rejected env' pts' h' ((pts h).length - 1 - j) ((pts h).length - 1 - i) := by
  have hlen := hv.length
  refine and_congr (by omega) ?_
  constructor
  · rintro ⟨nd, q1, q2, q3, q4⟩
    have hk := known_of_piece q1 q2 h0 h1 h2
    obtain ⟨nd', hk', q1', q2'⟩ := known_of_range (pts := pts') (h := h') (i := (pts h).length - 1 - j) (j := (pts h).length - 1 - i) hi' (by omega) (by omega) (by omega)
    have hrng : nd'.range = nd.range.mirror ((pts h).length - 1) := by rw [q2, q2']; rfl
    exact ⟨nd', q1', q2', by rw [← hv.isLine hr.exact hr'.exact hk hk' hrng]; exact q3, (hv.verdict hr hi hr' hi' hg hd hs hs' hk hk' hrng _).1 q4⟩
  · rintro ⟨nd', q1, q2, q3, q4⟩
    have hk' := known_of_piece q1 q2 (by omega) (by omega) (by omega)
    obtain ⟨nd, hk, q1', q2'⟩ := known_of_range hi h0 h1 h2
    have hrng : nd'.range = nd.range.mirror ((pts h).length - 1) := by rw [q2, q2']; rfl
    exact ⟨nd, q1', q2', by rw [hv.isLine hr.exact hr'.exact hk hk' hrng]; exact q3, (hv.verdict hr hi hr' hi' hg hd hs hs' hk hk' hrng _).2 q4⟩

/-- the scores of a sub-line and its mirror image compare alike with the threshold; without ties they name the same vertex -/
theorem Reversed.score (hv : Reversed pos region (pts h) cs pos' region' (pts' h') cs') (hr : ExactRun pos region env h cs t m) (hi : InstOK env h (pts h))
    (hr' : ExactRun pos' region' env' h' cs' t m) (hi' : InstOK env' h' (pts' h')) {i j : Int} (h0 : 0 ≤ i) (h1 : i < j) (h2 : j < (pts h).length) {k : Int} {v : Fl ℝ}
    (e : (env.inst h).scoreFn (Coords.sub (pts h) i j) = .ok (k, v)) :
    ∃ k' v', (env'.inst h').scoreFn (Coords.sub (pts' h') ((pts h).length - 1 - j) ((pts h).length - 1 - i)) = .ok (k', v') ∧
      (env.inst h).rel v = (env'.inst h').rel v' ∧
      (∀ bad, NoTies ((pts h).map pos) t bad → (env.inst h).rel v = false ∨ (i + 1 < j ∧ bad i j) → k' = j - i - k) := by
  have hlen := hv.length
  by_cases hn : i + 1 < j
  · obtain ⟨k1, v1, e1, a1, b1, c1, d1⟩ := hr.farthest h0 hn h2
    obtain ⟨k2, v2, e2, a2, b2, c2, d2⟩ := hr'.farthest (pts := pts') (i := (pts h).length - 1 - j) (j := (pts h).length - 1 - i) (by omega) (by omega) (by omega)
    rw [e] at e1
    cases e1
    have hgap : ∀ x : Int, i < x → x < j → chordGap ((pts' h').map pos') ((pts h).length - 1 - j) ((pts h).length - 1 - i) ((pts h).length - 1 - x) =
        chordGap ((pts h).map pos) i j x := by
      intro x x0 x1
      rw [hv.line]
      have := chordGap_reverse ((pts h).map pos) (i := i) (j := j) (v := x) (by omega) (by simp; omega) (by omega) (by simpa using h2) (by omega) (by simp; omega)
      simpa using this
    have f1 := d1 (j - k2) (by omega) (by omega)
    have f2 := d2 ((pts h).length - 1 - (i + k)) (by omega) (by omega)
    have g1 := hgap (j - k2) (by omega) (by omega)
    have eq1 : ((pts h).length : Int) - 1 - (j - k2) = (pts h).length - 1 - j + k2 := by omega
    rw [eq1] at g1
    rw [g1, hgap _ (by omega) (by omega)] at f2
    have heq : chordGap ((pts h).map pos) i j (j - k2) = chordGap ((pts h).map pos) i j (i + k) := le_antisymm f1 f2
    refine ⟨k2, v2, e2, ?_, fun bad hnt hc => ?_⟩
    · rw [Bool.eq_iff_iff, c1, c2, g1, heq]
    · have := hnt i j (i + k) (j - k2) h0 (by simpa using h2) (by omega) (by omega) (by omega) (by omega) heq.symm d1 (by
        refine hc.imp (fun hc => ?_) And.right
        by_contra hle
        rw [(c1).2 (not_lt.1 hle)] at hc
        cases hc)
      omega
  · obtain ⟨k0, v0, x1, x2⟩ := hi'.inside ((pts h).length - 1 - j) ((pts h).length - 1 - i) (by omega) (by omega) (by omega)
    obtain ⟨k3, v3, x3, x4⟩ := hi.inside i j h0 h1 h2
    rw [e] at x3
    cases x3
    have r1 : (env.inst h).rel v = true := by
      cases hh : (env.inst h).rel v with
      | true => rfl
      | false => have := x4 hh; omega
    have r2 : (env'.inst h').rel v0 = true := by
      cases hh : (env'.inst h').rel v0 with
      | true => rfl
      | false => have := x2 hh; omega
    refine ⟨k0, v0, x1, by rw [r1, r2], fun bad _ hc => ?_⟩
    rw [r1] at hc
    rcases hc with hc | hc
    · cases hc
    · omega

/-- what can be joined, can be joined in the mirror image -/
theorem Reversed.joinable (hv : Reversed pos region (pts h) cs pos' region' (pts' h') cs') (hr : ExactRun pos region env h cs t m) (hi : InstOK env h (pts h))
    (hr' : ExactRun pos' region' env' h' cs' t m) (hi' : InstOK env' h' (pts' h')) (hg : (env'.inst h').opts.geomRelation = (env.inst h).opts.geomRelation)
    (hd : (env'.inst h').opts.distRelation = (env.inst h).opts.distRelation) (hs : (env.inst h).opts.dirRelation = false) (hs' : (env'.inst h').opts.dirRelation = false)
    {i j : Int} (h0 : 0 ≤ i) (h1 : i < j) (h2 : j < (pts h).length) :
    Joinable env pts h i j ↔ Joinable env' pts' h' ((pts h).length - 1 - j) ((pts h).length - 1 - i) := by
  have hlen := hv.length
  obtain ⟨k, v, e, -⟩ := hi.inside i j h0 h1 h2
  obtain ⟨k', v', e', hrel, -⟩ := hv.score hr hi hr' hi' h0 h1 h2 e
  refine and_congr ?_ ?_
  · rw [e, e']
    constructor
    · rintro ⟨_, _, a, b⟩; cases a; exact ⟨k', v', rfl, by rw [← hrel]; exact b⟩
    · rintro ⟨_, _, a, b⟩; cases a; exact ⟨k, v, rfl, by rw [hrel]; exact b⟩
  · constructor
    · rintro ⟨nd, q2, q1, q4⟩
      have hk := known_of_piece q1 q2 h0 h1 h2
      obtain ⟨nd', hk', q1', q2'⟩ := known_of_range (pts := pts') (h := h') (i := (pts h).length - 1 - j) (j := (pts h).length - 1 - i) hi' (by omega) (by omega) (by omega)
      have hrng : nd'.range = nd.range.mirror ((pts h).length - 1) := by rw [q2, q2']; rfl
      exact ⟨nd', q2', q1', (hv.verdict hr hi hr' hi' hg hd hs hs' hk hk' hrng _).1 q4⟩
    · rintro ⟨nd', q2, q1, q4⟩
      have hk' := known_of_piece q1 q2 (by omega) (by omega) (by omega)
      obtain ⟨nd, hk, q1', q2'⟩ := known_of_range hi h0 h1 h2
      have hrng : nd'.range = nd.range.mirror ((pts h).length - 1) := by rw [q2, q2']; rfl
      exact ⟨nd, q2', q1', (hv.verdict hr hi hr' hi' hg hd hs hs' hk hk' hrng _).2 q4⟩

variable {ids ids' : Nat → Int}

/-- C109, the part that holds.  A line in exact plane geometry and the same line in the other direction, the same constraints and options, the constraint vertices
mirrored; the direction relation is not requested, new self-intersections need not be avoided, and no sub-line that is cut has two farthest vertices.  Then both runs
keep only vertices of one and the same sequence of segments `ls`, seen from one end or from the other; and if no single segment among `ls` can be joined with a
neighbour, both keep the same vertices.  Missing for the full statement: ties and the merge pass, see `C109_refuted` and `C109_refuted_merge`. -/
theorem C109_reversal_partial (he : EnvOK env) (hl : LnrOK env.lnr) (hi : InstOK env h (pts h)) (hinj : Function.Injective ids) (hr : ExactRun pos region env h cs t m)
    (he' : EnvOK env') (hl' : LnrOK env'.lnr) (hi' : InstOK env' h' (pts' h')) (hinj' : Function.Injective ids') (hr' : ExactRun pos' region' env' h' cs' t m)
    (hv : Reversed pos region (pts h) cs pos' region' (pts' h') cs')
    (hav : (env.inst h).opts.avoidNewSelfIntersects = false) (hav' : (env'.inst h').opts.avoidNewSelfIntersects = false)
    (hg : (env'.inst h').opts.geomRelation = (env.inst h).opts.geomRelation) (hd : (env'.inst h').opts.distRelation = (env.inst h).opts.distRelation)
    (hs : (env.inst h).opts.dirRelation = false) (hs' : (env'.inst h').opts.dirRelation = false) (hp : (env'.inst h').opts.planarSelf = (env.inst h).opts.planarSelf)
    (hnp : (env'.inst h').opts.nonPlanarSelf = (env.inst h).opts.nonPlanarSelf)
    {cv cv' : List Int} (hcv : ∀ i ∈ cv, 0 ≤ i ∧ i < (pts h).length) (hcv' : ∀ i, i ∈ cv' ↔ (pts h).length - 1 - i ∈ cv)
    (hnt : NoTies ((pts h).map pos) t (Rejected env pts h))
    {d1 d1' d2 d2' : Int → Bool} {n1 n2 : Nat} {o1 : Out P C EReal} {o2 : Out P' C' EReal}
    (e1 : simplify env ids h cv d1 n1 = .ok (o1, d1')) (e2 : simplify env' ids' h' cv' d2 n2 = .ok (o2, d2')) :
    ∃ ls, Chain 0 ((pts h).length - 1) ls ∧ (∀ v ∈ o1.simple, EndOf ls v) ∧ (∀ v ∈ o2.simple, EndOf ls ((pts h).length - 1 - v)) ∧
      (NothingToJoin (FixedVertex env h cv) (Joinable env pts h) ls → ∀ v, v ∈ o1.simple ↔ ((pts h).length : Int) - 1 - v ∈ o2.simple) := by
  have hlen := hv.length
  have hcv2 : ∀ i ∈ cv', 0 ≤ i ∧ i < ((pts' h').length : Int) := by
    intro i hi
    have := hcv _ ((hcv' i).1 hi)
    omega
  have hfix : ∀ v : Int, FixedVertex env h cv v ↔ FixedVertex env' h' cv' ((pts h).length - 1 - v) := by
    intro v
    rw [hr.fixed hi, hr'.fixed hi', hp, hnp, hcv']
    have e : ((pts h).length : Int) - 1 - ((pts h).length - 1 - v) = v := by omega
    rw [e]
    refine and_congr_right fun hpl => or_congr_right ?_
    constructor
    · rintro ⟨k, rfl, hk⟩
      have hkl : k < (pts h).length := hk.elim (fun hk => (hv.revisited_imp hk).1) (fun hk => (hv.crossed_imp hk.2).1)
      exact ⟨(pts h).length - 1 - k, by omega, hk.imp (hv.revisited hkl).1 (And.imp_right (hv.crossed hkl).1)⟩
    · rintro ⟨k, hvk, hk⟩
      have hkl : k < (pts' h').length := hk.elim (fun hk => (hv.symm.revisited_imp hk).1) (fun hk => (hv.symm.crossed_imp hk.2).1)
      refine ⟨(pts' h').length - 1 - k, by omega, hk.imp (hv.symm.revisited hkl).1 (And.imp_right (hv.symm.crossed hkl).1)⟩
  have hmir : Mirrored (env.inst h).scoreFn (env.inst h).rel (FixedVertex env h cv) (Rejected env pts h) (pts h)
      (env'.inst h').scoreFn (env'.inst h').rel (FixedVertex env' h' cv') (Rejected env' pts' h') (pts' h') := by
    refine ⟨hlen, fun i j h0 h1 h2 k v e => ?_, hfix, fun i j h0 h1 h2 => hv.rejected hr hi hr' hi' hg hd hs hs' h0 h1 h2⟩
    obtain ⟨k', v', a, b, c⟩ := hv.score hr hi hr' hi' h0 h1 h2 e
    exact ⟨k', v', a, b, fun hc => c _ hnt (hc.imp_right (fun hb => ⟨hb.1, hb⟩))⟩
  obtain ⟨rs1, ⟨ls, hls, m1⟩, c1, p1, w1, q1⟩ := C107_run he hl hi hr.touching hinj hav hcv (fun _ => hr.splittable hi hcv) e1
  obtain ⟨rs2, ⟨ls2, hls2, m2⟩, c2, p2, w2, q2⟩ := C107_run he' hl' hi' hr'.touching hinj' hav' hcv2 (fun _ => hr'.splittable hi' hcv2) e2
  have := (hls.mirror hmir hi.two hi.inside (rejected_inside hi)).unique hls2
  subst this
  have hch := hls.chain (rejected_inside hi)
  have hch2 := hls2.chain (rejected_inside hi')
  refine ⟨ls, hch, fun v hv1 => by simpa using m1.ends v ((q1 v).1 hv1), fun v hv2 => endOf_mirror.1 (by simpa using m2.ends v ((q2 v).1 hv2)), fun hn v => ?_⟩
  have hn2 : NothingToJoin (FixedVertex env' h' cv') (Joinable env' pts' h') (mirror ((pts h).length - 1) ls) := by
    intro r hrm s hsm hrs hsz
    rw [mem_mirror] at hrm hsm
    have b1 := hch.mem hrm
    have b2 := hch.mem hsm
    simp only [Rng.mirror] at b1 b2
    have := hn _ hsm _ hrm (by simp only [Rng.mirror]; omega) (by simp only [Rng.mirror]; omega)
    simp only [Rng.mirror] at this
    refine this.imp (fun hf => ?_) (fun hj => ?_)
    · rw [hfix] at hf
      have e : ((pts h).length : Int) - 1 - ((pts h).length - 1 - s.I) = r.J := by omega
      rwa [e] at hf
    · rw [hv.joinable hr hi hr' hi' hg hd hs hs' (by omega) (by omega) (by omega)] at hj
      have ea : ((pts h).length : Int) - 1 - ((pts h).length - 1 - s.J) = s.J := by omega
      have eb : ((pts h).length : Int) - 1 - ((pts h).length - 1 - r.I) = r.I := by omega
      rwa [ea, eb] at hj
  have r1 : rs1 = ls := m1.unique (MergeSpec.nothing ls [] (by simpa using hch) (by simpa using hn))
  have r2 : rs2 = mirror ((pts h).length - 1) ls := m2.unique (MergeSpec.nothing _ [] (by simpa using hch2) (by simpa using hn2))
  rw [q1, q2, r1, r2, endOf_mirror]
  have e : ((pts h).length : Int) - 1 - ((pts h).length - 1 - v) = v := by omega
  rw [e]

end

/-! ### concrete cases: lines of the exact plane -/

/-- the line in the other direction -/
def backLine (l : Demo.Line ℂ Region ℝ) : Demo.Line ℂ Region ℝ := { l with pts := l.pts.reverse }

theorem backLine_reversed (l : Demo.Line ℂ Region ℝ) : Reversed id (fun r : Region => r.1) l.pts l.ctx id (fun r : Region => r.1) (backLine l).pts (backLine l).ctx where
  line := by simp [backLine]
  image g hg := ⟨g, hg, rfl⟩
  back g hg := ⟨g, hg, rfl⟩

/-- Every line of the exact plane without ties, with any constraints, options without direction relation: the statement of the theorem, and both runs end. -/
theorem C109_exact {l : Demo.Line ℂ Region ℝ} {t m : ℝ} (h2 : 2 ≤ l.pts.length) (ht : l.opts.sqThreshold = .fin t) (h0 : 0 ≤ t) (hm : l.opts.minDist = .fin m) (h1 : 0 ≤ m)
    (hs : l.opts.dirRelation = false) (ha : l.opts.avoidNewSelfIntersects = false) (hnt : NoTies l.pts t (Rejected (exactEnv (fun _ => l)) (fun _ => l.pts) 0)) :
    ∃ fuel o1 d1 o2 d2, simplify (exactEnv (fun _ => l)) (fun n => n) 0 [] (fun _ => false) fuel = .ok (o1, d1) ∧
      simplify (exactEnv (fun _ => backLine l)) (fun n => n) 0 [] (fun _ => false) fuel = .ok (o2, d2) ∧
      ∃ ls, Chain 0 (l.pts.length - 1) ls ∧ (∀ v ∈ o1.simple, EndOf ls v) ∧ (∀ v ∈ o2.simple, EndOf ls (l.pts.length - 1 - v)) ∧
        (NothingToJoin (FixedVertex (exactEnv (fun _ => l)) 0 []) (Joinable (exactEnv (fun _ => l)) (fun _ => l.pts) 0) ls →
          ∀ v, v ∈ o1.simple ↔ (l.pts.length : Int) - 1 - v ∈ o2.simple) := by
  have hinj : Function.Injective (fun n : Nat => (n : Int)) := fun a b h => by simpa using h
  have hi : InstOK (exactEnv (fun _ => l)) 0 l.pts := exactInst_ok (lines := fun _ => l) (h := 0) h2 (by rw [ht, Fl.fin_le_fin]; simpa using h0)
  have hi' : InstOK (exactEnv (fun _ => backLine l)) 0 (backLine l).pts :=
    exactInst_ok (lines := fun _ => backLine l) (h := 0) (by simpa [backLine] using h2) (by show (Fl.fin 0).le l.opts.sqThreshold = true; rw [ht, Fl.fin_le_fin]; simpa using h0)
  obtain ⟨⟨o1, d1⟩, N1, y1⟩ := C10_terminates (pts := fun _ => l.pts) (cv := []) exactEnv_ok exactLnr_ok hi hinj (by simp) (fun _ => false)
  obtain ⟨⟨o2, d2⟩, N2, y2⟩ := C10_terminates (pts := fun _ => (backLine l).pts) (cv := []) exactEnv_ok exactLnr_ok hi' hinj (by simp) (fun _ => false)
  have e1 := y1 (max N1 N2) (Nat.le_max_left _ _)
  have e2 := y2 (max N1 N2) (Nat.le_max_right _ _)
  refine ⟨max N1 N2, o1, d1, o2, d2, e1, e2, ?_⟩
  exact C109_reversal_partial (pts := fun _ => l.pts) (pts' := fun _ => (backLine l).pts) (cs := l.ctx) (cs' := (backLine l).ctx) (t := t) (m := m) exactEnv_ok exactLnr_ok hi hinj
    (exactRun (lines := fun _ => l) (h := 0) ht hm h1) exactEnv_ok exactLnr_ok hi' hinj (exactRun (lines := fun _ => backLine l) (h := 0) ht hm h1) (backLine_reversed l)
    ha ha rfl rfl hs hs rfl rfl (cv := []) (cv' := []) (by simp) (by simp) (by simpa using hnt) e1 e2

/-- a hill under one half plane and over another, which it meets -/
noncomputable def hill : Demo.Line ℂ Region ℝ := ⟨[0, ⟨1, 4⟩, ⟨3, 1⟩, 4], [above, below], { peakOpts with sqThreshold := .fin 2, dirRelation := false }⟩

theorem hill_noTies (bad : Int → Int → Prop) : NoTies hill.pts 2 bad := by
  have h1 : 4 ≤ chordGap hill.pts 0 3 1 := by
    refine le_csInf ⟨_, _, rfl, _, left_mem_segment ℝ _ _, rfl⟩ ?_
    rintro r ⟨x, rfl, y, ⟨a, b, ha, hb, hab, rfl⟩, rfl⟩
    have := Complex.abs_im_le_norm ((⟨1, 4⟩ : ℂ) - (a • (0 : ℂ) + b • (4 : ℂ)))
    simp only [Complex.sub_im, Complex.add_im, smul_zero, Complex.zero_im, Complex.real_smul, Complex.im_ofReal_mul] at this
    have e : (4 : ℂ).im = 0 := rfl
    rw [e] at this
    show (4 : ℝ) ≤ dist (⟨1, 4⟩ : ℂ) (a • (0 : ℂ) + b • (4 : ℂ))
    rw [dist_eq_norm]
    norm_num at this ⊢
    exact this
  have h2 : chordGap hill.pts 0 3 2 ≤ 1 := by
    have h3 : (3 : ℂ) ∈ segment ℝ (0 : ℂ) 4 := ⟨1 / 4, 3 / 4, by norm_num, by norm_num, by norm_num, by simp only [Complex.real_smul]; push_cast; norm_num⟩
    have : gap {(⟨3, 1⟩ : ℂ)} (segment ℝ (0 : ℂ) 4) ≤ dist (⟨3, 1⟩ : ℂ) 3 := gap_le rfl h3
    refine this.trans ?_
    have e : (⟨3, 1⟩ : ℂ) - 3 = Complex.I := by apply Complex.ext <;> simp
    rw [dist_eq_norm, e, Complex.norm_I]
  intro i j u v h0 hj hu hu' hv hv' he _ _
  have hj' : j < 4 := hj
  by_contra hne
  have : i = 0 ∧ j = 3 ∧ (u = 1 ∧ v = 2 ∨ u = 2 ∧ v = 1) := by omega
  rcases this with ⟨rfl, rfl, ⟨rfl, rfl⟩ | ⟨rfl, rfl⟩⟩ <;> linarith

/-- the hill and the hill in the other direction -/
example : ∃ fuel o1 d1 o2 d2, simplify (exactEnv (fun _ => hill)) (fun n => n) 0 [] (fun _ => false) fuel = .ok (o1, d1) ∧
    simplify (exactEnv (fun _ => backLine hill)) (fun n => n) 0 [] (fun _ => false) fuel = .ok (o2, d2) ∧
    ∃ ls, Chain 0 3 ls ∧ (∀ v ∈ o1.simple, EndOf ls v) ∧ (∀ v ∈ o2.simple, EndOf ls (3 - v)) ∧
      (NothingToJoin (FixedVertex (exactEnv (fun _ => hill)) 0 []) (Joinable (exactEnv (fun _ => hill)) (fun _ => hill.pts) 0) ls → ∀ v, v ∈ o1.simple ↔ 3 - v ∈ o2.simple) :=
  C109_exact (l := hill) (t := 2) (m := 1 / 2) (by simp [hill]) rfl (by norm_num) rfl (by norm_num) rfl rfl (hill_noTies _)

end Planar

/-! ### the witnesses -/

/-- a line on which two vertices are equally far from the chord -/
def tieLine : Demo.Line Plane.Pt (List Plane.Pt) ℚ := ⟨[(3, 1), (3, 4), (2, 0), (4, 3), (0, 4)], [], Plane.opts 2 1⟩

/-- a line over a constraint point, without ties -/
def joinLine : Demo.Line Plane.Pt (List Plane.Pt) ℚ :=
  ⟨[(7, 4), (5, 6), (4, 6), (6, 4), (7, 7), (3, 0)], [[(5, 6)]], { Plane.opts 3 1 with geomRelation := true }⟩

/-- C109 refuted.  Two vertices of the line are equally far from the chord; the search takes the later one.  In one direction the line keeps three vertices, in the other
all five. -/
theorem C109_refuted : ∃ o1 d1 o2 d2, Plane.run tieLine [] = .ok (o1, d1) ∧ Plane.run { tieLine with pts := tieLine.pts.reverse } [] = .ok (o2, d2) ∧
    o1.simple = [0, 3, 4] ∧ o2.simple = [0, 1, 2, 3, 4] := by
  have key : ∀ {r : Res (Out Plane.Pt (List Plane.Pt) Plane.Bx × (Int → Bool))} {l : List Int}, (match r with | .ok (o, _) => o.simple | _ => []) = l → l ≠ [] →
      ∃ o d, r = .ok (o, d) ∧ o.simple = l := by
    intro r l h1 h2
    cases r with
    | ok r => exact ⟨r.1, r.2, rfl, h1⟩
    | panic => exact absurd h1.symm h2
    | timeout => exact absurd h1.symm h2
  obtain ⟨o1, d1, e1, h1⟩ := key (r := Plane.run tieLine []) (l := [0, 3, 4]) (by decide +kernel) (by simp)
  obtain ⟨o2, d2, e2, h2⟩ := key (r := Plane.run { tieLine with pts := tieLine.pts.reverse } []) (l := [0, 1, 2, 3, 4]) (by decide +kernel) (by simp)
  exact ⟨o1, d1, o2, d2, e1, e2, h1, h2⟩

/-- C109 refuted without ties: no two inner vertices of a sub-line are equally far from its chord, but the merge pass goes from left to right.  Read backwards, the
second result keeps the vertices 0, 1, 4 and 5 of the line, the first one 0, 1 and 5. -/
theorem C109_refuted_merge : ∃ o1 d1 o2 d2, Plane.run joinLine [] = .ok (o1, d1) ∧ Plane.run { joinLine with pts := joinLine.pts.reverse } [] = .ok (o2, d2) ∧
    o1.simple = [0, 1, 5] ∧ o2.simple = [0, 1, 4, 5] ∧
    ∀ i j u v : Fin 6, i < u → u < v → v < j → Plane.ptSeg (joinLine.pts.getD i (0, 0)) (joinLine.pts.getD j (0, 0)) (joinLine.pts.getD u (0, 0)) ≠
      Plane.ptSeg (joinLine.pts.getD i (0, 0)) (joinLine.pts.getD j (0, 0)) (joinLine.pts.getD v (0, 0)) := by
  have key : ∀ {r : Res (Out Plane.Pt (List Plane.Pt) Plane.Bx × (Int → Bool))} {l : List Int}, (match r with | .ok (o, _) => o.simple | _ => []) = l → l ≠ [] →
      ∃ o d, r = .ok (o, d) ∧ o.simple = l := by
    intro r l h1 h2
    cases r with
    | ok r => exact ⟨r.1, r.2, rfl, h1⟩
    | panic => exact absurd h1.symm h2
    | timeout => exact absurd h1.symm h2
  obtain ⟨o1, d1, e1, h1⟩ := key (r := Plane.run joinLine []) (l := [0, 1, 5]) (by decide +kernel) (by simp)
  obtain ⟨o2, d2, e2, h2⟩ := key (r := Plane.run { joinLine with pts := joinLine.pts.reverse } []) (l := [0, 1, 4, 5]) (by decide +kernel) (by simp)
  exact ⟨o1, d1, o2, d2, e1, e2, h1, h2, by decide +kernel⟩

/-- a line between two constraint points, with the direction relation only -/
def sideLine : Demo.Line Plane.Pt (List Plane.Pt) ℚ :=
  ⟨[(9, 5), (4, 9), (1, 0), (8, 6), (1, 1), (6, 5), (1, 7)], [[(3, 8)], [(7, 4)]], { Plane.opts 20 20 with dirRelation := true }⟩

/-- C109 refuted for the direction relation: the test removes vertices in the order of the line.  In one direction it reduces the whole line to its chord and only the
ends are kept; in the other it gets stuck. -/
theorem C109_refuted_direction : ∃ o1 d1 o2 d2, Plane.run sideLine [] = .ok (o1, d1) ∧ Plane.run { sideLine with pts := sideLine.pts.reverse } [] = .ok (o2, d2) ∧
    o1.simple = [0, 6] ∧ o2.simple = [0, 4, 5, 6] := by
  have key : ∀ {r : Res (Out Plane.Pt (List Plane.Pt) Plane.Bx × (Int → Bool))} {l : List Int}, (match r with | .ok (o, _) => o.simple | _ => []) = l → l ≠ [] →
      ∃ o d, r = .ok (o, d) ∧ o.simple = l := by
    intro r l h1 h2
    cases r with
    | ok r => exact ⟨r.1, r.2, rfl, h1⟩
    | panic => exact absurd h1.symm h2
    | timeout => exact absurd h1.symm h2
  obtain ⟨o1, d1, e1, h1⟩ := key (r := Plane.run sideLine []) (l := [0, 6]) (by decide +kernel) (by simp)
  obtain ⟨o2, d2, e2, h2⟩ := key (r := Plane.run { sideLine with pts := sideLine.pts.reverse } []) (l := [0, 4, 5, 6]) (by decide +kernel) (by simp)
  exact ⟨o1, d1, o2, d2, e1, e2, h1, h2⟩

end Verif
