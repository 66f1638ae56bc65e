import Verif.Props.C117_Meetings
import Verif.Props.C31_Limits

/-! C118: crossings that exist are kept, and displaced no farther than `non_planar_displacement`. -/

set_option linter.unusedSectionVars false

namespace Verif
namespace Planar

/-! ### specification -/

/-- the places of the first and of the last vertex -/
def endPlaces (l : List ℂ) : Set ℂ := {z | l.head? = some z ∨ l.getLast? = some z}

/-- Specification: if the parts `A` and `B` of lines meet, then the segments that replace them meet; and if the parts and the segments meet at single points only,
and have no common end or are parts of different lines (`one = false`), then all these points are within `d` of each other. -/
def KeptWithin (d : ℝ) (one : Bool) (A B : List ℂ) : Prop :=
  (lineSet A ∩ lineSet B).Nonempty → (chordSet A ∩ chordSet B).Nonempty ∧
    ((one = true → Disjoint (endPlaces A) (endPlaces B)) → (lineSet A ∩ lineSet B).Finite → (chordSet A ∩ chordSet B).Finite →
      ∀ z ∈ lineSet A ∩ lineSet B, ∀ w ∈ chordSet A ∩ chordSet B, dist z w ≤ d)

section
variable {P C : Type}

/-- `Intersection` answers as the sets do: it gives common points, at least one if there are any, and all of them if there are finitely many; the distance of two
points is exact. -/
structure Cuts (pos : P → ℂ) (region : C → Set ℂ) (lib : Lib P C EReal ℝ) : Prop where
  some : ∀ a b, lib.intersects a b = true → lib.intersection a b ≠ []
  sound : ∀ a b, ∀ p ∈ lib.intersection a b, pos p ∈ shape pos region a ∩ shape pos region b
  all : ∀ a b, (shape pos region a ∩ shape pos region b).Finite → ∀ z ∈ shape pos region a ∩ shape pos region b, ∃ p ∈ lib.intersection a b, pos p = z
  ptDistance : ∀ p q, lib.ptDistance p q = .fin (dist (pos p) (pos q))

end

/-! ### proof -/

section
variable {P C : Type} {pos : P → ℂ} {region : C → Set ℂ} {env : Env P C EReal ℝ} {pts : Int → List P} {h h' : Int} {e dsp : ℝ}

theorem KeptWithin.symm {d : ℝ} {one : Bool} {A B : List ℂ} (hk : KeptWithin d one A B) : KeptWithin d one B A := by
  intro hm
  rw [Set.inter_comm] at hm
  obtain ⟨h1, h2⟩ := hk hm
  refine ⟨by rwa [Set.inter_comm], fun hd f1 f2 z hz w hw => ?_⟩
  rw [Set.inter_comm] at f1 f2 hz hw
  exact h2 (fun h => (hd h).symm) f1 f2 z hz w hw

theorem endPlaces_subset_chordSet {l : List ℂ} : endPlaces l ⊆ chordSet l := by
  rintro z (hz | hz)
  · have hne : l ≠ [] := by rintro rfl; cases hz
    exact ⟨z, l.getLast hne, hz, List.getLast?_eq_some_getLast hne, left_mem_segment ℝ _ _⟩
  · have hne : l ≠ [] := by rintro rfl; cases hz
    exact ⟨l.head hne, z, List.head?_eq_some_head hne, hz, right_mem_segment ℝ _ _⟩

/-- a comparison of pieces that are not contiguous asked for no deformation -/
theorem kept_of_noncontiguous (hx : Exact pos region env.lib) (hcut : Cuts pos region env.lib) {a b : Node P C EReal} (ka : Known env pts [h] a)
    (kb : Known env pts [h'] b) (hn : nonContiguousCandidates env.lib (.fin dsp) a b = (none, none)) (one : Bool) :
    KeptWithin dsp one (places pos (pts h) a.range.I a.range.J) (places pos (pts h') b.range.I b.range.J) := by
  intro hm
  obtain ⟨-, a2, a3, -, -⟩ := hx.known ka
  obtain ⟨-, b2, b3, -, -⟩ := hx.known kb
  have symm : ∀ g g', env.lib.intersects g g' = env.lib.intersects g' g := fun g g' => by
    rw [Bool.eq_iff_iff, hx.intersects, hx.intersects, Set.inter_comm]
  have hmoved : ¬ Moved env.lib (.fin dsp) a b := by
    intro hmv
    rw [(C57_noncontiguous (symm _ _) (symm _ _) (.fin dsp)).1 hmv] at hn
    cases hn
  have hl : env.lib.intersects a.polyline b.polyline = true := by
    rw [hx.intersects]
    show (shape pos region (.line a.coords) ∩ shape pos region (.line b.coords)).Nonempty
    rw [a2, b2]; exact hm
  have hseg : env.lib.intersection a.segment b.segment ≠ [] := fun h0 => hmoved ⟨hl, .inl ⟨h0, hcut.some _ _ hl⟩⟩
  refine ⟨?_, fun _ f1 f2 z hz w hw => ?_⟩
  · obtain ⟨p, hp⟩ := List.exists_mem_of_ne_nil _ hseg
    have : pos p ∈ shape pos region (.seg a.coords) ∩ shape pos region (.seg b.coords) := hcut.sound _ _ p hp
    rw [a3, b3] at this
    exact ⟨_, this⟩
  · rw [← a2, ← b2] at f1 hz
    rw [← a3, ← b3] at f2 hw
    obtain ⟨p, hp, rfl⟩ := hcut.all a.polyline b.polyline f1 z hz
    obtain ⟨q, hq, rfl⟩ := hcut.all a.segment b.segment f2 w hw
    by_contra hlt
    refine hmoved ⟨hl, .inr ⟨p, hp, q, hq, ?_⟩⟩
    rw [hcut.ptDistance]
    simpa [Fl.gt, Fl.lt] using hlt

/-- pieces whose lines meet are neighbours -/
theorem lines_near (hx : Exact pos region env.lib) (heps : env.eps = .fin e) (h0 : 0 ≤ e) {a b : Node P C EReal} (ka : Known env pts [h] a)
    (kb : Known env pts [h'] b) (hm : (lineSet (places pos (pts h) a.range.I a.range.J) ∩ lineSet (places pos (pts h') b.range.I b.range.J)).Nonempty) :
    Nbr env a b ∧ env.lib.intersects a.geom b.geom = true := by
  obtain ⟨a1, -, -, a4, a5⟩ := hx.known ka
  obtain ⟨b1, -, -, b4, b5⟩ := hx.known kb
  obtain ⟨z, hz, hz'⟩ := hm
  have m1 : z ∈ shape pos region a.geom := by rw [a1]; exact lineSet_subset_hullSet _ hz
  have m2 : z ∈ shape pos region b.geom := by rw [b1]; exact lineSet_subset_hullSet _ hz'
  have hi : env.lib.intersects a.geom b.geom = true := (hx.intersects _ _).2 ⟨z, m1, m2⟩
  refine ⟨⟨by rw [a5, b5]; exact hx.boxSound _ _ hi, ?_⟩, hi⟩
  rw [heps, hx.distance _ _ ⟨z, m2⟩ ⟨z, m1⟩, gap_meet ⟨z, m2, m1⟩, Fl.fin_le_fin, decide_eq_true_eq]
  exact h0

/-- the ends of a piece are the ends of the part it stands for -/
theorem ends_known {x : Node P C EReal} (hk : Known env pts [h] x) {p q : P} (hp : x.segmentPoints = .ok (p, q)) :
    pos p ∈ endPlaces (places pos (pts h) x.range.I x.range.J) ∧ pos q ∈ endPlaces (places pos (pts h) x.range.I x.range.J) := by
  have hin := List.mem_singleton.1 hk.inst
  have hpc := hk.piece
  have hhi := hk.hi
  have hlo := hk.lo
  have hlt := hk.lt
  rw [hin] at hpc hhi
  simp only [Node.segmentPoints, Res.bind_eq_ok] at hp
  obtain ⟨x1, p1, x2, p2, p3⟩ := hp
  cases p3
  have hlen : x.coords.len = x.range.J + 1 - x.range.I := by rw [hpc.coords]; exact Coords.len_sub _ _ _ (by omega)
  have hbl : (between (pts h) x.range.I x.range.J).length = (x.range.J + 1 - x.range.I).toNat := by
    simp only [between, List.length_take, List.length_drop]; omega
  have key : ∀ (t : Int) (y : P), 0 ≤ t → t < x.range.J + 1 - x.range.I → x.coords.pt t = .ok y → (between (pts h) x.range.I x.range.J)[t.toNat]? = some y := by
    intro t y t0 t1 ht
    rw [hpc.coords, Coords.pt_sub t0 (by omega) hlo] at ht
    cases hq : (pts h)[(x.range.I + t).toNat]? with
    | none => rw [hq] at ht; cases ht
    | some z =>
      rw [hq] at ht
      cases ht
      rw [between, List.getElem?_take, if_pos (by omega), List.getElem?_drop, ← hq]
      congr 1
      omega
  constructor
  · left
    have := key 0 p le_rfl (by omega) p1
    simp only [places, List.head?_eq_getElem?, Int.toNat_zero, List.getElem?_map] at this ⊢
    rw [this]; rfl
  · right
    have := key (x.range.J + 1 - x.range.I - 1) q (by omega) (by omega) (by rw [← hlen]; exact p2)
    rw [places, List.getLast?_map, List.getLast?_eq_getElem?, hbl, show (x.range.J + 1 - x.range.I).toNat - 1 = (x.range.J + 1 - x.range.I - 1).toNat by omega, this]
    rfl

/-- two pieces of one line whose comparison asked for no deformation -/
theorem kept_of_clear (hx : Exact pos region env.lib) (hcut : Cuts pos region env.lib) (heps : env.eps = .fin e) (h0 : 0 ≤ e) {a b : Node P C EReal}
    (ka : Known env pts [h] a) (kb : Known env pts [h'] b) (hc : Clear env (.fin dsp) a b) :
    KeptWithin dsp true (places pos (pts h) a.range.I a.range.J) (places pos (pts h') b.range.I b.range.J) := by
  intro hm
  obtain ⟨hn, hi⟩ := lines_near hx heps h0 ka kb hm
  by_cases hd : Disjoint (endPlaces (places pos (pts h) a.range.I a.range.J)) (endPlaces (places pos (pts h') b.range.I b.range.J))
  · obtain ⟨r, e1, e2⟩ := hc hn
    have ia := List.mem_singleton.1 ka.inst
    have ib := List.mem_singleton.1 kb.inst
    obtain ⟨⟨ai, aj⟩, sa⟩ := ka.piece.segmentPoints_ok ka.lo ka.lt ka.hi
    obtain ⟨⟨bi, bj⟩, sb⟩ := kb.piece.segmentPoints_ok kb.lo kb.lt kb.hi
    obtain ⟨inters, contig, n, f1, f2, f3, f4⟩ := C56_contiguous (lib := env.lib) sa sb
    rw [f1] at e1
    cases e1
    rw [hi] at f2
    subst f2
    obtain ⟨a1, a2⟩ := ends_known (pos := pos) ka sa
    obtain ⟨b1, b2⟩ := ends_known (pos := pos) kb sb
    have hcon : contig = false := by
      cases contig with
      | false => rfl
      | true =>
        exfalso
        rw [Set.disjoint_left] at hd
        obtain ⟨-, hs, -⟩ := f4.1 rfl
        simp only [ShareEnd, hx.equals2D] at hs
        rcases hs with hs | hs | hs | hs
        · exact hd a2 (hs ▸ b1)
        · exact hd a2 (hs ▸ b2)
        · exact hd a1 (hs ▸ b2)
        · exact hd a1 (hs ▸ b1)
    subst hcon
    simp only [candidates, Bool.not_true, Bool.false_eq_true, if_false, Bool.false_and, Bool.not_false, if_true, Res.ok.injEq] at e2
    exact kept_of_noncontiguous hx hcut ka kb e2 true hm
  · refine ⟨?_, fun h => absurd (h rfl) hd⟩
    obtain ⟨z, h1, h2⟩ := Set.not_disjoint_iff.1 hd
    exact ⟨z, endPlaces_subset_chordSet h1, endPlaces_subset_chordSet h2⟩

/-- two pieces of different features whose comparison asked for no deformation -/
theorem kept_of_clearFC (hx : Exact pos region env.lib) (hcut : Cuts pos region env.lib) (heps : env.eps = .fin e) (h0 : 0 ≤ e) {a b : Node P C EReal}
    (ka : Known env pts [h] a) (kb : Known env pts [h'] b) (hid : (env.inst a.inst).id ≠ (env.inst b.inst).id)
    (hd : (env.inst a.inst).opts.nonPlanarDisplacement = .fin dsp) (hc : ClearFC env a b) :
    KeptWithin dsp false (places pos (pts h) a.range.I a.range.J) (places pos (pts h') b.range.I b.range.J) := by
  intro hm
  obtain ⟨hn, hi⟩ := lines_near hx heps h0 ka kb hm
  obtain ⟨r, e1, e2⟩ := hc hn
  rw [fcContiguous, if_neg hid, if_pos hi] at e1
  cases e1
  have hpos : 0 < (env.lib.intersection a.geom b.geom).length := List.length_pos_iff.2 (hcut.some _ _ hi)
  simp only [candidates, gt_iff_lt, hpos, decide_true, Bool.not_true, Bool.false_eq_true, if_false, Bool.false_and, Bool.not_false, if_true,
    Res.ok.injEq, hd] at e2
  exact kept_of_noncontiguous hx hcut ka kb e2 false hm

/-- parts next to each other: the segments have the common vertex -/
theorem kept_of_adj {pts : Int → List P} {a b : Node P C EReal} (ka : Known env pts [h] a) (kb : Known env pts [h] b) (hadj : Adj a b) :
    KeptWithin dsp true (places pos (pts h) a.range.I a.range.J) (places pos (pts h) b.range.I b.range.J) := by
  have hnd : ¬ Disjoint (endPlaces (places pos (pts h) a.range.I a.range.J)) (endPlaces (places pos (pts h) b.range.I b.range.J)) := by
    have key : ∀ {a b : Node P C EReal}, Known env pts [h] a → Known env pts [h] b → a.range.J = b.range.I →
        ∃ z, z ∈ endPlaces (places pos (pts h) a.range.I a.range.J) ∧ z ∈ endPlaces (places pos (pts h) b.range.I b.range.J) := by
      intro a b ka kb hab
      have ia := List.mem_singleton.1 ka.inst
      have ib := List.mem_singleton.1 kb.inst
      have ah := ka.hi
      have bh := kb.hi
      rw [ia] at ah
      rw [ib] at bh
      have := ka.lo
      have := ka.lt
      have := kb.lt
      refine ⟨pos ((pts h)[a.range.J.toNat]'(by omega)), .inr ?_, .inl ?_⟩
      · have hbl : (between (pts h) a.range.I a.range.J).length = (a.range.J + 1 - a.range.I).toNat := by
          simp only [between, List.length_take, List.length_drop]; omega
        rw [places, List.getLast?_map, List.getLast?_eq_getElem?, hbl, between, List.getElem?_take, if_pos (by omega), List.getElem?_drop,
          show a.range.I.toNat + ((a.range.J + 1 - a.range.I).toNat - 1) = a.range.J.toNat by omega, List.getElem?_eq_getElem (by omega)]
        rfl
      · rw [places, List.head?_map, List.head?_eq_getElem?, between, List.getElem?_take, if_pos (by omega), List.getElem?_drop]
        simp only [hab, Nat.add_zero]
        rw [List.getElem?_eq_getElem (by omega)]
        rfl
    rw [Set.not_disjoint_iff]
    rcases hadj with h | h
    · exact key ka kb h
    · obtain ⟨z, h1, h2⟩ := key kb ka h
      exact ⟨z, h2, h1⟩
  intro _
  refine ⟨?_, fun h => absurd (h rfl) hnd⟩
  obtain ⟨z, h1, h2⟩ := Set.not_disjoint_iff.1 hnd
  exact ⟨z, endPlaces_subset_chordSet h1, endPlaces_subset_chordSet h2⟩

end

section
variable {P C : Type} {pos : P → ℂ} {region : C → Set ℂ} {env : Env P C EReal ℝ} {pts : Int → List P} {h : Int} {e dsp : ℝ}
  {ids : Nat → Int} {cv : List Int} {dirty d : Int → Bool} {fuel : Nat} {out : Out P C EReal}

/-- C118 for one line, the part that holds.  With `avoid_new_self_intersects` on: two bent parts that meet are replaced by segments that meet, and, as `KeptWithin`
says, not farther away than `non_planar_displacement`.  Missing for the full statement: parts that are straight; for them it is false, `C118_refuted`. -/
theorem C118_kept_partial (he : EnvOK env) (hl : LnrOK env.lnr) (hi : InstOK env h (pts h)) (hinj : Function.Injective ids)
    (hcv : ∀ i ∈ cv, 0 ≤ i ∧ i < (pts h).length) (hx : Exact pos region env.lib) (hcut : Cuts pos region env.lib) (heps : env.eps = .fin e) (h0 : 0 ≤ e)
    (hav : (env.inst h).opts.avoidNewSelfIntersects = true) (hd : (env.inst h).opts.nonPlanarDisplacement = .fin dsp)
    (hr : simplify env ids h cv dirty fuel = .ok (out, d)) {i j k l : Int}
    (hij : Consecutive out.simple i j) (hkl : Consecutive out.simple k l) (hne : (i, j) ≠ (k, l))
    (hb₁ : ¬ Collinear ℝ {z | z ∈ places pos (pts h) i j}) (hb₂ : ¬ Collinear ℝ {z | z ∈ places pos (pts h) k l}) :
    KeptWithin dsp true (places pos (pts h) i j) (places pos (pts h) k l) := by
  obtain ⟨out', d', g', hy, h1, hp, -, -, hs, -⟩ := simplify_yields he hl hi hinj hcv dirty
  have := ((simplify_le env ids h cv dirty).yields hr).unique hy
  cases this
  obtain ⟨rs, hch, hnil, e1, hrs⟩ := pieces_chain hi hp
  rw [h1, e1] at hij hkl
  obtain ⟨r, hrm, rfl, rfl⟩ := consecutive_chain rs _ _ hch hij
  obtain ⟨r', hrm', rfl, rfl⟩ := consecutive_chain rs _ _ hch hkl
  obtain ⟨a, ha, rfl⟩ := hrs r hrm
  obtain ⟨b, hb, rfl⟩ := hrs r' hrm'
  have ka := hp.known ha
  have kb := hp.known hb
  have ia : a.inst = h := by simpa using ka.inst
  have ib : b.inst = h := by simpa using kb.inst
  have hab : a ≠ b := fun e => hne (by rw [e])
  have ba := ka.piece.big (hx.proper ka (by rw [ia]; exact hb₁))
  have bb := kb.piece.big (hx.proper kb (by rw [ib]; exact hb₂))
  have hs := hs hav a ha b hb (fun hid => hab (hp.eq_of_id ha hb hid)) ba bb
  rw [hd] at hs
  rcases hs with hs | hs | hs
  · exact kept_of_adj ka kb hs
  · exact kept_of_clear hx hcut heps h0 ka kb hs
  · exact (kept_of_clear hx hcut heps h0 kb ka hs).symm

end

section
variable {P C : Type} {pos : P → ℂ} {region : C → Set ℂ} {env : Env P C EReal ℝ} {pts : Int → List P} {e dsp : ℝ} {ids : Nat → Int} {idsOf : Int → Nat → Int}
  {handles : List Int} {o : Opts ℝ} {dirty d : Int → Bool} {fuel : Nat} {js : List (Int × Int)} {outs res : List (Int × Out P C EReal)}

/-- C118 for a feature class, the part that holds.  Missing for the full statement: straight parts, and classes in which a piece has, among its neighbours and
itself, pieces of different features with the same index range. -/
theorem C118_class_partial (hc : ClassOK env pts ids idsOf handles) (hx : Exact pos region env.lib) (hcut : Cuts pos region env.lib) (heps : env.eps = .fin e)
    (h0 : 0 ≤ e) (ho : o.avoidNewSelfIntersects = true) (hav : ∀ h ∈ handles, (env.inst h).opts.avoidNewSelfIntersects = true)
    (hd : ∀ h ∈ handles, (env.inst h).opts.nonPlanarDisplacement = .fin dsp) (hj : fcJunctions env handles o.planarSelf = .ok js)
    (hs : simplifyInstances env idsOf js fuel handles dirty = .ok (outs, d)) (hap : RangesApart env pts outs handles)
    (hr : simplifyFeatureClass env ids idsOf handles o dirty fuel = .ok res) {x y : Int × Out P C EReal} (hxr : x ∈ res) (hyr : y ∈ res) {i j k l : Int}
    (hij : Consecutive x.2.simple i j) (hkl : Consecutive y.2.simple k l) (hne : (x.1, i, j) ≠ (y.1, k, l))
    (hb₁ : ¬ Collinear ℝ {z | z ∈ places pos (pts x.1) i j}) (hb₂ : ¬ Collinear ℝ {z | z ∈ places pos (pts y.1) k l}) :
    KeptWithin dsp (decide (x.1 = y.1)) (places pos (pts x.1) i j) (places pos (pts y.1) k l) := by
  obtain ⟨hfst, js', hj', hfr⟩ := fc_result hc hr
  have hfind : ∀ {x : Int × Out P C EReal}, x ∈ res → ∀ {i j : Int}, Consecutive x.2.simple i j →
      ∃ a ∈ x.2.hulls, Known env pts [x.1] a ∧ a.inst = x.1 ∧ i = a.range.I ∧ j = a.range.J := by
    intro x hxr i j hij
    have hf := hfr x hxr
    have hh : x.1 ∈ handles := by rw [← hfst]; exact List.mem_map.2 ⟨x, hxr, rfl⟩
    obtain ⟨src, ids', g, hp⟩ := hf.pieces
    obtain ⟨rs, hch, hnil, e1, hrs⟩ := pieces_chain (hc.inst _ hh) hp
    rw [hf.simple, e1] at hij
    obtain ⟨r, hrm, rfl, rfl⟩ := consecutive_chain rs _ _ hch hij
    obtain ⟨a, ha, rfl⟩ := hrs r hrm
    exact ⟨a, ha, hp.known ha, by simpa using (hp.known ha).inst, rfl, rfl⟩
  obtain ⟨a, ha, ka, ia, rfl, rfl⟩ := hfind hxr hij
  obtain ⟨b, hb, kb, ib, rfl, rfl⟩ := hfind hyr hkl
  have hab : a ≠ b := fun e => hne (by rw [← ia, ← ib, e])
  obtain ⟨s1, s2, s3⟩ := simplifyFeatureClass_sep hc.envOK hc.lnrOK hc.inst hc.nodup hc.distinct hc.streams ho hav hj hs hap hr
  have hia := (s1 x hxr a ha).2.inst
  have hib := (s1 y hyr b hb).2.inst
  have hgood := s3 x hxr y hyr a ha b hb (fun h => hab (s2 x hxr y hyr a ha b hb h)) (ka.piece.big (hx.proper ka (by rw [ia]; exact hb₁)))
    (kb.piece.big (hx.proper kb (by rw [ib]; exact hb₂)))
  have toClear : ∀ {u v : Node P C EReal}, u.inst = v.inst → u.inst ∈ handles → ClearFC env u v → Clear env (.fin dsp) u v := by
    intro u v h hu hcl hn
    obtain ⟨r, e1, e2⟩ := hcl hn
    rw [hd _ hu] at e2
    rw [fcContiguous, h, if_pos rfl] at e1
    exact ⟨r, e1, e2⟩
  by_cases hin : x.1 = y.1
  · have hin' : a.inst = b.inst := by rw [ia, ib, hin]
    rw [decide_eq_true hin]
    rcases hgood with ⟨-, h⟩ | h | h
    · rw [← hin] at kb ⊢
      exact kept_of_adj ka kb h
    · exact kept_of_clear hx hcut heps h0 ka kb (toClear hin' hia h)
    · exact (kept_of_clear hx hcut heps h0 kb ka (toClear hin'.symm hib h)).symm
  · have hin' : a.inst ≠ b.inst := by rw [ia, ib]; exact hin
    have hid : (env.inst a.inst).id ≠ (env.inst b.inst).id := fun h => hin' (hc.distinct _ hia _ hib h)
    rw [decide_eq_false hin]
    rcases hgood with ⟨h, -⟩ | h | h
    · exact absurd h hin'
    · exact kept_of_clearFC hx hcut heps h0 ka kb hid (hd _ hia) h
    · exact (kept_of_clearFC hx hcut heps h0 kb ka hid.symm (hd _ hib) h).symm

/-- Specification of C118 for the segment between the vertices `i` and `j` of `l` and the one between `k` and `n` of `l'`, `one` if `l` and `l'` are one line: if
neither of the parts has all its vertices on one straight line, crossings are kept within `d` -/
def Displaced (pos : P → ℂ) (d : ℝ) (one : Bool) (l : List P) (i j : Int) (l' : List P) (k n : Int) : Prop :=
  ¬ Collinear ℝ {z | z ∈ places pos l i j} → ¬ Collinear ℝ {z | z ∈ places pos l' k n} → KeptWithin d one (places pos l i j) (places pos l' k n)

end
end Planar

open Planar

section
variable {P C : Type} {pos : P → ℂ} {region : C → Set ℂ} {e dsp : ℝ}

theorem Engine.displaced {E : Engine P C EReal ℝ} {o : Opts ℝ} {kind : Io.OffsetKind} {ctx : List C} {lines : List (List P)} (h : E.OK o kind lines)
    (hx : Exact pos region E.lib) (hcut : Cuts pos region E.lib) (h0 : 0 ≤ e) (heps : E.eps = .fin e) (hav : o.avoidNewSelfIntersects = true)
    (hd : o.nonPlanarDisplacement = .fin dsp) :
    E.GuaranteesIn false o kind ctx lines (fun l q => ∃ s, KeptIndices l.length s ∧ q = verticesAt l s ∧
      ∀ i j k n, Consecutive s i j → Consecutive s k n → (i, j) ≠ (k, n) → Displaced pos dsp true l i j l k n) := by
  refine h.guaranteesIn false _ (fun fs hf hc k l hl hlk hp hmem hi hinj => ?_)
  obtain ⟨e1, -, -, -⟩ := hf.inst hlk
  refine ⟨?_, by simp⟩
  rintro - dirty fuel out d hr hk
  exact ⟨_, hk, rfl, fun i j k n hij hkn hne b₁ b₂ => C118_kept_partial (pts := fun _ => l) (env := E.env o kind fs) hc.envOK hc.lnrOK hi hinj (by simp) hx hcut heps h0
    (by rw [e1]; exact hav) (by rw [e1]; exact hd) hr hij hkn hne b₁ b₂⟩

theorem Engine.class_displaced {E : Engine P C EReal ℝ} {o : Opts ℝ} {kind : Io.OffsetKind} {lines : List (List P)} (h : E.OK o kind lines) (ctx : List C)
    (hx : Exact pos region E.lib) (hcut : Cuts pos region E.lib) (h0 : 0 ≤ e) (heps : E.eps = .fin e) (hav : o.avoidNewSelfIntersects = true)
    (hd : o.nonPlanarDisplacement = .fin dsp) (hap : HullsApart pos e lines) :
    ∃ qs ss, Yields (E.run true lines o ctx kind) qs ∧ List.Forall₂ SubLine lines qs ∧ PointsOf lines ss qs ∧ Pairs (Displaced pos dsp) lines ss :=
  Engine.class_pairs h ctx hx heps hap _ (fun fs fuel js outs res d hc ho hj hs hap hr x hxr y hyr i j k n hij hkn hne b₁ b₂ =>
    C118_class_partial (env := E.env o kind fs) (pts := fun x : Int => lines[x.toNat]?.getD []) hc hx hcut heps h0 hav
      (fun z hz => by rw [ho z hz]; exact hav) (fun z hz => by rw [ho z hz]; exact hd) hj hs hap hr hxr hyr hij hkn hne b₁ b₂)

end

namespace Io

open Verif.Text

section
variable {P C Props : Type}

/-- **C118 for the program, lines treated one by one, partial** (missing: straight parts, `C118_refuted`): with an exact geometry library, in the saved file the segments of a
line that replace bent parts with a common point have common points, none of them farther than `non_planar_displacement` away, as `KeptWithin` says. -/
theorem C118_program_partial (w : World (Fl ℝ) P Props C) (E : Engine P C EReal ℝ) (b f : Str) {obj : ArgObj (Fl ℝ)} {kind : OffsetKind}
    {docs : List (Doc (Fl ℝ))} {ctx : List C} (hr : Reads w b f obj kind docs ctx) (hord : ∀ l, (w.enc.ord l).Perm l) (hlen : docs.length ≤ maxInt)
    (hd : ∀ d ∈ docs, HasGeometry d ∧ docParts d ≠ [] ∧ ∀ x ∈ docParts d, x.1 ≤ maxInt ∧ (x.2.1 = ['n', 'u', 'l', 'l'] ∨ (w.enc.unmarshal x.2.1).isSome))
    (hE : E.OK (E.opts (optsFromCfg obj)) kind (docs.flatMap (fun d => (docParts d).map (fun x => x.2.2.map E.toPoint))))
    {pos : P → ℂ} {region : C → Set ℂ} {e dsp : ℝ} (hx : Exact pos region E.lib) (hcut : Cuts pos region E.lib) (h0 : 0 ≤ e) (heps : E.eps = .fin e)
    (hfc : obj.isFeatureClass = false) (hav : obj.avoidNewSelfIntersects = true) (hdsp : obj.nonPlanarDisplacement = .fin dsp) :
    ∃ out N, (∀ fuel ≥ N, main (program w E fuel) b f = .saved (trim obj.output) (out.map w.marshal)) ∧
      List.Forall₂ (WrittenAs (fun l q => ∃ s, KeptIndices l.length s ∧ q = verticesAt l s ∧
        ∀ i j k n, Consecutive s i j → Consecutive s k n → (i, j) ≠ (k, n) → Displaced pos dsp true l i j l k n) w.enc E.toPoint) docs out :=
  program_lines_in w E b f hr hord hlen hd hE (by rw [hfc]; exact Engine.displaced hE hx hcut h0 heps hav hdsp)

/-- **C118 for the program on a feature class, partial** (missing: straight parts, and classes in which a sub-line is next to sub-lines of two different lines with
the same index range): the same for two segments of one line or of two. -/
theorem C118_program_class_partial (w : World (Fl ℝ) P Props C) (E : Engine P C EReal ℝ) (b f : Str) {obj : ArgObj (Fl ℝ)} {kind : OffsetKind}
    {docs : List (Doc (Fl ℝ))} {ctx : List C} (hr : Reads w b f obj kind docs ctx) (hord : ∀ l, (w.enc.ord l).Perm l) (hlen : docs.length ≤ maxInt)
    (hd : ∀ d ∈ docs, HasGeometry d ∧ docParts d ≠ [] ∧ ∀ x ∈ docParts d, x.1 ≤ maxInt ∧ (x.2.1 = ['n', 'u', 'l', 'l'] ∨ (w.enc.unmarshal x.2.1).isSome))
    (hE : E.OK (E.opts (optsFromCfg obj)) kind (docs.flatMap (fun d => (docParts d).map (fun x => x.2.2.map E.toPoint))))
    {pos : P → ℂ} {region : C → Set ℂ} {e dsp : ℝ} (hx : Exact pos region E.lib) (hcut : Cuts pos region E.lib) (h0 : 0 ≤ e) (heps : E.eps = .fin e)
    (hfc : obj.isFeatureClass = true) (hav : obj.avoidNewSelfIntersects = true) (hdsp : obj.nonPlanarDisplacement = .fin dsp)
    (hap : HullsApart pos e (docs.flatMap (fun d => (docParts d).map (fun x => x.2.2.map E.toPoint)))) :
    ∃ out N qs ss, (∀ fuel ≥ N, main (program w E fuel) b f = .saved (trim obj.output) (out.map w.marshal)) ∧ WrittenParts w.enc docs qs out ∧
      PointsOf (docs.flatMap (fun d => (docParts d).map (fun x => x.2.2.map E.toPoint))) ss qs ∧
      Pairs (Displaced pos dsp) (docs.flatMap (fun d => (docParts d).map (fun x => x.2.2.map E.toPoint))) ss := by
  obtain ⟨qs, ss, hy, hsub, hpts, hnew⟩ := Engine.class_displaced hE ctx hx hcut h0 heps hav hdsp hap
  rw [← hfc] at hy
  obtain ⟨out, N, h1, -, h2⟩ := program_parts (R := fun _ _ => True) w E b f hr hord hlen hd hy (hsub.imp (fun l q h => ⟨h, trivial⟩))
  exact ⟨out, N, qs, ss, h1, h2, hpts, hnew⟩

end
end Io

/-! ### concrete runs and the refutation -/

namespace Plane

/-- a wedge (vertices 0 to 2) and a bent part (vertices 4 to 6) that crosses its left side; the segment between the ends of the bent part crosses its right side.
Displacements are squared here. -/
def wedgeLine (ctx : List (List Pt)) (dsp : ℚ) : Demo.Line Pt (List Pt) ℚ :=
  ⟨[(0, 0), (5, 1), (10, 0), (10, -50), (26/5, -50), (9/2, 1/2), (26/5, 50)], ctx,
    { opts 3 0 with geomRelation := true, avoidNewSelfIntersects := true, nonPlanarDisplacement := .fin dsp }⟩

/-- the crossing moves from (4.5…, 0.9…) to (5.2, 0): this is accepted with a large displacement, with a small one both parts are split -/
example : (match run (wedgeLine [] 100) [] with | .ok (out, _) => out.simple == [0, 2, 3, 4, 6] | _ => false) = true := by decide +kernel
example : (match run (wedgeLine [] (1/100)) [] with | .ok (out, _) => out.simple == [0, 1, 2, 3, 4, 5, 6] | _ => false) = true := by decide +kernel

/-- C118 refuted for straight parts.  With `avoid_new_self_intersects` on, two parts of a line cross, but the segments that replace them do not meet: the wedge is
split because of a constraint point on its left side, after the crossing was examined, and the single segments are not examined any more. -/
theorem C118_refuted : ∃ (l : Demo.Line Pt (List Pt) ℚ) (out : Out Pt (List Pt) Bx) (d : Int → Bool),
    2 ≤ l.pts.length ∧ l.opts.avoidNewSelfIntersects = true ∧ run l [] = .ok (out, d) ∧
    ∃ x ∈ out.hulls, ∃ y ∈ out.hulls, lib.intersects (.line x.coords) (.line y.coords) = true ∧ lib.intersects (.seg x.coords) (.seg y.coords) = false := by
  refine ⟨wedgeLine [[(5/2, 1/2)]] 100, ?_⟩
  have h : (match run (wedgeLine [[(5/2, 1/2)]] 100) [] with
      | .ok (out, _) => decide (∃ x ∈ out.hulls, ∃ y ∈ out.hulls, lib.intersects (.line x.coords) (.line y.coords) = true ∧
          lib.intersects (.seg x.coords) (.seg y.coords) = false)
      | _ => false) = true := by decide +kernel
  split at h
  · rename_i out d e
    exact ⟨out, d, by decide, rfl, e, of_decide_eq_true h⟩
  · cases h

/-- `non_planar_displacement` is not looked at unless `avoid_new_self_intersects` is on: with `non_planar_self` alone a crossing moves farther than it allows
(squared distances). -/
theorem C118_off_refuted : ∃ (l : Demo.Line Pt (List Pt) ℚ) (out : Out Pt (List Pt) Bx) (d : Int → Bool),
    2 ≤ l.pts.length ∧ l.opts.nonPlanarSelf = true ∧ run l [] = .ok (out, d) ∧
    ∃ x ∈ out.hulls, ∃ y ∈ out.hulls, ∃ p ∈ lib.intersection (.line x.coords) (.line y.coords), ∃ q ∈ lib.intersection (.seg x.coords) (.seg y.coords),
      l.opts.nonPlanarDisplacement.lt (.fin (sq p q)) = true := by
  let l : Demo.Line Pt (List Pt) ℚ := { wedgeLine [] (1/100) with opts := { (wedgeLine [] (1/100)).opts with avoidNewSelfIntersects := false, nonPlanarSelf := true } }
  refine ⟨l, ?_⟩
  have h : (match run l [] with
      | .ok (out, _) => decide (∃ x ∈ out.hulls, ∃ y ∈ out.hulls, ∃ p ∈ lib.intersection (.line x.coords) (.line y.coords),
          ∃ q ∈ lib.intersection (.seg x.coords) (.seg y.coords), l.opts.nonPlanarDisplacement.lt (.fin (sq p q)) = true)
      | _ => false) = true := by decide +kernel
  split at h
  · rename_i out d e
    exact ⟨out, d, by decide, rfl, e, of_decide_eq_true h⟩
  · cases h

end Plane

namespace Planar

theorem exactLib_cuts : Cuts id (fun r : Region => r.1) exactLib where
  some := exactLib_cut
  sound a b p hp := by
    simp only [exactLib] at hp
    split_ifs at hp with h h'
    · exact h.mem_toFinset.1 (Finset.mem_toList.1 hp)
    · rw [List.mem_singleton.1 hp]; exact h'.some_mem
    · cases hp
  all a b hf z hz := by
    refine ⟨z, ?_, rfl⟩
    simp only [exactLib]
    rw [dif_pos hf]
    exact Finset.mem_toList.2 (hf.mem_toFinset.2 hz)
  ptDistance _ _ := rfl

end Planar

namespace Real

open Io Text

/-- a line that crosses the bump of C117 from the side -/
noncomputable def crossDoc : Doc (Fl ℝ) := .geometry (.line [[.fin 100, .fin 100], [.fin 101, .fin 101], [.fin 100, .fin (-100)], [.fin 5, .fin 5]])
noncomputable def cross : List ℂ := [⟨100, 100⟩, ⟨101, 101⟩, ⟨100, -100⟩, ⟨5, 5⟩]

theorem cross_lines : [capDoc, crossDoc].flatMap (fun d => (docParts d).map (fun x => x.2.2.map engine.toPoint)) = [cap, cross] := by
  simp [capDoc, crossDoc, docParts, geomParts, engine, cap, cross]

/-- replacing both lines by single segments would lose the crossing -/
example : (lineSet (places id cap 0 2) ∩ lineSet (places id cross 0 3)).Nonempty ∧ ¬ (chordSet (places id cap 0 2) ∩ chordSet (places id cross 0 3)).Nonempty := by
  constructor
  · have m1 : (⟨620 / 67, 20 / 67⟩ : ℂ) ∈ segment ℝ (⟨5, 2⟩ : ℂ) ⟨10, 0⟩ :=
      ⟨10 / 67, 57 / 67, by norm_num, by norm_num, by norm_num, by apply Complex.ext <;> simp <;> norm_num⟩
    have m2 : (⟨620 / 67, 20 / 67⟩ : ℂ) ∈ segment ℝ (⟨100, -100⟩ : ℂ) ⟨5, 5⟩ :=
      ⟨3 / 67, 64 / 67, by norm_num, by norm_num, by norm_num, by apply Complex.ext <;> simp <;> norm_num⟩
    exact ⟨_, .inr (.inl m1), .inr (.inr (.inl m2))⟩
  · rintro ⟨z, ⟨a, b, ha, hb, hz⟩, ⟨c, d, hc, hd, hz'⟩⟩
    cases ha; cases hb; cases hc; cases hd
    have h1 := (convex_halfSpace_im_le 0).segment_subset (x := ⟨0, 0⟩) (y := ⟨10, 0⟩) (by simp) (by simp) hz
    have h2 := (convex_halfSpace_im_ge 5).segment_subset (x := ⟨100, 100⟩) (y := ⟨5, 5⟩) (by simp; norm_num) (by simp) hz'
    simp only [Set.mem_ofPred_eq] at h1 h2
    linarith

/-- C118 for the program on these lines, one by one and as a feature class -/
example : ∃ out N, (∀ fuel ≥ N, main (program (world ordsC (config ['d', 'p'] false) capDoc crossDoc [above]) engine fuel) "e30=".toList ['-'] = .saved ['o'] (out.map (fun _ => []))) ∧
    List.Forall₂ (WrittenAs (fun l q => ∃ s, KeptIndices l.length s ∧ q = verticesAt l s ∧
        ∀ i j k n, Consecutive s i j → Consecutive s k n → (i, j) ≠ (k, n) → Displaced id 1 true l i j l k n)
      (world ordsC (config ['d', 'p'] false) capDoc crossDoc [above]).enc engine.toPoint) [capDoc, crossDoc] out :=
  C118_program_partial _ engine _ _ (reads ordsC ['d', 'p'] .maxOffset (by decide +kernel) false capDoc crossDoc [above]) (fun l => .refl l) (by simp [maxInt])
    (by
      intro d hd
      simp only [List.mem_cons, List.not_mem_nil, or_false] at hd
      rcases hd with rfl | rfl <;> exact line_ok _ _)
    (engine_ok _ (by simp [Engine.opts, optsFromCfg, config, Fl.fin_le_fin]) _ _ (by rw [cross_lines]; simp [cap, cross])) exactLib_exact exactLib_cuts le_rfl rfl rfl rfl rfl

example : ∃ out N qs ss, (∀ fuel ≥ N, main (program (world ordsC (config ['d', 'p'] true) capDoc crossDoc [above]) engine fuel) "e30=".toList ['-'] = .saved ['o'] (out.map (fun _ => []))) ∧
    WrittenParts (world ordsC (config ['d', 'p'] true) capDoc crossDoc [above]).enc [capDoc, crossDoc] qs out ∧ PointsOf [cap, cross] ss qs ∧ Pairs (Displaced id 1) [cap, cross] ss := by
  have := C118_program_class_partial (dsp := 1) _ engine _ _ (reads ordsC ['d', 'p'] .maxOffset (by decide +kernel) true capDoc crossDoc [above]) (fun l => .refl l) (by simp [maxInt])
    (by
      intro d hd
      simp only [List.mem_cons, List.not_mem_nil, or_false] at hd
      rcases hd with rfl | rfl <;> exact line_ok _ _)
    (engine_ok _ (by simp [Engine.opts, optsFromCfg, config, Fl.fin_le_fin]) _ _ (by rw [cross_lines]; simp [cap, cross])) exactLib_exact exactLib_cuts le_rfl rfl rfl rfl rfl
    (by rw [cross_lines]; exact cap_apart _)
  rw [cross_lines] at this
  exact this

end Real
end Verif
