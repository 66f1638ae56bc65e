import Verif.Props.C23_Lnr
import Verif.Props.C25_NonPlanar
import Verif.Lemmas.InterBounds
import Verif.Lemmas.Simplify
import Verif.Lemmas.Mono

/-! The pieces that have to be split at a vertex are found by the proximity search, if hulls contain what they are hulls of. -/

set_option linter.unusedSectionVars false

namespace Verif

variable {P C B K : Type} [LinearOrder B] [BoundedOrder B] [LinearOrder K]
variable {env : Env P C B K} {near : Fl K → Fl K → Prop} {pts : Int → List P}

/-- An entry at distance `x` is not passed over in a search up to `m`: it is within `m`, and so is everything the queue may hand out before it. -/
def Found (near : Fl K → Fl K → Prop) (m x : Fl K) : Prop := x.le m = true ∧ ∀ d, near d x → d.le m = true

/-- with a queue that returns a nearest entry this says that the entry is within `m` -/
theorem found_exact {m x : Fl K} (hx : x.le m = true) : Found Hdb.nearLe m x := ⟨hx, fun _ hd => Fl.le_trans hd hx⟩

/-- Geometric facts used to find the pieces around a vertex: equality of points is an equivalence that sorting respects, the segment index is exact, a vertex of a sub-line
(also when it is given by an equal point) and a point on a segment of the sub-line are within `EpsilonDist` of the hull of the sub-line, with room for the tolerance of the
queue. -/
structure InterNear (env : Env P C B K) (near : Fl K → Fl K → Prop) (pts : Int → List P) (h : Int) : Prop where
  sort : SortSound env.lib env.lnr
  search : SearchSound env.lnr
  vertex : ∀ nd, Known env pts [h] nd → ∀ v : Nat, Inside v nd → ∀ p q, (pts h)[v]? = some q → env.lib.equals2D p q = true →
    Found near env.eps (env.lib.distance (.point p) nd.geom)
  cross : ∀ nd, Known env pts [h] nd → ∀ (a b : Nat) (s t : P × P), seg (pts h) a = some s → seg (pts h) b = some t →
    (nd.range.I ≤ a ∧ (a : Int) + 1 ≤ nd.range.J) ∨ (nd.range.I ≤ b ∧ (b : Int) + 1 ≤ nd.range.J) →
    ∀ x ∈ env.lnr.segSeg s.1 s.2 t.1 t.2, Found near env.eps (env.lib.distance (.point x.1) nd.geom)

/-- the same with the facts about the queue and the boxes: it returns an entry that is not much farther than the nearest (`near` says how much), and a box is not farther away
than what it encloses -/
structure HullNear (env : Env P C B K) (near : Fl K → Fl K → Prop) (pts : Int → List P) (h : Int) : Prop extends InterNear env near pts h where
  heap : env.heap.Legal near
  mono : ∀ a b c, near a b → b.le c = true → near a c
  box : ∀ p nd, Known env pts [h] nd → ∀ b, nd.mbr ≤ b → (env.lib.boxDistance (.point p) b).le (env.lib.distance (.point p) nd.geom) = true

theorem selfIntersection_cases {lib : Lib P C B K} {lnr : LnrLib P B} {pln : Polyline P} {planar nonPlanar : Bool} {inters : List (Inter P)}
    (h : selfIntersection lib lnr pln planar nonPlanar = .ok inters) {i : Inter P} (hi : i ∈ inters) :
    (∃ l, planarIntersects lib lnr pln = .ok l ∧ i ∈ l) ∨ (∃ l, nonPlanarIntersection lnr pln = .ok l ∧ i ∈ l) := by
  have key : ∀ (f g : Res (List (Inter P))), (f.bind fun a => g.bind fun b => .ok (a ++ b)) = .ok inters → ∃ a b, f = .ok a ∧ g = .ok b ∧ inters = a ++ b := by
    intro f g hfg
    cases f with
    | ok a => cases g with
      | ok b => simp only [Res.bind] at hfg; cases hfg; exact ⟨a, b, rfl, rfl, rfl⟩
      | panic => cases hfg
      | timeout => cases hfg
    | panic => cases hfg
    | timeout => cases hfg
  have h : ((if planar then planarIntersects lib lnr pln else .ok []).bind fun a =>
      (if nonPlanar then nonPlanarIntersection lnr pln else .ok []).bind fun b => .ok (a ++ b)) = .ok inters := by
    cases planar <;> cases nonPlanar <;> exact h
  obtain ⟨a, b, ea, eb, rfl⟩ := key _ _ h
  rcases List.mem_append.1 hi with hi | hi
  · left
    cases planar with
    | true => exact ⟨a, ea, hi⟩
    | false => simp only [Bool.false_eq_true, if_false] at ea; cases ea; cases hi
  · right
    cases nonPlanar with
    | true => exact ⟨b, eb, hi⟩
    | false => simp only [Bool.false_eq_true, if_false] at eb; cases eb; cases hi

/-- the reported indices of a self-intersection are those at which pieces are split, and all of them are near the reported point -/
theorem InterNear.inter {h : Int} (hn : InterNear env near pts h) (hi : InstOK env h (pts h)) {planar nonPlanar : Bool} {inters : List (Inter P)}
    (hs : selfIntersection env.lib env.lnr (env.inst h).pln planar nonPlanar = .ok inters) {i : Inter P} (hm : i ∈ inters) :
    i.splitIdxs = i.planar ++ i.nonPlanar ∧ ∀ nd, Known env pts [h] nd → (∃ v ∈ i.splitIdxs, Inside v nd) →
      Found near env.eps (env.lib.distance (.point i.pt) nd.geom) := by
  rw [hi.pln] at hs
  rcases selfIntersection_cases hs hm with ⟨l, hl, hil⟩ | ⟨l, hl, hil⟩
  · obtain ⟨l', top, e1, -, e3, -, -⟩ := C23_planar_partial hn.sort hi.two
    rw [hl] at e1; cases e1
    obtain ⟨k1, -, -, -, -, k2⟩ := e3 i hil
    have hnp : i.nonPlanar = [] := by
      simp only [planarIntersects, polyline_coordinates hi.two, Res.ok_bind, Res.bind_eq_ok] at hl
      obtain ⟨vs, -, hl⟩ := hl
      rw [Res.pure_eq, Res.ok.injEq, planarLoop_runs] at hl
      subst hl
      obtain ⟨m, -, hm⟩ := List.mem_filterMap.1 hil
      simp only [planarReport, Option.map_eq_some_iff] at hm
      obtain ⟨x, -, rfl⟩ := hm
      rfl
    have hsp : i.splitIdxs = i.planar := by simp [Inter.splitIdxs, k1]
    refine ⟨by rw [hsp, hnp, List.append_nil], ?_⟩
    rintro nd hk ⟨v, hv, hin⟩
    rw [hsp] at hv
    obtain ⟨k, q, rfl, hq, he⟩ := (k2 v).1 hv
    exact hn.vertex nd hk k hin _ _ hq he
  · obtain ⟨pairs, e1, -, e3⟩ := C25_nonplanar hn.search hi.two
    rw [hl] at e1; cases e1
    obtain ⟨⟨a, b⟩, hab, hir⟩ := List.mem_flatMap.1 hil
    obtain ⟨k1, -, k2⟩ := C25_ends env.lnr (pts h) a b i hir
    simp only [segReports] at hir
    split at hir
    · rename_i s t hs ht
      obtain ⟨x, hx, rfl⟩ := List.mem_map.1 hir
      refine ⟨by simp [Inter.splitIdxs], ?_⟩
      rintro nd hk ⟨v, hv, hin⟩
      have hv : v ∈ sortedIntsSet [(a : Int), a + 1, b, b + 1] := by simpa [Inter.splitIdxs] using hv
      have := (k2 v).1 hv
      refine hn.cross nd hk a b s t hs ht ?_ x (List.mem_filter.1 hx).1
      unfold Inside at hin
      omega
    · cases hir

theorem HullNear.reaches {h : Int} (hn : HullNear env near pts h) {p : P} {idxs : List Int}
    (hd : ∀ nd, Known env pts [h] nd → (∃ v ∈ idxs, Inside v nd) → Found near env.eps (env.lib.distance (.point p) nd.geom)) :
    Reaches env near pts [h] p idxs := by
  refine ⟨near, fun items hit => Hdb.BoxBound.boxNear hn.mono (fun t ht b hb => hn.box p t (hit t ht) b hb), fun nd hk hv hm => ?_⟩
  obtain ⟨hle, hf⟩ := hd nd hk hv
  rcases hm with hm | ⟨d, h1, h2⟩
  · rw [hle] at hm; cases hm
  · rw [hf d h1] at h2; cases h2

theorem HullNear.splittable {h : Int} (hn : HullNear env near pts h) (hi : InstOK env h (pts h)) {cv : List Int} (hcv : ∀ i ∈ cv, 0 ≤ i ∧ i < (pts h).length) :
    Splittable env pts h cv := by
  refine ⟨near, hn.heap, hn.mono, ?_, ?_⟩
  · intro inters hs i him
    exact hn.reaches (hn.inter hi hs him).2
  · intro v hv p hp
    refine hn.reaches ?_
    rintro nd hk ⟨w, hw, hin⟩
    rw [List.mem_singleton] at hw; subst hw
    refine hn.vertex nd hk w.toNat ?_ p p hp (hn.sort.eq.refl p)
    have := hcv w hv
    rwa [Int.toNat_of_nonneg this.1]

/-- a vertex that lies in no piece is an end of a piece -/
theorem Pieces.mem_simple {h : Int} {ids : Nat → Int} {g : Nat} {l : List (Node P C B)} (hp : Pieces env pts [h] src ids g l) (h2 : 2 ≤ (pts h).length) {v : Int}
    (hv : 0 ≤ v ∧ v < (pts h).length) (hin : ∀ x ∈ l, ¬ Inside v x) : v ∈ simpleSet l := by
  have hc := sortNodes_chain hp
  have key : ∀ (rs : List Rng) (a b : Int), Chain a b rs → rs ≠ [] → a ≤ v → v ≤ b → ∃ r ∈ rs, r.I ≤ v ∧ v ≤ r.J := by
    intro rs
    induction rs with
    | nil => intro a b _ h _ _; exact absurd rfl h
    | cons r rs ih =>
      rintro a b ⟨h1, h2, h3⟩ _ ha hb
      by_cases hvj : v ≤ r.J
      · exact ⟨r, by simp, by omega, hvj⟩
      · by_cases hrs : rs = []
        · subst hrs
          simp only [Chain] at h3
          omega
        · obtain ⟨x, hx, h4⟩ := ih _ _ h3 hrs (by omega) hb
          exact ⟨x, List.mem_cons_of_mem _ hx, h4⟩
  have hne : (sortNodes l).map Node.range ≠ [] := by
    intro h0
    rw [h0] at hc
    simp only [Chain] at hc
    omega
  obtain ⟨r, hr, h3, h4⟩ := key _ _ _ hc hne hv.1 (by omega)
  obtain ⟨nd, hnd, rfl⟩ := List.mem_map.1 hr
  have hnd := mem_sortNodes.mem_iff.1 hnd
  rw [mem_simpleSet]
  refine ⟨nd, hnd, ?_⟩
  have := hin nd hnd
  unfold Inside at this
  omega

end Verif
