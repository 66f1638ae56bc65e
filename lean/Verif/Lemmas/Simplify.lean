import Verif.Lemmas.MergePass
import Verif.Lemmas.DeformLoop
import Verif.Lemmas.SplitSelf
import Verif.Lemmas.Sep
import Verif.Props.C04_Decompose
import Verif.Props.C08_Simple

/-! The constrained simplification of one polyline. -/

set_option linter.unusedSectionVars false

namespace Verif

variable {P C B K : Type} [LinearOrder B] [BoundedOrder B] [LinearOrder K]
variable {env : Env P C B K} {pts : Int → List P} {src : Int → Prop} {ids : Nat → Int} {g : Nat}

theorem createPolyline_coordsOf {ps : List P} (h : 2 ≤ ps.length) : createPolyline (coordsOf ps) = ⟨some (coordsOf ps)⟩ := by
  have hl : (coordsOf ps).len = ps.length := by rw [coordsOf, Coords.len_sub _ _ _ (by omega)]; omega
  unfold createPolyline
  rw [if_neg (by omega)]

/-- the decomposition yields a cover -/
theorem decompose_yields {h : Int} (hi : InstOK env h (pts h)) (hinj : Function.Injective ids) :
    ∃ hulls g', Yields (decompose env.lib ids 0 (env.inst h).pln (env.inst h).scoreFn (env.inst h).rel h) (hulls, g') ∧
      Pieces env pts [h] (∃ k, ids k = ·) ids g' hulls ∧ ∀ x ∈ hulls, Accepted env pts x := by
  obtain ⟨⟨hulls, g'⟩, hr⟩ := C05_decompose_terminates env.lib ids 0 (pts h) _ _ h hi.two hi.hull hi.inside (2 * (pts h).length) (Nat.le_refl _)
  obtain ⟨c1, c2, c3, c4, c5⟩ := C04_decompose_cover env.lib ids 0 (pts h) _ _ h _ hi.two hi.hull hi.inside hulls g' hr
  refine ⟨hulls, g', ⟨2 * (pts h).length, fun fuel hf => ?_⟩, ⟨?_, ?_, ?_, ?_, ?_⟩, ?_⟩
  · rw [hi.pln, createPolyline_coordsOf hi.two]
    obtain ⟨r, hr'⟩ := C05_decompose_terminates env.lib ids 0 (pts h) _ _ h hi.two hi.hull hi.inside fuel hf
    rw [hr']
    simp only [decompose, range_ok hi.two, Res.ok_bind] at hr hr'
    have := dpLoop_mono env.lib ids _ _ _ h _ _ _ _ _ _ hf hr
    rw [this] at hr'; exact hr'.symm
  · rw [c5]
    exact List.Nodup.map (fun a b hab => by have := hinj hab; omega) List.nodup_range
  · intro nd hnd k hk
    have : nd.id ∈ hulls.map Node.id := List.mem_map.2 ⟨nd, hnd, rfl⟩
    rw [c5] at this
    obtain ⟨t, ht, hte⟩ := List.mem_map.1 this
    rw [← hte]
    intro heq
    have := hinj heq
    have := List.mem_range.1 ht
    omega
  · refine ⟨fun nd hnd => ?_, fun k => ⟨k, rfl⟩⟩
    have : nd.id ∈ hulls.map Node.id := List.mem_map.2 ⟨nd, hnd, rfl⟩
    rw [c5] at this
    obtain ⟨t, -, hte⟩ := List.mem_map.1 this
    exact ⟨_, hte⟩
  · intro nd hnd
    have := c2 nd hnd
    exact ⟨by rw [this.inst]; simp, by rw [this.inst]; exact this⟩
  · intro k hk
    rw [List.mem_singleton] at hk; subst hk
    refine ⟨hulls, List.Perm.of_eq ?_, c1⟩
    symm
    rw [List.filter_eq_self]
    intro a ha
    simpa using (c2 a ha).inst
  · intro x hx
    rw [Accepted, (c2 x hx).inst]
    exact c3 x hx

/-- The piece lies in a range of its line whose score is acceptable: it is such a range, or what was left of one when a constraint split it. -/
def Rooted (env : Env P C B K) (pts : Int → List P) (nd : Node P C B) : Prop :=
  ∃ r : Rng, 0 ≤ r.I ∧ r.I ≤ nd.range.I ∧ nd.range.J ≤ r.J ∧ r.J < (pts nd.inst).length ∧
    ∃ k v, (env.inst nd.inst).scoreFn (Coords.sub (pts nd.inst) r.I r.J) = .ok (k, v) ∧ (env.inst nd.inst).rel v = true

theorem Accepted.rooted {hs : List Int} {nd : Node P C B} (h : Accepted env pts nd) (hk : Known env pts hs nd) : Rooted env pts nd :=
  ⟨nd.range, hk.lo, Int.le_refl _, Int.le_refl _, hk.hi, h⟩

theorem Rooted.sub {m x : Node P C B} (h : Rooted env pts x) (hs : Sub m x) : Rooted env pts m := by
  obtain ⟨r, a, b, c, d, e⟩ := h
  refine ⟨r, a, Int.le_trans b hs.lo, Int.le_trans hs.hi c, ?_, ?_⟩ <;> rwa [hs.inst]

/-- what is needed to find the pieces that have to be split at the self-intersections and the fixed vertices -/
structure Splittable (env : Env P C B K) (pts : Int → List P) (h : Int) (cv : List Int) : Prop where
  reach : ∃ near : Fl K → Fl K → Prop, env.heap.Legal near ∧ (∀ a b c, near a b → b.le c = true → near a c) ∧
    (∀ inters, selfIntersection env.lib env.lnr (env.inst h).pln (env.inst h).opts.planarSelf (env.inst h).opts.nonPlanarSelf = .ok inters →
      ∀ i ∈ inters, Reaches env near pts [h] i.pt i.splitIdxs) ∧
    ∀ v ∈ cv, ∀ p, (pts h)[v.toNat]? = some p → Reaches env near pts [h] p [v]

/-- constdp/simplify.go:11-76 -/
theorem simplify_yields (he : EnvOK env) (hl : LnrOK env.lnr) {h : Int} (hi : InstOK env h (pts h)) (hinj : Function.Injective ids) {cv : List Int}
    (hcv : ∀ i ∈ cv, 0 ≤ i ∧ i < (pts h).length) (dirty : Int → Bool) :
    ∃ out dirty' g', Yields (simplify env ids h cv dirty) (out, dirty') ∧ out.simple = simpleSet out.hulls ∧ Pieces env pts [h] (∃ k, ids k = ·) ids g' out.hulls ∧
      (∀ x ∈ out.hulls, Settled env x) ∧
      (Splittable env pts h cv → (env.inst h).opts.planarSelf = true →
        (∀ v ∈ cv, ∀ x ∈ out.hulls, ¬ Inside v x) ∧ ∀ inters,
          selfIntersection env.lib env.lnr (env.inst h).pln (env.inst h).opts.planarSelf (env.inst h).opts.nonPlanarSelf = .ok inters →
          ∀ i ∈ inters, ∀ v ∈ i.splitIdxs, ∀ x ∈ out.hulls, ¬ Inside v x) ∧
      ((env.inst h).opts.avoidNewSelfIntersects = true → Sep env h out.hulls) ∧ ∀ x ∈ out.hulls, Rooted env pts x := by
  have hi' : ∀ k ∈ [h], InstOK env k (pts k) := by
    intro k hk; rw [List.mem_singleton] at hk; rw [hk]; exact hi
  obtain ⟨h0, g0, ⟨N0, e0⟩, p0, acc0⟩ := decompose_yields hi hinj
  have hnear : ∃ near : Fl K → Fl K → Prop, env.heap.Legal near ∧ (∀ a b c, near a b → b.le c = true → near a c) ∧ (Splittable env pts h cv →
      (∀ inters, selfIntersection env.lib env.lnr (env.inst h).pln (env.inst h).opts.planarSelf (env.inst h).opts.nonPlanarSelf = .ok inters →
      ∀ i ∈ inters, Reaches env near pts [h] i.pt i.splitIdxs) ∧
      ∀ v ∈ cv, ∀ p, (pts h)[v.toNat]? = some p → Reaches env near pts [h] p [v]) := by
    by_cases hs : Splittable env pts h cv
    · obtain ⟨near, a, b, c⟩ := hs.reach
      exact ⟨near, a, b, fun _ => c⟩
    · obtain ⟨near, a, b⟩ := he.heap
      exact ⟨near, a, b, fun h => absurd h hs⟩
  obtain ⟨near, hlg, hmono, hst⟩ := hnear
  obtain ⟨h1, cvs, g1, ⟨N1, e1⟩, hg1, p1, s1, k1, k2, t1⟩ := toSelfIntersects_yields he hl hi' hinj (h := h) (by simp) (strong := Splittable env pts h cv)
    hlg hmono p0 hcv (fun hs => (hst hs).1) (fun hs => (hst hs).2)
  obtain ⟨d2, ⟨N2, e2⟩, w2, q2⟩ := DbOK.new.load he h1
  rw [contents_new, List.nil_append] at q2
  obtain ⟨st, ⟨N3, e3⟩, w3, hg3, p3, s3, set3⟩ := deformLoop_yields he hi' hinj _ ⟨d2, g1, markDirty dirty h⟩ h1 rfl w2 (p1.perm q2.symm)
    (fun x hx => q2.mem_iff.2 hx) (fun x hx => .inl (q2.mem_iff.1 hx))
  obtain ⟨d4, g4, ⟨N4, e4⟩, w4, hg4, p4, set4, acc4, in4, sep4⟩ := aggregate_yields he hi hinj cvs w3 p3
  obtain ⟨out, ⟨N5, e5⟩, q5⟩ := Hdb.all_yields w4.wf
  refine ⟨⟨out, simpleSet out⟩, markClean st.dirty h, g4, ⟨max N0 (max N1 (max N2 (max N3 (max N4 N5)))), fun fuel hf => ?_⟩, rfl, p4.perm q5.symm, ?_, ?_, ?_, ?_⟩
  · have e3 := e3 fuel (by omega)
    simp only [] at e3
    simp only [simplify, e0 fuel (by omega), e1 fuel (by omega), e2 fuel (by omega), e3, e4 fuel (by omega), e5 fuel (by omega), Res.ok_bind, Res.pure_eq]
  · intro x hx
    exact set4 set3 x (q5.mem_iff.1 hx)
  · intro hs hpl
    obtain ⟨inters, hint, hv⟩ := k1 hpl
    have key : ∀ v ∈ cvs, ∀ x ∈ out, ¬ Inside v x := by
      intro v hv x hx
      refine in4 ?_ v hv x (q5.mem_iff.1 hx)
      intro v hv x hx
      obtain ⟨y, hy, hxy⟩ := s3 x hx
      exact hxy.not_inside (t1 hs v hv y (q2.mem_iff.1 hy))
    refine ⟨fun v hvc => key v ((hv v).2 (.inl hvc)), fun inters' hin i hii v hvi => ?_⟩
    rw [hint] at hin
    cases hin
    exact key v ((hv v).2 (.inr ⟨i, hii, hvi⟩))
  · intro hav
    have hsep := deformLoop_sep he hi hinj hav N3 ⟨d2, g1, markDirty dirty h⟩ st h1 (e3 N3 (Nat.le_refl _)) (by simp [markDirty]) w2 (p1.perm q2.symm)
      (fun x hx => q2.mem_iff.2 hx) (fun a ha _ _ _ _ _ => .inl (q2.mem_iff.1 ha))
    have := sep4 (Sep env h) (fun g g' hull o o' l l' hp ho hs => ho.sep he hi hav hp hs) (fun a ha b hb hab ba bb => .inr (hsep a ha b hb hab ba bb))
    exact this.mono (fun x hx => q5.mem_iff.1 hx)
  · intro x hx
    have hx := q5.mem_iff.1 hx
    rcases acc4 x hx with h1 | h1
    · obtain ⟨y, hy, hxy⟩ := s3 x h1
      obtain ⟨z, hz, hyz⟩ := s1 y (q2.mem_iff.1 hy)
      exact ((acc0 z hz).rooted (p0.known hz)).sub (hxy.trans hyz)
    · exact h1.rooted (p4.known hx)

end Verif
