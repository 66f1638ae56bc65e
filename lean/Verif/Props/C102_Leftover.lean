import Verif.Lemmas.Tried
import Verif.Lemmas.PlanarNear
import Verif.Props.C66_Monotone

/-! C102: a single segment left over by the merge pass could not be merged with its neighbours. -/

set_option linter.unusedSectionVars false

namespace Verif

section
variable {P C B K : Type} [LinearOrder B] [BoundedOrder B] [LinearOrder K]
variable {env : Env P C B K} {pts : Int → List P} {src : Int → Prop} {ids : Nat → Int} {g : Nat} {h : Int}

/-- Specification: the vertex `v` is fixed: the line keeps its self-intersections, and `v` was given or is a split vertex of one of them. -/
def FixedVertex (env : Env P C B K) (h : Int) (cv : List Int) (v : Int) : Prop :=
  (env.inst h).opts.planarSelf = true ∧ (v ∈ cv ∨ ∃ inters,
    selfIntersection env.lib env.lnr (env.inst h).pln (env.inst h).opts.planarSelf (env.inst h).opts.nonPlanarSelf = .ok inters ∧ ∃ i ∈ inters, v ∈ i.splitIdxs)

/-- C102, the part that holds, for the pass.  After the merge pass, at every vertex that is not fixed, the two pieces meeting there cannot be made one if the later
one is a single segment, or if the earlier one is and the later one was there before the pass.  Missing for the full statement: an earlier piece that is a single
segment beside a later piece made by the pass, `C102_refuted`. -/
theorem C102_pass_partial (he : EnvOK env) (hi : InstOK env h (pts h)) (ht : Touching env pts h) (hinj : Function.Injective ids) {cvs : List Int}
    {db : Db P C B} (hd : DbOK db) (hp : Pieces env pts [h] src ids g (Hdb.contents db)) {fuel : Nat} {db' : Db P C B} {g' : Nat}
    (e : aggregate env ids (env.inst h) cvs db g fuel = .ok (db', g')) :
    ∀ a ∈ Hdb.contents db', ∀ b ∈ Hdb.contents db', a.range.J = b.range.I → a.range.J ∉ cvs →
      (b.range.J = b.range.I + 1 ∨ a.range.J = a.range.I + 1 ∧ b ∈ Hdb.contents db) → Refused env pts h a b := by
  intro a ha b hb hab hcv hs
  refine aggregate_tried he hi ht hinj hd hp e a ha b hb hab hcv (hs.imp (fun h1 => ?_) (fun h1 => ⟨?_, h1.2⟩))
  · rw [Rng.size]; omega
  · rw [Rng.size]; omega

/-- C102, the part that holds, for a run.  In the result of every run, a single segment cannot be made one piece with the piece before it, unless the vertex between
them is fixed. -/
theorem C102_run_partial (he : EnvOK env) (hl : LnrOK env.lnr) (hi : InstOK env h (pts h)) (ht : Touching env pts h) (hinj : Function.Injective ids) {cv : List Int}
    (hcv : ∀ i ∈ cv, 0 ≤ i ∧ i < (pts h).length) {dirty dirty' : Int → Bool} {fuel : Nat} {out : Out P C B}
    (e : simplify env ids h cv dirty fuel = .ok (out, dirty')) :
    ∀ a ∈ out.hulls, ∀ b ∈ out.hulls, a.range.J = b.range.I → ¬ FixedVertex env h cv a.range.J → b.range.J = b.range.I + 1 → Refused env pts h a b := by
  have hi' : ∀ k ∈ [h], InstOK env k (pts k) := by
    intro k hk; rw [List.mem_singleton] at hk; rw [hk]; exact hi
  obtain ⟨h0, g0, ⟨N0, e0⟩, p0, -⟩ := decompose_yields hi hinj
  obtain ⟨near, hlg, hmono⟩ := he.heap
  obtain ⟨h1, cvs, g1, ⟨N1, e1⟩, hg1, p1, s1, k1, k2, -⟩ := toSelfIntersects_yields he hl hi' hinj (h := h) (by simp) (strong := False)
    hlg hmono p0 hcv (fun hs => hs.elim) (fun hs => hs.elim)
  obtain ⟨d2, ⟨N2, e2⟩, w2, q2⟩ := DbOK.new.load he h1
  rw [contents_new, List.nil_append] at q2
  obtain ⟨st, ⟨N3, e3⟩, w3, hg3, p3, s3, set3⟩ := deformLoop_yields he hi' hinj _ ⟨d2, g1, markDirty dirty h⟩ h1 rfl w2 (p1.perm q2.symm)
    (fun x hx => q2.mem_iff.2 hx) (fun x hx => .inl (q2.mem_iff.1 hx))
  obtain ⟨d4, g4, ⟨N4, e4⟩, w4, -⟩ := aggregate_yields he hi hinj cvs w3 p3
  obtain ⟨o, ⟨N5, e5⟩, q5⟩ := Hdb.all_yields w4.wf
  have hy : Yields (simplify env ids h cv dirty) (⟨o, simpleSet o⟩, markClean st.dirty h) := by
    refine ⟨max N0 (max N1 (max N2 (max N3 (max N4 N5)))), fun fuel hf => ?_⟩
    have e3 := e3 fuel (by omega)
    simp only [] at e3
    simp only [simplify, e0 fuel (by omega), e1 fuel (by omega), e2 fuel (by omega), e3, e4 fuel (by omega), e5 fuel (by omega), Res.ok_bind, Res.pure_eq]
  have := (simplify_le env ids h cv dirty).val e hy
  cases this
  intro a ha b hb hab hf hs
  refine C102_pass_partial he hi ht hinj w3 p3 (e4 N4 (Nat.le_refl _)) a (q5.mem_iff.1 ha) b (q5.mem_iff.1 hb) hab (fun hmem => hf ?_) (.inl hs)
  cases hpl : (env.inst h).opts.planarSelf with
  | false => rw [(k2 hpl).1] at hmem; cases hmem
  | true =>
    obtain ⟨inters, hint, hv⟩ := k1 hpl
    refine ⟨hpl, ?_⟩
    rcases (hv a.range.J).1 hmem with h2 | h2
    · exact .inl h2
    · exact .inr ⟨inters, hint, h2⟩

/-- With all switches off only the score counts: in the result of every run, the union of a single segment and the piece before it has a score that is not
acceptable. -/
theorem C102_plain_partial (he : EnvOK env) (hl : LnrOK env.lnr) (hi : InstOK env h (pts h)) (ht : Touching env pts h) (hinj : Function.Injective ids)
    (ho : (env.inst h).opts.Plain) {dirty dirty' : Int → Bool} {fuel : Nat} {out : Out P C B} (e : simplify env ids h [] dirty fuel = .ok (out, dirty')) :
    ∀ a ∈ out.hulls, ∀ b ∈ out.hulls, a.range.J = b.range.I → b.range.J = b.range.I + 1 →
      ∃ k v, (env.inst h).scoreFn (Coords.sub (pts h) a.range.I b.range.J) = .ok (k, v) ∧ (env.inst h).rel v = false := by
  intro a ha b hb hab hs
  obtain ⟨o1, o2, o3, o4, o5⟩ := ho
  rcases C102_run_partial he hl hi ht hinj (by simp) e a ha b hb hab (fun hf => by have := hf.1; rw [o1] at this; cases this) hs with h1 | ⟨m, d, -, -, -, -, ⟨h1, -⟩ | ⟨N, h1⟩⟩
  · exact h1
  · rw [o2] at h1; cases h1
  · have := h1 N (Nat.le_refl _)
    simp only [validateContextRelation, o3, o4, o5, Bool.or_self, Bool.not_false, if_true] at this
    cases this

end

/-! ### exact geometry -/

namespace Planar

variable {P C : Type} {pos : P → ℂ} {region : C → Set ℂ} {env : Env P C EReal ℝ} {pts : Int → List P} {h : Int} {e : ℝ}

/-- In exact plane geometry adjacent pieces touch. -/
theorem Exact.touching (he : Exact pos region env.lib) (heps : env.eps = .fin e) (h0 : 0 ≤ e) : Touching env pts h := by
  intro a b ka kb hab
  obtain ⟨a1, -, -, a4, a5⟩ := he.known ka
  obtain ⟨b1, -, -, b4, b5⟩ := he.known kb
  have hai := List.mem_singleton.1 ka.inst
  have l1 := ka.lo; have l2 := ka.lt; have l3 := ka.hi; have l4 := kb.lt
  rw [hai] at l3
  obtain ⟨q, hq⟩ : ∃ q, (pts h)[a.range.J.toNat]? = some q := ⟨_, List.getElem?_eq_getElem (by omega)⟩
  have ma : pos q ∈ shape pos region a.geom := by
    rw [a1]; exact subset_convexHull ℝ _ (mem_places hq ka.lo (by omega) (by omega))
  have mb : pos q ∈ shape pos region b.geom := by
    rw [b1]; exact subset_convexHull ℝ _ (mem_places hq kb.lo (by omega) (by omega))
  have na : (shape pos region a.geom).Nonempty := ⟨_, ma⟩
  have nb : (shape pos region b.geom).Nonempty := ⟨_, mb⟩
  obtain ⟨x1, x2, x3, x4⟩ := he.bounds_subset na ma
  obtain ⟨y1, y2, y3, y4⟩ := he.bounds_subset nb mb
  have box : ∀ {s t : Box EReal} {x y : EReal}, s.minX ≤ x → x ≤ s.maxX → s.minY ≤ y → y ≤ s.maxY → t.minX ≤ x → x ≤ t.maxX → t.minY ≤ y → y ≤ t.maxY →
      s.intersects t = true := by
    intro s t x y p1 p2 p3 p4 q1 q2 q3 q4
    simp only [Box.intersects, gt_iff_lt, Bool.not_eq_true', Bool.or_eq_false_iff, decide_eq_false_iff_not, not_lt]
    exact ⟨⟨⟨q1.trans p2, p1.trans q2⟩, q3.trans p4⟩, p3.trans q4⟩
  have dist : ∀ {s t : Geo P C}, pos q ∈ shape pos region s → pos q ∈ shape pos region t → (env.lib.distance s t).le env.eps = true := by
    intro s t p1 p2
    rw [he.distance s t ⟨_, p1⟩ ⟨_, p2⟩, gap_meet ⟨_, p1, p2⟩, heps, Fl.fin_le_fin, decide_eq_true_eq]
    exact h0
  rw [a5, b5]
  exact ⟨⟨box x1 x2 x3 x4 y1 y2 y3 y4, dist mb ma⟩, box y1 y2 y3 y4 x1 x2 x3 x4, dist ma mb⟩

end Planar

/-- C102 with exact plane geometry: no assumption on the pieces is left. -/
theorem C102_plane_partial {P C : Type} {pos : P → ℂ} {region : C → Set ℂ} {env : Env P C EReal ℝ} {pts : Int → List P} {h : Int} {ids : Nat → Int} {ε : ℝ}
    (he : EnvOK env) (hl : LnrOK env.lnr) (hi : InstOK env h (pts h)) (hx : Planar.Exact pos region env.lib) (heps : env.eps = .fin ε) (h0 : 0 ≤ ε)
    (hinj : Function.Injective ids) {cv : List Int} (hcv : ∀ i ∈ cv, 0 ≤ i ∧ i < (pts h).length) {dirty dirty' : Int → Bool} {fuel : Nat} {out : Out P C EReal}
    (e : simplify env ids h cv dirty fuel = .ok (out, dirty')) :
    ∀ a ∈ out.hulls, ∀ b ∈ out.hulls, a.range.J = b.range.I → ¬ FixedVertex env h cv a.range.J → b.range.J = b.range.I + 1 → Refused env pts h a b :=
  C102_run_partial he hl hi (hx.touching heps h0) hinj hcv e

/-! ### the witness, exact plane geometry, all switches off -/

/-- the line of the witness -/
def leftLine : Demo.Line Plane.Pt (List Plane.Pt) ℚ := ⟨[(5, 8), (3, 4), (4, 2), (0, 5), (2, 2), (3, 5)], [], Plane.opts 3 0⟩

/-- C102 refuted.  Douglas–Peucker leaves the piece `0..2` and three single segments; the merge pass makes one piece `3..5` of the last two.  The single segment
`2..3` before it stays, although the union `2..5` has an acceptable score and nothing is there to conflict with: the pass does not come back to it. -/
theorem C102_refuted : ∃ (o : Out Plane.Pt (List Plane.Pt) Plane.Bx) (d : Int → Bool), leftLine.opts.Plain ∧ Plane.run leftLine [] = .ok (o, d) ∧
    ∃ a ∈ o.hulls, ∃ b ∈ o.hulls, a.range = ⟨2, 3⟩ ∧ b.range = ⟨3, 5⟩ ∧ ¬ FixedVertex (Plane.env (fun _ => leftLine)) 0 [] 3 ∧
      ¬ Refused (Plane.env (fun _ => leftLine)) (fun _ => leftLine.pts) 0 a b := by
  have h : (match Plane.run leftLine [] with
      | .ok (o, _) => decide (Rng.mk 2 3 ∈ o.hulls.map Node.range ∧ Rng.mk 3 5 ∈ o.hulls.map Node.range)
      | _ => false) = true := by decide +kernel
  split at h
  · rename_i o d e
    obtain ⟨h1, h2⟩ := of_decide_eq_true h
    obtain ⟨a, ha, har⟩ := List.mem_map.1 h1
    obtain ⟨b, hb, hbr⟩ := List.mem_map.1 h2
    refine ⟨o, d, ⟨rfl, rfl, rfl, rfl, rfl⟩, e, a, ha, b, hb, har, hbr, (fun hf => absurd hf.1 (by decide)), ?_⟩
    rintro (⟨k, v, h1, h2⟩ | ⟨m, d, -, -, -, -, ⟨h1, -⟩ | ⟨N, h1⟩⟩)
    · rw [har, hbr] at h1
      have hs : (match ((Plane.env (fun _ => leftLine)).inst 0).scoreFn (Coords.sub leftLine.pts 2 5) with
          | .ok (_, v) => ((Plane.env (fun _ => leftLine)).inst 0).rel v
          | _ => false) = true := by decide +kernel
      have h1 : ((Plane.env (fun _ => leftLine)).inst 0).scoreFn (Coords.sub leftLine.pts 2 5) = .ok (k, v) := h1
      rw [h1] at hs
      rw [show ((Plane.env (fun _ => leftLine)).inst 0).rel v = true from hs] at h2
      cases h2
    · cases h1
    · have := h1 N (Nat.le_refl _)
      cases this
  · cases h

/-! ### concrete case -/

/-- Adjacent pieces touch in the integer geometry as well. -/
theorem Axis.touching {lines : Int → Demo.Line Int Int Int} {h : Int} : Touching (Axis.env lines) (fun k => (lines k).pts) h := by
  intro a b ka kb hab
  obtain ⟨a1, a2, -⟩ := Axis.known_span ka
  obtain ⟨b1, b2, -⟩ := Axis.known_span kb
  have hai := List.mem_singleton.1 ka.inst
  have l1 := ka.lo; have l2 := ka.lt; have l3 := ka.hi; have l4 := kb.lt
  rw [hai] at l3
  obtain ⟨q, hq⟩ : ∃ q, (lines h).pts[a.range.J.toNat]? = some q := ⟨_, List.getElem?_eq_getElem (by omega)⟩
  have ma := Axis.mem_between ka.lo (j := a.range.J) (v := a.range.J.toNat) (by omega) (by omega) hq
  have mb := Axis.mem_between kb.lo (j := b.range.J) (v := a.range.J.toNat) (by omega) (by omega) hq
  have hz : Axis.gap (Axis.span a.geom) (Axis.span b.geom) = 0 ∧ Axis.gap (Axis.span b.geom) (Axis.span a.geom) = 0 := by
    have := Axis.lo_le ma; have := Axis.le_hi ma; have := Axis.lo_le mb; have := Axis.le_hi mb
    rw [a1, b1]
    unfold Axis.gap
    dsimp only
    omega
  have box : ∀ {s t : Geo Int Int}, Axis.gap (Axis.span s) (Axis.span t) = 0 → (Axis.lib.bounds s).intersects (Axis.lib.bounds t) = true := fun h0 =>
    Axis.box_sound _ _ (by simpa [Axis.lib] using h0)
  have dist : ∀ {s t : Geo Int Int}, Axis.gap (Axis.span s) (Axis.span t) = 0 → (Fl.fin (Axis.gap (Axis.span s) (Axis.span t))).le (.fin 0) = true := by
    intro s t h0
    rw [h0]; rfl
  rw [a2, b2]
  exact ⟨⟨box hz.1, dist hz.2⟩, box hz.2, dist hz.1⟩

/-- a line running to and fro -/
def froLine : Demo.Line Int Int Int := ⟨[0, 10, 1, 20, 4, 14], [], { Axis.opts 3 2 with planarSelf := false }⟩

/-- the run leaves a piece of three segments and two single ones, and no two neighbours can be made one -/
example : ∃ out d, Axis.run froLine [] = .ok (out, d) ∧ out.hulls.map Node.range = [⟨0, 3⟩, ⟨3, 4⟩, ⟨4, 5⟩] ∧
    ∀ a ∈ out.hulls, ∀ b ∈ out.hulls, a.range.J = b.range.I → Refused (Axis.env (fun _ => froLine)) (fun _ => froLine.pts) 0 a b := by
  have hr : (match Axis.run froLine [] with | .ok (o, _) => o.hulls.map Node.range | _ => []) = [⟨0, 3⟩, ⟨3, 4⟩, ⟨4, 5⟩] := by decide +kernel
  cases e : Axis.run froLine [] with
  | ok r =>
    obtain ⟨out, d⟩ := r
    rw [e] at hr
    have hr : out.hulls.map Node.range = _ := hr
    refine ⟨out, d, rfl, hr, fun a ha b hb hab => ?_⟩
    have hi : InstOK (Axis.env (fun _ => froLine)) 0 froLine.pts := Axis.inst_ok (lines := fun _ => froLine) (by decide) (by decide)
    refine C102_run_partial (pts := fun _ => froLine.pts) Axis.env_ok Axis.lnr_ok hi (Axis.touching (lines := fun _ => froLine)) (fun a b h => by simpa using h) (by simp) e
      a ha b hb hab (fun hf => absurd hf.1 (by decide)) ?_
    have ha' : a.range ∈ out.hulls.map Node.range := List.mem_map_of_mem ha
    have hb' : b.range ∈ out.hulls.map Node.range := List.mem_map_of_mem hb
    rw [hr] at ha' hb'
    have : ∀ r ∈ [Rng.mk 0 3, ⟨3, 4⟩, ⟨4, 5⟩], ∀ s ∈ [Rng.mk 0 3, ⟨3, 4⟩, ⟨4, 5⟩], r.J = s.I → s.J = s.I + 1 := by decide
    exact this _ ha' _ hb' hab
  | panic => rw [e] at hr; cases hr
  | timeout => rw [e] at hr; cases hr

end Verif
