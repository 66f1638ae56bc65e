import Verif.Props.C112_Rough

/-! C113: the geometry library errs not only in distances but also in the test for common points, near the boundary of constraints. -/

set_option linter.unusedSectionVars false

namespace Verif
namespace Planar

section
variable {P C : Type}

/-- Specification: a library that need not be exact.  Distances are known up to `ε`.  Of each constraint `g` there is an inner part, which the test for common points
never overlooks, and an outer part, outside of which it reports nothing; points of the outer part are within `ρ` of the constraint.  Between the two the test may answer
at will.  Of the distances to boxes only those to the least boxes around some constraints matter.  What is reported to meet has boxes that meet. -/
structure Blurred (ε ρ : ℝ) (pos : P → ℂ) (inner outer region : C → Set ℂ) (lib : Lib P C EReal ℝ) : Prop where
  nonempty : ∀ g, (region g).Nonempty
  sub : ∀ g, inner g ⊆ outer g
  near : ∀ g, ∀ z ∈ outer g, ∃ w ∈ region g, dist z w ≤ ρ
  seen : ∀ a g, (shape pos region a ∩ inner g).Nonempty → lib.intersects a (.ctx g) = true
  only : ∀ a g, lib.intersects a (.ctx g) = true → (shape pos region a ∩ outer g).Nonempty
  boxes : ∀ a b, lib.intersects a b = true → (lib.bounds a).intersects (lib.bounds b) = true
  distance : ∀ a b, (shape pos region a).Nonempty → (shape pos region b).Nonempty →
    ∃ d, lib.distance a b = .fin d ∧ |d - gap (shape pos region a) (shape pos region b)| ≤ ε
  boxDistance : ∀ a b gs, (shape pos region a).Nonempty → gs ≠ [] → (∀ c, b ≤ c ↔ ∀ g ∈ gs, region g ⊆ boxSet c) →
    ∃ d, lib.boxDistance a b = .fin d ∧ |d - gap (shape pos region a) (boxSet b)| ≤ ε
  bounds : ∀ a, (shape pos region a).Nonempty → ∀ b, lib.bounds a ≤ b ↔ shape pos region a ⊆ boxSet b
  hullIndexed : ∀ c, WellIndexed c → WellIndexed (lib.convexHull c)
  hullCorners : ∀ c, WellIndexed c → {z | z ∈ (lib.convexHull c).points.map pos} = (hullSet (c.points.map pos)).extremePoints ℝ
  hullOnce : ∀ c, WellIndexed c → ((lib.convexHull c).points.map pos).Nodup
  equals2D : ∀ p q, lib.equals2D p q = true ↔ pos p = pos q

/-- distances to all boxes with points in them give distances to the least boxes around some constraints -/
theorem box_around {ε : ℝ} {pos : P → ℂ} {region : C → Set ℂ} {lib : Lib P C EReal ℝ} (hn : ∀ g, (region g).Nonempty)
    (h : ∀ a b, (shape pos region a).Nonempty → (boxSet b).Nonempty → ∃ d, lib.boxDistance a b = .fin d ∧ |d - gap (shape pos region a) (boxSet b)| ≤ ε)
    (a : Geo P C) (b : Box EReal) (gs : List C) (ha : (shape pos region a).Nonempty) (hg : gs ≠ []) (hb : ∀ c, b ≤ c ↔ ∀ g ∈ gs, region g ⊆ boxSet c) :
    ∃ d, lib.boxDistance a b = .fin d ∧ |d - gap (shape pos region a) (boxSet b)| ≤ ε := by
  obtain ⟨g, hg⟩ := List.exists_mem_of_ne_nil _ hg
  exact h a b ha ((hn g).mono ((hb b).1 (Box.le_refl' b) g hg))

theorem Rough.blurred {ε : ℝ} {pos : P → ℂ} {region : C → Set ℂ} {lib : Lib P C EReal ℝ} (h : Rough ε pos region lib) : Blurred ε 0 pos region region region lib :=
  ⟨h.nonempty, fun _ _ h => h, fun _ z hz => ⟨z, hz, by simp⟩, fun a g => (h.intersects a (.ctx g)).2, fun a g => (h.intersects a (.ctx g)).1,
    h.exact.boxSound, h.distance, box_around h.nonempty h.boxDistance, h.bounds, h.hullIndexed, h.hullCorners, h.hullOnce, h.equals2D⟩

open Classical in
/-- the library with distances and the test for common points made exact -/
noncomputable def sharpest (pos : P → ℂ) (region : C → Set ℂ) (lib : Lib P C EReal ℝ) : Lib P C EReal ℝ :=
  { sharp pos region lib with intersects := fun a b => decide (shape pos region a ∩ shape pos region b).Nonempty }

theorem Blurred.exact {ε ρ : ℝ} {pos : P → ℂ} {inner outer region : C → Set ℂ} {lib : Lib P C EReal ℝ} (h : Blurred ε ρ pos inner outer region lib) :
    Exact pos region (sharpest pos region lib) :=
  ⟨h.nonempty, fun a b => by simp [sharpest], fun _ _ _ _ => rfl, fun _ _ _ _ => rfl, h.bounds, h.hullIndexed, h.hullCorners, h.hullOnce, h.equals2D⟩

end

section
variable {P C : Type} {pos : P → ℂ} {inner outer region : C → Set ℂ} {env : Env P C EReal ℝ} {pts : Int → List P} {h : Int} {cs : List C} {τ ε ρ m : ℝ}

/-- a library with errors, a queue with tolerance `τ`, a minimum distance `m` and the constraints `cs` of line `h` -/
structure BlurredSetting (pos : P → ℂ) (inner outer region : C → Set ℂ) (env : Env P C EReal ℝ) (h : Int) (cs : List C) (τ ε ρ m : ℝ) : Prop where
  blurred : Blurred ε ρ pos inner outer region env.lib
  heap : env.heap.Legal (within τ)
  tol : 0 ≤ τ ∧ 0 ≤ ε ∧ τ + 3 * ε + ρ ≤ m
  minDist : (env.inst h).opts.minDist = .fin m
  indexed : Constraints env h cs

theorem Blurred.known (hx : Blurred ε ρ pos inner outer region env.lib) {nd : Node P C EReal} (hk : Known env pts [h] nd) :
    shape pos region nd.geom = hullSet (places pos (pts h) nd.range.I nd.range.J) ∧
    shape pos region (.line nd.coords) = lineSet (places pos (pts h) nd.range.I nd.range.J) ∧
    shape pos region (.seg nd.coords) = chordSet (places pos (pts h) nd.range.I nd.range.J) ∧
    places pos (pts h) nd.range.I nd.range.J ≠ [] ∧ nd.mbr = env.lib.bounds nd.geom :=
  Exact.known (env := { env with lib := sharpest pos region env.lib }) hx.exact (pts := pts) (h := h)
    ⟨hk.inst, ⟨hk.piece.coords, hk.piece.geom, hk.piece.mbr, hk.piece.inst⟩, hk.lo, hk.lt, hk.hi⟩

theorem BlurredSetting.left_out (hs : BlurredSetting pos inner outer region env h cs τ ε ρ m) {nd : Node P C EReal} (hk : Known env pts [h] nd) {g : C}
    (hl : LeftOut env (within (τ + 2 * ε)) h nd (.ctx g)) : m - τ - 3 * ε < gap (hullSet (places pos (pts h) nd.range.I nd.range.J)) (region g) := by
  obtain ⟨k1, -, -, k4, -⟩ := hs.blurred.known hk
  obtain ⟨d, e, hd⟩ := hs.blurred.distance nd.geom (.ctx g) (by rw [k1]; exact hullSet_nonempty k4) (hs.blurred.nonempty g)
  rw [k1] at hd
  simp only [shape] at hd
  have hd := abs_le.1 hd
  obtain ⟨t1, t2, t3⟩ := hs.tol
  rw [LeftOut, e, hs.minDist] at hl
  rcases hl with hl | ⟨x, h1, h2⟩
  · rw [Fl.fin_le_fin, decide_eq_false_iff_not] at hl
    linarith
  · cases x <;> simp_all [within, Fl.le]
    linarith

/-- the boxes of index entries are those of constraints -/
theorem BlurredSetting.around (hs : BlurredSetting pos inner outer region env h cs τ ε ρ m) (ts : List (Node P C EReal))
    (ht : ∀ u ∈ ts, u ∈ Hdb.contents (env.inst h).ctxdb) :
    ∃ gs : List C, gs.map Geo.ctx = ts.map Node.geom ∧ ∀ c, (∀ u ∈ ts, (nodeOps (P := P) (C := C) (B := EReal)).mbr u ≤ c) ↔ ∀ g ∈ gs, region g ⊆ boxSet c := by
  induction ts with
  | nil => exact ⟨[], rfl, by simp⟩
  | cons u ts ih =>
    obtain ⟨gs, h1, h2⟩ := ih (fun x hx => ht x (by simp [hx]))
    obtain ⟨g, -, e1, e2⟩ := hs.indexed.mem (ht u (by simp))
    refine ⟨g :: gs, by simp [h1, e1], fun c => ?_⟩
    simp only [List.mem_cons, forall_eq_or_imp, h2]
    have := hs.blurred.bounds (.ctx g) (hs.blurred.nonempty g) c
    rw [← e2] at this
    exact and_congr_left (fun _ => this)

theorem BlurredSetting.ctxRough (hs : BlurredSetting pos inner outer region env h cs τ ε ρ m) : CtxRough env (within τ) (within (τ + 2 * ε)) pts h where
  heap := hs.heap
  refl p := (hs.blurred.equals2D p p).2 rfl
  boxes := hs.blurred.boxes
  reach nd hk := by
    intro c hcm
    obtain ⟨g, -, e1, e2⟩ := hs.indexed.mem hcm
    obtain ⟨k1, -, -, k4, -⟩ := hs.blurred.known hk
    have hne : (shape pos region nd.geom).Nonempty := by rw [k1]; exact hullSet_nonempty k4
    obtain ⟨t1, t2, t3⟩ := hs.tol
    obtain ⟨d, hd, hd'⟩ := hs.blurred.distance nd.geom (.ctx g) hne (hs.blurred.nonempty g)
    simp only [e1, hd]
    refine ⟨by simp, fun a ha => within_le (by linarith) ha, fun b ts hts hit hb => ?_⟩
    have hsub : shape pos region (.ctx g) ⊆ boxSet b := (hs.blurred.bounds (.ctx g) (hs.blurred.nonempty g) b).1 (e2 ▸ (hb b).1 (Box.le_refl' b) c hts)
    obtain ⟨gs, hgs, hbg⟩ := hs.around ts hit
    obtain ⟨x, hx, hx'⟩ := hs.blurred.boxDistance nd.geom b gs hne (by rintro rfl; cases ts <;> cases hts <;> cases hgs)
      (fun c => (hb c).trans (hbg c))
    rw [hx]
    refine ⟨by simp, fun a ha => ?_⟩
    have h1 := gap_mono (s := shape pos region nd.geom) (fun _ h => h) hsub hne (hs.blurred.nonempty g)
    have h2 := abs_le.1 hd'
    have h3 := abs_le.1 hx'
    cases a <;> simp_all [within, Fl.le]
    linarith
  away nd hk g' hg hl := by
    obtain ⟨g, -, rfl⟩ := List.mem_map.1 ((hs.indexed.geoms.mem_iff).1 hg)
    have hgap := hs.left_out hk hl
    obtain ⟨k1, k2, k3, k4, -⟩ := hs.blurred.known hk
    have ht := hs.tol.2.2
    have hfar : ∀ a : Geo P C, shape pos region a ⊆ hullSet (places pos (pts h) nd.range.I nd.range.J) → env.lib.intersects a (.ctx g) = false := by
      intro a ha
      rw [Bool.eq_false_iff, ne_eq]
      intro hn
      obtain ⟨z, hz, hzo⟩ := hs.blurred.only a g hn
      obtain ⟨w, hw, hd⟩ := hs.blurred.near g z hzo
      have := gap_le (ha hz) hw
      linarith
    refine ⟨hfar _ ?_, hfar _ ?_, fun x hx y hy z hz => hfar _ ?_⟩
    · rw [k3]; exact chordSet_subset_hullSet _
    · rw [k2]; exact lineSet_subset_hullSet _
    · rw [triangle_shape]
      refine hullSet_mono (fun w hw => ?_)
      simp only [List.mem_cons, List.not_mem_nil, or_false] at hw
      rcases hw with rfl | rfl | rfl <;> exact List.mem_map_of_mem (by assumption)

theorem BlurredSetting.judged (hs : BlurredSetting pos inner outer region env h cs τ ε ρ m) (hi : InstOK env h (pts h)) :
    JudgedUp pos inner outer region env pts h cs (τ + 4 * ε) (m + ε) := by
  obtain ⟨t1, t2, t3⟩ := hs.tol
  refine ⟨hs.blurred.nonempty, hs.blurred.sub, by linarith, fun nd hk hn => ?_⟩
  have hins : nd.inst = h := by simpa using hk.inst
  have hpc := hk.piece
  have hhi := hk.hi
  rw [hins] at hpc hhi
  have hp := points_sub (pts h) hk.lo hk.lt.le hhi
  obtain ⟨k1, k2, k3, k4, -⟩ := hs.blurred.known hk
  refine (hn.respects_rough hi hs.ctxRough hk).imp_right (fun hn => ?_)
  rcases hn with hn | hn
  · left
    have hw := wellIndexed_sub (pts := pts h) hk.lo hhi
    rw [hpc.coords] at hn
    obtain ⟨a, ha, b, hb, e⟩ := hs.blurred.exact.two_corners hw hn
    rw [hp] at ha hb e
    exact Flat.of_segment hs.blurred.sub (by linarith) ha hb e
  · right
    have hgm : ∀ g ∈ cs, Geo.ctx g ∈ (Hdb.contents (env.inst h).ctxdb).map Node.geom :=
      fun g hg => (hs.indexed.geoms.mem_iff).2 (List.mem_map_of_mem hg)
    refine ⟨fun ho g hg hm => ?_, fun hd g hg => ?_, fun hd x y hx hy => ?_⟩
    · have := hn.geom ho _ (hgm g hg)
      rw [hs.blurred.seen (.seg nd.coords) g (by rw [k3]; exact hm)] at this
      have := hs.blurred.only (.line nd.coords) g this.symm
      rwa [k2] at this
    · have hd := hn.dist hd _ (hgm g hg)
      have hne := hs.blurred.nonempty g
      obtain ⟨x, ex, hx⟩ := hs.blurred.distance (.seg nd.coords) (.ctx g) (by rw [k3]; exact chordSet_nonempty k4) hne
      obtain ⟨y, ey, hy⟩ := hs.blurred.distance (.line nd.coords) (.ctx g) (by rw [k2]; exact lineSet_nonempty k4) hne
      rw [k3] at hx
      rw [k2] at hy
      simp only [shape] at hx hy
      have hx := abs_le.1 hx
      have hy := abs_le.1 hy
      rw [hs.minDist, ex, ey] at hd
      rcases hd with hd | hd | hd
      · rw [Fl.fin_le_fin, decide_eq_true_eq] at hd
        left; linarith
      · right
        have hd : y < m := by simpa [Fl.lt] using hd
        linarith
      · left
        have h1 := hs.left_out hk hd
        have h2 := gap_mono (t := region g) (chordSet_subset_hullSet (places pos (pts h) nd.range.I nd.range.J)) (fun _ h => h) (chordSet_nonempty k4) hne
        linarith
    · obtain ⟨h1, h2⟩ := hn.side hd
      rw [places, List.head?_map] at hx
      rw [places, List.getLast?_map] at hy
      obtain ⟨p, hp1, rfl⟩ := Option.map_eq_some_iff.1 hx
      obtain ⟨q, hq1, rfl⟩ := Option.map_eq_some_iff.1 hy
      refine (h2 p q hp1 hq1).map pos (fun a b c hf => ?_)
      intro z hz g hg hdis hzg
      have hl : env.lib.intersects (.line nd.coords) (.ctx g) = false := by
        rw [Bool.eq_false_iff, ne_eq]
        intro hn
        have := hs.blurred.only _ _ hn
        rw [k2] at this
        exact disjoint_iff_not.1 hdis this
      have := hf _ (hgm g hg) (by rw [h1 _ (hgm g hg)]; exact hl) hl
      rw [hs.blurred.seen _ g (by rw [triangle_shape]; exact ⟨z, hz, hzg⟩)] at this
      cases this

variable {ids : Nat → Int} {cv : List Int} {dirty d : Int → Bool} {fuel : Nat} {out : Out P C EReal}

/-- Specification of C113 for a line `ps` and the vertices `qs` kept of it: with `DirRelation`, `qs` arises from `ps` by a continuous deformation with fixed ends that
never touches the inner part of a constraint whose outer part `ps` does not meet; with `GeomRelation` or `DirRelation`, `qs` does not meet the inner part of such a
constraint; with `DistRelation`, a constraint at least `M` away from `ps` is at least `M - t` away from `qs`. -/
structure BlurredResult (pos : P → ℂ) (inner outer region : C → Set ℂ) (cs : List C) (o : Opts ℝ) (t M : ℝ) (ps qs : List P) : Prop where
  deforms : o.dirRelation = true → Deforms (clearUp inner outer cs (ps.map pos)) (curve (ps.map pos)) (curve (qs.map pos))
  meets : o.geomRelation = true ∨ o.dirRelation = true → ∀ g ∈ cs, Disjoint (lineSet (ps.map pos)) (outer g) → Disjoint (lineSet (qs.map pos)) (inner g)
  dist : o.distRelation = true → ∀ g ∈ cs, M ≤ gap (lineSet (ps.map pos)) (region g) → M - t ≤ gap (lineSet (qs.map pos)) (region g)

theorem JudgedUp.result {t M : ℝ} {src : Int → Prop} {ids : Nat → Int} {n : Nat} {hulls : List (Node P C EReal)}
    (hs : JudgedUp pos inner outer region env pts h cs t M) (hi : InstOK env h (pts h)) (hp : Pieces env pts [h] src ids n hulls) (hn : ∀ x ∈ hulls, Settled env x) :
    BlurredResult pos inner outer region cs (env.inst h).opts t M (pts h) (verticesAt (pts h) (simpleSet hulls)) := by
  refine ⟨fun hd => ?_, fun hd g hg hdis => ?_, fun hd g hg hm => ?_⟩ <;> rw [← placesAt_eq]
  · exact (hs.deforms hi hp hn hd).1
  · rcases hd with hd | hd
    · rw [disjoint_iff_not] at hdis ⊢
      exact fun hn' => hdis (hs.meets hi hp hn hd hg hn')
    · exact Set.disjoint_left.2 (fun z hz => (hs.deforms hi hp hn hd).2 hz g hg hdis)
  · exact hs.gaps hi hp hn hd hg hm

/-- **C113** for one line -/
theorem C113_line (he : EnvOK env) (hl : LnrOK env.lnr) (hi : InstOK env h (pts h)) (hinj : Function.Injective ids)
    (hcv : ∀ i ∈ cv, 0 ≤ i ∧ i < (pts h).length) (hs : BlurredSetting pos inner outer region env h cs τ ε ρ m)
    (hr : simplify env ids h cv dirty fuel = .ok (out, d)) :
    BlurredResult pos inner outer region cs (env.inst h).opts (τ + 4 * ε) (m + ε) (pts h) (verticesAt (pts h) out.simple) := by
  obtain ⟨h1, ⟨g', h2⟩, h3, -⟩ := simplify_result he hl hi hinj hcv hr
  rw [h1]
  exact (hs.judged hi).result hi h2 h3

/-- C113 for the lines of a feature class -/
theorem C113_feature_class {idsOf : Int → Nat → Int} {handles : List Int} {o : Opts ℝ} {res : List (Int × Out P C EReal)}
    (hs : BlurredSetting pos inner outer region env h cs τ ε ρ m) (hc : ClassOK env pts ids idsOf handles)
    (hr : simplifyFeatureClass env ids idsOf handles o dirty fuel = .ok res) (hm : (h, out) ∈ res) :
    BlurredResult pos inner outer region cs (env.inst h).opts (τ + 4 * ε) (m + ε) (pts h) (verticesAt (pts h) out.simple) := by
  obtain ⟨h1, js, -, h2⟩ := fc_result hc hr
  have hh : h ∈ handles := by rw [← h1]; exact List.mem_map.2 ⟨_, hm, rfl⟩
  obtain ⟨src, ids', g, hp⟩ := (h2 _ hm).pieces
  have hi := hc.inst h hh
  rw [(h2 _ hm).simple]
  exact (hs.judged hi).result hi hp (h2 _ hm).settled

end

end Planar

section
variable {P C : Type}
open Planar

theorem Engine.respects_blurred {E : Engine P C EReal ℝ} {o : Opts ℝ} {kind : Io.OffsetKind} {ctx : List C} {lines : List (List P)} (h : E.OK o kind lines)
    {pos : P → ℂ} {inner outer region : C → Set ℂ} {τ ε ρ m : ℝ} (hx : Blurred ε ρ pos inner outer region E.lib) (hh : E.heap.Legal (within τ))
    (hτ : 0 ≤ τ ∧ 0 ≤ ε ∧ τ + 3 * ε + ρ ≤ m) (hm : o.minDist = .fin m) :
    E.Guarantees o kind ctx lines (BlurredResult pos inner outer region ctx o (τ + 4 * ε) (m + ε)) := by
  refine h.guarantees _ (fun fs hf hc k l hl hlk hp hmem hi hinj => ?_)
  obtain ⟨e1, -, -, e4⟩ := hf.inst hlk
  have hs : BlurredSetting pos inner outer region (E.env o kind fs) k ctx τ ε ρ m := by
    refine ⟨hx, hh, hτ, by rw [e1]; exact hm, ?_⟩
    have := e4.map (fun nd : Node P C EReal => (nd.geom, nd.mbr))
    rw [List.map_map] at this
    exact this
  refine ⟨fun dirty fuel out d hr hk => ?_, fun dirty fuel res out hr hm' hk => ?_⟩
  · have := C113_line (pts := fun _ => l) hc.envOK hc.lnrOK hi hinj (by simp) hs hr
    rwa [e1] at this
  · have := C113_feature_class hs hc hr hm'
    simp only [] at hp
    rwa [hp, e1] at this

end

namespace Io

open Verif.Text Verif.Planar

section
variable {P C Props : Type}

/-- **C113** for the saved file -/
theorem C113_program (w : World (Fl ℝ) P Props C) (E : Engine P C EReal ℝ) (b f : Str) {obj : ArgObj (Fl ℝ)} {kind : OffsetKind}
    {docs : List (Doc (Fl ℝ))} {ctx : List C} (hr : Reads w b f obj kind docs ctx) (hord : ∀ l, (w.enc.ord l).Perm l) (hlen : docs.length ≤ maxInt)
    (hd : ∀ d ∈ docs, HasGeometry d ∧ docParts d ≠ [] ∧ ∀ x ∈ docParts d, x.1 ≤ maxInt ∧ (x.2.1 = ['n', 'u', 'l', 'l'] ∨ (w.enc.unmarshal x.2.1).isSome))
    (hE : E.OK (E.opts (optsFromCfg obj)) kind (docs.flatMap (fun d => (docParts d).map (fun x => x.2.2.map E.toPoint))))
    {pos : P → ℂ} {inner outer region : C → Set ℂ} {τ ε ρ m : ℝ} (hx : Blurred ε ρ pos inner outer region E.lib) (hh : E.heap.Legal (within τ))
    (hτ : 0 ≤ τ ∧ 0 ≤ ε ∧ τ + 3 * ε + ρ ≤ m) (hm : obj.minDist = .fin m) :
    ∃ out N, (∀ fuel ≥ N, main (program w E fuel) b f = .saved (trim obj.output) (out.map w.marshal)) ∧
      List.Forall₂ (WrittenAs (BlurredResult pos inner outer region ctx (asked (E.mul obj.threshold obj.threshold) obj) (τ + 4 * ε) (m + ε)) w.enc E.toPoint) docs out :=
  program_lines w E b f hr hord hlen hd hE (Engine.respects_blurred hE hx hh hτ hm)

end

end Io

namespace Planar

/-! ### concrete case: a test that also reports near misses -/

open Classical in
/-- the library of C112, and a test that reports geometries within 1/20 of each other whose boxes meet -/
noncomputable def blurredLib : Lib ℂ Region EReal ℝ :=
  { roughLib with intersects := fun a b => decide ((exactLib.bounds a).intersects (exactLib.bounds b) = true ∧ ∃ z ∈ shapeOf a, ∃ w ∈ shapeOf b, dist z w ≤ 1 / 20) }

/-- the points within 1/20 of a region -/
def around (g : Region) : Set ℂ := {z | ∃ w ∈ g.1, dist z w ≤ 1 / 20}

open Classical in
theorem blurredLib_blurred : Blurred (1 / 20) (1 / 20) id (fun r : Region => r.1) around (fun r : Region => r.1) blurredLib := by
  refine ⟨exactLib_exact.nonempty, fun g z hz => ⟨z, hz, by simp⟩, fun g z hz => hz, fun a g hm => ?_, fun a g hm => ?_, fun a b hm => ?_, roughLib_rough.distance,
    box_around exactLib_exact.nonempty roughLib_rough.boxDistance, exactLib_exact.bounds, exactLib_exact.hullIndexed, exactLib_exact.hullCorners, exactLib_exact.hullOnce, exactLib_exact.equals2D⟩
  · obtain ⟨z, h1, h2⟩ := hm
    have hb := exactLib_exact.boxSound a (.ctx g) ((exactLib_exact.intersects a (.ctx g)).2 ⟨z, h1, h2⟩)
    exact decide_eq_true ⟨hb, z, h1, z, h2, by simp⟩
  · obtain ⟨-, z, h1, w, h2, h3⟩ := of_decide_eq_true hm
    exact ⟨z, h1, w, h2, h3⟩
  · exact (of_decide_eq_true hm).1

noncomputable def blurredEnv (lines : Int → Demo.Line ℂ Region ℝ) : Env ℂ Region EReal ℝ :=
  Demo.env blurredLib exactLnr (fun a b p => .fin (gap {p} (segment ℝ a b))) (.fin 0) lines

/-- the peak again: it is simplified without touching the two half planes -/
example : ∃ fuel out d, simplify (blurredEnv (fun _ => peakLine)) (fun n => n) 0 [] (fun _ => false) fuel = .ok (out, d) ∧
    BlurredResult id (fun r : Region => r.1) around (fun r : Region => r.1) [above, below] peakOpts (1 / 5) (11 / 20) peak (verticesAt peak out.simple) := by
  have he : EnvOK (blurredEnv (fun _ => peakLine)) := Demo.env_ok exactLib_point
  have hl : LnrOK (blurredEnv (fun _ => peakLine)).lnr := exactLnr_ok (lines := fun _ => peakLine)
  have hi : InstOK (blurredEnv (fun _ => peakLine)) 0 ((fun _ => peak) (0 : Int)) :=
    Demo.inst_ok (lines := fun _ => peakLine) (by simp [peakLine, peak]) (fun a b p => by simp [Fl.fin_le_fin, gap_nonneg])
      (by simp [peakLine, peakOpts, Fl.fin_le_fin]) (Exact.hulls (env := exactEnv (fun _ => peakLine)) exactLib_exact _)
  have hinj : Function.Injective (fun n : Nat => (n : Int)) := fun a b h => by simpa using h
  have hs : BlurredSetting id (fun r : Region => r.1) around (fun r : Region => r.1) (blurredEnv (fun _ => peakLine)) 0 [above, below] 0 (1 / 20) (1 / 20) (1 / 2) := by
    refine ⟨blurredLib_blurred, (exactSetting (lines := fun _ => peakLine) (h := 0) (m := 1 / 2) (by norm_num) rfl).heap, by norm_num, rfl, ?_⟩
    have := (Demo.ctxdb_spec blurredLib 0 [above, below]).2.map (fun nd : Node ℂ Region EReal => (nd.geom, nd.mbr))
    rw [List.map_map] at this
    exact this
  obtain ⟨⟨out, d⟩, N, hy⟩ := C10_terminates (pts := fun _ => peak) (cv := []) he hl hi hinj (by simp) (fun _ => false)
  have := C113_line (pts := fun _ => peak) he hl hi hinj (by simp) hs (hy N le_rfl)
  norm_num at this
  exact ⟨N, out, d, hy N le_rfl, this⟩

end Planar
end Verif
