import Verif.Props.C94_Program

/-! C112: the distances of the geometry library are computed with an error.  The constraints are still respected, up to that error. -/

set_option linter.unusedSectionVars false

namespace Verif
namespace Planar

section
variable {P C : Type}

/-- Specification: as `Exact`, but distances are only known up to `ε`.  Whether geometries have a common point is still answered exactly. -/
structure Rough (ε : ℝ) (pos : P → ℂ) (region : C → Set ℂ) (lib : Lib P C EReal ℝ) : Prop where
  nonempty : ∀ g, (region g).Nonempty
  intersects : ∀ a b, lib.intersects a b = true ↔ (shape pos region a ∩ shape pos region b).Nonempty
  distance : ∀ a b, (shape pos region a).Nonempty → (shape pos region b).Nonempty →
    ∃ d, lib.distance a b = .fin d ∧ |d - gap (shape pos region a) (shape pos region b)| ≤ ε
  boxDistance : ∀ a b, (shape pos region a).Nonempty → (boxSet b).Nonempty → ∃ d, lib.boxDistance a b = .fin d ∧ |d - gap (shape pos region a) (boxSet b)| ≤ ε
  bounds : ∀ a, (shape pos region a).Nonempty → ∀ b, lib.bounds a ≤ b ↔ shape pos region a ⊆ boxSet b
  hullIndexed : ∀ c, WellIndexed c → WellIndexed (lib.convexHull c)
  hullCorners : ∀ c, WellIndexed c → {z | z ∈ (lib.convexHull c).points.map pos} = (hullSet (c.points.map pos)).extremePoints ℝ
  hullOnce : ∀ c, WellIndexed c → ((lib.convexHull c).points.map pos).Nodup
  equals2D : ∀ p q, lib.equals2D p q = true ↔ pos p = pos q

theorem Exact.rough {pos : P → ℂ} {region : C → Set ℂ} {lib : Lib P C EReal ℝ} (h : Exact pos region lib) : Rough 0 pos region lib :=
  ⟨h.nonempty, h.intersects, fun a b h1 h2 => ⟨_, h.distance a b h1 h2, by simp⟩, fun a b h1 h2 => ⟨_, h.boxDistance a b h1 h2, by simp⟩, h.bounds, h.hullIndexed,
    h.hullCorners, h.hullOnce, h.equals2D⟩

/-- the library with its distances made exact -/
noncomputable def sharp (pos : P → ℂ) (region : C → Set ℂ) (lib : Lib P C EReal ℝ) : Lib P C EReal ℝ :=
  { lib with
    distance := fun a b => .fin (gap (shape pos region a) (shape pos region b))
    boxDistance := fun a b => .fin (gap (shape pos region a) (boxSet b)) }

theorem Rough.exact {ε : ℝ} {pos : P → ℂ} {region : C → Set ℂ} {lib : Lib P C EReal ℝ} (h : Rough ε pos region lib) : Exact pos region (sharp pos region lib) :=
  ⟨h.nonempty, h.intersects, fun _ _ _ _ => rfl, fun _ _ _ _ => rfl, h.bounds, h.hullIndexed, h.hullCorners, h.hullOnce, h.equals2D⟩

theorem within_le {τ τ' : ℝ} (h : τ ≤ τ') {a b : Fl ℝ} (hw : within τ a b) : within τ' a b := by
  cases a <;> cases b <;> simp_all [within]
  linarith

end

section
variable {P C : Type} {pos : P → ℂ} {region : C → Set ℂ} {env : Env P C EReal ℝ} {pts : Int → List P} {h : Int} {cs : List C} {τ ε m : ℝ}

/-- distances with an error of at most `ε`, a queue with tolerance `τ`, a minimum distance `m` and the constraints `cs` of line `h` -/
structure RoughSetting (pos : P → ℂ) (region : C → Set ℂ) (env : Env P C EReal ℝ) (h : Int) (cs : List C) (τ ε m : ℝ) : Prop where
  rough : Rough ε pos region env.lib
  heap : env.heap.Legal (within τ)
  tol : 0 ≤ τ ∧ 0 ≤ ε ∧ τ + 3 * ε ≤ m
  minDist : (env.inst h).opts.minDist = .fin m
  indexed : Constraints env h cs

theorem Rough.known (hx : Rough ε pos region env.lib) {nd : Node P C EReal} (hk : Known env pts [h] nd) :
    shape pos region nd.geom = hullSet (places pos (pts h) nd.range.I nd.range.J) ∧
    shape pos region (.line nd.coords) = lineSet (places pos (pts h) nd.range.I nd.range.J) ∧
    shape pos region (.seg nd.coords) = chordSet (places pos (pts h) nd.range.I nd.range.J) ∧
    places pos (pts h) nd.range.I nd.range.J ≠ [] ∧ nd.mbr = env.lib.bounds nd.geom :=
  Exact.known (env := { env with lib := sharp pos region env.lib }) hx.exact (pts := pts) (h := h) ⟨hk.inst, ⟨hk.piece.coords, hk.piece.geom, hk.piece.mbr, hk.piece.inst⟩, hk.lo, hk.lt, hk.hi⟩

theorem RoughSetting.left_out (hs : RoughSetting pos region env h cs τ ε m) {nd : Node P C EReal} (hk : Known env pts [h] nd) {g : C}
    (hl : LeftOut env (within (τ + 2 * ε)) h nd (.ctx g)) : m - τ - 3 * ε < gap (hullSet (places pos (pts h) nd.range.I nd.range.J)) (region g) := by
  obtain ⟨k1, -, -, k4, -⟩ := hs.rough.known hk
  obtain ⟨d, e, hd⟩ := hs.rough.distance nd.geom (.ctx g) (by rw [k1]; exact hullSet_nonempty k4) (hs.rough.nonempty g)
  rw [k1] at hd
  simp only [shape] at hd
  have hd := abs_le.1 hd
  obtain ⟨t1, t2, t3⟩ := hs.tol
  rw [LeftOut, e, hs.minDist] at hl
  rcases hl with hl | ⟨x, h1, h2⟩
  · rw [Fl.fin_le_fin, decide_eq_false_iff_not] at hl
    linarith
  · cases x <;> simp_all [within, Fl.le]
    linarith

theorem RoughSetting.ctxRough (hs : RoughSetting pos region env h cs τ ε m) : CtxRough env (within τ) (within (τ + 2 * ε)) pts h where
  heap := hs.heap
  refl := hs.rough.exact.eqLike_refl
  boxes := hs.rough.exact.boxSound
  reach nd hk := by
    intro c hcm
    obtain ⟨g, -, e1, e2⟩ := hs.indexed.mem hcm
    obtain ⟨k1, -, -, k4, -⟩ := hs.rough.known hk
    have hne : (shape pos region nd.geom).Nonempty := by rw [k1]; exact hullSet_nonempty k4
    obtain ⟨t1, t2, t3⟩ := hs.tol
    obtain ⟨d, hd, hd'⟩ := hs.rough.distance nd.geom (.ctx g) hne (hs.rough.nonempty g)
    simp only [e1, hd]
    refine ⟨by simp, fun a ha => within_le (by linarith) ha, fun b ts hts _ hb => ?_⟩
    have hsub : shape pos region (.ctx g) ⊆ boxSet b := (hs.rough.bounds (.ctx g) (hs.rough.nonempty g) b).1 (e2 ▸ (hb b).1 (Box.le_refl' b) c hts)
    obtain ⟨x, hx, hx'⟩ := hs.rough.boxDistance nd.geom b hne ((hs.rough.nonempty g).mono hsub)
    rw [hx]
    refine ⟨by simp, fun a ha => ?_⟩
    have h1 := gap_mono (s := shape pos region nd.geom) (fun _ h => h) hsub hne (hs.rough.nonempty g)
    have h2 := abs_le.1 hd'
    have h3 := abs_le.1 hx'
    cases a <;> simp_all [within, Fl.le]
    linarith
  away nd hk g' hg hl := by
    obtain ⟨g, -, rfl⟩ := List.mem_map.1 ((hs.indexed.geoms.mem_iff).1 hg)
    have hgap := hs.left_out hk hl
    obtain ⟨k1, k2, k3, k4, -⟩ := hs.rough.known hk
    have ht := hs.tol.2.2
    have hfar : ∀ a : Geo P C, shape pos region a ⊆ hullSet (places pos (pts h) nd.range.I nd.range.J) → env.lib.intersects a (.ctx g) = false := by
      intro a ha
      rw [Bool.eq_false_iff, ne_eq, hs.rough.intersects]
      intro hn
      have := gap_meet (hn.mono (Set.inter_subset_inter_left _ ha))
      simp only [shape] at this
      linarith
    refine ⟨hfar _ ?_, hfar _ ?_, fun x hx y hy z hz => hfar _ ?_⟩
    · rw [k3]; exact chordSet_subset_hullSet _
    · rw [k2]; exact lineSet_subset_hullSet _
    · rw [triangle_shape]
      refine hullSet_mono (fun w hw => ?_)
      simp only [List.mem_cons, List.not_mem_nil, or_false] at hw
      rcases hw with rfl | rfl | rfl <;> exact List.mem_map_of_mem (by assumption)

theorem RoughSetting.judged (hs : RoughSetting pos region env h cs τ ε m) (hi : InstOK env h (pts h)) :
    Judged pos region env pts h cs (τ + 4 * ε) (m + ε) := by
  obtain ⟨t1, t2, t3⟩ := hs.tol
  refine ⟨hs.rough.nonempty, by linarith, fun nd hk hn => ?_⟩
  have hins : nd.inst = h := by simpa using hk.inst
  have hpc := hk.piece
  have hhi := hk.hi
  rw [hins] at hpc hhi
  have hp := points_sub (pts h) hk.lo hk.lt.le hhi
  obtain ⟨k1, k2, k3, k4, -⟩ := hs.rough.known hk
  refine (hn.respects_rough hi hs.ctxRough hk).imp_right (fun hn => ?_)
  rcases hn with hn | hn
  · left
    have hw := wellIndexed_sub (pts := pts h) hk.lo hhi
    rw [hpc.coords] at hn
    obtain ⟨a, ha, b, hb, e⟩ := hs.rough.exact.two_corners hw hn
    rw [hp] at ha hb e
    exact ⟨a, ha, b, hb, e⟩
  · right
    have hgm : ∀ g ∈ cs, Geo.ctx g ∈ (Hdb.contents (env.inst h).ctxdb).map Node.geom :=
      fun g hg => (hs.indexed.geoms.mem_iff).2 (List.mem_map_of_mem hg)
    have hsame : (∀ g ∈ (Hdb.contents (env.inst h).ctxdb).map Node.geom, env.lib.intersects (.seg nd.coords) g = env.lib.intersects (.line nd.coords) g) →
        ∀ g ∈ cs, (chordSet (places pos (pts h) nd.range.I nd.range.J) ∩ region g).Nonempty ↔
          (lineSet (places pos (pts h) nd.range.I nd.range.J) ∩ region g).Nonempty := by
      intro hx g hg
      have h1 := hs.rough.intersects (.seg nd.coords) (.ctx g)
      have h2 := hs.rough.intersects (.line nd.coords) (.ctx g)
      rw [hx _ (hgm g hg)] at h1
      rw [k3] at h1
      rw [k2] at h2
      exact h1.symm.trans h2
    refine ⟨fun hg => hsame (hn.geom hg), fun hd g hg => ?_, fun hd => ?_⟩
    · have hd := hn.dist hd _ (hgm g hg)
      have hne := hs.rough.nonempty g
      obtain ⟨x, ex, hx⟩ := hs.rough.distance (.seg nd.coords) (.ctx g) (by rw [k3]; exact chordSet_nonempty k4) hne
      obtain ⟨y, ey, hy⟩ := hs.rough.distance (.line nd.coords) (.ctx g) (by rw [k2]; exact lineSet_nonempty k4) hne
      rw [k3] at hx
      rw [k2] at hy
      simp only [shape] at hx hy
      have hx := abs_le.1 hx
      have hy := abs_le.1 hy
      rw [hs.minDist, ex, ey] at hd
      rcases hd with hd | hd | hd
      · rw [Fl.fin_le_fin, decide_eq_true_eq] at hd
        left; linarith
      · right
        have hd : y < m := by simpa [Fl.lt] using hd
        linarith
      · left
        have h1 := hs.left_out hk hd
        have h2 := gap_mono (t := region g) (chordSet_subset_hullSet (places pos (pts h) nd.range.I nd.range.J)) (fun _ h => h) (chordSet_nonempty k4) hne
        linarith
    · obtain ⟨h1, h2⟩ := hn.side hd
      have h1' := hsame h1
      refine ⟨h1', fun x y hx hy => ?_⟩
      rw [places, List.head?_map] at hx
      rw [places, List.getLast?_map] at hy
      obtain ⟨p, hp1, rfl⟩ := Option.map_eq_some_iff.1 hx
      obtain ⟨q, hq1, rfl⟩ := Option.map_eq_some_iff.1 hy
      refine (h2 p q hp1 hq1).map pos (fun a b c hf => ?_)
      intro z hz g hg hdis hzg
      have hl : env.lib.intersects (.line nd.coords) (.ctx g) = false := by
        rw [Bool.eq_false_iff, ne_eq, hs.rough.intersects, k2]
        exact disjoint_iff_not.1 hdis
      have := hf _ (hgm g hg) (by rw [h1 _ (hgm g hg)]; exact hl) hl
      rw [Bool.eq_false_iff, ne_eq, hs.rough.intersects, triangle_shape] at this
      exact this ⟨z, hz, hzg⟩

variable {ids : Nat → Int} {cv : List Int} {dirty d : Int → Bool} {fuel : Nat} {out : Out P C EReal}

/-- Specification of C112 for the vertices `s` kept of a line `ps`: deformation and relations as in C74 and C75; a constraint at least `M` away from the line is at
least `M - t` away from the simplified line; likewise for each segment. -/
structure RoughResult (pos : P → ℂ) (region : C → Set ℂ) (cs : List C) (o : Opts ℝ) (t M : ℝ) (ps : List P) (s : List Int) : Prop where
  deforms : o.dirRelation = true → Deforms (clear region cs (ps.map pos)) (curve (ps.map pos)) (curve (placesAt pos ps s))
  meets : o.geomRelation = true ∨ o.dirRelation = true → ∀ g ∈ cs, Disjoint (lineSet (ps.map pos)) (region g) → Disjoint (lineSet (placesAt pos ps s)) (region g)
  dist : o.distRelation = true → ∀ g ∈ cs, M ≤ gap (lineSet (ps.map pos)) (region g) → M - t ≤ gap (lineSet (placesAt pos ps s)) (region g)
  parts : ∀ i j, Consecutive s i j → Kept pos region cs o t M ps i j

theorem Judged.result {t M : ℝ} {src : Int → Prop} {ids : Nat → Int} {n : Nat} {hulls : List (Node P C EReal)} (hs : Judged pos region env pts h cs t M)
    (hi : InstOK env h (pts h)) (hp : Pieces env pts [h] src ids n hulls) (hn : ∀ x ∈ hulls, Settled env x) :
    RoughResult pos region cs (env.inst h).opts t M (pts h) (simpleSet hulls) := by
  refine ⟨fun hd => (hs.deforms hi hp hn hd).1, fun hd g hg hdis => ?_, fun hd g hg hm => hs.gaps hi hp hn hd hg hm, fun i j hc => hs.kept hi hp hn hc⟩
  rcases hd with hd | hd
  · rw [disjoint_iff_not] at hdis ⊢
    exact fun hn' => hdis (hs.meets hi hp hn hd hg hn')
  · exact Set.disjoint_left.2 (fun z hz => (hs.deforms hi hp hn hd).2 hz g hg hdis)

/-- **C112**: distances computed with an error of at most `ε`, a queue with tolerance `τ`, a minimum distance `m ≥ τ + 3 ε`.  Deformation and the constraints met
are as with exact distances; a constraint at least `m + ε` away from the line is at least `m - τ - 3 ε` away from the simplified line. -/
theorem C112_line (he : EnvOK env) (hl : LnrOK env.lnr) (hi : InstOK env h (pts h)) (hinj : Function.Injective ids)
    (hcv : ∀ i ∈ cv, 0 ≤ i ∧ i < (pts h).length) (hs : RoughSetting pos region env h cs τ ε m) (hr : simplify env ids h cv dirty fuel = .ok (out, d)) :
    RoughResult pos region cs (env.inst h).opts (τ + 4 * ε) (m + ε) (pts h) out.simple := by
  obtain ⟨h1, ⟨g', h2⟩, h3, -⟩ := simplify_result he hl hi hinj hcv hr
  rw [h1]
  exact (hs.judged hi).result hi h2 h3

/-- C112 for the lines of a feature class -/
theorem C112_feature_class {idsOf : Int → Nat → Int} {handles : List Int} {o : Opts ℝ} {res : List (Int × Out P C EReal)}
    (hs : RoughSetting pos region env h cs τ ε m) (hc : ClassOK env pts ids idsOf handles)
    (hr : simplifyFeatureClass env ids idsOf handles o dirty fuel = .ok res) (hm : (h, out) ∈ res) :
    RoughResult pos region cs (env.inst h).opts (τ + 4 * ε) (m + ε) (pts h) out.simple := by
  obtain ⟨h1, js, -, h2⟩ := fc_result hc hr
  have hh : h ∈ handles := by rw [← h1]; exact List.mem_map.2 ⟨_, hm, rfl⟩
  obtain ⟨src, ids', g, hp⟩ := (h2 _ hm).pieces
  have hi := hc.inst h hh
  rw [(h2 _ hm).simple]
  exact (hs.judged hi).result hi hp (h2 _ hm).settled

end

end Planar

section
variable {P C : Type}
open Planar

theorem Engine.respects_rough {E : Engine P C EReal ℝ} {o : Opts ℝ} {kind : Io.OffsetKind} {ctx : List C} {lines : List (List P)} (h : E.OK o kind lines) {pos : P → ℂ}
    {region : C → Set ℂ} {τ ε m : ℝ} (hx : Rough ε pos region E.lib) (hh : E.heap.Legal (within τ)) (hτ : 0 ≤ τ ∧ 0 ≤ ε ∧ τ + 3 * ε ≤ m) (hm : o.minDist = .fin m) :
    E.Guarantees o kind ctx lines (RespectsAll pos region ctx o (τ + 4 * ε) (m + ε)) := by
  refine h.guarantees _ (fun fs hf hc k l hl hlk hp hmem hi hinj => ?_)
  obtain ⟨e1, -, -, e4⟩ := hf.inst hlk
  have hs : RoughSetting pos region (E.env o kind fs) k ctx τ ε m := by
    refine ⟨hx, hh, hτ, by rw [e1]; exact hm, ?_⟩
    have := e4.map (fun nd : Node P C EReal => (nd.geom, nd.mbr))
    rw [List.map_map] at this
    exact this
  refine ⟨fun dirty fuel out d hr hk => ?_, fun dirty fuel res out hr hm' hk => ?_⟩
  · obtain ⟨h1, h2, h3, h4⟩ := C112_line (pts := fun _ => l) hc.envOK hc.lnrOK hi hinj (by simp) hs hr
    simp only [placesAt_eq, e1] at h1 h2 h3 h4
    exact ⟨h1, h2, h3, _, hk, rfl, h4⟩
  · obtain ⟨h1, h2, h3, h4⟩ := C112_feature_class hs hc hr hm'
    simp only [] at hp
    simp only [hp, placesAt_eq, e1] at h1 h2 h3 h4
    exact ⟨h1, h2, h3, _, hk, rfl, h4⟩

end

namespace Io

open Verif.Text Verif.Planar

section
variable {P C Props : Type}

/-- **C112** for the saved file -/
theorem C112_program (w : World (Fl ℝ) P Props C) (E : Engine P C EReal ℝ) (b f : Str) {obj : ArgObj (Fl ℝ)} {kind : OffsetKind}
    {docs : List (Doc (Fl ℝ))} {ctx : List C} (hr : Reads w b f obj kind docs ctx) (hord : ∀ l, (w.enc.ord l).Perm l) (hlen : docs.length ≤ maxInt)
    (hd : ∀ d ∈ docs, HasGeometry d ∧ docParts d ≠ [] ∧ ∀ x ∈ docParts d, x.1 ≤ maxInt ∧ (x.2.1 = ['n', 'u', 'l', 'l'] ∨ (w.enc.unmarshal x.2.1).isSome))
    (hE : E.OK (E.opts (optsFromCfg obj)) kind (docs.flatMap (fun d => (docParts d).map (fun x => x.2.2.map E.toPoint))))
    {pos : P → ℂ} {region : C → Set ℂ} {τ ε m : ℝ} (hx : Rough ε pos region E.lib) (hh : E.heap.Legal (within τ)) (hτ : 0 ≤ τ ∧ 0 ≤ ε ∧ τ + 3 * ε ≤ m)
    (hm : obj.minDist = .fin m) :
    ∃ out N, (∀ fuel ≥ N, main (program w E fuel) b f = .saved (trim obj.output) (out.map w.marshal)) ∧
      List.Forall₂ (WrittenAs (RespectsAll pos region ctx (asked (E.mul obj.threshold obj.threshold) obj) (τ + 4 * ε) (m + ε)) w.enc E.toPoint) docs out :=
  program_lines w E b f hr hord hlen hd hE (Engine.respects_rough hE hx hh hτ hm)

end

end Io

namespace Planar

/-! ### concrete case: distances that are too large, by an amount that depends on the operands -/

open Classical in
/-- the exact library, with distances that are too large by 1/20 when the second operand meets the upper half plane -/
noncomputable def roughLib : Lib ℂ Region EReal ℝ :=
  { exactLib with
    distance := fun a b => .fin (gap (shapeOf a) (shapeOf b) + if (shapeOf b ∩ {z | 0 ≤ z.im}).Nonempty then 1 / 20 else 0)
    boxDistance := fun a b => .fin (gap (shapeOf a) (boxSet b) - if (boxSet b ∩ {z | 0 ≤ z.im}).Nonempty then 1 / 20 else 0) }

theorem roughLib_rough : Rough (1 / 20) id (fun r : Region => r.1) roughLib := by
  refine ⟨exactLib_exact.nonempty, exactLib_exact.intersects, fun a b _ _ => ⟨_, rfl, ?_⟩, fun a b _ _ => ⟨_, rfl, ?_⟩, exactLib_exact.bounds, exactLib_exact.hullIndexed,
    exactLib_exact.hullCorners, exactLib_exact.hullOnce, exactLib_exact.equals2D⟩
  · split_ifs <;> norm_num
  · split_ifs <;> norm_num

noncomputable def roughEnv (lines : Int → Demo.Line ℂ Region ℝ) : Env ℂ Region EReal ℝ :=
  Demo.env roughLib exactLnr (fun a b p => .fin (gap {p} (segment ℝ a b))) (.fin 0) lines

/-- the peak again: constraints at least 11/20 away from it stay at least 7/20 away -/
example : ∃ fuel out d, simplify (roughEnv (fun _ => peakLine)) (fun n => n) 0 [] (fun _ => false) fuel = .ok (out, d) ∧
    RoughResult id (fun r : Region => r.1) [above, below] peakOpts (1 / 5) (11 / 20) peak out.simple := by
  have he : EnvOK (roughEnv (fun _ => peakLine)) := Demo.env_ok exactLib_point
  have hl : LnrOK (roughEnv (fun _ => peakLine)).lnr := exactLnr_ok (lines := fun _ => peakLine)
  have hi : InstOK (roughEnv (fun _ => peakLine)) 0 ((fun _ => peak) (0 : Int)) :=
    Demo.inst_ok (lines := fun _ => peakLine) (by simp [peakLine, peak]) (fun a b p => by simp [Fl.fin_le_fin, gap_nonneg])
      (by simp [peakLine, peakOpts, Fl.fin_le_fin]) (Exact.hulls (env := exactEnv (fun _ => peakLine)) exactLib_exact _)
  have hinj : Function.Injective (fun n : Nat => (n : Int)) := fun a b h => by simpa using h
  have hs : RoughSetting id (fun r : Region => r.1) (roughEnv (fun _ => peakLine)) 0 [above, below] 0 (1 / 20) (1 / 2) := by
    refine ⟨roughLib_rough, (exactSetting (lines := fun _ => peakLine) (h := 0) (m := 1 / 2) (by norm_num) rfl).heap, by norm_num, rfl, ?_⟩
    have := (Demo.ctxdb_spec roughLib 0 [above, below]).2.map (fun nd : Node ℂ Region EReal => (nd.geom, nd.mbr))
    rw [List.map_map] at this
    exact this
  obtain ⟨⟨out, d⟩, N, hy⟩ := C10_terminates (pts := fun _ => peak) (cv := []) he hl hi hinj (by simp) (fun _ => false)
  have := C112_line (pts := fun _ => peak) he hl hi hinj (by simp) hs (hy N le_rfl)
  norm_num at this
  exact ⟨N, out, d, hy N le_rfl, this⟩

end Planar
end Verif
