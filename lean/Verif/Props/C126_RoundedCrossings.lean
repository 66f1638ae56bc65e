import Verif.Props.C125_RoundedMotions

/-! C126: rounding errors smaller than the margins do not change what is saved, also where self-intersections and junctions are kept. -/

set_option linter.unusedSectionVars false

namespace Verif
namespace Planar

section
variable {P C : Type} {pos : P → ℂ} {inner outer region : C → Set ℂ} {env : Env P C EReal ℝ} {pts : Int → List P} {h : Int} {cs : List C} {t m τ ε ρ δ : ℝ}

/-- What keeping self-intersections needs: the places where the line meets itself are found exactly, distances from a point to a box have an error of at most `ε`, and
`EpsilonDist` covers the errors of the search for the pieces around such a place. -/
structure SelfRound (pos : P → ℂ) (env : Env P C EReal ℝ) (τ ε : ℝ) : Prop where
  lnr : ExactLnr pos env.lnr
  boxes : ∀ p b, (boxSet b).Nonempty → ∃ d, env.lib.boxDistance (.point p) b = .fin d ∧ |d - gap {pos p} (boxSet b)| ≤ ε
  eps : ∃ e : ℝ, τ + 3 * ε ≤ e ∧ env.eps = .fin e

/-- a hull that contains the point is found -/
theorem SelfRound.found (hs : SelfRound pos env τ ε) (hx : Blurred ε ρ pos inner outer region env.lib) (h0 : 0 ≤ τ) (h1 : 0 ≤ ε) {nd : Node P C EReal}
    (hk : Known env pts [h] nd) {p : P} (hp : pos p ∈ hullSet (places pos (pts h) nd.range.I nd.range.J)) :
    Found (within (τ + 2 * ε)) env.eps (env.lib.distance (.point p) nd.geom) := by
  obtain ⟨k1, -, -, k4, -⟩ := hx.known hk
  obtain ⟨e, he, heps⟩ := hs.eps
  obtain ⟨d, hd, hd'⟩ := hx.distance (.point p) nd.geom ⟨pos p, rfl⟩ (by rw [k1]; exact hullSet_nonempty k4)
  rw [gap_meet (s := shape pos region (.point p)) ⟨pos p, rfl, by rw [k1]; exact hp⟩, sub_zero] at hd'
  have hd' := abs_le.1 hd'
  rw [hd, heps]
  refine ⟨by rw [Fl.fin_le_fin, decide_eq_true_eq]; linarith, fun x hx => ?_⟩
  cases x <;> simp_all [within, Fl.le]
  linarith

theorem SelfRound.interNear (hs : SelfRound pos env τ ε) (hx : Blurred ε ρ pos inner outer region env.lib) (h0 : 0 ≤ τ) (h1 : 0 ≤ ε) :
    InterNear env (within (τ + 2 * ε)) pts h where
  sort := hs.lnr.sorts hx.equals2D
  search := hs.lnr.search
  vertex nd hk v hv p q hq hpq := by
    refine hs.found hx h0 h1 hk ?_
    rw [(hx.equals2D p q).1 hpq]
    exact subset_convexHull ℝ _ (mem_places hq hk.lo (by have := hv.1; omega) (by have := hv.2; omega))
  cross nd hk a b s t hs' ht hr x hxm := by
    have hseg : pos x.1 ∈ segment ℝ (pos s.1) (pos s.2) ∩ segment ℝ (pos t.1) (pos t.2) := by
      have : pos x.1 ∈ (segment ℝ (pos s.1) (pos s.2) ∩ segment ℝ (pos t.1) (pos t.2)).extremePoints ℝ := by
        rw [← hs.lnr.segSeg]; exact ⟨x, hxm, rfl⟩
      exact this.1
    have hin : ∀ (a : Nat) (s : P × P), seg (pts h) a = some s → nd.range.I ≤ a ∧ (a : Int) + 1 ≤ nd.range.J →
        segment ℝ (pos s.1) (pos s.2) ⊆ hullSet (places pos (pts h) nd.range.I nd.range.J) := by
      intro a s hs hr
      unfold seg at hs
      split at hs
      · rename_i p q hp hq
        cases hs
        refine (hullSet_convex _).segment_subset (subset_convexHull ℝ _ (mem_places hp hk.lo hr.1 (by omega)))
          (subset_convexHull ℝ _ (mem_places hq hk.lo (by have := hr.1; omega) (by have := hr.2; omega)))
      · cases hs
    refine hs.found hx h0 h1 hk ?_
    rcases hr with hr | hr
    · exact hin a s hs' hr hseg.1
    · exact hin b t ht hr hseg.2

/-- the pieces that have to be split are found, although distances are computed with errors -/
theorem SelfRound.splittable (hs : SelfRound pos env τ ε) (hx : Blurred ε ρ pos inner outer region env.lib) (hh : env.heap.Legal (within τ)) (h0 : 0 ≤ τ) (h1 : 0 ≤ ε)
    (hi : InstOK env h (pts h)) {cv : List Int} (hcv : ∀ i ∈ cv, 0 ≤ i ∧ i < (pts h).length) : Splittable env pts h cv := by
  have hn := hs.interNear hx h0 h1 (pts := pts) (h := h)
  have reaches : ∀ {p : P} {idxs : List Int}, (∀ nd, Known env pts [h] nd → (∃ v ∈ idxs, Inside v nd) → Found (within (τ + 2 * ε)) env.eps (env.lib.distance (.point p) nd.geom)) →
      Reaches env (within τ) pts [h] p idxs := by
    intro p idxs hd
    refine ⟨within (τ + 2 * ε), fun items hit nd hnd => ?_, fun nd hk hv hm => ?_⟩
    · have hk := hit nd hnd
      obtain ⟨k1, -, -, k4, k5⟩ := hx.known hk
      have hne : (shape pos region nd.geom).Nonempty := by rw [k1]; exact hullSet_nonempty k4
      obtain ⟨d, hd, hd'⟩ := hx.distance (.point p) nd.geom ⟨pos p, rfl⟩ hne
      simp only [hd]
      refine ⟨by simp, fun a ha => within_le (by linarith) ha, fun b ts hts _ hb => ?_⟩
      have hmb : nd.mbr ≤ b := (hb b).1 (Box.le_refl' b) nd hts
      have hsub : shape pos region nd.geom ⊆ boxSet b := (hx.bounds nd.geom hne b).1 (k5 ▸ hmb)
      obtain ⟨x, hxe, hx'⟩ := hs.boxes p b (hne.mono hsub)
      rw [hxe]
      refine ⟨by simp, fun a ha => ?_⟩
      have h2 := gap_mono (s := shape pos region (.point p)) (fun _ h => h) hsub ⟨pos p, rfl⟩ hne
      have h3 := abs_le.1 hd'
      have h4 := abs_le.1 hx'
      have h5 : gap {pos p} (boxSet b) ≤ gap (shape pos region (.point p)) (shape pos region nd.geom) := h2
      cases a <;> simp_all [within, Fl.le]
      linarith
    · obtain ⟨hle, hf⟩ := hd nd hk hv
      rcases hm with hm | ⟨d, h1, h2⟩
      · rw [hle] at hm; cases hm
      · rw [hf d h1] at h2; cases h2
  refine ⟨within τ, hh, within_mono, fun inters hs' i him => reaches (hn.inter hi hs' him).2, fun v hv p hp => reaches ?_⟩
  rintro nd hk ⟨w, hw, hin⟩
  rw [List.mem_singleton] at hw; subst hw
  refine hn.vertex nd hk w.toNat ?_ p p hp (hn.sort.eq.refl p)
  have := hcv w hv
  rwa [Int.toNat_of_nonneg this.1]

variable {ids : Nat → Int}

/-- **C126, one run.**  C122 with self-intersections and junctions kept. -/
theorem C126_run (he : EnvOK env) (hl : LnrOK env.lnr) (hi : InstOK env h (pts h)) (hinj : Function.Injective ids)
    (hr : RoundRun pos inner outer region env h cs τ ε ρ δ t m) (hself : (env.inst h).opts.planarSelf = true → SelfRound pos env τ ε)
    (hd : Decided δ (τ + 4 * ε) inner outer region cs (rulesOf region (env.inst h).opts cs t m) ((pts h).map pos))
    (hav : (env.inst h).opts.avoidNewSelfIntersects = false) {cv : List Int} (hcv : ∀ i ∈ cv, 0 ≤ i ∧ i < (pts h).length) {dirty dirty' : Int → Bool} {fuel : Nat}
    {out : Out P C EReal} (e : simplify env ids h cv dirty fuel = .ok (out, dirty')) :
    ∃ rs, Procedure (rulesOf region (env.inst h).opts cs t m) (· ∈ cv) ((pts h).map pos) rs ∧ Chain 0 ((pts h).length - 1) rs ∧
      (out.hulls.map Node.range).Perm rs ∧ out.simple.Pairwise (· < ·) ∧ ∀ v, v ∈ out.simple ↔ EndOf rs v := by
  obtain ⟨t1, t2, -⟩ := hr.setting.tol
  obtain ⟨rs, h1, h2, h3, h4, h5⟩ := C107_run he hl hi hr.touching hinj hav hcv (fun hp => (hself hp).splittable hr.setting.blurred hr.setting.heap t1 t2 hi hcv) e
  refine ⟨rs, (hr.follows hd hi).procedure hi (fun v => ?_) h1, h2, h3, h4, h5⟩
  cases hp : (env.inst h).opts.planarSelf with
  | false => simp [FixedVertex, Must, rulesOf, hp]
  | true => exact fixed_must hr.setting.blurred.equals2D (hself hp).lnr hi

end

section
variable {P C : Type} {motion : P → ℂ × ℝ} {inner outer region : C → Set ℂ} {env : Env P C EReal ℝ} {pts : Int → List P} {h : Int} {cs : List C} {t m τ ε ρ δ : ℝ}
  {d : P → P → P → Fl ℝ} {ids : Nat → Int}

/-- **C126, one run on a motion.**  C125 with self-intersections and junctions kept. -/
theorem C126_motion (he : EnvOK env) (hl : LnrOK env.lnr) (hi : InstOK env h (pts h)) (hinj : Function.Injective ids)
    (hr : RoundMotionRun motion inner outer region env h cs τ ε ρ t m d) (hself : (env.inst h).opts.planarSelf = true → SelfRound (fun p => (motion p).1) env τ ε)
    (hδ : 0 ≤ δ) (hcomp : Computed d δ motion (pts h))
    (hd : MotionDecided δ (τ + 4 * ε) inner outer region cs (rulesOf region (env.inst h).opts cs t m) ((pts h).map motion))
    (hav : (env.inst h).opts.avoidNewSelfIntersects = false) {cv : List Int} (hcv : ∀ i ∈ cv, 0 ≤ i ∧ i < (pts h).length) {dirty dirty' : Int → Bool} {fuel : Nat}
    {out : Out P C EReal} (e : simplify env ids h cv dirty fuel = .ok (out, dirty')) :
    ∃ rs, MotionProcedure (rulesOf region (env.inst h).opts cs t m) (· ∈ cv) ((pts h).map motion) rs ∧ Chain 0 ((pts h).length - 1) rs ∧
      (out.hulls.map Node.range).Perm rs ∧ out.simple.Pairwise (· < ·) ∧ ∀ v, v ∈ out.simple ↔ EndOf rs v := by
  obtain ⟨t1, t2, -⟩ := hr.setting.tol
  obtain ⟨rs, h1, h2, h3, h4, h5⟩ := C107_run he hl hi hr.touching hinj hav hcv (fun hp => (hself hp).splittable hr.setting.blurred hr.setting.heap t1 t2 hi hcv) e
  refine ⟨rs, (hr.follows hδ hcomp hd hi).procedure hi (fun v => ?_) h1, h2, h3, h4, h5⟩
  cases hp : (env.inst h).opts.planarSelf with
  | false => simp [FixedVertex, Must, rulesOf, hp]
  | true =>
    have := fixed_must (region := region) (cs := cs) (t := t) (m := m) hr.setting.blurred.equals2D (hself hp).lnr hi (cv := cv) (v := v)
    rw [List.map_map]
    exact this

end

end Planar

/-! ### the program -/

section
variable {P C : Type} {pos : P → ℂ} {motion : P → ℂ × ℝ} {inner outer region : C → Set ℂ} {τ ε ρ δ t m e : ℝ} {d : P → P → P → Fl ℝ}
open Planar

/-- the junctions found in a feature class are those of the places -/
theorem Engine.class_junctions {E : Engine P C EReal ℝ} {o : Opts ℝ} {kind : Io.OffsetKind} {lines : List (List P)} {fs : List (Inst P C EReal ℝ)} {idsOf : Int → Nat → Int}
    {ids : Nat → Int} (heq : ∀ p q, E.lib.equals2D p q = true ↔ pos p = pos q) (hn : ExactLnr pos E.lnr)
    (hc : ClassOK (E.env o kind fs) (fun x : Int => lines[x.toNat]?.getD []) ids idsOf (Engine.handles lines.length)) {k : Nat} {l : List P} (hp : lines[(k : Int).toNat]?.getD [] = l) (hl : l ≠ [])
    (hmem : (k : Int) ∈ Engine.handles lines.length) {js : List (Int × Int)}
    (j3 : fcPlanarSelfIntersection (E.env o kind fs).lib (E.env o kind fs).lnr (((Engine.handles lines.length).map
      (fun x : Int => (lines[x.toNat]?.getD [], ((E.env o kind fs).inst x).id))).map (fun f => (coordsOf f.1, f.2))) = .ok js) (v : Int) :
    v ∈ junctionsOf js ((E.env o kind fs).inst k).id ↔ Junction (lines.map (fun l => l.map pos)) (l.map pos) v := by
  have hls : (Engine.handles lines.length).map (fun x : Int => lines[x.toNat]?.getD []) = lines := by
    refine List.ext_getElem? (fun n => ?_)
    simp only [Engine.handles, List.map_map, List.getElem?_map]
    by_cases hn' : n < lines.length
    · rw [List.getElem?_range hn']; simp [hn']
    · rw [List.getElem?_eq_none (by simpa using hn'), List.getElem?_eq_none (by simpa using hn')]; rfl
  have key := junctions_places (fs := (Engine.handles lines.length).map (fun x : Int => (lines[x.toNat]?.getD [], ((E.env o kind fs).inst x).id))) (env := E.env o kind fs) heq hn
    ⟨_, List.mem_map.2 ⟨k, hmem, rfl⟩, by
      intro h0
      simp only [hp] at h0
      exact hl h0⟩ j3 (by
      intro f hf' f' hf'' hff
      obtain ⟨a, ha, rfl⟩ := List.mem_map.1 hf'
      obtain ⟨b, hb, rfl⟩ := List.mem_map.1 hf''
      rw [hc.distinct a ha b hb hff]) (l := l) (id := ((E.env o kind fs).inst k).id) (List.mem_map.2 ⟨k, hmem, by rw [hp]⟩) v
  rw [key]
  have : (Engine.handles lines.length).map (fun x : Int => (lines[x.toNat]?.getD []).map pos) = lines.map (fun l => l.map pos) := by
    conv => rhs; rw [← hls]
    rw [List.map_map]; rfl
  simp only [List.map_map, Function.comp_def]
  rw [this]

/-- What keeping self-intersections asks of the external code. -/
def Engine.SelfRound (E : Engine P C EReal ℝ) (pos : P → ℂ) (τ ε e : ℝ) : Prop :=
  ExactLnr pos E.lnr ∧ (∀ p b, (boxSet b).Nonempty → ∃ d, E.lib.boxDistance (.point p) b = .fin d ∧ |d - gap {pos p} (boxSet b)| ≤ ε) ∧ τ + 3 * ε ≤ e

theorem Engine.roundedSelf {E : Engine P C EReal ℝ} {o : Opts ℝ} {kind : Io.OffsetKind} {ctx : List C} {lines : List (List P)} (h : E.OK o kind lines)
    (hx : Blurred ε ρ pos inner outer region E.lib) (hin : ∀ g, inner g ⊆ region g ∧ region g ⊆ outer g) (hh : E.heap.Legal (within τ))
    (hτ : 0 ≤ τ ∧ 0 ≤ ε ∧ τ + 3 * ε + ρ ≤ m) (he : ε ≤ e) (heps : E.eps = .fin e)
    (hsc : ∃ d : P → P → P → ℝ, (∀ a b p, 0 ≤ d a b p ∧ |d a b p - gap {pos p} (segment ℝ (pos a) (pos b))| ≤ δ) ∧ E.score kind = maxOffset (fun a b p => .fin (d a b p)))
    (ht : o.threshold = .fin t) (ht0 : 0 ≤ t) (hδ : 0 ≤ δ) (hm : o.minDist = .fin m) (hself : o.planarSelf = true → E.SelfRound pos τ ε e)
    (hav : o.avoidNewSelfIntersects = false) (fc : Bool) :
    E.GuaranteesIn fc o kind ctx lines (fun l q => Decided δ (τ + 4 * ε) inner outer region ctx (rulesOf region o ctx t m) (l.map pos) →
      Prescribed pos (rulesOf region o ctx t m) (ClassJunction fc (lines.map (fun l => l.map pos))) l q) := by
  refine h.guaranteesIn fc _ (fun fs hf hc k l hl hlk hp hmem hi hinj => ?_)
  have hr := Engine.roundRun (ctx := ctx) hf hx hin hh hτ he heps hsc ht ht0 hδ hm hlk
  obtain ⟨e1, -, -, -⟩ := hf.inst hlk
  have hsf : ((E.env o kind fs).inst k).opts.planarSelf = true → Planar.SelfRound pos (E.env o kind fs) τ ε := by
    rw [e1]
    exact fun hp => ⟨(hself hp).1, (hself hp).2.1, e, (hself hp).2.2, heps⟩
  refine ⟨?_, ?_⟩
  · rintro rfl dirty fuel out d hs hk hd
    obtain ⟨rs, c1, -, -, -, c2⟩ := C126_run (pts := fun _ => l) (env := E.env o kind fs) hc.envOK hc.lnrOK hi hinj hr hsf (by rw [e1]; exact hd) (by rw [e1]; exact hav) (cv := [])
      (by simp) hs
    rw [e1] at c1
    exact ⟨_, rs, hk, rfl, c1.congr (fun _ v => by simp [ClassJunction]), c2⟩
  · rintro rfl dirty fuel res out hs hm' hk hd
    have hav' : ∀ x ∈ Engine.handles lines.length, ((E.env o kind fs).inst x).opts.avoidNewSelfIntersects = false := by
      intro x hxm
      obtain ⟨n, hn', rfl⟩ := List.mem_map.1 hxm
      rw [(hf.inst (List.getElem?_eq_getElem (List.mem_range.1 hn'))).1]
      exact hav
    obtain ⟨js, j1, j2, j3, j4⟩ := fcJunctions_ok hc.lnrOK hc.inst hc.distinct o.planarSelf
    obtain ⟨-, a2⟩ := C105_alone hc hav' o j1 hs
    obtain ⟨own, y, q, sm⟩ := a2 _ hm'
    obtain ⟨N, y⟩ := y (fun _ => false)
    have y := y N (Nat.le_refl _)
    simp only [] at hp y sm
    have j4' := j4 k hmem
    simp only [hp] at j4'
    obtain ⟨rs, c1, -, -, -, c2⟩ := C126_run (pts := fun _ => l) (env := E.env o kind fs) hc.envOK hc.lnrOK hi hinj hr hsf (by rw [e1]; exact hd) (by rw [e1]; exact hav) j4' y
    rw [e1] at c1
    refine ⟨_, rs, hk, rfl, c1.congr (fun hks v => ?_), by rw [sm]; exact c2⟩
    have hks : o.planarSelf = true := hks
    rw [ClassJunction]
    simp only [true_and]
    exact Engine.class_junctions hx.equals2D (hself hks).1 hc hp (fun h0 => by have := hi.two; rw [h0] at this; simp at this) hmem (j3 hks) v

theorem Engine.roundedMotionSelf {E : Engine P C EReal ℝ} {o : Opts ℝ} {kind : Io.OffsetKind} {ctx : List C} {lines : List (List P)} (h : E.OK o kind lines)
    (hx : Blurred ε ρ (fun p => (motion p).1) inner outer region E.lib) (hin : ∀ g, inner g ⊆ region g ∧ region g ⊆ outer g) (hh : E.heap.Legal (within τ))
    (hτ : 0 ≤ τ ∧ 0 ≤ ε ∧ τ + 3 * ε + ρ ≤ m) (he : ε ≤ e) (heps : E.eps = .fin e) (hsc : E.score kind = maxOffset d)
    (ht : o.threshold = .fin t) (ht0 : 0 ≤ t) (hm : o.minDist = .fin m) (hself : o.planarSelf = true → E.SelfRound (fun p => (motion p).1) τ ε e)
    (hav : o.avoidNewSelfIntersects = false) (fc : Bool) :
    E.GuaranteesIn fc o kind ctx lines (fun l q => ∀ δ, 0 ≤ δ → Computed d δ motion l →
      MotionDecided δ (τ + 4 * ε) inner outer region ctx (rulesOf region o ctx t m) (l.map motion) → ∃ s rs, KeptIndices l.length s ∧ q = verticesAt l s ∧
        MotionProcedure (rulesOf region o ctx t m) (ClassJunction fc (lines.map (fun l => l.map (fun p => (motion p).1))) ((l.map motion).map Prod.fst)) (l.map motion) rs ∧
        ∀ v, v ∈ s ↔ EndOf rs v) := by
  refine h.guaranteesIn fc _ (fun fs hf hc k l hl hlk hp hmem hi hinj => ?_)
  have hr := Engine.roundMotionRun (ctx := ctx) hf hx hin hh hτ he heps hsc ht ht0 hm hlk
  obtain ⟨e1, -, -, -⟩ := hf.inst hlk
  have hsf : ((E.env o kind fs).inst k).opts.planarSelf = true → Planar.SelfRound (fun p => (motion p).1) (E.env o kind fs) τ ε := by
    rw [e1]
    exact fun hp => ⟨(hself hp).1, (hself hp).2.1, e, (hself hp).2.2, heps⟩
  refine ⟨?_, ?_⟩
  · rintro rfl dirty fuel out dd hs hk δ hδ hcomp hd
    obtain ⟨rs, c1, -, -, -, c2⟩ := C126_motion (pts := fun _ => l) (env := E.env o kind fs) hc.envOK hc.lnrOK hi hinj hr hsf hδ hcomp (by rw [e1]; exact hd) (by rw [e1]; exact hav)
      (cv := []) (by simp) hs
    rw [e1] at c1
    exact ⟨_, rs, hk, rfl, c1.congr (fun _ v => by simp [ClassJunction]), c2⟩
  · rintro rfl dirty fuel res out hs hm' hk δ hδ hcomp hd
    have hav' : ∀ x ∈ Engine.handles lines.length, ((E.env o kind fs).inst x).opts.avoidNewSelfIntersects = false := by
      intro x hxm
      obtain ⟨n, hn', rfl⟩ := List.mem_map.1 hxm
      rw [(hf.inst (List.getElem?_eq_getElem (List.mem_range.1 hn'))).1]
      exact hav
    obtain ⟨js, j1, j2, j3, j4⟩ := fcJunctions_ok hc.lnrOK hc.inst hc.distinct o.planarSelf
    obtain ⟨-, a2⟩ := C105_alone hc hav' o j1 hs
    obtain ⟨own, y, q, sm⟩ := a2 _ hm'
    obtain ⟨N, y⟩ := y (fun _ => false)
    have y := y N (Nat.le_refl _)
    simp only [] at hp y sm
    have j4' := j4 k hmem
    simp only [hp] at j4'
    obtain ⟨rs, c1, -, -, -, c2⟩ := C126_motion (pts := fun _ => l) (env := E.env o kind fs) hc.envOK hc.lnrOK hi hinj hr hsf hδ hcomp (by rw [e1]; exact hd) (by rw [e1]; exact hav)
      j4' y
    rw [e1] at c1
    refine ⟨_, rs, hk, rfl, c1.congr (fun hks v => ?_), by rw [sm]; exact c2⟩
    have hks : o.planarSelf = true := hks
    rw [ClassJunction]
    simp only [true_and]
    rw [List.map_map]
    exact Engine.class_junctions (pos := fun p => (motion p).1) hx.equals2D (hself hks).1 hc hp (fun h0 => by have := hi.two; rw [h0] at this; simp at this) hmem (j3 hks) v

end

namespace Io

open Verif.Text Verif.Planar

section
variable {P C Props : Type} {κ η Ω : ℝ} {A : Arith ℝ}

/-- **C126 for the program.**  C122 with self-intersections and junctions kept: every line on which all decisions are made with room to spare is saved with the vertices that the
exact procedure of C120 prescribes. -/
theorem C126_program (w : World (Fl ℝ) P Props C) (E : Engine P C EReal ℝ) (b f : Str) {obj : ArgObj (Fl ℝ)} {kind : OffsetKind}
    {docs : List (Doc (Fl ℝ))} {ctx : List C} (hr : Reads w b f obj kind docs ctx) (hord : ∀ l, (w.enc.ord l).Perm l) (hlen : docs.length ≤ maxInt)
    (hd : ∀ d ∈ docs, HasGeometry d ∧ docParts d ≠ [] ∧ ∀ x ∈ docParts d, x.1 ≤ maxInt ∧ (x.2.1 = ['n', 'u', 'l', 'l'] ∨ (w.enc.unmarshal x.2.1).isSome))
    (hE : E.OK (E.opts (optsFromCfg obj)) kind (docs.flatMap (fun d => (docParts d).map (fun x => x.2.2.map E.toPoint))))
    {pos : P → ℂ} {inner outer region : C → Set ℂ} {τ ε ρ δ t m e : ℝ} (hx : Blurred ε ρ pos inner outer region E.lib) (hin : ∀ g, inner g ⊆ region g ∧ region g ⊆ outer g)
    (hh : E.heap.Legal (within τ)) (hτ : 0 ≤ τ ∧ 0 ≤ ε ∧ τ + 3 * ε + ρ ≤ m) (he : ε ≤ e) (heps : E.eps = .fin e) (hname : trim obj.simplificationType ∈ dpNames)
    (hsc : ∃ d : P → P → P → ℝ, (∀ a b p, 0 ≤ d a b p ∧ |d a b p - gap {pos p} (segment ℝ (pos a) (pos b))| ≤ δ) ∧ E.score .maxOffset = maxOffset (fun a b p => .fin (d a b p)))
    (ht : obj.threshold = .fin t) (ht0 : 0 ≤ t) (hδ : 0 ≤ δ) (hm : obj.minDist = .fin m) (hself : obj.planarSelf = true → E.SelfRound pos τ ε e)
    (hav : obj.avoidNewSelfIntersects = false) :
    ∃ out N, (∀ fuel ≥ N, main (program w E fuel) b f = .saved (trim obj.output) (out.map w.marshal)) ∧
      List.Forall₂ (WrittenAs (fun l q => Decided δ (τ + 4 * ε) inner outer region ctx (rulesAsked region obj ctx t m) (l.map pos) →
        q = verticesAt l (prescribed (rulesAsked region obj ctx t m)
          (if obj.isFeatureClass then docs.flatMap (fun d => (docParts d).map (fun x => x.2.2.map (fun p => pos (E.toPoint p)))) else []) (l.map pos))) w.enc E.toPoint) docs out := by
  obtain rfl := hr.dp hname
  obtain ⟨out, N, h1, h2⟩ := program_lines_in w E b f hr hord hlen hd hE (Engine.roundedSelf hE hx hin hh hτ he heps hsc ht ht0 hδ hm hself hav obj.isFeatureClass)
  simp only [List.map_flatMap, List.map_map, Function.comp_def] at h2
  refine ⟨out, N, h1, h2.imp (fun d o ho => ho.weaken (fun l q hq hdec => ?_))⟩
  obtain ⟨s, rs, k1, rfl, k2, k3⟩ := hq hdec
  generalize docs.flatMap (fun d => (docParts d).map (fun x => x.2.2.map (fun p => pos (E.toPoint p)))) = zss at k2 ⊢
  have hg : Prescribes (rulesAsked region obj ctx t m) (if obj.isFeatureClass then zss else []) (l.map pos) s := by
    refine ⟨k1.increasing, rs, k2.congr (fun _ v => ?_), k3⟩
    cases hfc : obj.isFeatureClass with
    | true => simp [ClassJunction]
    | false =>
      simp only [ClassJunction, Bool.false_eq_true, false_and, if_false, false_iff]
      rintro ⟨n, z, rest, -, -, hp, -⟩
      simp at hp
  rw [hg.eq]

/-- **C126 for the program on motions.**  C125 with self-intersections and junctions kept. -/
theorem C126_sed (hA : A.Rounds κ η Ω) (hs : A.Signs) (w : World (Fl ℝ) Pt3 Props C) (E : Engine Pt3 C EReal ℝ) (b f : Str) {obj : ArgObj (Fl ℝ)} {kind : OffsetKind}
    {docs : List (Doc (Fl ℝ))} {ctx : List C} (hr : Reads w b f obj kind docs ctx) (hord : ∀ l, (w.enc.ord l).Perm l) (hlen : docs.length ≤ maxInt)
    (hd : ∀ d ∈ docs, HasGeometry d ∧ docParts d ≠ [] ∧ ∀ x ∈ docParts d, x.1 ≤ maxInt ∧ (x.2.1 = ['n', 'u', 'l', 'l'] ∨ (w.enc.unmarshal x.2.1).isSome))
    (hE : E.OK (E.opts (optsFromCfg obj)) kind (docs.flatMap (fun d => (docParts d).map (fun x => x.2.2.map E.toPoint))))
    {inner outer region : C → Set ℂ} {τ ε ρ t m e : ℝ} (hx : Blurred ε ρ (fun p => (stopOf p).1) inner outer region E.lib) (hin : ∀ g, inner g ⊆ region g ∧ region g ⊆ outer g)
    (hh : E.heap.Legal (within τ)) (hτ : 0 ≤ τ ∧ 0 ≤ ε ∧ τ + 3 * ε + ρ ≤ m) (he : ε ≤ e) (heps : E.eps = .fin e) (hname : trim obj.simplificationType ∈ sedNames)
    (hsc : E.score .maxSEDOffset = maxOffset (sedDist A (hypot A (.fin 1))))
    (ht : obj.threshold = .fin t) (ht0 : 0 ≤ t) (hm : obj.minDist = .fin m) (hself : obj.planarSelf = true → E.SelfRound (fun p => (stopOf p).1) τ ε e)
    (hav : obj.avoidNewSelfIntersects = false) :
    ∃ out N, (∀ fuel ≥ N, main (program w E fuel) b f = .saved (trim obj.output) (out.map w.marshal)) ∧
      List.Forall₂ (WrittenAs (fun l q => ∀ ms, l = ms.map timed → 2 ≤ ms.length → ∀ R T σ, Limits κ η Ω R T σ → Bounded R T σ ms →
        MotionDecided (sedError κ η R T) (τ + 4 * ε) inner outer region ctx (rulesAsked region obj ctx t m) ms →
        q = (verticesAt ms (prescribedStops (rulesAsked region obj ctx t m)
          (if obj.isFeatureClass then docs.flatMap (fun d => (docParts d).map (fun x => x.2.2.map (fun p => (stopOf (E.toPoint p)).1))) else []) ms)).map timed) w.enc E.toPoint) docs out := by
  obtain rfl := hr.sed hname
  obtain ⟨out, N, h1, h2⟩ := program_lines_in w E b f hr hord hlen hd hE (Engine.roundedMotionSelf (motion := stopOf) hE hx hin hh hτ he heps hsc ht ht0 hm hself hav obj.isFeatureClass)
  simp only [List.map_flatMap, List.map_map, Function.comp_def] at h2
  refine ⟨out, N, h1, h2.imp (fun d o ho => ho.weaken (fun l q hq ms hl h2 R T σ hlim hb hdec => ?_))⟩
  subst hl
  have hid : (ms.map timed).map stopOf = ms := by
    rw [List.map_map]
    exact (List.map_congr_left (fun q _ => stopOf_timed q)).trans (List.map_id ms)
  have hplace : (ms.map timed).map (fun p => (stopOf p).1) = ms.map Prod.fst := by
    rw [List.map_map]
    exact List.map_congr_left (fun q _ => rfl)
  obtain ⟨s, rs, k1, k2, k3, k4⟩ := hq (sedError κ η R T) (sedError_nonneg hlim (hb.nonneg h2).1 (hb.nonneg h2).2) (C125_computed hA hs hlim hb) (by rw [hid]; exact hdec)
  simp only [hid, hplace] at k3
  generalize docs.flatMap (fun d => (docParts d).map (fun x => x.2.2.map (fun p => (stopOf (E.toPoint p)).1))) = zss at k3 ⊢
  have hg : PrescribesStops (rulesAsked region obj ctx t m) (if obj.isFeatureClass then zss else []) ms s := by
    refine ⟨k1.increasing, rs, k3.congr (fun _ v => ?_), k4⟩
    cases hfc : obj.isFeatureClass with
    | true => simp [ClassJunction]
    | false =>
      simp only [ClassJunction, Bool.false_eq_true, false_and, if_false, false_iff]
      rintro ⟨n, z, rest, -, -, hp, -⟩
      simp at hp
  rw [k2, hg.eq, map_verticesAt]

end

end Io

namespace Planar

/-- the motion there and back is kept as it is, whatever must be kept -/
theorem shuttle_must (R : Rules) (ht : R.tolerance = 1 / 2) (junction : Int → Prop) (hj : ∀ v, junction v → 0 ≤ v ∧ v ≤ 2) : MotionProcedure R junction shuttle [⟨0, 1⟩, ⟨1, 2⟩] := by
  have hm : ∀ v, Must R junction (shuttle.map Prod.fst) v → 0 ≤ v ∧ v ≤ 2 := by
    rintro v ⟨-, h | ⟨k, rfl, h | ⟨-, h⟩⟩⟩
    · exact hj v h
    · obtain ⟨_, _, _, _, -, h, -⟩ := h
      have := (List.getElem?_eq_some_iff.1 h).1
      simp [shuttle] at this
      omega
    · obtain ⟨a, b, _, _, _, _, _, hab, -, -, -, h, -, -, hk⟩ := h
      have := (List.getElem?_eq_some_iff.1 h).1
      simp [shuttle] at this
      omega
  have hfar : ¬ NearBy (syncOffset shuttle) R.tolerance 0 2 := fun h => by
    have := h 1 (by norm_num) (by norm_num)
    rw [shuttle_offset, ht] at this
    norm_num at this
  have hcut : FarthestBy (syncOffset shuttle) 0 2 1 := ⟨by norm_num, by norm_num, fun l l0 l1 => by rw [show l = 1 by omega], fun l l0 l1 => by omega⟩
  have one : ∀ i : Int, NearBy (syncOffset shuttle) R.tolerance i (i + 1) := fun i k _ _ => by omega
  refine ⟨[⟨0, 1⟩, ⟨1, 2⟩], [⟨0, 1⟩, ⟨1, 2⟩], [⟨0, 1⟩, ⟨1, 2⟩], ?_, ⟨rfl, by decide, rfl, by decide, rfl⟩, fun v => ⟨.inl, ?_⟩, ?_, ?_⟩
  · exact .cut 0 2 1 [⟨0, 1⟩] [⟨1, 2⟩] hfar hcut (.keep 0 1 (one 0)) (.keep 1 2 (one 1))
  · rintro (h | h)
    · exact h
    · have := hm v h
      simp only [EndOf, List.mem_cons, List.not_mem_nil, or_false, exists_eq_or_imp, exists_eq_left]
      omega
  · refine Each.cons (xs := [(⟨0, 1⟩ : Rng)]) (ys := [(⟨1, 2⟩ : Rng)] ++ []) ?_ (.cons ?_ .nil)
    · exact .keep 0 1 (fun h => by omega)
    · exact .keep 1 2 (fun h => by omega)
  · refine .keep _ (fun _ => ⟨fun n hn _ hok => ?_, by simp⟩) (.keep _ (fun _ => ⟨by simp, fun p hp _ hok => ?_⟩) (.done _))
    · cases hn; exact hfar hok.1
    · cases hp; exact hfar hok.1

end Planar

namespace Real
open Io Text Planar

/-- type sed, tolerance 1/2, self-intersections and junctions kept -/
noncomputable def crossConfig (fc : Bool) : ArgObj (Fl ℝ) := { shuttleConfig fc with planarSelf := true }

theorem cross_reads (fc : Bool) (a b : Doc (Fl ℝ)) (ctx : List Region) :
    Reads (world id (crossConfig fc) a b ctx) "e30=".toList ['-'] (crossConfig fc) .maxSEDOffset [a, b] ctx where
  config := ⟨"e30=".toList, rfl, by
    have hx : decode64 (trim "e30=".toList) = .ok [123, 125] := by decide +kernel
    simp only [parseInput, hx]; rfl⟩
  kind := by
    have hk : offsetDictionary ((trim "sed".toList).map (lowerChar id)) = some .maxSEDOffset := by decide +kernel
    simp only [offsetFn, crossConfig, shuttleConfig, lateConfig, config, world, hk]; rfl
  docs := ⟨['a', '\n', 'b', '\n'], rfl, rfl⟩
  out := (by decide : trim ['o', ' '] ≠ [])
  ctx := rfl
  save := rfl

/-- C126 for the program: two motions there and back through the same places, with self-intersections and junctions kept; every operation has an error of one percent -/
example (fc : Bool) : ∃ (out : List (LineFeature (Fl ℝ) Str)) (N : Nat),
    (∀ fuel ≥ N, main (program (world id (crossConfig fc) (coordsOfMotion shuttle) (coordsOfMotion shuttle) [above]) skewStops fuel) "e30=".toList ['-'] =
      .saved ['o'] (out.map (fun _ => []))) ∧
    List.Forall₂ (WrittenAs (fun l q => l = shuttle.map timed → q = shuttle.map timed)
      (world id (crossConfig fc) (coordsOfMotion shuttle) (coordsOfMotion shuttle) [above]).enc skewStops.toPoint) [coordsOfMotion shuttle, coordsOfMotion shuttle] out := by
  obtain ⟨Ω, hlim⟩ := some_limits (κ := 1 / 100) (R := 1) (T := 2) (τ := 1) (by norm_num) (by norm_num) (by norm_num) (by norm_num) (by norm_num)
  obtain ⟨out, N, h1, h2⟩ := C126_sed (skewArith_rounds Ω) skewArith_signs _ skewStops _ _ (cross_reads fc (coordsOfMotion shuttle) (coordsOfMotion shuttle) [above])
    (fun l => .refl l) (by simp [maxInt])
    (fun d hd => by
      simp only [List.mem_cons, List.not_mem_nil, or_false] at hd
      rcases hd with rfl | rfl <;> exact line_ok _ _)
    (by
      show skewStops.OK _ _ ([coordsOfMotion shuttle, coordsOfMotion shuttle].flatMap (fun d => (docParts d).map (fun x => x.2.2.map stopEngine.toPoint)))
      rw [coordsOfMotion_lines]
      refine skewStops_ok (R := 1) (T := 2) (τ := 1) _ (by simp [Engine.opts, optsFromCfg, crossConfig, shuttleConfig, lateConfig, config, Fl.fin_le_fin]) _ _ (fun l hl => ?_)
      simp only [List.mem_cons, List.not_mem_nil, or_false] at hl
      rcases hl with rfl | rfl <;> exact ⟨by simp [shuttle], shuttle_bounded⟩)
    (τ := 0) (ε := 0) (ρ := 0) (t := 1 / 2) (m := 1 / 2) (e := 0)
    (Exact.rough (repLib_exact (pos := fun p => (stopOf p).1) (sec := fun z => timed (z, 0)) stop_section)).blurred (fun g => ⟨subset_rfl, subset_rfl⟩)
    ⟨Hdb.listHeap_legal.push, Hdb.listHeap_legal.pop_none, Hdb.listHeap_legal.pop_perm, fun q x r h1 h2 y hy => within_zero (Hdb.listHeap_legal.pop_min q x r h1 h2 y hy)⟩
    (by norm_num) le_rfl rfl (show trim "sed".toList ∈ sedNames by decide +kernel) rfl rfl (by norm_num) rfl
    (fun _ => ⟨repLnr_exact (pos := fun p => (stopOf p).1) (sec := fun z => timed (z, 0)) stop_section, fun p b hb => ⟨_, rfl, by simp [shape]⟩, by norm_num⟩) rfl
  refine ⟨out, N, h1, h2.imp (fun d o hw => hw.weaken (fun l q hq hl => ?_))⟩
  rw [hq _ hl (by simp [shuttle]) 1 2 1 hlim shuttle_bounded (by
    have := shuttle_decided (fun r : Region => r.1) [above] (rulesAsked (fun r : Region => r.1) (crossConfig fc) [above] (1 / 2) (1 / 2)) rfl
    simpa using this)]
  have hp : ∀ zss, PrescribesStops (rulesAsked (fun r : Region => r.1) (crossConfig fc) [above] (1 / 2) (1 / 2)) zss shuttle [0, 1, 2] := fun zss => by
    refine ⟨by decide, _, shuttle_must _ rfl _ (fun v hv => ?_), fun v => ?_⟩
    · obtain ⟨n, z, rest, rfl, hz, -⟩ := hv
      have := (List.getElem?_eq_some_iff.1 hz).1
      simp [shuttle] at this
      omega
    · simp only [EndOf, List.mem_cons, List.not_mem_nil, or_false, exists_eq_or_imp, exists_eq_left]
      omega
  rw [(hp _).eq]
  rfl

end Real

end Verif
