import Verif.Props.C129_ShakenTimes

/-! C130: rounded computation on measured data. -/

set_option linter.unusedSectionVars false

namespace Verif
namespace Io
open Verif.Text Verif.Planar

variable {P C Props : Type} {κ γ Ω : ℝ} {A : Arith ℝ}

/-- **C130 for the program.**  The library computes with errors (as in C126), the places in the file and the constraints are known up to an error `η` (as in C128).  A line on which
all decisions are made with room to spare for the errors of the library, near a true line `zs` on which all decisions are made with room to spare for the errors of measurement, is saved
with the vertex numbers that the exact procedure of C120 prescribes for the true line among the true constraints, if these errors do not change the vertices that must be kept. -/
theorem C130_program (w : World (Fl ℝ) P Props C) (E : Engine P C EReal ℝ) (b f : Str) {obj : ArgObj (Fl ℝ)} {kind : OffsetKind}
    {docs : List (Doc (Fl ℝ))} {ctx : List C} (hr : Reads w b f obj kind docs ctx) (hord : ∀ l, (w.enc.ord l).Perm l) (hlen : docs.length ≤ maxInt)
    (hd : ∀ d ∈ docs, HasGeometry d ∧ docParts d ≠ [] ∧ ∀ x ∈ docParts d, x.1 ≤ maxInt ∧ (x.2.1 = ['n', 'u', 'l', 'l'] ∨ (w.enc.unmarshal x.2.1).isSome))
    (hE : E.OK (E.opts (optsFromCfg obj)) kind (docs.flatMap (fun d => (docParts d).map (fun x => x.2.2.map E.toPoint))))
    {pos : P → ℂ} {inner outer region : C → Set ℂ} {τ ε ρ δ t m e : ℝ} (hx : Blurred ε ρ pos inner outer region E.lib) (hin : ∀ g, inner g ⊆ region g ∧ region g ⊆ outer g)
    (hh : E.heap.Legal (within τ)) (hτ : 0 ≤ τ ∧ 0 ≤ ε ∧ τ + 3 * ε + ρ ≤ m) (he : ε ≤ e) (heps : E.eps = .fin e) (hname : trim obj.simplificationType ∈ dpNames)
    (hsc : ∃ d : P → P → P → ℝ, (∀ a b p, 0 ≤ d a b p ∧ |d a b p - gap {pos p} (segment ℝ (pos a) (pos b))| ≤ δ) ∧ E.score .maxOffset = maxOffset (fun a b p => .fin (d a b p)))
    (ht : obj.threshold = .fin t) (ht0 : 0 ≤ t) (hδ : 0 ≤ δ) (hm : obj.minDist = .fin m) (hself : obj.planarSelf = true → E.SelfRound pos τ ε e)
    (hav : obj.avoidNewSelfIntersects = false)
    {η : ℝ} (h0 : 0 ≤ η) {shape : List ℂ → Set ℂ} (hD : Drawing shape) {cs cs' : List (List ℂ)} (hcs : List.Forall₂ (Shaken η) cs cs') {R : Rules} (hO : R.obstacles = drawn shape cs)
    (hR : rulesAsked region obj ctx t m = { R with obstacles := drawn shape cs' }) :
    ∃ out N, (∀ fuel ≥ N, main (program w E fuel) b f = .saved (trim obj.output) (out.map w.marshal)) ∧
      List.Forall₂ (WrittenAs (fun l q => ∀ zs zss, Decided δ (τ + 4 * ε) inner outer region ctx (rulesAsked region obj ctx t m) (l.map pos) →
        Shaken η zs (l.map pos) → FirmBoth (offsetOf zs) (2 * η) η R shape cs zs →
        (∀ v, Must R (Junction zss zs) zs v ↔ Must R (Junction (if obj.isFeatureClass then placesOf pos E.toPoint docs else []) (l.map pos)) (l.map pos) v) →
        q = verticesAt l (prescribed R zss zs)) w.enc E.toPoint) docs out := by
  obtain ⟨out, N, h1, h2⟩ := C126_program w E b f hr hord hlen hd hE hx hin hh hτ he heps hname hsc ht ht0 hδ hm hself hav
  refine ⟨out, N, h1, h2.imp (fun d o hw => hw.weaken (fun l q hq zs zss hdec hz hF hmu => ?_))⟩
  rw [hq hdec, hR, C128_prescribed h0 hD hO hcs hz hF hmu]
  rfl

/-- **C130 for the program on motions.**  Times are known up to an error `θ`, as in C129. -/
theorem C130_sed (hA : A.Rounds κ γ Ω) (hs : A.Signs) (w : World (Fl ℝ) Pt3 Props C) (E : Engine Pt3 C EReal ℝ) (b f : Str) {obj : ArgObj (Fl ℝ)} {kind : OffsetKind}
    {docs : List (Doc (Fl ℝ))} {ctx : List C} (hr : Reads w b f obj kind docs ctx) (hord : ∀ l, (w.enc.ord l).Perm l) (hlen : docs.length ≤ maxInt)
    (hd : ∀ d ∈ docs, HasGeometry d ∧ docParts d ≠ [] ∧ ∀ x ∈ docParts d, x.1 ≤ maxInt ∧ (x.2.1 = ['n', 'u', 'l', 'l'] ∨ (w.enc.unmarshal x.2.1).isSome))
    (hE : E.OK (E.opts (optsFromCfg obj)) kind (docs.flatMap (fun d => (docParts d).map (fun x => x.2.2.map E.toPoint))))
    {inner outer region : C → Set ℂ} {τ ε ρ t m e : ℝ} (hx : Blurred ε ρ (fun p => (stopOf p).1) inner outer region E.lib) (hin : ∀ g, inner g ⊆ region g ∧ region g ⊆ outer g)
    (hh : E.heap.Legal (within τ)) (hτ : 0 ≤ τ ∧ 0 ≤ ε ∧ τ + 3 * ε + ρ ≤ m) (he : ε ≤ e) (heps : E.eps = .fin e) (hname : trim obj.simplificationType ∈ sedNames)
    (hsc : E.score .maxSEDOffset = maxOffset (sedDist A (hypot A (.fin 1))))
    (ht : obj.threshold = .fin t) (ht0 : 0 ≤ t) (hm : obj.minDist = .fin m) (hself : obj.planarSelf = true → E.SelfRound (fun p => (stopOf p).1) τ ε e)
    (hav : obj.avoidNewSelfIntersects = false)
    {η θ V : ℝ} (h0 : 0 ≤ η) (hV : 0 ≤ V) (hθ : 0 ≤ θ) {shape : List ℂ → Set ℂ} (hD : Drawing shape) {cs cs' : List (List ℂ)} (hcs : List.Forall₂ (Shaken η) cs cs') {R : Rules}
    (hO : R.obstacles = drawn shape cs) (hR : rulesAsked region obj ctx t m = { R with obstacles := drawn shape cs' }) :
    ∃ out N, (∀ fuel ≥ N, main (program w E fuel) b f = .saved (trim obj.output) (out.map w.marshal)) ∧
      List.Forall₂ (WrittenAs (fun l q => ∀ ms ms' zss, l = ms'.map timed → 2 ≤ ms'.length → ∀ r T σ, Limits κ γ Ω r T σ → Bounded r T σ ms' →
        MotionDecided (sedError κ γ r T) (τ + 4 * ε) inner outer region ctx (rulesAsked region obj ctx t m) ms' →
        ShakenStops η θ ms ms' → Timed ms → Timed ms' → SlowerThan V ms → FirmBoth (syncOffset ms) (2 * η + 2 * V * θ) η R shape cs (ms.map Prod.fst) →
        (∀ v, Must R (Junction zss (ms.map Prod.fst)) (ms.map Prod.fst) v ↔ Must R (Junction (classPlaces E obj docs) (ms'.map Prod.fst)) (ms'.map Prod.fst) v) →
        q = (verticesAt ms' (prescribedStops R zss ms)).map timed) w.enc E.toPoint) docs out := by
  obtain ⟨out, N, h1, h2⟩ := C126_sed hA hs w E b f hr hord hlen hd hE hx hin hh hτ he heps hname hsc ht ht0 hm hself hav
  refine ⟨out, N, h1, h2.imp (fun d o hw => hw.weaken (fun l q hq ms ms' zss hl h2' r T σ hlim hb hdec hz htm htm' hv hF hmu => ?_))⟩
  rw [hq ms' hl h2' r T σ hlim hb hdec, hR, C129_prescribed h0 hV hθ hD hO hcs hz htm htm' hv hF hmu]
  rfl

end Io

/-! ### a concrete case -/

namespace Real
open Io Text Planar

theorem near_known : ShakenStops (1 / 100) (1 / 100) shuttleNear shuttle := by
  refine .cons ⟨?_, ?_⟩ (.cons ⟨?_, ?_⟩ (.cons ⟨?_, ?_⟩ .nil))
  · exact (Complex.dist_of_re_eq (z := ⟨-1, 1 / 100⟩) (w := ⟨-1, 0⟩) rfl).trans_le (by norm_num [Real.dist_eq])
  all_goals norm_num

theorem near_slow : SlowerThan 3 shuttleNear := by
  have h : ∀ a b c d : ℝ, dist (⟨a, c⟩ : ℂ) ⟨b, d⟩ ≤ |a - b| + |c - d| := fun a b c d => by
    rw [dist_eq_norm]
    exact Complex.norm_le_abs_re_add_abs_im _
  unfold SlowerThan shuttleNear
  refine .cons_cons ((h _ _ _ _).trans ?_) (.cons_cons ((h _ _ _ _).trans ?_) (.singleton _)) <;> norm_num [abs_of_nonneg]

theorem near_offset : 198 / 100 ≤ syncOffset shuttleNear 0 2 1 := by
  obtain ⟨u, e1, e2, hu⟩ := shuttle_shaken.pairs
  have hl : u.length = 3 := by have := congrArg List.length e1; simpa [shuttle] using this.symm
  have := syncOffset_shaken hu (by rw [← e1]; simp [shuttle, Timed]) 0 2 1 (by norm_num) (by norm_num) (by norm_num) (by omega)
  rw [← e1, ← e2, shuttle_offset] at this
  have := abs_le.1 this
  linarith

theorem near_firm (R : Rules) (hO : R.obstacles = {s | ∃ g ∈ [farPoint], g.1 = s}) (ht : R.tolerance = 1 / 2) (hm : R.minDist ≤ 1) :
    FirmBoth (syncOffset shuttleNear) (2 * (1 / 100) + 2 * 3 * (1 / 100)) (1 / 100) R lineSet [[⟨1000, 0⟩]] (shuttleNear.map Prod.fst) := by
  have hz : ∀ z ∈ shuttleNear.map Prod.fst, ‖z‖ ≤ 2 := fun z hz => by
    simp only [shuttleNear, List.map_cons, List.map_nil, List.mem_cons, List.not_mem_nil, or_false] at hz
    have h := Complex.norm_le_abs_re_add_abs_im z
    refine h.trans ?_
    rcases hz with rfl | rfl | rfl <;> norm_num [abs_of_nonneg]
  refine far_firmBoth (by norm_num) hm hz (far_firm (by norm_num) hO hm hz (fun i j h0 h1 h2 => .inr (fun h => ?_)) (fun i j h0 h1 h2 => ?_))
  · simp only [shuttleNear, List.map_cons, List.map_nil, List.length_cons, List.length_nil] at h2
    obtain rfl : i = 0 := by omega
    obtain rfl : j = 2 := by omega
    have h3 := h 1 (by norm_num) (by norm_num)
    have := near_offset
    rw [ht] at h3
    linarith
  · simp only [shuttleNear, List.map_cons, List.map_nil, List.length_cons, List.length_nil] at h2
    exact ⟨1, by omega, by omega, fun l l0 l1 hl => by omega⟩

/-- C130 for the program: every operation on the score has an error of one percent, the first place of the motion and the constraint are known up to 1/100; what is saved are the stops
that the exact procedure prescribes for the true motion -/
example (fc : Bool) : ∃ (out : List (LineFeature (Fl ℝ) Str)) (N : Nat),
    (∀ fuel ≥ N, main (program (world id (shuttleConfig fc) (coordsOfMotion shuttle) (coordsOfMotion shuttle) [farNear]) skewStops fuel) "e30=".toList ['-'] =
      .saved ['o'] (out.map (fun _ => []))) ∧
    List.Forall₂ (WrittenAs (fun l q => l = shuttle.map timed →
        q = (verticesAt shuttle (prescribedStops (rulesAsked (fun r : Region => r.1) (shuttleConfig fc) [farPoint] (1 / 2) (1 / 2)) [] shuttleNear)).map timed)
      (world id (shuttleConfig fc) (coordsOfMotion shuttle) (coordsOfMotion shuttle) [farNear]).enc skewStops.toPoint) [coordsOfMotion shuttle, coordsOfMotion shuttle] out := by
  obtain ⟨Ω, hlim⟩ := some_limits (κ := 1 / 100) (R := 1) (T := 2) (τ := 1) (by norm_num) (by norm_num) (by norm_num) (by norm_num) (by norm_num)
  obtain ⟨out, N, h1, h2⟩ := C130_sed (skewArith_rounds Ω) skewArith_signs _ skewStops _ _ (shuttle_reads fc (coordsOfMotion shuttle) (coordsOfMotion shuttle) [farNear])
    (fun l => .refl l) (by simp [maxInt])
    (fun d hd => by
      simp only [List.mem_cons, List.not_mem_nil, or_false] at hd
      rcases hd with rfl | rfl <;> exact line_ok _ _)
    (by
      show skewStops.OK _ _ ([coordsOfMotion shuttle, coordsOfMotion shuttle].flatMap (fun d => (docParts d).map (fun x => x.2.2.map stopEngine.toPoint)))
      rw [coordsOfMotion_lines]
      refine skewStops_ok (R := 1) (T := 2) (τ := 1) _ (by simp [Engine.opts, optsFromCfg, shuttleConfig, lateConfig, config, Fl.fin_le_fin]) _ _ (fun l hl => ?_)
      simp only [List.mem_cons, List.not_mem_nil, or_false] at hl
      rcases hl with rfl | rfl <;> exact ⟨by simp [shuttle], shuttle_bounded⟩)
    (τ := 0) (ε := 0) (ρ := 0) (t := 1 / 2) (m := 1 / 2) (e := 0)
    (Exact.rough (repLib_exact (pos := fun p => (stopOf p).1) (sec := fun z => timed (z, 0)) stop_section)).blurred (fun g => ⟨subset_rfl, subset_rfl⟩)
    ⟨Hdb.listHeap_legal.push, Hdb.listHeap_legal.pop_none, Hdb.listHeap_legal.pop_perm, fun q x r h1 h2 y hy => within_zero (Hdb.listHeap_legal.pop_min q x r h1 h2 y hy)⟩
    (by norm_num) le_rfl rfl (show trim "sed".toList ∈ sedNames by decide +kernel) rfl rfl (by norm_num) rfl
    (fun h => by cases h) rfl
    (η := 1 / 100) (θ := 1 / 100) (V := 3) (by norm_num) (by norm_num) (by norm_num) drawing_line (cs := [[⟨1000, 0⟩]]) (cs' := [[⟨1000, 1 / 100⟩]])
    (.cons (.cons ((Complex.dist_of_re_eq (z := ⟨1000, 0⟩) (w := ⟨1000, 1 / 100⟩) rfl).trans_le (by norm_num [Real.dist_eq])) .nil) .nil)
    (R := rulesAsked (fun r : Region => r.1) (shuttleConfig fc) [farPoint] (1 / 2) (1 / 2))
    (by simp [rulesAsked, drawn, lineSet, farPoint]) (by simp [rulesAsked, drawn, lineSet, farNear])
  refine ⟨out, N, h1, h2.imp (fun d o hw => hw.weaken (fun l q hq hl => ?_))⟩
  refine hq shuttleNear shuttle [] hl (by simp [shuttle]) 1 2 1 hlim shuttle_bounded (by
    have := shuttle_decided (fun r : Region => r.1) [farNear] (rulesAsked (fun r : Region => r.1) (shuttleConfig fc) [farNear] (1 / 2) (1 / 2)) rfl
    simpa using this) near_known (by simp [shuttleNear, Timed]) (by simp [shuttle, Timed]) near_slow (near_firm _ rfl rfl (by simp only [rulesAsked]; norm_num)) (fun v => ?_)
  exact iff_of_false (fun h => by have := h.1; cases this) (fun h => by have := h.1; cases this)

end Real

end Verif
