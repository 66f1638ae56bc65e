import Verif.Props.C123_Motions

/-! C124: what is saved for a motion does not depend on the clock, on where everything is, on constraints out of reach, nor, without constraints, on a common drift. -/

set_option linter.unusedSectionVars false

namespace Verif
namespace Planar

/-! ### specification -/

/-- the same motion, moved by `φ`, with times read from a clock that runs `a` times as fast and was started at `b` -/
noncomputable def reclocked (φ : ℂ →ᵃ[ℝ] ℂ) (a b : ℝ) (ms : List (ℂ × ℝ)) : List (ℂ × ℝ) := ms.map (fun q => (φ q.1, a * q.2 + b))

/-- the same motion, seen by someone who drifts with the velocity `-v` -/
noncomputable def drifting (v : ℂ) (ms : List (ℂ × ℝ)) : List (ℂ × ℝ) := ms.map (fun q => (q.1 + q.2 • v, q.2))

/-- nothing but the tolerance is asked for -/
def Rules.OnlyTolerance (R : Rules) : Prop := R.keepSelf = false ∧ R.geom = false ∧ R.dist = false ∧ R.side = false

/-! ### requests that the procedure cannot tell apart -/

section
variable {off off' : Int → Int → Int → ℝ} {R R' : Rules} {zs zs' : List ℂ}

/-- as `Alike`, with offsets given by functions -/
structure AlikeBy (off off' : Int → Int → Int → ℝ) (R R' : Rules) (zs zs' : List ℂ) : Prop where
  length : zs.length = zs'.length
  near : ∀ i j : Int, 0 ≤ i → j < zs.length → (NearBy off R.tolerance i j ↔ NearBy off' R'.tolerance i j)
  farthest : ∀ i j k : Int, 0 ≤ i → j < zs.length → (FarthestBy off i j k ↔ FarthestBy off' i j k)
  bad : ∀ i j : Int, 0 ≤ i → j < zs.length → ((¬ Straight (between zs i j) ∧ ¬ Allowed R (between zs i j)) ↔ (¬ Straight (between zs' i j) ∧ ¬ Allowed R' (between zs' i j)))
  allowed : ∀ i j : Int, 0 ≤ i → j < zs.length → (Allowed R (between zs i j) ↔ Allowed R' (between zs' i j))

theorem AlikeBy.thin (h : AlikeBy off off' R R' zs zs') {i j : Int} {rs : List Rng} (ht : ThinnedBy off R.tolerance i j rs) (h0 : 0 ≤ i) (h1 : j < zs.length) :
    ThinnedBy off' R'.tolerance i j rs := by
  induction ht with
  | keep i j hn => exact .keep i j ((h.near i j h0 h1).1 hn)
  | cut i j k xs ys hn hk _ _ ih1 ih2 =>
    have k1 := hk.1
    have k2 := hk.2.1
    exact .cut i j k xs ys (fun c => hn ((h.near i j h0 h1).2 c)) ((h.farthest i j k h0 h1).1 hk) (ih1 h0 (by omega)) (ih2 (by omega) h1)

theorem AlikeBy.cut (h : AlikeBy off off' R R' zs zs') {i j : Int} {rs : List Rng}
    (ht : CutBy off (fun i j => i + 1 < j ∧ ¬ Straight (between zs i j) ∧ ¬ Allowed R (between zs i j)) i j rs) (h0 : 0 ≤ i) (h1 : j < zs.length) :
    CutBy off' (fun i j => i + 1 < j ∧ ¬ Straight (between zs' i j) ∧ ¬ Allowed R' (between zs' i j)) i j rs ∧ ∀ r ∈ rs, 0 ≤ r.I ∧ r.J < zs.length := by
  induction ht with
  | keep i j hn => exact ⟨.keep i j (fun c => hn ⟨c.1, (h.bad i j h0 h1).2 c.2⟩), by simp [h0, h1]⟩
  | cut i j k xs ys hn hk _ _ ih1 ih2 =>
    have k1 := hk.1
    have k2 := hk.2.1
    obtain ⟨a1, b1⟩ := ih1 h0 (by omega)
    obtain ⟨a2, b2⟩ := ih2 (by omega) h1
    refine ⟨.cut i j k xs ys ⟨hn.1, (h.bad i j h0 h1).1 hn.2⟩ ((h.farthest i j k h0 h1).1 hk) a1 a2, ?_⟩
    intro r hr
    rcases List.mem_append.1 hr with hr | hr
    · exact b1 r hr
    · exact b2 r hr

theorem AlikeBy.imp (h : AlikeBy off off' R R' zs zs') {j j' : Int → Prop} (hm : ∀ v, Must R j zs v ↔ Must R' j' zs' v) {out : List Rng} (hp : ProcedureBy off R j zs out) :
    ProcedureBy off' R' j' zs' out := by
  obtain ⟨rs, ms, ls, h1, h2, h3, h4, h5⟩ := hp
  have hl := h.length
  have hms : ∀ r ∈ ms, 0 ≤ r.I ∧ r.J < zs.length := fun r hr => by
    have := h2.mem hr
    omega
  obtain ⟨a, b⟩ := Each.imp_mem (T := fun r : Rng => 0 ≤ r.I ∧ r.J < zs.length) h4 (fun r hr l hc => h.cut hc (hms r hr).1 (hms r hr).2)
  refine ⟨rs, ms, ls, ?_, ?_, fun v => (h3 v).trans (or_congr_right (hm v)), a, ?_⟩
  · rw [← hl]; exact h.thin h1 le_rfl (by omega)
  · rw [← hl]; exact h2
  · exact MergeSpec.imp hm (fun i j h0 h1 => and_congr (h.near i j h0 h1) (h.allowed i j h0 h1)) h5 (by simpa using b)

theorem AlikeBy.symm (h : AlikeBy off off' R R' zs zs') : AlikeBy off' off R' R zs' zs where
  length := h.length.symm
  near i j h0 h1 := (h.near i j h0 (by rw [h.length]; exact h1)).symm
  farthest i j k h0 h1 := (h.farthest i j k h0 (by rw [h.length]; exact h1)).symm
  bad i j h0 h1 := (h.bad i j h0 (by rw [h.length]; exact h1)).symm
  allowed i j h0 h1 := (h.allowed i j h0 (by rw [h.length]; exact h1)).symm

theorem AlikeBy.iff (h : AlikeBy off off' R R' zs zs') {j j' : Int → Prop} (hm : ∀ v, Must R j zs v ↔ Must R' j' zs' v) {out : List Rng} :
    ProcedureBy off R j zs out ↔ ProcedureBy off' R' j' zs' out := ⟨h.imp hm, h.symm.imp (fun v => (hm v).symm)⟩

/-- offsets that are all multiplied by the same positive number compare as before -/
theorem near_scaled {r : ℝ} (hr : 0 < r) {t : ℝ} {i j : Int} (h : ∀ k, i < k → k < j → off' i j k = r * off i j k) : NearBy off t i j ↔ NearBy off' (r * t) i j := by
  refine forall_congr' fun k => imp_congr_right fun h2 => imp_congr_right fun h3 => ?_
  rw [h k h2 h3]
  exact (mul_le_mul_iff_right₀ hr).symm

theorem farthest_scaled {r : ℝ} (hr : 0 < r) {i j k : Int} (h : ∀ k, i < k → k < j → off' i j k = r * off i j k) : FarthestBy off i j k ↔ FarthestBy off' i j k := by
  refine and_congr_right fun h2 => and_congr_right fun h3 => and_congr ?_ ?_
  · refine forall_congr' fun l => imp_congr_right fun h4 => imp_congr_right fun h5 => ?_
    rw [h k h2 h3, h l h4 h5]
    exact (mul_le_mul_iff_right₀ hr).symm
  · refine forall_congr' fun l => imp_congr_right fun h4 => imp_congr_right fun h5 => ?_
    rw [h k h2 h3, h l (by omega) h5]
    exact (mul_lt_mul_iff_right₀ hr).symm

end

/-! ### moving, another clock -/

section
variable {φ : ℂ →ᵃ[ℝ] ℂ} {r a b : ℝ} {R : Rules} {ms : List (ℂ × ℝ)}

theorem stop_map (g : ℂ × ℝ → ℂ × ℝ) {k : Int} (h0 : 0 ≤ k) (h1 : k < ms.length) : stop (ms.map g) k = g (stop ms k) := by
  have : k.toNat < ms.length := by omega
  simp [stop, List.getElem?_eq_getElem this]

theorem reclocked_places : (reclocked φ a b ms).map Prod.fst = (ms.map Prod.fst).map φ := by
  simp [reclocked, Function.comp_def]

theorem reclocked_timed (ha : 0 < a) (h : Timed ms) : Timed (reclocked φ a b ms) := by
  unfold Timed reclocked at *
  rw [List.pairwise_map]
  exact h.imp (fun {x y} hxy => by have := (mul_lt_mul_iff_right₀ ha).2 hxy; simpa using this)

theorem along_reclocked (ha : 0 < a) (p q : ℂ × ℝ) (t : ℝ) : along (φ p.1, a * p.2 + b) (φ q.1, a * q.2 + b) (a * t + b) = φ (along p q t) := by
  have h1 : (a * t + b - (a * p.2 + b)) / (a * q.2 + b - (a * p.2 + b)) = (t - p.2) / (q.2 - p.2) := by
    rw [show a * t + b - (a * p.2 + b) = a * (t - p.2) by ring, show a * q.2 + b - (a * p.2 + b) = a * (q.2 - p.2) by ring]
    exact mul_div_mul_left _ _ ha.ne'
  have h2 := φ.apply_lineMap p.1 q.1 ((t - p.2) / (q.2 - p.2))
  simp only [AffineMap.lineMap_apply, vsub_eq_sub, vadd_eq_add] at h2
  simp only [along]
  rw [h1, add_comm p.1, h2, add_comm]

theorem syncOffset_reclocked (hφ : Scales φ r) (ha : 0 < a) {i j k : Int} (h0 : 0 ≤ i) (h1 : i < k) (h2 : k < j) (h3 : j < ms.length) :
    syncOffset (reclocked φ a b ms) i j k = r * syncOffset ms i j k := by
  rw [syncOffset, syncOffset, reclocked, stop_map _ (by omega) (by omega), stop_map _ (by omega) (by omega), stop_map _ (by omega) (by omega), along_reclocked ha,
    ← dist_eq_norm, hφ.2, dist_eq_norm]

theorem reclocked_alike (hφ : Scales φ r) (ha : 0 < a) (R : Rules) (ms : List (ℂ × ℝ)) :
    AlikeBy (syncOffset ms) (syncOffset (reclocked φ a b ms)) R (R.image φ r) (ms.map Prod.fst) ((ms.map Prod.fst).map φ) where
  length := by simp
  near i j h0 h1 := near_scaled hφ.1 (fun k h2 h3 => syncOffset_reclocked hφ ha h0 h2 h3 (by simpa using h1))
  farthest i j k h0 h1 := farthest_scaled hφ.1 (fun k h2 h3 => syncOffset_reclocked hφ ha h0 h2 h3 (by simpa using h1))
  bad i j _ _ := by rw [between_map, ← hφ.straight, ← hφ.allowed]
  allowed i j _ _ := by rw [between_map]; exact hφ.allowed _

/-- the procedure prescribes the same for a motion that is moved with its obstacles and timed by another clock -/
theorem reclocked_procedure (hφ : Scales φ r) (ha : 0 < a) (ho : R.keepSelf = true → ∀ z w, LexLe (φ z) (φ w) ↔ LexLe z w) {j j' : Int → Prop}
    (hj : R.keepSelf = true → ∀ v, j v ↔ j' v) {out : List Rng} : MotionProcedure R j ms out ↔ MotionProcedure (R.image φ r) j' (reclocked φ a b ms) out := by
  unfold MotionProcedure
  rw [reclocked_places]
  exact (reclocked_alike hφ ha R ms).iff (fun v => hφ.must ho hj v)

/-! ### constraints out of reach -/

theorem SameInReach.motion {R' : Rules} (h : SameInReach (ms.map Prod.fst) R R') {j j' : Int → Prop} (hj : R.keepSelf = true → ∀ v, j v ↔ j' v) {out : List Rng} :
    MotionProcedure R j ms out ↔ MotionProcedure R' j' ms out := by
  refine AlikeBy.iff ⟨rfl, fun i j _ _ => ?_, fun _ _ _ _ _ => Iff.rfl, fun i j _ _ => ?_, fun i j _ _ => h.alike.allowed i j⟩ (fun v => h.must hj v)
  · have : R'.tolerance = R.tolerance := by rw [h.rest]
    rw [this]
  · rw [h.alike.allowed i j]

/-! ### a common drift -/

theorem drifting_timed {v : ℂ} (h : Timed ms) : Timed (drifting v ms) := by
  unfold Timed drifting at *
  rw [List.pairwise_map]
  exact h

theorem syncOffset_drifting (v : ℂ) (ht : Timed ms) {i j k : Int} (h0 : 0 ≤ i) (h1 : i < k) (h2 : k < j) (h3 : j < ms.length) :
    syncOffset (drifting v ms) i j k = syncOffset ms i j k := by
  rw [syncOffset, syncOffset, drifting, stop_map _ (by omega) (by omega), stop_map _ (by omega) (by omega), stop_map _ (by omega) (by omega)]
  have hlt : (stop ms i).2 < (stop ms j).2 := by
    have b1 : i.toNat < ms.length := by omega
    have b2 : j.toNat < ms.length := by omega
    simp only [stop, List.getElem?_eq_getElem b1, List.getElem?_eq_getElem b2, Option.getD_some]
    exact List.pairwise_iff_getElem.1 ht _ _ b1 b2 (by omega)
  generalize stop ms i = p at *
  generalize stop ms j = q at *
  generalize stop ms k = o at *
  have hd : q.2 - p.2 ≠ 0 := by linarith
  have hs : ((o.2 - p.2) / (q.2 - p.2)) * (q.2 - p.2) = o.2 - p.2 := div_mul_cancel₀ _ hd
  congr 1
  simp only [along]
  have h4 : q.1 + q.2 • v - (p.1 + p.2 • v) = (q.1 - p.1) + (q.2 - p.2) • v := by rw [sub_smul]; abel
  rw [h4, smul_add, smul_smul, hs, sub_smul]
  abel

theorem OnlyTolerance.allowed {R : Rules} (h : R.OnlyTolerance) (l : List ℂ) : Allowed R l := by
  obtain ⟨-, h1, h2, h3⟩ := h
  exact ⟨fun c => by simp [h1] at c, fun c => by simp [h2] at c, fun c => by simp [h3] at c⟩

/-- without constraints the procedure prescribes the same for a motion that drifts -/
theorem drifting_procedure (hR : R.OnlyTolerance) (ht : Timed ms) (v : ℂ) {j j' : Int → Prop} {out : List Rng} :
    MotionProcedure R j ms out ↔ MotionProcedure R j' (drifting v ms) out := by
  have hoff : ∀ i j : Int, 0 ≤ i → j < (ms.map Prod.fst).length → ∀ k, i < k → k < j → syncOffset (drifting v ms) i j k = 1 * syncOffset ms i j k := fun i j h0 h1 k h2 h3 => by
    rw [one_mul]; exact syncOffset_drifting v ht h0 h2 h3 (by simpa using h1)
  refine AlikeBy.iff ⟨by simp [drifting], fun i j h0 h1 => ?_, fun i j k h0 h1 => farthest_scaled one_pos (hoff i j h0 h1), fun i j _ _ => ?_, fun i j _ _ => ?_⟩ (fun v => ?_)
  · have := near_scaled (t := R.tolerance) one_pos (hoff i j h0 h1)
    rwa [one_mul] at this
  · exact iff_of_false (fun c => c.2 (OnlyTolerance.allowed hR _)) (fun c => c.2 (OnlyTolerance.allowed hR _))
  · exact iff_of_true (OnlyTolerance.allowed hR _) (OnlyTolerance.allowed hR _)
  · exact iff_of_false (fun c => by have := c.1; simp [hR.1] at this) (fun c => by have := c.1; simp [hR.1] at this)

end
end Planar

/-! ### the program -/

namespace Io
open Text Planar

/-- the indices are in order, and are the ends of the segments that the procedure for motions prescribes -/
def PrescribesStops (R : Rules) (zss : List (List ℂ)) (ms : List (ℂ × ℝ)) (s : List Int) : Prop :=
  s.Pairwise (· < ·) ∧ ∃ rs, MotionProcedure R (Junction zss (ms.map Prod.fst)) ms rs ∧ ∀ v, v ∈ s ↔ EndOf rs v

theorem PrescribesStops.unique {R : Rules} {zss : List (List ℂ)} {ms : List (ℂ × ℝ)} {s s' : List Int} (h : PrescribesStops R zss ms s) (h' : PrescribesStops R zss ms s') : s = s' := by
  obtain ⟨g1, rs', g2, g3⟩ := h
  obtain ⟨f1, rs2, f2, f3⟩ := h'
  cases ProcedureBy.unique f2 g2
  exact List.Pairwise.eq_of_mem_iff g1 f1 (fun v => (g3 v).trans (f3 v).symm)

open Classical in
/-- the indices that the procedure prescribes for a motion `ms` (with the junctions of the lines `zss`) -/
noncomputable def prescribedStops (R : Rules) (zss : List (List ℂ)) (ms : List (ℂ × ℝ)) : List Int := if h : ∃ s, PrescribesStops R zss ms s then h.choose else []

theorem PrescribesStops.eq {R : Rules} {zss : List (List ℂ)} {ms : List (ℂ × ℝ)} {s : List Int} (h : PrescribesStops R zss ms s) : prescribedStops R zss ms = s := by
  have hex : ∃ s, PrescribesStops R zss ms s := ⟨s, h⟩
  rw [prescribedStops, dif_pos hex]
  exact hex.choose_spec.unique h

theorem prescribedStops_congr {R R' : Rules} {zss zss' : List (List ℂ)} {ms ms' : List (ℂ × ℝ)}
    (h : ∀ out, MotionProcedure R (Junction zss (ms.map Prod.fst)) ms out ↔ MotionProcedure R' (Junction zss' (ms'.map Prod.fst)) ms' out) :
    prescribedStops R zss ms = prescribedStops R' zss' ms' := by
  have : PrescribesStops R zss ms = PrescribesStops R' zss' ms' := by
    funext s
    simp only [PrescribesStops, h]
  rw [prescribedStops, prescribedStops, this]

theorem junction_perm {zss zss' : List (List ℂ)} (h : zss.flatten.Perm zss'.flatten) (zs : List ℂ) (v : Int) : Junction zss zs v ↔ Junction zss' zs v := by
  constructor
  · rintro ⟨n, z, rest, h1, h2, h3, z', h4, h5⟩
    exact ⟨n, z, rest, h1, h2, h.symm.trans h3, z', h.mem_iff.1 h4, h5⟩
  · rintro ⟨n, z, rest, h1, h2, h3, z', h4, h5⟩
    exact ⟨n, z, rest, h1, h2, h.trans h3, z', h.mem_iff.2 h4, h5⟩

section
variable {C Props C' Props' : Type}

/-- a point (x, y, time) -/
abbrev Pt3 := Fl ℝ × Fl ℝ × Fl ℝ

/-- one run of the program on the configuration `obj` of type sed, the documents `docs` and the constraints `ctx`, with exact geometry and the score function of offset/sed.go in
exact arithmetic -/
structure SedProgram (w : World (Fl ℝ) Pt3 Props C) (E : Engine Pt3 C EReal ℝ) (b f : Str) (obj : ArgObj (Fl ℝ)) (docs : List (Doc (Fl ℝ))) (ctx : List C)
    (region : C → Set ℂ) (t m : ℝ) : Prop where
  reads : ∃ kind, Reads w b f obj kind docs ctx ∧ E.OK (E.opts (optsFromCfg obj)) kind (docs.flatMap (fun d => (docParts d).map (fun x => x.2.2.map E.toPoint)))
  order : ∀ l, (w.enc.ord l).Perm l
  small : docs.length ≤ maxInt
  docs : ∀ d ∈ docs, HasGeometry d ∧ docParts d ≠ [] ∧ ∀ x ∈ docParts d, x.1 ≤ maxInt ∧ (x.2.1 = ['n', 'u', 'l', 'l'] ∨ (w.enc.unmarshal x.2.1).isSome)
  exact : Planar.Exact (fun p => (stopOf p).1) region E.lib
  lnr : ExactLnr (fun p => (stopOf p).1) E.lnr
  heap : E.heap.Legal Hdb.nearLe
  eps : ∃ e : ℝ, 0 ≤ e ∧ E.eps = .fin e
  name : trim obj.simplificationType ∈ sedNames
  score : ∃ A : Arith ℝ, A.Exact ∧ E.score .maxSEDOffset = maxOffset (sedDist A (hypot A (.fin 1)))
  threshold : obj.threshold = .fin t ∧ 0 ≤ t
  minDist : obj.minDist = .fin m ∧ 0 ≤ m
  avoid : obj.avoidNewSelfIntersects = false

/-- the places of all lines of a file that count as junctions: none, if the lines are treated one by one -/
def classPlaces (E : Engine Pt3 C EReal ℝ) (obj : ArgObj (Fl ℝ)) (docs : List (Doc (Fl ℝ))) : List (List ℂ) :=
  if obj.isFeatureClass then placesOf (fun p => (stopOf p).1) E.toPoint docs else []

theorem SedProgram.prescribed {w : World (Fl ℝ) Pt3 Props C} {E : Engine Pt3 C EReal ℝ} {b f : Str} {obj : ArgObj (Fl ℝ)} {docs : List (Doc (Fl ℝ))} {ctx : List C}
    {region : C → Set ℂ} {t m : ℝ} (X : SedProgram w E b f obj docs ctx region t m) :
    ∃ out N, (∀ fuel ≥ N, main (program w E fuel) b f = .saved (trim obj.output) (out.map w.marshal)) ∧
      List.Forall₂ (WrittenAs (fun l q => ∀ ms, l = ms.map timed → Timed ms → q = (verticesAt ms (prescribedStops (rulesAsked region obj ctx t m) (classPlaces E obj docs) ms)).map timed)
        w.enc E.toPoint) docs out := by
  obtain ⟨kind, hr, hE⟩ := X.reads
  obtain ⟨e, h0, he⟩ := X.eps
  obtain ⟨A, hA, hsc⟩ := X.score
  obtain ⟨out, N, h1, h2⟩ := C123_sed hA w E b f hr X.order X.small X.docs hE X.exact X.lnr X.heap h0 he X.name hsc X.threshold.1 X.threshold.2 X.minDist.1 X.minDist.2 X.avoid
  refine ⟨out, N, h1, h2.imp (fun d o ho => ho.weaken (fun l q hq ms hl hms => ?_))⟩
  obtain ⟨s, rs, k1, rfl, k2, k3⟩ := hq ms hl hms
  have hg : PrescribesStops (rulesAsked region obj ctx t m) (classPlaces E obj docs) ms s := by
    refine ⟨k1.increasing, rs, ProcedureBy.congr k2 (fun _ v => ?_), k3⟩
    cases hfc : obj.isFeatureClass with
    | true => simp [ClassJunction, classPlaces, hfc, placesOf]
    | false =>
      simp only [ClassJunction, classPlaces, hfc, Bool.false_eq_true, false_and, if_false, false_iff]
      rintro ⟨n, z, rest, -, -, hp, -⟩
      have := hp.length_eq
      simp at this
  rw [hg.eq]

/-- **C124, moving and clocks.**  What is prescribed for a motion does not change when everything is moved, turned, mirrored or scaled and all times are read from another clock. -/
theorem C124_clock {φ : ℂ →ᵃ[ℝ] ℂ} {r a b : ℝ} {R : Rules} (hφ : Scales φ r) (ha : 0 < a) (ho : R.keepSelf = true → ∀ z w, LexLe (φ z) (φ w) ↔ LexLe z w) (zss : List (List ℂ))
    (ms : List (ℂ × ℝ)) : prescribedStops (R.image φ r) (zss.map (List.map φ)) (reclocked φ a b ms) = prescribedStops R zss ms :=
  (prescribedStops_congr fun _ => reclocked_procedure hφ ha ho (fun hk v => by rw [reclocked_places]; exact hφ.junction (ho hk) zss _ v)).symm

/-- **C124, drift.**  It does not change either, when nothing but the tolerance is asked for and a uniform drift is added to the motion. -/
theorem C124_drift {R : Rules} (hR : R.OnlyTolerance) {ms : List (ℂ × ℝ)} (ht : Timed ms) (v : ℂ) (zss zss' : List (List ℂ)) :
    prescribedStops R zss' (drifting v ms) = prescribedStops R zss ms :=
  (prescribedStops_congr fun _ => drifting_procedure hR ht v).symm

theorem C124_reach {R R' : Rules} {ms : List (ℂ × ℝ)} (h : SameInReach (ms.map Prod.fst) R R') (zss : List (List ℂ)) : prescribedStops R' zss ms = prescribedStops R zss ms :=
  (prescribedStops_congr fun _ => h.motion (fun _ _ => Iff.rfl)).symm

theorem C124_order {zss zss' : List (List ℂ)} (h : zss.flatten.Perm zss'.flatten) (R : Rules) (ms : List (ℂ × ℝ)) : prescribedStops R zss ms = prescribedStops R zss' ms :=
  prescribedStops_congr fun _ => ⟨fun hp => ProcedureBy.congr hp (fun _ => junction_perm h _), fun hp => ProcedureBy.congr hp (fun _ v => (junction_perm h _ v).symm)⟩

/-- **C124 for the program.**  Two runs of type sed; in a feature class the places of the second file are those of the first moved by `φ`, in any order.  Then a line of the second
file whose motion is `ms` moved by `φ` and timed by another clock, and whose request is that of the first run moved by `φ`, except for obstacles out of reach, is saved with the
same stop numbers as `ms` in the first run. -/
theorem C124_program {w : World (Fl ℝ) Pt3 Props C} {E : Engine Pt3 C EReal ℝ} {b f : Str} {obj : ArgObj (Fl ℝ)} {docs : List (Doc (Fl ℝ))} {ctx : List C}
    {region : C → Set ℂ} {t m : ℝ} (X : SedProgram w E b f obj docs ctx region t m)
    {w' : World (Fl ℝ) Pt3 Props' C'} {E' : Engine Pt3 C' EReal ℝ} {b' f' : Str} {obj' : ArgObj (Fl ℝ)} {docs' : List (Doc (Fl ℝ))} {ctx' : List C'}
    {region' : C' → Set ℂ} {t' m' : ℝ} (X' : SedProgram w' E' b' f' obj' docs' ctx' region' t' m')
    {φ : ℂ →ᵃ[ℝ] ℂ} {r : ℝ} (hφ : Scales φ r) (ho : obj.planarSelf = true → ∀ z w, LexLe (φ z) (φ w) ↔ LexLe z w) (hfc : obj'.isFeatureClass = obj.isFeatureClass)
    (hlines : obj.isFeatureClass = true → (classPlaces E' obj' docs').flatten.Perm ((classPlaces E obj docs).flatten.map φ)) :
    ∃ (κ : List (ℂ × ℝ) → List Int) (out : List (LineFeature (Fl ℝ) Props)) (out' : List (LineFeature (Fl ℝ) Props')) (N : Nat),
      (∀ fuel ≥ N, main (program w E fuel) b f = .saved (trim obj.output) (out.map w.marshal) ∧
        main (program w' E' fuel) b' f' = .saved (trim obj'.output) (out'.map w'.marshal)) ∧
      List.Forall₂ (WrittenAs (fun l q => ∀ ms, l = ms.map timed → Timed ms → q = (verticesAt ms (κ ms)).map timed) w.enc E.toPoint) docs out ∧
      List.Forall₂ (WrittenAs (fun l q => ∀ ms, Timed ms → ∀ a b : ℝ, 0 < a → l = (reclocked φ a b ms).map timed →
        SameInReach ((ms.map Prod.fst).map φ) ((rulesAsked region obj ctx t m).image φ r) (rulesAsked region' obj' ctx' t' m') →
        q = (verticesAt (reclocked φ a b ms) (κ ms)).map timed) w'.enc E'.toPoint) docs' out' := by
  obtain ⟨out, N, h1, h2⟩ := X.prescribed
  obtain ⟨out', N', h1', h2'⟩ := X'.prescribed
  refine ⟨_, out, out', max N N', fun fuel hf => ⟨h1 fuel (le_trans (le_max_left _ _) hf), h1' fuel (le_trans (le_max_right _ _) hf)⟩, h2,
    h2'.imp (fun d o hw => hw.weaken (fun l q hq ms hms a b ha hl hs => ?_))⟩
  rw [hq _ hl (reclocked_timed ha hms), C124_reach (ms := reclocked φ a b ms) (by rw [reclocked_places]; exact hs)]
  congr 2
  rw [← C124_clock (R := rulesAsked region obj ctx t m) (b := b) hφ ha ho]
  refine C124_order ?_ _ _
  cases hc : obj.isFeatureClass with
  | false => simp [classPlaces, hc, hfc]
  | true =>
    rw [← List.map_flatten]
    exact hlines hc

/-- **C124 for the program, drift.**  Two runs of type sed with the same tolerance and no relation and no self-intersections to keep, on any files: a line of the second file whose
motion is `ms` with a uniform drift added is saved with the same stop numbers as `ms` in the first run. -/
theorem C124_drifting {w : World (Fl ℝ) Pt3 Props C} {E : Engine Pt3 C EReal ℝ} {b f : Str} {obj : ArgObj (Fl ℝ)} {docs : List (Doc (Fl ℝ))} {ctx : List C}
    {region : C → Set ℂ} {t m : ℝ} (X : SedProgram w E b f obj docs ctx region t m)
    {w' : World (Fl ℝ) Pt3 Props' C'} {E' : Engine Pt3 C' EReal ℝ} {b' f' : Str} {obj' : ArgObj (Fl ℝ)} {docs' : List (Doc (Fl ℝ))} {ctx' : List C'}
    {region' : C' → Set ℂ} {m' : ℝ} (X' : SedProgram w' E' b' f' obj' docs' ctx' region' t m')
    (hR : obj.planarSelf = false ∧ obj.geomRelation = false ∧ obj.distRelation = false ∧ obj.sideRelation = false)
    (hR' : obj'.planarSelf = false ∧ obj'.geomRelation = false ∧ obj'.distRelation = false ∧ obj'.sideRelation = false) :
    ∃ (κ : List (ℂ × ℝ) → List Int) (out : List (LineFeature (Fl ℝ) Props)) (out' : List (LineFeature (Fl ℝ) Props')) (N : Nat),
      (∀ fuel ≥ N, main (program w E fuel) b f = .saved (trim obj.output) (out.map w.marshal) ∧
        main (program w' E' fuel) b' f' = .saved (trim obj'.output) (out'.map w'.marshal)) ∧
      List.Forall₂ (WrittenAs (fun l q => ∀ ms, l = ms.map timed → Timed ms → q = (verticesAt ms (κ ms)).map timed) w.enc E.toPoint) docs out ∧
      List.Forall₂ (WrittenAs (fun l q => ∀ ms, Timed ms → ∀ v : ℂ, l = (drifting v ms).map timed → q = (verticesAt (drifting v ms) (κ ms)).map timed) w'.enc E'.toPoint)
        docs' out' := by
  obtain ⟨out, N, h1, h2⟩ := X.prescribed
  obtain ⟨out', N', h1', h2'⟩ := X'.prescribed
  refine ⟨_, out, out', max N N', fun fuel hf => ⟨h1 fuel (le_trans (le_max_left _ _) hf), h1' fuel (le_trans (le_max_right _ _) hf)⟩, h2,
    h2'.imp (fun d o hw => hw.weaken (fun l q hq ms hms v hl => ?_))⟩
  rw [hq _ hl (drifting_timed hms), C124_drift (R := rulesAsked region' obj' ctx' t m') hR' hms v (classPlaces E obj docs)]
  congr 2
  refine prescribedStops_congr fun o => ?_
  have all : ∀ l, Allowed (rulesAsked region' obj' ctx' t m') l ↔ Allowed (rulesAsked region obj ctx t m) l :=
    fun l => iff_of_true (OnlyTolerance.allowed (R := rulesAsked region' obj' ctx' t m') hR' l) (OnlyTolerance.allowed (R := rulesAsked region obj ctx t m) hR l)
  refine AlikeBy.iff (R := rulesAsked region' obj' ctx' t m') (R' := rulesAsked region obj ctx t m)
    ⟨rfl, fun _ _ _ _ => Iff.rfl, fun _ _ _ _ _ => Iff.rfl, fun i j _ _ => by rw [all], fun i j _ _ => all _⟩ (fun v => ?_)
  exact iff_of_false (fun c => by have : obj'.planarSelf = true := c.1; simp [hR'.1] at this) (fun c => by have : obj.planarSelf = true := c.1; simp [hR.1] at this)

end
end Io

/-! ### concrete cases -/

namespace Real
open Io Text Planar

/-- type sed, only the tolerance asked for -/
noncomputable def bareConfig (fc : Bool) : ArgObj (Fl ℝ) :=
  { config "sed".toList fc with planarSelf := false, avoidNewSelfIntersects := false, geomRelation := false, distRelation := false, sideRelation := false }

/-- the line drawn by a motion -/
noncomputable def coordsOfMotion (ms : List (ℂ × ℝ)) : Doc (Fl ℝ) := .geometry (.line (ms.map (fun q => [.fin q.1.re, .fin q.1.im, .fin q.2])))

theorem coordsOfMotion_lines (a b : List (ℂ × ℝ)) : [coordsOfMotion a, coordsOfMotion b].flatMap (fun d => (docParts d).map (fun x => x.2.2.map stopEngine.toPoint)) =
    [a, b].map (fun l => l.map timed) := by
  simp [coordsOfMotion, docParts, geomParts, stopEngine, timed, tpt]

theorem sed_program (obj : ArgObj (Fl ℝ)) (hobj : obj.simplificationType = "sed".toList ∧ obj.output = ['o', ' '] ∧ obj.avoidNewSelfIntersects = false ∧ obj.constraints = ['c'] ∧ obj.input = ['i']) {t m : ℝ} (ht : obj.threshold = .fin t ∧ 0 ≤ t)
    (hm : obj.minDist = .fin m ∧ 0 ≤ m) (a b : List (ℂ × ℝ)) (ha : 2 ≤ a.length ∧ Timed a) (hb : 2 ≤ b.length ∧ Timed b) (ctx : List Region) :
    SedProgram (world id obj (coordsOfMotion a) (coordsOfMotion b) ctx) stopEngine "e30=".toList ['-'] obj [coordsOfMotion a, coordsOfMotion b] ctx (fun r : Region => r.1) t m where
  reads := by
    refine ⟨.maxSEDOffset, ⟨⟨"e30=".toList, rfl, ?_⟩, ?_, ⟨['a', '\n', 'b', '\n'], by rw [hobj.2.2.2.2]; rfl, rfl⟩, ?_, by rw [hobj.2.2.2.1]; rfl, rfl⟩, ?_⟩
    · have hx : decode64 (trim "e30=".toList) = .ok [123, 125] := by decide +kernel
      simp only [parseInput, hx]; rfl
    · have hk : offsetDictionary ((trim "sed".toList).map (lowerChar id)) = some .maxSEDOffset := by decide +kernel
      simp only [offsetFn, hobj.1, world, hk]; rfl
    · rw [hobj.2.1]; decide
    · rw [coordsOfMotion_lines]
      refine stopEngine_ok _ (by simpa [Engine.opts, optsFromCfg, ht.1, Fl.fin_le_fin] using ht.2) _ _ (fun l hl => ?_)
      simp only [List.mem_cons, List.not_mem_nil, or_false] at hl
      rcases hl with rfl | rfl
      · exact ha
      · exact hb
  order l := .refl l
  small := by simp [maxInt]
  docs d hd := by
    simp only [List.mem_cons, List.not_mem_nil, or_false] at hd
    rcases hd with rfl | rfl <;> exact line_ok _ _
  exact := repLib_exact (pos := fun p => (stopOf p).1) (sec := fun z => timed (z, 0)) stop_section
  lnr := repLnr_exact (pos := fun p => (stopOf p).1) (sec := fun z => timed (z, 0)) stop_section
  heap := Hdb.listHeap_legal
  eps := ⟨0, le_rfl, rfl⟩
  name := by rw [hobj.1]; decide +kernel
  score := ⟨realArith, realArith_exact, rfl⟩
  threshold := ht
  minDist := hm
  avoid := hobj.2.2.1

/-- the motion of C123 on a conveyor belt, against the motion on the ground: the same stops are saved, and these are all three -/
example (fc' : Bool) (v : ℂ) : ∃ (out : List (LineFeature (Fl ℝ) Str)) (N : Nat),
    (∀ fuel ≥ N, main (program (world id (bareConfig fc') (coordsOfMotion (drifting v late)) (coordsOfMotion (drifting v late)) [above]) stopEngine fuel) "e30=".toList ['-'] =
      .saved ['o'] (out.map (fun _ => []))) ∧
    List.Forall₂ (WrittenAs (fun l q => l = (drifting v late).map timed → q = (drifting v late).map timed)
      (world id (bareConfig fc') (coordsOfMotion (drifting v late)) (coordsOfMotion (drifting v late)) [above]).enc stopEngine.toPoint)
      [coordsOfMotion (drifting v late), coordsOfMotion (drifting v late)] out := by
  have X' := sed_program (bareConfig fc') ⟨rfl, rfl, rfl, rfl, rfl⟩ (t := 5) (m := 1 / 2) ⟨rfl, by norm_num⟩ ⟨rfl, by norm_num⟩ (drifting v late) (drifting v late)
    ⟨by simp [drifting, late], drifting_timed late_timed⟩ ⟨by simp [drifting, late], drifting_timed late_timed⟩ [above]
  obtain ⟨out, N, h1, h2⟩ := X'.prescribed
  refine ⟨out, N, h1, h2.imp (fun d o hw => hw.weaken (fun l q hq hl => ?_))⟩
  rw [hq _ hl (drifting_timed late_timed), C124_drift (R := rulesAsked (fun r : Region => r.1) (bareConfig fc') [above] 5 (1 / 2)) ⟨rfl, rfl, rfl, rfl⟩ late_timed v []]
  have hp : PrescribesStops (rulesAsked (fun r : Region => r.1) (bareConfig fc') [above] 5 (1 / 2)) [] late [0, 1, 2] := by
    refine ⟨by decide, _, late_kept _ (by simp [rulesAsked]; norm_num) rfl _, fun v => ?_⟩
    simp only [EndOf, List.mem_cons, List.not_mem_nil, or_false, exists_eq_or_imp, exists_eq_left]
    omega
  rw [hp.eq]
  rfl

/-- C124 for two runs: the motion of C123, against the same motion twice as large, with all times doubled and shifted, and with the constraint moved -/
example (fc : Bool) : ∃ (κ : List (ℂ × ℝ) → List Int) (out out' : List (LineFeature (Fl ℝ) Str)) (N : Nat),
    (∀ fuel ≥ N, main (program (world id (lateConfig fc) (coordsOfMotion late) (coordsOfMotion late) [above]) stopEngine fuel) "e30=".toList ['-'] = .saved ['o'] (out.map (fun _ => [])) ∧
      main (program (world id { lateConfig fc with threshold := .fin 10, minDist := .fin 1 } (coordsOfMotion (reclocked twice 2 7 late)) (coordsOfMotion (reclocked twice 2 7 late)) [imageRegion twice above]) stopEngine fuel)
        "e30=".toList ['-'] = .saved ['o'] (out'.map (fun _ => []))) ∧
    List.Forall₂ (WrittenAs (fun l q => l = late.map timed → q = (verticesAt late (κ late)).map timed) (world id (lateConfig fc) (coordsOfMotion late) (coordsOfMotion late) [above]).enc
      stopEngine.toPoint) [coordsOfMotion late, coordsOfMotion late] out ∧
    List.Forall₂ (WrittenAs (fun l q => l = (reclocked twice 2 7 late).map timed → q = (verticesAt (reclocked twice 2 7 late) (κ late)).map timed)
      (world id { lateConfig fc with threshold := .fin 10, minDist := .fin 1 } (coordsOfMotion (reclocked twice 2 7 late)) (coordsOfMotion (reclocked twice 2 7 late)) [imageRegion twice above]).enc stopEngine.toPoint)
      [coordsOfMotion (reclocked twice 2 7 late), coordsOfMotion (reclocked twice 2 7 late)] out' := by
  have ht : Timed (reclocked twice 2 7 late) := reclocked_timed (by norm_num) late_timed
  have hl : ∀ φ : ℂ →ᵃ[ℝ] ℂ, ∀ a b : ℝ, 2 ≤ (reclocked φ a b late).length := fun φ a b => by simp [reclocked, late]
  obtain ⟨κ, out, out', N, h1, h2, h3⟩ := C124_program
    (sed_program (lateConfig fc) ⟨rfl, rfl, rfl, rfl, rfl⟩ (t := 5) (m := 1 / 2) ⟨rfl, by norm_num⟩ ⟨rfl, by norm_num⟩ late late ⟨by simp [late], late_timed⟩ ⟨by simp [late], late_timed⟩ [above])
    (sed_program { lateConfig fc with threshold := .fin 10, minDist := .fin 1 } ⟨rfl, rfl, rfl, rfl, rfl⟩ (t := 10) (m := 1) ⟨rfl, by norm_num⟩ ⟨rfl, by norm_num⟩ (reclocked twice 2 7 late)
      (reclocked twice 2 7 late) ⟨hl _ _ _, ht⟩ ⟨hl _ _ _, ht⟩ [imageRegion twice above])
    twice_scales (fun _ => rotate_order (by norm_num) 1) rfl (fun hfc => by
      have hf : (lateConfig fc).isFeatureClass = true := hfc
      simp only [classPlaces, hf, if_true]
      simp [placesOf, coordsOfMotion, docParts, geomParts, stopEngine, stopOf, flReal, reclocked, late])
  refine ⟨κ, out, out', N, h1, h2.imp (fun d o hw => hw.weaken (fun l q hq hl => hq late hl late_timed)),
    h3.imp (fun d o hw => hw.weaken (fun l q hq hl => hq late late_timed 2 7 (by norm_num) hl ?_))⟩
  refine ⟨?_, fun s _ => ?_⟩
  · simp only [rulesAsked, Rules.image]
    norm_num [lateConfig, config]
  · simp [rulesAsked, Rules.image, imageRegion, eq_comm]

end Real
end Verif
