import Verif.Props.C128_ShakenConstraints

/-! C129: motions whose places and times are known only up to an error. -/

set_option linter.unusedSectionVars false

namespace Verif
namespace Planar

/-! ### specification -/

/-- every stop of the one motion is within `η` of the corresponding stop of the other, and its time within `θ` -/
def ShakenStops (η θ : ℝ) (ms ms' : List (ℂ × ℝ)) : Prop := List.Forall₂ (fun q q' => dist q.1 q'.1 ≤ η ∧ |q.2 - q'.2| ≤ θ) ms ms'

/-- from each stop to the next the motion is not faster than `V` -/
def SlowerThan (V : ℝ) (ms : List (ℂ × ℝ)) : Prop := ms.IsChain (fun p q => dist p.1 q.1 ≤ V * (q.2 - p.2))

/-! ### proofs -/

section
variable {η θ V : ℝ}

theorem SlowerThan.pairwise {ms : List (ℂ × ℝ)} (h : SlowerThan V ms) : ms.Pairwise (fun p q => dist p.1 q.1 ≤ V * (q.2 - p.2)) := by
  have : IsTrans (ℂ × ℝ) (fun p q => dist p.1 q.1 ≤ V * (q.2 - p.2)) := ⟨fun a b c h1 h2 => by
    have := dist_triangle a.1 b.1 c.1
    linarith⟩
  exact List.isChain_iff_pairwise.1 h

theorem ShakenStops.pairs {ms ms' : List (ℂ × ℝ)} (h : ShakenStops η θ ms ms') : ∃ u : List ((ℂ × ℂ) × (ℝ × ℝ)), ms = u.map (fun q => (q.1.1, q.2.1)) ∧
    ms' = u.map (fun q => (q.1.2, q.2.2)) ∧ ∀ q ∈ u, dist q.1.1 q.1.2 ≤ η ∧ |q.2.1 - q.2.2| ≤ θ := by
  induction h with
  | nil => exact ⟨[], rfl, rfl, by simp⟩
  | @cons a b l l' hab _ ih =>
    obtain ⟨u, rfl, rfl, hu⟩ := ih
    refine ⟨((a.1, b.1), (a.2, b.2)) :: u, rfl, rfl, fun p hp => ?_⟩
    rcases List.mem_cons.1 hp with rfl | hp
    · exact hab
    · exact hu p hp

/-- Where something that moves uniformly is, if ends, times and the moment are known up to errors. -/
theorem along_shaken_times {a b : ℂ × ℂ} {s t x : ℝ × ℝ} (hV : 0 ≤ V) (ha : dist a.1 a.2 ≤ η) (hb : dist b.1 b.2 ≤ η) (hs : |s.1 - s.2| ≤ θ) (ht : |t.1 - t.2| ≤ θ) (hx : |x.1 - x.2| ≤ θ)
    (h1 : s.1 < x.1) (h2 : x.1 < t.1) (h1' : s.2 < x.2) (h2' : x.2 < t.2) (hv : dist a.1 b.1 ≤ V * (t.1 - s.1)) :
    dist (along (a.1, s.1) (b.1, t.1) x.1) (along (a.2, s.2) (b.2, t.2) x.2) ≤ η + 2 * V * θ := by
  have hst : 0 < t.1 - s.1 := by linarith
  have hst' : 0 < t.2 - s.2 := by linarith
  have l0 : 0 ≤ (x.2 - s.2) / (t.2 - s.2) := div_nonneg (by linarith) hst'.le
  have l1 : (x.2 - s.2) / (t.2 - s.2) ≤ 1 := (div_le_one hst').2 (by linarith)
  obtain ⟨c', hc'⟩ : ∃ c', c' = (x.2 - s.2) / (t.2 - s.2) := ⟨_, rfl⟩
  obtain ⟨c, hc⟩ : ∃ c, c = (x.1 - s.1) / (t.1 - s.1) := ⟨_, rfl⟩
  simp only [along]
  rw [← hc', ← hc]
  rw [← hc'] at l0 l1
  have e1 : c' * (t.2 - s.2) = x.2 - s.2 := by rw [hc', div_mul_cancel₀ _ hst'.ne']
  have e2 : c * (t.1 - s.1) = x.1 - s.1 := by rw [hc, div_mul_cancel₀ _ hst.ne']
  have e3 : (c - c') * (t.1 - s.1) = (x.1 - x.2) - (1 - c') * (s.1 - s.2) - c' * (t.1 - t.2) := by linear_combination e2 - e1
  have h3 : |c - c'| * (t.1 - s.1) ≤ 2 * θ := by
    rw [← abs_of_pos hst, ← abs_mul, e3]
    have p1 := abs_le.1 hs
    have p2 := abs_le.1 ht
    have p3 := abs_le.1 hx
    rw [abs_le]
    constructor <;> nlinarith
  have h4 : |c - c'| * ‖b.1 - a.1‖ ≤ 2 * V * θ := by
    rw [dist_comm, dist_eq_norm] at hv
    calc |c - c'| * ‖b.1 - a.1‖ ≤ |c - c'| * (V * (t.1 - s.1)) := mul_le_mul_of_nonneg_left hv (abs_nonneg _)
      _ = V * (|c - c'| * (t.1 - s.1)) := by ring
      _ ≤ V * (2 * θ) := mul_le_mul_of_nonneg_left h3 hV
      _ = 2 * V * θ := by ring
  rw [dist_eq_norm] at ha hb ⊢
  have e : a.1 + c • (b.1 - a.1) - (a.2 + c' • (b.2 - a.2)) = ((1 - c') • (a.1 - a.2) + c' • (b.1 - b.2)) + (c - c') • (b.1 - a.1) := by
    simp only [Complex.real_smul, Complex.ofReal_sub, Complex.ofReal_one]; ring
  rw [e]
  calc ‖((1 - c') • (a.1 - a.2) + c' • (b.1 - b.2)) + (c - c') • (b.1 - a.1)‖ ≤ (‖(1 - c') • (a.1 - a.2)‖ + ‖c' • (b.1 - b.2)‖) + ‖(c - c') • (b.1 - a.1)‖ :=
        (norm_add_le _ _).trans (add_le_add_left (norm_add_le _ _) _)
    _ = ((1 - c') * ‖a.1 - a.2‖ + c' * ‖b.1 - b.2‖) + |c - c'| * ‖b.1 - a.1‖ := by
        rw [norm_smul, norm_smul, norm_smul, Real.norm_of_nonneg (by linarith), Real.norm_of_nonneg l0, Real.norm_eq_abs]
    _ ≤ ((1 - c') * η + c' * η) + 2 * V * θ := add_le_add (add_le_add (mul_le_mul_of_nonneg_left ha (by linarith)) (mul_le_mul_of_nonneg_left hb l0)) h4
    _ = η + 2 * V * θ := by ring

theorem syncOffset_shaken_times {u : List ((ℂ × ℂ) × (ℝ × ℝ))} (hV : 0 ≤ V) (hu : ∀ q ∈ u, dist q.1.1 q.1.2 ≤ η ∧ |q.2.1 - q.2.2| ≤ θ)
    (ht : Timed (u.map (fun q => (q.1.1, q.2.1)))) (ht' : Timed (u.map (fun q => (q.1.2, q.2.2)))) (hv : SlowerThan V (u.map (fun q => (q.1.1, q.2.1))))
    (i j k : Int) (h0 : 0 ≤ i) (h1 : i < k) (h2 : k < j) (h3 : j < u.length) :
    |syncOffset (u.map (fun q => (q.1.2, q.2.2))) i j k - syncOffset (u.map (fun q => (q.1.1, q.2.1))) i j k| ≤ 2 * η + 2 * V * θ := by
  have bi : i.toNat < u.length := by omega
  have bj : j.toNat < u.length := by omega
  have bk : k.toNat < u.length := by omega
  have tl : ∀ m n (hm : m < u.length) (hn : n < u.length), m < n → u[m].2.1 < u[n].2.1 := fun m n hm hn hmn => by
    have := List.pairwise_iff_getElem.1 ht m n (by simpa using hm) (by simpa using hn) hmn
    simpa using this
  have tl' : ∀ m n (hm : m < u.length) (hn : n < u.length), m < n → u[m].2.2 < u[n].2.2 := fun m n hm hn hmn => by
    have := List.pairwise_iff_getElem.1 ht' m n (by simpa using hm) (by simpa using hn) hmn
    simpa using this
  have sv : dist u[i.toNat].1.1 u[j.toNat].1.1 ≤ V * (u[j.toNat].2.1 - u[i.toNat].2.1) := by
    have := List.pairwise_iff_getElem.1 hv.pairwise i.toNat j.toNat (by simpa using bi) (by simpa using bj) (by omega)
    simpa using this
  simp only [syncOffset, stop, List.getElem?_map, List.getElem?_eq_getElem bi, List.getElem?_eq_getElem bj, List.getElem?_eq_getElem bk, Option.map_some, Option.getD_some]
  have mi := hu _ (List.getElem_mem bi)
  have mj := hu _ (List.getElem_mem bj)
  have mk := hu _ (List.getElem_mem bk)
  have d1 := along_shaken_times hV mi.1 mj.1 mi.2 mj.2 mk.2 (tl _ _ bi bk (by omega)) (tl _ _ bk bj (by omega)) (tl' _ _ bi bk (by omega)) (tl' _ _ bk bj (by omega)) sv
  have d2 := mk.1
  simp only [← dist_eq_norm]
  generalize along _ _ _ = y at d1
  generalize along _ _ _ = y' at d1 ⊢
  have e1 := dist_triangle4 u[k.toNat].1.1 u[k.toNat].1.2 y' y
  have e2 := dist_triangle4 u[k.toNat].1.2 u[k.toNat].1.1 y y'
  rw [dist_comm u[k.toNat].1.2 u[k.toNat].1.1] at e2
  rw [dist_comm y' y] at e1
  rw [abs_le]
  constructor <;> linarith

variable {R : Rules} {shape : List ℂ → Set ℂ} {cs cs' : List (List ℂ)}

/-- **C129, the procedure.**  Let a motion that is nowhere faster than `V` be known up to an error `η` in its places and `θ` in its times, and the constraints up to `η`, and let all
decisions be made with room to spare, those on offsets with `2η + 2Vθ`.  If the vertices that must be kept are the same, the procedure prescribes the same stops. -/
theorem C129_procedure {ms ms' : List (ℂ × ℝ)} (h0 : 0 ≤ η) (hV : 0 ≤ V) (hθ : 0 ≤ θ) (hD : Drawing shape) (hO : R.obstacles = drawn shape cs) (hcs : List.Forall₂ (Shaken η) cs cs')
    (hs : ShakenStops η θ ms ms') (ht : Timed ms) (ht' : Timed ms') (hv : SlowerThan V ms)
    (hF : FirmBoth (syncOffset ms) (2 * η + 2 * V * θ) η R shape cs (ms.map Prod.fst))
    {j j' : Int → Prop} (hm : ∀ v, Must R j (ms.map Prod.fst) v ↔ Must R j' (ms'.map Prod.fst) v) {out : List Rng} :
    MotionProcedure R j ms out ↔ MotionProcedure { R with obstacles := drawn shape cs' } j' ms' out := by
  obtain ⟨u, rfl, rfl, hu⟩ := hs.pairs
  unfold MotionProcedure
  have e1 : (u.map (fun q => (q.1.1, q.2.1))).map Prod.fst = (u.map Prod.fst).map Prod.fst := by simp [Function.comp_def]
  have e2 : (u.map (fun q => (q.1.2, q.2.2))).map Prod.fst = (u.map Prod.fst).map Prod.snd := by simp [Function.comp_def]
  rw [e1] at hF hm ⊢
  rw [e2] at hm ⊢
  have hw : ∀ p ∈ u.map Prod.fst, dist p.1 p.2 ≤ η := fun p hp => by
    obtain ⟨q, hq, rfl⟩ := List.mem_map.1 hp
    exact (hu q hq).1
  rw [(Firm.sameCalls h0 hw (hF.firm h0 hO) (by positivity) (fun i j k a b c d => syncOffset_shaken_times hV hu ht ht' hv i j k a b c (by simpa using d))).iff rfl hm]
  exact (FirmBoth.sameCalls h0 hw hF hD hO hcs _).iff rfl (fun v => Iff.rfl)

end

end Planar

namespace Io
open Verif.Text Verif.Planar

/-- **C129, what is prescribed.** -/
theorem C129_prescribed {η θ V : ℝ} {R : Rules} {shape : List ℂ → Set ℂ} {cs cs' : List (List ℂ)} {ms ms' : List (ℂ × ℝ)} {zss zss' : List (List ℂ)}
    (h0 : 0 ≤ η) (hV : 0 ≤ V) (hθ : 0 ≤ θ) (hD : Drawing shape) (hO : R.obstacles = drawn shape cs) (hcs : List.Forall₂ (Shaken η) cs cs')
    (hs : ShakenStops η θ ms ms') (ht : Timed ms) (ht' : Timed ms') (hv : SlowerThan V ms) (hF : FirmBoth (syncOffset ms) (2 * η + 2 * V * θ) η R shape cs (ms.map Prod.fst))
    (hm : ∀ v, Must R (Junction zss (ms.map Prod.fst)) (ms.map Prod.fst) v ↔ Must R (Junction zss' (ms'.map Prod.fst)) (ms'.map Prod.fst) v) :
    prescribedStops R zss ms = prescribedStops { R with obstacles := drawn shape cs' } zss' ms' :=
  prescribedStops_congr fun _ => C129_procedure h0 hV hθ hD hO hcs hs ht ht' hv hF hm

section
variable {C Props C' Props' : Type}

/-- **C129 for the program.**  Two runs of type sed with the same request but for the constraints; places and constraints of the second are those of the first up to an error `η`, and
times up to an error `θ`. -/
theorem C129_program {w : World (Fl ℝ) Pt3 Props C} {E : Engine Pt3 C EReal ℝ} {b f : Str} {obj : ArgObj (Fl ℝ)} {docs : List (Doc (Fl ℝ))} {ctx : List C}
    {region : C → Set ℂ} {t m : ℝ} (X : SedProgram w E b f obj docs ctx region t m)
    {w' : World (Fl ℝ) Pt3 Props' C'} {E' : Engine Pt3 C' EReal ℝ} {b' f' : Str} {obj' : ArgObj (Fl ℝ)} {docs' : List (Doc (Fl ℝ))} {ctx' : List C'}
    {region' : C' → Set ℂ} {t' m' : ℝ} (X' : SedProgram w' E' b' f' obj' docs' ctx' region' t' m')
    {η θ V : ℝ} (h0 : 0 ≤ η) (hV : 0 ≤ V) (hθ : 0 ≤ θ) {shape : List ℂ → Set ℂ} (hD : Drawing shape) {cs cs' : List (List ℂ)} (hcs : List.Forall₂ (Shaken η) cs cs')
    (hO : (rulesAsked region obj ctx t m).obstacles = drawn shape cs)
    (hR : rulesAsked region' obj' ctx' t' m' = { rulesAsked region obj ctx t m with obstacles := drawn shape cs' }) :
    ∃ (κ : List (ℂ × ℝ) → List Int) (out : List (LineFeature (Fl ℝ) Props)) (out' : List (LineFeature (Fl ℝ) Props')) (N : Nat),
      (∀ fuel ≥ N, main (program w E fuel) b f = .saved (trim obj.output) (out.map w.marshal) ∧
        main (program w' E' fuel) b' f' = .saved (trim obj'.output) (out'.map w'.marshal)) ∧
      List.Forall₂ (WrittenAs (fun l q => ∀ ms, l = ms.map timed → Timed ms → q = (verticesAt ms (κ ms)).map timed) w.enc E.toPoint) docs out ∧
      List.Forall₂ (WrittenAs (fun l q => ∀ ms ms', l = ms'.map timed → ShakenStops η θ ms ms' → Timed ms → Timed ms' → SlowerThan V ms →
        FirmBoth (syncOffset ms) (2 * η + 2 * V * θ) η (rulesAsked region obj ctx t m) shape cs (ms.map Prod.fst) →
        (∀ v, Must (rulesAsked region obj ctx t m) (Junction (classPlaces E obj docs) (ms.map Prod.fst)) (ms.map Prod.fst) v ↔
          Must (rulesAsked region obj ctx t m) (Junction (classPlaces E' obj' docs') (ms'.map Prod.fst)) (ms'.map Prod.fst) v) →
        q = (verticesAt ms' (κ ms)).map timed) w'.enc E'.toPoint) docs' out' := by
  obtain ⟨out, N, h1, h2⟩ := X.prescribed
  obtain ⟨out', N', h1', h2'⟩ := X'.prescribed
  refine ⟨_, out, out', max N N', fun fuel hf => ⟨h1 fuel (le_trans (le_max_left _ _) hf), h1' fuel (le_trans (le_max_right _ _) hf)⟩, h2,
    h2'.imp (fun d o hw => hw.weaken (fun l q hq ms ms' hl hz ht ht' hv hF hm => ?_))⟩
  rw [hq ms' hl ht', hR, C129_prescribed h0 hV hθ hD hO hcs hz ht ht' hv hF hm]

end
end Io

/-! ### a concrete case -/

namespace Real
open Io Text Planar

/-- what is known of the motion there and back: places up to 1/100, times up to 1/100 -/
noncomputable def shuttleKnown : List (ℂ × ℝ) := [(⟨-1, 1 / 100⟩, 1 / 100), (⟨1, 0⟩, 99 / 100), (⟨-1, 0⟩, 2)]

theorem shuttle_known : ShakenStops (1 / 100) (1 / 100) shuttle shuttleKnown := by
  refine .cons ⟨?_, ?_⟩ (.cons ⟨?_, ?_⟩ (.cons ⟨?_, ?_⟩ .nil))
  · exact (Complex.dist_of_re_eq (z := ⟨-1, 0⟩) (w := ⟨-1, 1 / 100⟩) rfl).trans_le (by norm_num [Real.dist_eq])
  · norm_num [abs_of_nonneg]
  · simp
  · norm_num [abs_of_nonneg]
  · simp
  · norm_num

theorem shuttle_slow : SlowerThan 2 shuttle := by
  have h : ∀ a b : ℝ, dist (⟨a, 0⟩ : ℂ) ⟨b, 0⟩ = |a - b| := fun a b => (Complex.dist_of_im_eq (z := ⟨a, 0⟩) (w := ⟨b, 0⟩) rfl).trans (Real.dist_eq a b)
  unfold SlowerThan shuttle
  refine .cons_cons ?_ (.cons_cons ?_ (.singleton _)) <;> simp only [h] <;> norm_num

/-- C129 for the program -/
example (fc : Bool) : ∃ (κ : List (ℂ × ℝ) → List Int) (out out' : List (LineFeature (Fl ℝ) Str)) (N : Nat),
    (∀ fuel ≥ N, main (program (world id (shuttleConfig fc) (coordsOfMotion shuttle) (coordsOfMotion shuttle) [farPoint]) stopEngine fuel) "e30=".toList ['-'] =
        .saved ['o'] (out.map (fun _ => [])) ∧
      main (program (world id (shuttleConfig fc) (coordsOfMotion shuttleKnown) (coordsOfMotion shuttle) [farNear]) stopEngine fuel) "e30=".toList ['-'] =
        .saved ['o'] (out'.map (fun _ => []))) ∧
    List.Forall₂ (WrittenAs (fun l q => l = shuttle.map timed → q = (verticesAt shuttle (κ shuttle)).map timed)
      (world id (shuttleConfig fc) (coordsOfMotion shuttle) (coordsOfMotion shuttle) [farPoint]).enc stopEngine.toPoint) [coordsOfMotion shuttle, coordsOfMotion shuttle] out ∧
    List.Forall₂ (WrittenAs (fun l q => l = shuttleKnown.map timed → q = (verticesAt shuttleKnown (κ shuttle)).map timed)
      (world id (shuttleConfig fc) (coordsOfMotion shuttleKnown) (coordsOfMotion shuttle) [farNear]).enc stopEngine.toPoint)
      [coordsOfMotion shuttleKnown, coordsOfMotion shuttle] out' := by
  have ht : 2 ≤ shuttle.length ∧ Timed shuttle := ⟨by simp [shuttle], by simp [shuttle, Timed]⟩
  have ht' : 2 ≤ shuttleKnown.length ∧ Timed shuttleKnown := ⟨by simp [shuttleKnown], by simp [shuttleKnown, Timed]; norm_num⟩
  obtain ⟨κ, out, out', N, h1, h2, h3⟩ := C129_program
    (sed_program (shuttleConfig fc) ⟨rfl, rfl, rfl, rfl, rfl⟩ (t := 1 / 2) (m := 1 / 2) ⟨rfl, by norm_num⟩ ⟨rfl, by norm_num⟩ shuttle shuttle ht ht [farPoint])
    (sed_program (shuttleConfig fc) ⟨rfl, rfl, rfl, rfl, rfl⟩ (t := 1 / 2) (m := 1 / 2) ⟨rfl, by norm_num⟩ ⟨rfl, by norm_num⟩ shuttleKnown shuttle ht' ht [farNear])
    (η := 1 / 100) (θ := 1 / 100) (V := 2) (by norm_num) (by norm_num) (by norm_num) drawing_line (cs := [[⟨1000, 0⟩]]) (cs' := [[⟨1000, 1 / 100⟩]])
    (.cons (.cons ((Complex.dist_of_re_eq (z := ⟨1000, 0⟩) (w := ⟨1000, 1 / 100⟩) rfl).trans_le (by norm_num [Real.dist_eq])) .nil) .nil)
    (by simp [rulesAsked, drawn, lineSet, farPoint]) (by simp [rulesAsked, drawn, lineSet, farNear])
  refine ⟨κ, out, out', N, h1, h2.imp (fun d o hw => hw.weaken (fun l q hq hl => hq shuttle hl ht.2)), h3.imp (fun d o hw => hw.weaken (fun l q hq hl => ?_))⟩
  have hz : ∀ z ∈ shuttle.map Prod.fst, ‖z‖ ≤ 2 := fun z hz => by
    simp only [shuttle, List.map_cons, List.map_nil, List.mem_cons, List.not_mem_nil, or_false] at hz
    have h := Complex.norm_le_abs_re_add_abs_im z
    refine h.trans ?_
    rcases hz with rfl | rfl | rfl <;> norm_num
  refine hq shuttle shuttleKnown hl shuttle_known ht.2 ht'.2 shuttle_slow (far_firmBoth (by norm_num) (by simp only [rulesAsked]; norm_num) hz ?_) (fun v => ?_)
  · refine far_firm (by norm_num) rfl (by simp only [rulesAsked]; norm_num) hz (fun i j h0 h1 h2 => .inr (fun h => ?_)) (fun i j h0 h1 h2 => ?_)
    · simp only [shuttle, List.map_cons, List.map_nil, List.length_cons, List.length_nil] at h2
      obtain rfl : i = 0 := by omega
      obtain rfl : j = 2 := by omega
      have := h 1 (by norm_num) (by norm_num)
      rw [shuttle_offset] at this
      simp only [rulesAsked] at this
      norm_num at this
    · simp only [shuttle, List.map_cons, List.map_nil, List.length_cons, List.length_nil] at h2
      exact ⟨1, by omega, by omega, fun l l0 l1 hl => by omega⟩
  · exact iff_of_false (fun h => by have := h.1; cases this) (fun h => by have := h.1; cases this)

end Real

end Verif
