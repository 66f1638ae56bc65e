import Verif.Props.C88_Rounding
import Verif.Props.C94_Program
import Verif.Demo.RealProgram

/-! C115: motions saved by the program when the synchronised score is computed with rounding. -/

set_option linter.unusedSectionVars false

namespace Verif

open Planar

section
variable {C B : Type} [LinearOrder B] [BoundedOrder B] {κ η Ω : ℝ} {A : Arith ℝ}

/-- Specification of C115 for a line `l` read and the line `q` written: if `l` is a motion with coordinates up to `R` that takes at most the time `T` and in which
two vertices are at least `τ` apart in time, then `q` is a motion that is within `2 * δ` of it at every time (within `δ` when no check is requested), and the Fréchet
distance of the two lines in the plane is at most `2 * δ`. -/
def SynchronisedWithin (R T τ : ℝ) (o : Opts ℝ) (δ : ℝ) (l q : List (Fl ℝ × Fl ℝ × Fl ℝ)) : Prop :=
  ∀ ps : List (ℂ × ℝ), l = ps.map timed → Bounded R T τ ps → ∃ qs, q = qs.map timed ∧ Follows (2 * δ) ps qs ∧
    FrechetLe (2 * δ) (ps.map Prod.fst) (qs.map Prod.fst) ∧ (Unconstrained o → Follows δ ps qs)

theorem Engine.synchronised_rounds {R T τ : ℝ} (hA : A.Rounds κ η Ω) (hlim : Limits κ η Ω R T τ) {E : Engine (Fl ℝ × Fl ℝ × Fl ℝ) C B ℝ} {o : Opts ℝ}
    {kind : Io.OffsetKind} {ctx : List C} {lines : List (List (Fl ℝ × Fl ℝ × Fl ℝ))} (h : E.OK o kind lines)
    (hsc : E.score kind = maxOffset (sedDist A (hypot A (.fin 1)))) {ε : ℝ} (hε : 0 ≤ ε)
    (ht : o.threshold = .fin ε) : E.Guarantees o kind ctx lines (SynchronisedWithin R T τ o (roundedEps κ η R T ε)) := by
  refine h.guarantees _ (fun fs hf hc k l hl hlk hp hmem hi hinj => ?_)
  obtain ⟨e1, e2, e3, -⟩ := hf.inst hlk
  rw [hsc] at e2
  rw [ht] at e3
  have fin : ∀ s : List Int, RootCut ((l.length : Int) - 1) l s (sedDist A (hypot A (.fin 1))) (.fin ε) →
      (Unconstrained o → Cut ((l.length : Int) - 1) l s (sedDist A (hypot A (.fin 1))) (.fin ε)) →
      SynchronisedWithin R T τ o (roundedEps κ η R T ε) l (verticesAt l s) := by
    intro s hr hu ps hps hb
    have hlen : 2 ≤ ps.length := by simpa [hps] using hi.two
    subst hps
    rw [List.length_map] at hr hu
    have h0 := roundedEps_nonneg (ε := ε) hlim hε (hb.nonneg hlen).1 (hb.nonneg hlen).2
    have := Follows.of_rootCut realArith_exact h0 hb.timed (RootCut.rounds (square := false) hA hlim hb hε (by simp) hr)
    exact ⟨verticesAt ps s, (map_verticesAt _ _ _).symm, this.1, this.2, fun ho =>
      Follows.of_cut realArith_exact h0 hb.timed (Cut.rounds (square := false) hA hlim hb hε (by simp) (hu ho))⟩
  have hcut : ∀ dirty fuel out d, Verif.simplify (E.env o kind fs) (E.idsOf k) k [] dirty fuel = .ok (out, d) → Unconstrained o →
      Cut ((l.length : Int) - 1) l out.simple (sedDist A (hypot A (.fin 1))) (.fin ε) := fun dirty fuel out d hr ho =>
    simplify_cut (pts := fun _ => l) hc.envOK hc.lnrOK hi hinj (by simp) (by rw [e1]; exact ho) e2 e3 hr
  refine ⟨fun dirty fuel out d hr _ => fin _ ?_ (hcut _ _ _ _ hr), fun dirty fuel res out hr hm' _ => fin _ ?_ (fun ho => ?_)⟩
  · exact simplify_rootCut (pts := fun _ => l) hc.envOK hc.lnrOK hi hinj (by simp) e2 e3 hr
  · have := fc_rootCut hc hr hm' e2 e3
    simp only [] at hp
    rwa [hp] at this
  · obtain ⟨dirty', d, hr'⟩ := fc_unconstrained ho hr hm'
    exact hcut _ _ _ _ hr' ho

end

/-! ### the split vertex with rounding -/

section
variable {κ η Ω : ℝ} {A : Arith ℝ}

/-- Signs are computed correctly: the product of two numbers that are not negative is not negative, no square root is negative, and changing the sign of a negative
number makes it not negative.  (Floating point arithmetic rounds correctly, so it has these properties, also for results that are not numbers.) -/
structure Arith.Signs (A : Arith ℝ) : Prop where
  mul : ∀ p q, p.lt (.fin 0) = false → q.lt (.fin 0) = false → (A.mul p q).lt (.fin 0) = false
  sqrt : ∀ p, (A.sqrt p).lt (.fin 0) = false
  neg : ∀ p, p.lt (.fin 0) = true → (A.sub (.fin 0) p).lt (.fin 0) = false

theorem Arith.Signs.hypot (h : A.Signs) (one p q : Fl ℝ) : (Verif.hypot A one p q).lt (.fin 0) = false := by
  have abs : ∀ p : Fl ℝ, (if p.lt (.fin 0) then A.sub (.fin 0) p else p).lt (.fin 0) = false := by
    intro p
    split
    · next hp => exact h.neg p hp
    · next hp => simpa using hp
  have hp := abs p
  have hq := abs q
  unfold Verif.hypot
  simp only []
  generalize (if p.lt (.fin 0) then A.sub (.fin 0) p else p) = p' at hp ⊢
  generalize (if q.lt (.fin 0) then A.sub (.fin 0) q else q) = q' at hq ⊢
  split
  · next c =>
    simp only []
    split
    · simp [Fl.lt]
    · exact h.mul _ _ hq (h.sqrt _)
  · simp only []
    split
    · simp [Fl.lt]
    · exact h.mul _ _ hp (h.sqrt _)

/-- the score of a vertex between two others is a finite number -/
theorem sed_finite {R T τ : ℝ} (hA : A.Rounds κ η Ω) (hlim : Limits κ η Ω R T τ) {ps : List (ℂ × ℝ)} (hb : Bounded R T τ ps)
    {i t j : Nat} (hit : i < t) (htj : t < j) {a b p : ℂ × ℝ} (ha : ps[i]? = some a)
    (hbj : ps[j]? = some b) (hp : ps[t]? = some p) : ∃ r, sedDist A (hypot A (.fin 1)) (timed a) (timed b) (timed p) = .fin r := by
  obtain ⟨k0, k1, n0, n1, l1, l2, l3⟩ := hlim
  have mem : ∀ {i : Nat} {x : ℂ × ℝ}, ps[i]? = some x → x ∈ ps := fun h => List.mem_of_getElem? h
  have hlt : ∀ i j : Nat, i < j → ∀ x y, ps[i]? = some x → ps[j]? = some y → τ ≤ y.2 - x.2 := by
    intro i j hij x y hx hy
    obtain ⟨h1, rfl⟩ := List.getElem?_eq_some_iff.1 hx
    obtain ⟨h2, rfl⟩ := List.getElem?_eq_some_iff.1 hy
    exact List.pairwise_iff_getElem.1 hb.apart i j h1 h2 hij
  have t1 := hlt _ _ hit _ _ ha hp
  have t2 := hlt _ _ htj _ _ hp hbj
  have t3 := hlt _ _ (hit.trans htj) _ _ ha hbj
  have t4 := hb.span a (mem ha) b (mem hbj)
  have τ0 := hb.pos
  have R0 : 0 ≤ R := (abs_nonneg _).trans (hb.re a (mem ha))
  have nT : η * (b.2 - a.2) ≤ η * T := mul_le_mul_of_nonneg_left t4 n0
  have nT0 : 0 ≤ η * (b.2 - a.2) := mul_nonneg n0 (by linarith)
  have Ω0 : 0 ≤ Ω := by linarith
  have Ωτ := mul_le_mul_of_nonneg_left t3 Ω0
  obtain ⟨⟨r, er, -⟩, -⟩ := C88_score hA k0 k1 n0 n1 (a := a) (b := b) (p := p) (R := R) (by linarith) (by linarith) (by linarith)
    ⟨hb.re a (mem ha), hb.im a (mem ha)⟩ ⟨hb.re b (mem hbj), hb.im b (mem hbj)⟩ ⟨hb.re p (mem hp), hb.im p (mem hp)⟩ rfl (by linarith) (by linarith)
  exact ⟨r, er⟩

/-- **C115**, the split vertex: with rounding the synchronised score of every piece of a motion within the limits names a vertex strictly between the ends, and a
finite number that is not negative.  So the last requirement of `Engine.OK` is met. -/
theorem C115_split_inside {R T τ : ℝ} (hA : A.Rounds κ η Ω) (hs : A.Signs) (hlim : Limits κ η Ω R T τ) {ps : List (ℂ × ℝ)} (hb : Bounded R T τ ps)
    (i j : Int) (h1 : 0 ≤ i) (h2 : i + 1 < j) (h3 : j < (ps.map timed).length) :
    ∃ k r, maxOffset (sedDist A (hypot A (.fin 1))) (Coords.sub (ps.map timed) i j) = .ok (k, .fin r) ∧ 0 ≤ r ∧ 0 < k ∧ k < j - i := by
  rw [List.length_map] at h3
  have hlen : (Coords.sub (ps.map timed) i j).len = j + 1 - i := Coords.len_sub _ _ _ (by omega)
  have hp : ∀ k : Int, 0 ≤ k → k < (ps.length : Int) → ps[k.toNat]? = some (ps[k.toNat]?.getD 0) := by
    intro k h0 h1
    rw [List.getElem?_eq_getElem (by omega)]; rfl
  have hq : ∀ k, 0 ≤ k → k < (Coords.sub (ps.map timed) i j).len → (Coords.sub (ps.map timed) i j).pt k =
      .ok (timed (ps[(i + k).toNat]?.getD 0)) := by
    intro k hk0 hk1
    obtain ⟨p, hp1, hp'⟩ := Coords.pt_sub_ok (pts := ps.map timed) (i := i) (j := j) (k := k) (by omega) (by omega) h1 (by simp; omega)
    rw [List.getElem?_map, hp (i + k) (by omega) (by omega)] at hp'
    rw [hp1, ← Option.some.inj hp']
  have key : ∀ t : Int, 0 < t → t < (Coords.sub (ps.map timed) i j).len - 1 → ∃ r : ℝ, 0 ≤ r ∧ sedDist A (hypot A (.fin 1)) (timed (ps[(i + 0).toNat]?.getD 0))
      (timed (ps[(i + ((Coords.sub (ps.map timed) i j).len - 1)).toNat]?.getD 0)) (timed (ps[(i + t).toNat]?.getD 0)) = .fin r := by
    intro t t1 t2
    rw [hlen] at t2 ⊢
    obtain ⟨r, hr⟩ := sed_finite hA hlim hb (by omega) (by omega) (hp (i + 0) (by omega) (by omega)) (hp (i + (j + 1 - i - 1)) (by omega) (by omega))
      (hp (i + t) (by omega) (by omega))
    refine ⟨r, ?_, hr⟩
    have := hs.hypot (.fin 1)
    unfold sedDist at hr
    have := this _ _ ▸ congrArg (fun x => Fl.lt x (.fin 0)) hr
    simpa [Fl.lt] using this
  obtain ⟨k, e, k0, k1, -⟩ := C03_maxOffset (sedDist A (hypot A (.fin 1))) _ _ (by omega) hq (fun t t1 t2 => by
    obtain ⟨r, hr, e⟩ := key t t1 t2
    rw [e]
    simpa [Fl.fin_le_fin] using hr)
  obtain ⟨r, hr, e'⟩ := key k k0 k1
  rw [e'] at e
  exact ⟨k, r, e, hr, k0, by omega⟩

end

namespace Io

open Verif.Text

section
variable {C B Props : Type} [LinearOrder B] [BoundedOrder B] {κ η Ω : ℝ} {A : Arith ℝ}

/-- **C115**: when the configuration names the score function `sed` and the tolerance `ε`, and arithmetic rounds with relative error `κ` and absolute error `η` below
the limit `Ω`, every motion within the limits that was read is written as a motion that is within `2 * roundedEps` of it at every time, whatever the constraints and
options are; within `roundedEps` when no check is requested. -/
theorem C115_program {R T τ : ℝ} (hA : A.Rounds κ η Ω) (hlim : Limits κ η Ω R T τ) (w : World (Fl ℝ) (Fl ℝ × Fl ℝ × Fl ℝ) Props C)
    (E : Engine (Fl ℝ × Fl ℝ × Fl ℝ) C B ℝ) (b f : Str)
    {obj : ArgObj (Fl ℝ)} {kind : OffsetKind} {docs : List (Doc (Fl ℝ))} {ctx : List C} (hr : Reads w b f obj kind docs ctx)
    (hord : ∀ l, (w.enc.ord l).Perm l) (hlen : docs.length ≤ maxInt)
    (hd : ∀ d ∈ docs, HasGeometry d ∧ docParts d ≠ [] ∧ ∀ x ∈ docParts d, x.1 ≤ maxInt ∧ (x.2.1 = ['n', 'u', 'l', 'l'] ∨ (w.enc.unmarshal x.2.1).isSome))
    (hE : E.OK (E.opts (optsFromCfg obj)) kind (docs.flatMap (fun d => (docParts d).map (fun x => x.2.2.map E.toPoint))))
    (hname : trim obj.simplificationType ∈ sedNames) (hsc : E.score .maxSEDOffset = maxOffset (sedDist A (hypot A (.fin 1)))) {ε : ℝ} (hε : 0 ≤ ε)
    (ht : obj.threshold = .fin ε) :
    ∃ out N, (∀ fuel ≥ N, main (program w E fuel) b f = .saved (trim obj.output) (out.map w.marshal)) ∧
      List.Forall₂ (WrittenAs (SynchronisedWithin R T τ (asked (E.mul obj.threshold obj.threshold) obj) (roundedEps κ η R T ε)) w.enc E.toPoint) docs out := by
  obtain rfl := hr.sed hname
  exact program_lines w E b f hr hord hlen hd hE (Engine.synchronised_rounds hA hlim hE hsc hε ht)

end

end Io

/-! ### concrete case -/

namespace Real

open Io Text Planar

theorem skewArith_signs : skewArith.Signs := by
  have pos : ∀ x : ℝ, 0 ≤ x → (Fl.fin x).lt (.fin 0) = false := fun x hx => by simpa [Fl.lt] using hx
  refine ⟨fun p q hp hq => ?_, fun p => ?_, fun p hp => ?_⟩
  · cases p <;> cases q <;> try rfl
    next x y =>
    have hx : 0 ≤ x := by simpa [Fl.lt] using hp
    have hy : 0 ≤ y := by simpa [Fl.lt] using hq
    exact pos _ (by positivity)
  · cases p <;> try rfl
    next x =>
    simp only [skewArith]
    split
    · rfl
    · exact pos _ (by positivity)
  · cases p <;> try rfl
    next x =>
    have hx : x < 0 := by simpa [Fl.lt] using hp
    exact pos _ (by nlinarith)

/-- the engine of the motions, with every result one percent too large -/
noncomputable def skewEngine : Engine (Fl ℝ × Fl ℝ × Fl ℝ) Unit EReal ℝ :=
  { motionEngine with score := fun _ => maxOffset (sedDist skewArith (hypot skewArith (.fin 1))) }

theorem skewEngine_ok (o : Opts ℝ) (ho : (Fl.fin 0).le o.threshold = true) (kind : OffsetKind) (lines : List (List (ℂ × ℝ)))
    {R T τ : ℝ} (two : ∀ l ∈ lines, 2 ≤ l.length ∧ Bounded R T τ l) : skewEngine.OK o kind (lines.map (fun l => l.map timed)) := by
  have h := motionEngine_ok o ho kind lines (fun l hl => ⟨(two l hl).1, (two l hl).2.timed⟩)
  refine ⟨h.heur, h.heap, h.ord, h.ordRm, h.point, h.lnr, h.instId, h.streams, h.two, h.hull, h.box, fun l _ => maxOffset_splitsInside _ _ ho _, fun l hl i j h1 h2 h3 => ?_⟩
  obtain ⟨ps, hps, rfl⟩ := List.mem_map.1 hl
  obtain ⟨l2, hb⟩ := two ps hps
  obtain ⟨Ω, hlim⟩ := some_limits (κ := 1 / 100) (by norm_num) (by norm_num) (hb.nonneg l2).1 (hb.nonneg l2).2 hb.pos
  obtain ⟨k, r, e, -, k0, k1⟩ := C115_split_inside (skewArith_rounds Ω) skewArith_signs hlim hb i j h1 h2 h3
  exact ⟨k, _, e, k0, k1⟩

/-- C115 for the program on two motions with coordinates up to 10 that take the time 10 -/
example (fc : Bool) : ∃ out N, (∀ fuel ≥ N, main (program (world id (config "sed".toList fc) docM docN ([] : List Unit)) skewEngine fuel) "e30=".toList ['-'] = .saved ['o'] (out.map (fun _ => []))) ∧
    List.Forall₂ (WrittenAs (SynchronisedWithin 10 10 1 (skewEngine.opts (optsFromCfg (config "sed".toList fc))) (roundedEps (1 / 100) 0 10 10 5))
      (world id (config "sed".toList fc) docM docN ([] : List Unit)).enc skewEngine.toPoint) [docM, docN] out := by
  obtain ⟨Ω, hlim⟩ := some_limits (κ := 1 / 100) (R := 10) (T := 10) (τ := 1) (by norm_num) (by norm_num) (by norm_num) (by norm_num) (by norm_num)
  refine C115_program (skewArith_rounds Ω) hlim _ skewEngine _ _ (reads id "sed".toList .maxSEDOffset (by decide +kernel) fc docM docN []) (fun l => .refl l) (by simp [maxInt])
    (fun d hd => ?_) ?_ (show trim "sed".toList ∈ sedNames by decide +kernel) rfl (by norm_num) rfl
  · simp only [List.mem_cons, List.not_mem_nil, or_false] at hd
    rcases hd with rfl | rfl
    · refine ⟨trivial, by simp [docM, docParts, geomParts], fun x hx => ⟨?_, .inr rfl⟩⟩
      simp only [docM, docParts, geomParts, List.mem_singleton] at hx
      subst hx; exact Nat.zero_le _
    · refine ⟨by simp [docN, HasGeometry], by simp [docN, docParts, featParts, geomParts], fun x hx => ⟨?_, .inr rfl⟩⟩
      simp only [docN, docParts, featParts, geomParts, List.mem_singleton] at hx
      subst hx; exact Nat.zero_le _
  · show skewEngine.OK _ _ ([docM, docN].flatMap (fun d => (docParts d).map (fun x => x.2.2.map motionEngine.toPoint)))
    rw [motion_lines]
    refine skewEngine_ok (R := 10) (T := 10) (τ := 1) _ (by simp [Engine.opts, optsFromCfg, config, Fl.fin_le_fin]) _ _ (fun l hl => ?_)
    simp only [List.mem_cons, List.not_mem_nil, or_false] at hl
    rcases hl with rfl | rfl
    all_goals
      refine ⟨by simp, ⟨fun p hp => ?_, fun p hp => ?_, fun p hp q hq => ?_, by norm_num, ?_⟩⟩
      · simp only [List.mem_cons, List.not_mem_nil, or_false] at hp
        rcases hp with rfl | rfl | rfl <;> norm_num
      · simp only [List.mem_cons, List.not_mem_nil, or_false] at hp
        rcases hp with rfl | rfl | rfl <;> norm_num
      · simp only [List.mem_cons, List.not_mem_nil, or_false] at hp hq
        rcases hp with rfl | rfl | rfl <;> rcases hq with rfl | rfl | rfl <;> norm_num
      · simp only [List.pairwise_cons, List.mem_cons, List.not_mem_nil, or_false, forall_eq_or_imp, forall_eq]
        norm_num

end Real
end Verif
