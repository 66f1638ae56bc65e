import Verif.Props.C47_Pipeline
import Verif.Props.C73_Deformation
import Verif.Props.C87_ConstrainedMotion
import Verif.Props.C89_ScoreError

/-! C94-C96: what the whole program guarantees for the shape of the lines in the saved file. -/

set_option linter.unusedSectionVars false

namespace Verif

open Metric Planar

section
variable {P C B K : Type} [LinearOrder B] [BoundedOrder B] [LinearOrder K]

/-- the selected points -/
theorem coordsPoints_verticesAt {l : List P} : ∀ {s : List Int} {q : List P}, coordsPoints ⟨l, s⟩ = .ok q → q = verticesAt l s := by
  intro s
  simp only [coordsPoints, verticesAt]
  induction s with
  | nil => intro q h; cases h; rfl
  | cons i s ih =>
    intro q h
    obtain ⟨p, hp, h⟩ := Res.bind_eq_ok.1 h
    obtain ⟨r, hr, h⟩ := Res.bind_eq_ok.1 h
    cases h
    simp only [] at hp
    split_ifs at hp with h0
    rw [List.filterMap_cons]
    cases e : l[i.toNat]? with
    | none => rw [e] at hp; cases hp
    | some x => rw [e] at hp; cases hp; rw [ih hr]

theorem map_verticesAt {Q : Type} (f : P → Q) (l : List P) (s : List Int) : (verticesAt l s).map f = verticesAt (l.map f) s := by
  simp only [verticesAt, List.map_filterMap, List.getElem?_map]

namespace Engine

variable {E : Engine P C B K} {o : Opts K} {kind : Io.OffsetKind} {ctx : List C} {lines : List (List P)} {fs : List (Inst P C B K)}

/-- the instance of a line -/
theorem Forest.inst (hf : Forest E o kind ctx lines fs) {k : Nat} {l : List P} (hl : lines[k]? = some l) :
    ((E.env o kind fs).inst k).opts = o ∧ ((E.env o kind fs).inst k).scoreFn = E.score kind ∧ ((E.env o kind fs).inst k).rel = scoreRelation o.threshold ∧
      (Hdb.contents ((E.env o kind fs).inst k).ctxdb).Perm (ctx.map (ctxNode E.lib k)) := by
  obtain ⟨hk, rfl⟩ := List.getElem?_eq_some_iff.1 hl
  have hlen : fs.length = lines.length := by rw [← hf.length_eq, List.length_zipIdx]
  have hg := (List.forall₂_iff_get.1 hf).2 k (by rw [List.length_zipIdx]; exact hk) (by omega)
  simp only [List.get_eq_getElem, List.getElem_zipIdx, Nat.zero_add] at hg
  obtain ⟨-, -, h3, h4, h5, -, h7⟩ := hg
  have e : (E.env o kind fs).inst k = fs[k] := by
    simp only [env, Int.toNat_natCast, List.getElem?_eq_getElem (show k < fs.length by omega), Option.getD_some]
  rw [e]
  exact ⟨h3, by simp only [Inst.scoreFn, scoreOf, h5, h4, Option.getD_none], by simp only [Inst.rel, relationOf, h5, h3], h7⟩

/-- what is shown for the kept indices of `Simplify`, or of `SimplifyFeatureClass`, is guaranteed for the points -/
theorem OK.guaranteesIn (h : E.OK o kind lines) (fc : Bool) (R : List P → List P → Prop)
    (h1 : ∀ fs, Forest E o kind ctx lines fs → ClassOK (E.env o kind fs) (fun k => lines[k.toNat]?.getD []) E.ids E.idsOf (handles lines.length) →
      ∀ k : Nat, ∀ l ∈ lines, lines[k]? = some l → (fun x : Int => lines[x.toNat]?.getD []) k = l → (k : Int) ∈ handles lines.length →
      InstOK (E.env o kind fs) k l → Function.Injective (E.idsOf k) →
      (fc = false → ∀ dirty fuel out d, Verif.simplify (E.env o kind fs) (E.idsOf k) k [] dirty fuel = .ok (out, d) → KeptIndices l.length out.simple →
        R l (verticesAt l out.simple)) ∧
      (fc = true → ∀ dirty fuel res out, simplifyFeatureClass (E.env o kind fs) E.ids E.idsOf (handles lines.length) o dirty fuel = .ok res → ((k : Int), out) ∈ res →
        KeptIndices l.length out.simple → R l (verticesAt l out.simple))) :
    E.GuaranteesIn fc o kind ctx lines R := by
  intro fs hf k l hl
  have hc := classOK h hf
  obtain ⟨hk, hk'⟩ := List.getElem?_eq_some_iff.1 hl
  have hm : (k : Int) ∈ handles lines.length := List.mem_map.2 ⟨k, List.mem_range.2 hk, rfl⟩
  have hp : (fun x : Int => lines[x.toNat]?.getD []) k = l := by simp only [Int.toNat_natCast, hl, Option.getD_some]
  have hi := hc.inst k hm
  have hp' := hp
  simp only [] at hp'
  rw [hp'] at hi
  obtain ⟨g1, g2⟩ := h1 fs hf hc k l (List.mem_of_getElem? hl) hl hp hm hi (hc.streams.each k hm)
  refine ⟨fun hfc dirty fuel out d q hs hq => ?_, fun hfc dirty fuel res out q hs hmem hq => ?_⟩
  · rw [coordsPoints_verticesAt hq]
    refine g1 hfc dirty fuel out d hs ?_
    obtain ⟨e, ⟨g, hpc⟩, -⟩ := simplify_result (pts := fun x : Int => lines[x.toNat]?.getD []) hc.envOK hc.lnrOK (hc.inst k hm) (hc.streams.each k hm)
      (by simp) hs
    have := hpc.kept (hc.inst k hm).two
    rwa [← e, hp'] at this
  · rw [coordsPoints_verticesAt hq]
    refine g2 hfc dirty fuel res out hs hmem ?_
    obtain ⟨-, js, -, h2⟩ := fc_result hc hs
    obtain ⟨src, ids', g, hpc⟩ := (h2 _ hmem).pieces
    have := hpc.kept (hc.inst k hm).two
    rw [← (h2 _ hmem).simple] at this
    rwa [hp'] at this

/-- what is shown for the kept indices of `Simplify` and of `SimplifyFeatureClass` is guaranteed for the points -/
theorem OK.guarantees (h : E.OK o kind lines) (R : List P → List P → Prop)
    (h1 : ∀ fs, Forest E o kind ctx lines fs → ClassOK (E.env o kind fs) (fun k => lines[k.toNat]?.getD []) E.ids E.idsOf (handles lines.length) →
      ∀ k : Nat, ∀ l ∈ lines, lines[k]? = some l → (fun x : Int => lines[x.toNat]?.getD []) k = l → (k : Int) ∈ handles lines.length →
      InstOK (E.env o kind fs) k l → Function.Injective (E.idsOf k) →
      (∀ dirty fuel out d, Verif.simplify (E.env o kind fs) (E.idsOf k) k [] dirty fuel = .ok (out, d) → KeptIndices l.length out.simple → R l (verticesAt l out.simple)) ∧
      ∀ dirty fuel res out, simplifyFeatureClass (E.env o kind fs) E.ids E.idsOf (handles lines.length) o dirty fuel = .ok res → ((k : Int), out) ∈ res →
        KeptIndices l.length out.simple → R l (verticesAt l out.simple)) :
    E.Guarantees o kind ctx lines R := by
  have key := fun fc => h.guaranteesIn (ctx := ctx) fc R (fun fs hf hc k l hl hlk hp hm hi hinj =>
    ⟨fun _ => (h1 fs hf hc k l hl hlk hp hm hi hinj).1, fun _ => (h1 fs hf hc k l hl hlk hp hm hi hinj).2⟩)
  exact fun fs hf k l hl => ⟨(key false fs hf k l hl).1 rfl, (key true fs hf k l hl).2 rfl⟩

end Engine

/-- without any check a feature class is simplified line by line -/
theorem fc_unconstrained {env : Env P C B K} {ids : Nat → Int} {idsOf : Int → Nat → Int} {handles : List Int} {o : Opts K} {dirty : Int → Bool} {fuel : Nat}
    {res : List (Int × Out P C B)} (ho : Unconstrained o) (hr : simplifyFeatureClass env ids idsOf handles o dirty fuel = .ok res) {x : Int × Out P C B}
    (hm : x ∈ res) : ∃ dirty d, simplify env (idsOf x.1) x.1 [] dirty fuel = .ok (x.2, d) := by
  obtain ⟨h1, h2, h3, h4, h5⟩ := ho
  simp only [simplifyFeatureClass, fcJunctions, h1, h2, h3, h4, h5, Bool.false_eq_true, if_false, Bool.or_false, Res.ok_bind] at hr
  obtain ⟨a, ha, hr⟩ := Res.bind_eq_ok.1 hr
  cases hr
  have := simplifyInstances_mem env idsOf [] fuel handles dirty _ ha x hm
  simpa [junctionsOf] using this

end

/-! ### C94: the tolerance -/

section
variable {P C B : Type} [LinearOrder B] [BoundedOrder B] {V : Type} [NormedAddCommGroup V] [InnerProductSpace ℝ V]

/-- Specification of C94 for a line `l` read and the line `q` written, with points at the positions `pos`: `q` consists of the points of `l` at increasing indices
from the first to the last; every segment of `q` is within `2 * T` of the part of `l` that it replaces, and `q` is within `2 * T` of `l`; if `l` does not turn back,
the Fréchet distance of the two is at most `2 * T`; with no check requested, each part of `l` and its segment, and the two lines, are within `T` of each other. -/
structure Tolerated (pos : P → V) (o : Opts ℝ) (T : ℝ) (l q : List P) : Prop where
  covered : ∃ s, KeptIndices l.length s ∧ q = verticesAt l s ∧ Covered (2 * T) (l.map pos) s ∧ (Unconstrained o → Close T (l.map pos) s)
  forward : Forward (l.map pos) → FrechetLe (2 * T) (l.map pos) (q.map pos)
  close : Unconstrained o → hausdorffDist (trace (l.map pos)) (trace (q.map pos)) ≤ T

theorem Engine.tolerance {E : Engine P C B ℝ} {o : Opts ℝ} {kind : Io.OffsetKind} {ctx : List C} {lines : List (List P)} (h : E.OK o kind lines) {pos : P → V}
    {distFn : P → P → P → Fl ℝ} (hsc : E.score kind = maxOffset distFn) {δ thr : ℝ} (hδ : 0 ≤ δ) (hthr : 0 ≤ thr) (ht : o.threshold = .fin thr)
    (hd : ∀ l ∈ lines, ErrorLe δ false pos l distFn) : E.Guarantees o kind ctx lines (Tolerated pos o (thr + δ)) := by
  refine h.guarantees _ (fun fs hf hc k l hl hlk hp hm hi hinj => ?_)
  obtain ⟨e1, e2, e3, -⟩ := hf.inst hlk
  rw [hsc] at e2
  rw [ht] at e3
  have hε := errorEps_nonneg hδ hthr false
  have heps : errorEps δ false thr = thr + δ := by simp [errorEps]
  have fin : ∀ s : List Int, KeptIndices l.length s → RootCut ((l.length : Int) - 1) l s distFn (.fin thr) →
      (Unconstrained o → Cut ((l.length : Int) - 1) l s distFn (.fin thr)) → Tolerated pos o (thr + δ) l (verticesAt l s) := by
    intro s hs hr hu
    have h1 := Covered.of_rootCut hε (hr.exact (hd l hl))
    rw [heps] at h1
    refine ⟨⟨s, hs, rfl, h1, fun ho => ?_⟩, fun hw => ?_, fun ho => ?_⟩
    · have := (Close.of_cut hε ((hu ho).exact (hd l hl))).1
      rwa [heps] at this
    · have := Frechet.of_rootCut hε (hr.exact (hd l hl)) hw
      rwa [heps, ← map_verticesAt] at this
    · have := (Close.of_cut hε ((hu ho).exact (hd l hl))).2
      rwa [heps, ← map_verticesAt] at this
  have hcut : ∀ dirty fuel out d, Verif.simplify (E.env o kind fs) (E.idsOf k) k [] dirty fuel = .ok (out, d) → Unconstrained o →
      Cut ((l.length : Int) - 1) l out.simple distFn (.fin thr) := fun dirty fuel out d hr ho =>
    simplify_cut (pts := fun _ => l) hc.envOK hc.lnrOK hi hinj (by simp) (by rw [e1]; exact ho) e2 e3 hr
  refine ⟨fun dirty fuel out d hr hk => fin _ hk ?_ (hcut _ _ _ _ hr), fun dirty fuel res out hr hm' hk => fin _ hk ?_ (fun ho => ?_)⟩
  · exact simplify_rootCut (pts := fun _ => l) hc.envOK hc.lnrOK hi hinj (by simp) e2 e3 hr
  · have := fc_rootCut hc hr hm' e2 e3
    simp only [] at hp
    rwa [hp] at this
  · obtain ⟨dirty', d, hr'⟩ := fc_unconstrained ho hr hm'
    exact hcut _ _ _ _ hr' ho

end

/-- Specification: the options a configuration asks for, setting by setting (`sq` is the threshold for squared scores) -/
def Io.asked {K : Type} (sq : Fl K) (obj : Io.ArgObj (Fl K)) : Opts K where
  threshold := obj.threshold
  sqThreshold := sq
  minDist := obj.minDist
  nonPlanarDisplacement := obj.nonPlanarDisplacement
  planarSelf := obj.planarSelf
  nonPlanarSelf := obj.nonPlanarSelf
  avoidNewSelfIntersects := obj.avoidNewSelfIntersects
  geomRelation := obj.geomRelation
  distRelation := obj.distRelation
  dirRelation := obj.sideRelation

namespace Io

open Verif.Text

/-- the names of the two score functions, in any letter case -/
def dpNames : List Str := ["dp".toList, "dP".toList, "Dp".toList, "DP".toList]
def sedNames : List Str := ["sed".toList, "seD".toList, "sEd".toList, "sED".toList, "Sed".toList, "SeD".toList, "SEd".toList, "SED".toList]

theorem Reads.dp {K P C Props : Type} {w : World (Fl K) P Props C} {b f : Str} {obj : ArgObj (Fl K)} {kind : OffsetKind} {docs : List (Doc (Fl K))} {ctx : List C}
    (hr : Reads w b f obj kind docs ctx) (h : trim obj.simplificationType ∈ dpNames) : kind = .maxOffset := by
  have hk := hr.kind
  have : offsetFn w obj = .ok .maxOffset := by
    simp only [offsetFn]
    revert h
    generalize trim obj.simplificationType = t
    intro h
    simp only [dpNames, List.mem_cons, List.not_mem_nil, or_false] at h
    rcases h with rfl | rfl | rfl | rfl <;> rfl
  rw [this] at hk
  cases hk; rfl

theorem Reads.sed {K P C Props : Type} {w : World (Fl K) P Props C} {b f : Str} {obj : ArgObj (Fl K)} {kind : OffsetKind} {docs : List (Doc (Fl K))} {ctx : List C}
    (hr : Reads w b f obj kind docs ctx) (h : trim obj.simplificationType ∈ sedNames) : kind = .maxSEDOffset := by
  have hk := hr.kind
  have : offsetFn w obj = .ok .maxSEDOffset := by
    simp only [offsetFn]
    revert h
    generalize trim obj.simplificationType = t
    intro h
    simp only [sedNames, List.mem_cons, List.not_mem_nil, or_false] at h
    rcases h with rfl | rfl | rfl | rfl | rfl | rfl | rfl | rfl <;> rfl
  rw [this] at hk
  cases hk; rfl

section
variable {P C B Props : Type} [LinearOrder B] [BoundedOrder B] {V : Type} [NormedAddCommGroup V] [InnerProductSpace ℝ V]

/-- **C94**: when the configuration names the score function `dp`, the saved file holds, for every document, its parts; with tolerance `thr` and distances to the chord computed with an error of at most `δ`, every part
is within `2 * (thr + δ)` of the line read, whatever the constraints and options are, and within `thr + δ` in both directions when no check is requested. -/
theorem C94_program_tolerance (w : World (Fl ℝ) P Props C) (E : Engine P C B ℝ) (b f : Str) {obj : ArgObj (Fl ℝ)} {kind : OffsetKind}
    {docs : List (Doc (Fl ℝ))} {ctx : List C} (hr : Reads w b f obj kind docs ctx) (hord : ∀ l, (w.enc.ord l).Perm l) (hlen : docs.length ≤ maxInt)
    (hd : ∀ d ∈ docs, HasGeometry d ∧ docParts d ≠ [] ∧ ∀ x ∈ docParts d, x.1 ≤ maxInt ∧ (x.2.1 = ['n', 'u', 'l', 'l'] ∨ (w.enc.unmarshal x.2.1).isSome))
    (hE : E.OK (E.opts (optsFromCfg obj)) kind (docs.flatMap (fun d => (docParts d).map (fun x => x.2.2.map E.toPoint))))
    {pos : P → V} {distFn : P → P → P → Fl ℝ} (hname : trim obj.simplificationType ∈ dpNames) (hsc : E.score .maxOffset = maxOffset distFn)
    {δ thr : ℝ} (hδ : 0 ≤ δ) (hthr : 0 ≤ thr) (ht : obj.threshold = .fin thr) (herr : ∀ d ∈ docs, ∀ x ∈ docParts d, ErrorLe δ false pos (x.2.2.map E.toPoint) distFn) :
    ∃ out N, (∀ fuel ≥ N, main (program w E fuel) b f = .saved (trim obj.output) (out.map w.marshal)) ∧
      List.Forall₂ (WrittenAs (Tolerated pos (asked (E.mul obj.threshold obj.threshold) obj) (thr + δ)) w.enc E.toPoint) docs out := by
  obtain rfl := hr.dp hname
  refine program_lines w E b f hr hord hlen hd hE (Engine.tolerance hE hsc hδ hthr ht (fun l hl => ?_))
  simp only [List.mem_flatMap, List.mem_map] at hl
  obtain ⟨d, hdm, x, hx, rfl⟩ := hl
  exact herr d hdm x hx

end

end Io

/-! ### C95: the constraints -/

section
variable {P C : Type}

/-- Specification of C95 for a line `l` read and the line `q` written: with `DirRelation`, `q` arises from `l` by a continuous deformation with fixed ends that
touches no constraint that `l` does not meet; with `GeomRelation` or `DirRelation`, `q` meets no constraint that `l` does not meet; with `DistRelation`, a constraint
at least `m` away from `l` is at least `m - τ` away from `q`. -/
structure RespectsAll (pos : P → ℂ) (region : C → Set ℂ) (cs : List C) (o : Opts ℝ) (τ m : ℝ) (l q : List P) : Prop where
  deforms : o.dirRelation = true → Deforms (clear region cs (l.map pos)) (curve (l.map pos)) (curve (q.map pos))
  meets : o.geomRelation = true ∨ o.dirRelation = true → ∀ g ∈ cs, Disjoint (lineSet (l.map pos)) (region g) → Disjoint (lineSet (q.map pos)) (region g)
  dist : o.distRelation = true → ∀ g ∈ cs, m ≤ gap (lineSet (l.map pos)) (region g) → m - τ ≤ gap (lineSet (q.map pos)) (region g)
  parts : ∃ s, KeptIndices l.length s ∧ q = verticesAt l s ∧ ∀ i j, Consecutive s i j → Kept pos region cs o τ m l i j

theorem placesAt_eq (pos : P → ℂ) (l : List P) (s : List Int) : placesAt pos l s = (verticesAt l s).map pos := by
  simp only [verticesAt, List.map_filterMap, placesAt]

theorem Engine.respects {E : Engine P C EReal ℝ} {o : Opts ℝ} {kind : Io.OffsetKind} {ctx : List C} {lines : List (List P)} (h : E.OK o kind lines) {pos : P → ℂ}
    {region : C → Set ℂ} {τ m : ℝ} (hx : Exact pos region E.lib) (hh : E.heap.Legal (within τ)) (hτ : 0 ≤ τ ∧ τ ≤ m) (hm : o.minDist = .fin m) :
    E.Guarantees o kind ctx lines (RespectsAll pos region ctx o τ m) := by
  refine h.guarantees _ (fun fs hf hc k l hl hlk hp hmem hi hinj => ?_)
  obtain ⟨e1, -, -, e4⟩ := hf.inst hlk
  have hs : Setting pos region (E.env o kind fs) k ctx τ m := by
    refine ⟨hx, hh, hτ, by rw [e1]; exact hm, ?_⟩
    have := e4.map (fun nd : Node P C EReal => (nd.geom, nd.mbr))
    rw [List.map_map] at this
    exact this
  refine ⟨fun dirty fuel out d hr hk => ?_, fun dirty fuel res out hr hm' hk => ?_⟩
  · have h1 := C75_whole_line (pts := fun _ => l) hc.envOK hc.lnrOK hi hinj (by simp) hs hr
    have h2 := C75_each_segment (pts := fun _ => l) hc.envOK hc.lnrOK hi hinj (by simp) hs hr
    have h3 := fun hd => C74_deformation (pts := fun _ => l) hc.envOK hc.lnrOK hi hinj (by simp) hs hd hr
    simp only [placesAt_eq, e1] at h1 h2 h3
    exact ⟨fun hd => (h3 hd).1, fun hd => hd.elim h1.1 (fun hd => (h3 hd).2), h1.2, _, hk, rfl, h2⟩
  · obtain ⟨h1, h2, h3, h4⟩ := C74_feature_class hc hr hm' hs
    simp only [] at hp
    simp only [hp, placesAt_eq, e1] at h1 h2 h3 h4
    exact ⟨h1, h2, h3, _, hk, rfl, h4⟩

end

namespace Io

open Verif.Text

section
variable {P C Props : Type}

/-- **C95**: with an exact geometry library, every part in the saved file respects the constraints that were read, as requested by the options. -/
theorem C95_program_constraints (w : World (Fl ℝ) P Props C) (E : Engine P C EReal ℝ) (b f : Str) {obj : ArgObj (Fl ℝ)} {kind : OffsetKind}
    {docs : List (Doc (Fl ℝ))} {ctx : List C} (hr : Reads w b f obj kind docs ctx) (hord : ∀ l, (w.enc.ord l).Perm l) (hlen : docs.length ≤ maxInt)
    (hd : ∀ d ∈ docs, HasGeometry d ∧ docParts d ≠ [] ∧ ∀ x ∈ docParts d, x.1 ≤ maxInt ∧ (x.2.1 = ['n', 'u', 'l', 'l'] ∨ (w.enc.unmarshal x.2.1).isSome))
    (hE : E.OK (E.opts (optsFromCfg obj)) kind (docs.flatMap (fun d => (docParts d).map (fun x => x.2.2.map E.toPoint))))
    {pos : P → ℂ} {region : C → Set ℂ} {τ m : ℝ} (hx : Exact pos region E.lib) (hh : E.heap.Legal (within τ)) (hτ : 0 ≤ τ ∧ τ ≤ m)
    (hm : obj.minDist = .fin m) :
    ∃ out N, (∀ fuel ≥ N, main (program w E fuel) b f = .saved (trim obj.output) (out.map w.marshal)) ∧
      List.Forall₂ (WrittenAs (RespectsAll pos region ctx (asked (E.mul obj.threshold obj.threshold) obj) τ m) w.enc E.toPoint) docs out :=
  program_lines w E b f hr hord hlen hd hE (Engine.respects hE hx hh hτ hm)

end

end Io

/-! ### C96: motions -/

section
variable {C B : Type} [LinearOrder B] [BoundedOrder B]

/-- Specification of C96 for a line `l` read and the line `q` written: if `l` is a motion with increasing times, then `q` is a motion that is within `2 * ε` of it at
every time (within `ε` when no check is requested), and the Fréchet distance of the two lines in the plane is at most `2 * ε`. -/
def Synchronised (o : Opts ℝ) (ε : ℝ) (l q : List (Fl ℝ × Fl ℝ × Fl ℝ)) : Prop :=
  ∀ ps : List (ℂ × ℝ), l = ps.map timed → Timed ps → ∃ qs, q = qs.map timed ∧ Follows (2 * ε) ps qs ∧ FrechetLe (2 * ε) (ps.map Prod.fst) (qs.map Prod.fst) ∧
    (Unconstrained o → Follows ε ps qs)

theorem Engine.synchronised {A : Arith ℝ} (hA : A.Exact) {E : Engine (Fl ℝ × Fl ℝ × Fl ℝ) C B ℝ} {o : Opts ℝ} {kind : Io.OffsetKind} {ctx : List C}
    {lines : List (List (Fl ℝ × Fl ℝ × Fl ℝ))} (h : E.OK o kind lines) (hsc : E.score kind = maxOffset (sedDist A (hypot A (.fin 1)))) {ε : ℝ} (hε : 0 ≤ ε)
    (ht : o.threshold = .fin ε) : E.Guarantees o kind ctx lines (Synchronised o ε) := by
  refine h.guarantees _ (fun fs hf hc k l hl hlk hp hmem hi hinj => ?_)
  obtain ⟨e1, e2, e3, -⟩ := hf.inst hlk
  rw [hsc] at e2
  rw [ht] at e3
  have fin : ∀ s : List Int, RootCut ((l.length : Int) - 1) l s (sedDist A (hypot A (.fin 1))) (.fin ε) →
      (Unconstrained o → Cut ((l.length : Int) - 1) l s (sedDist A (hypot A (.fin 1))) (.fin ε)) → Synchronised o ε l (verticesAt l s) := by
    intro s hr hu ps hps hT
    subst hps
    rw [List.length_map] at hr hu
    have := Follows.of_rootCut (square := false) hA hε hT hr
    exact ⟨verticesAt ps s, (map_verticesAt _ _ _).symm, this.1, this.2, fun ho => Follows.of_cut (square := false) hA hε hT (hu ho)⟩
  have hcut : ∀ dirty fuel out d, Verif.simplify (E.env o kind fs) (E.idsOf k) k [] dirty fuel = .ok (out, d) → Unconstrained o →
      Cut ((l.length : Int) - 1) l out.simple (sedDist A (hypot A (.fin 1))) (.fin ε) := fun dirty fuel out d hr ho =>
    simplify_cut (pts := fun _ => l) hc.envOK hc.lnrOK hi hinj (by simp) (by rw [e1]; exact ho) e2 e3 hr
  refine ⟨fun dirty fuel out d hr _ => fin _ ?_ (hcut _ _ _ _ hr), fun dirty fuel res out hr hm' _ => fin _ ?_ (fun ho => ?_)⟩
  · exact simplify_rootCut (pts := fun _ => l) hc.envOK hc.lnrOK hi hinj (by simp) e2 e3 hr
  · have := fc_rootCut hc hr hm' e2 e3
    simp only [] at hp
    rwa [hp] at this
  · obtain ⟨dirty', d, hr'⟩ := fc_unconstrained ho hr hm'
    exact hcut _ _ _ _ hr' ho

end

namespace Io

open Verif.Text

section
variable {C B Props : Type} [LinearOrder B] [BoundedOrder B]

/-- **C96**: when the configuration names the score function `sed`, with the synchronised score, exact arithmetic and tolerance `ε`, every motion with increasing times that was read is written as a motion that is within
`2 * ε` of it at every time, whatever the constraints and options are; within `ε` when no check is requested. -/
theorem C96_program_motion {A : Arith ℝ} (hA : A.Exact) (w : World (Fl ℝ) (Fl ℝ × Fl ℝ × Fl ℝ) Props C) (E : Engine (Fl ℝ × Fl ℝ × Fl ℝ) C B ℝ) (b f : Str)
    {obj : ArgObj (Fl ℝ)} {kind : OffsetKind} {docs : List (Doc (Fl ℝ))} {ctx : List C} (hr : Reads w b f obj kind docs ctx)
    (hord : ∀ l, (w.enc.ord l).Perm l) (hlen : docs.length ≤ maxInt)
    (hd : ∀ d ∈ docs, HasGeometry d ∧ docParts d ≠ [] ∧ ∀ x ∈ docParts d, x.1 ≤ maxInt ∧ (x.2.1 = ['n', 'u', 'l', 'l'] ∨ (w.enc.unmarshal x.2.1).isSome))
    (hE : E.OK (E.opts (optsFromCfg obj)) kind (docs.flatMap (fun d => (docParts d).map (fun x => x.2.2.map E.toPoint))))
    (hname : trim obj.simplificationType ∈ sedNames) (hsc : E.score .maxSEDOffset = maxOffset (sedDist A (hypot A (.fin 1)))) {ε : ℝ} (hε : 0 ≤ ε)
    (ht : obj.threshold = .fin ε) :
    ∃ out N, (∀ fuel ≥ N, main (program w E fuel) b f = .saved (trim obj.output) (out.map w.marshal)) ∧
      List.Forall₂ (WrittenAs (Synchronised (asked (E.mul obj.threshold obj.threshold) obj) ε) w.enc E.toPoint) docs out := by
  obtain rfl := hr.sed hname
  exact program_lines w E b f hr hord hlen hd hE (Engine.synchronised hA hE hsc hε ht)

end

end Io

end Verif
