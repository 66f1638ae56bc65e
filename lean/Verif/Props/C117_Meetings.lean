import Verif.Props.C76_Crossings
import Verif.Props.C78_Plane
import Verif.Props.C94_Program
import Verif.Demo.RealProgram

/-! C117: where the lines in the saved file meet themselves and each other. -/

set_option linter.unusedSectionVars false

namespace Verif
namespace Planar

section
variable {P C : Type} {pos : P → ℂ} {region : C → Set ℂ} {env : Env P C EReal ℝ} {pts : Int → List P} {h : Int} {τ e : ℝ}

/-- a list of indices with all vertices of the reported self-intersections has the vertices at which the line meets itself -/
theorem met_itself (hi : InstOK env h (pts h)) (hx : Exact pos region env.lib) (hn : ExactLnr pos env.lnr) (hheap : env.heap.Legal (within τ))
    (hτ : 0 ≤ τ ∧ τ ≤ e) (heps : env.eps = .fin e) {np : Bool} {inters : List (Inter P)} (hint : selfIntersection env.lib env.lnr (env.inst h).pln true np = .ok inters)
    {s : List Int} (hall : ∀ i ∈ inters, ∀ v, v ∈ i.planar ∨ v ∈ i.nonPlanar → v ∈ s) :
    (∀ k, Revisited pos (pts h) k → (k : Int) ∈ s) ∧ (np = true → ∀ k, Crossed pos (pts h) k → (k : Int) ∈ s) := by
  have hnear := hx.hullNear (pts := pts) (h := h) hn hheap hτ.1 hτ.2 heps
  rw [hi.pln] at hint
  refine ⟨fun k hk => ?_, fun hnp k hk => ?_⟩
  · obtain ⟨il, top, e1, e2, e3, -, e5⟩ := C23_planar_partial hnear.sort hi.two
    obtain ⟨l, p, q, r, hkl, hp, hq, hpq, hrm, hlt⟩ := hk
    obtain ⟨i, hm, hip⟩ := e5 k l p q hkl hp hq ((hx.equals2D p q).2 hpq) (by
      rw [Bool.eq_false_iff, ne_eq, hx.equals2D]
      intro hpt
      obtain ⟨i, hi', hri⟩ := List.mem_iff_getElem.1 hrm
      refine hlt ?_
      rw [hpt]
      exact hn.top e2 (v := ⟨r, i, nullFId⟩) (mem_lineVertices.2 ⟨i, by rw [List.getElem?_eq_getElem hi', hri], rfl, rfl⟩))
    refine hall i ?_ k (.inl (((e3 i hm).2.2.2.2.2 k).2 ⟨k, p, rfl, hp, hip⟩))
    simp only [selfIntersection, if_true, e1, Res.ok_bind] at hint
    split at hint
    · obtain ⟨b, -, hb⟩ := Res.bind_eq_ok.1 hint
      cases hb
      exact List.mem_append_left _ hm
    · cases hint
      simpa using hm
  · subst hnp
    simp only [selfIntersection, if_true] at hint
    obtain ⟨l1, -, hint⟩ := Res.bind_eq_ok.1 hint
    obtain ⟨l2, hl2, hint⟩ := Res.bind_eq_ok.1 hint
    cases hint
    obtain ⟨i, him, hki⟩ := crossed_report hn hi.two hl2 hk
    exact hall i (List.mem_append_right _ him) k (.inr hki)

end

/-! ### specification -/

section
variable {P : Type}

/-- the vertices of the line `l` of `lines` whose place is also the place of a vertex of another line, other than at the place that sorts last among all vertices -/
def SharedWith (pos : P → ℂ) (lines : List (List P)) (l : List P) (k : Nat) : Prop :=
  ∃ (a b : Nat) (m : List P) (p q r : P), a ≠ b ∧ lines[a]? = some l ∧ lines[b]? = some m ∧ l[k]? = some p ∧ q ∈ m ∧ pos p = pos q ∧
    (∃ n ∈ lines, r ∈ n) ∧ ¬ LexLe (pos r) (pos p)

/-- the segment between the vertices `i` and `j` of `l`, and the one between `k` and `n` of `l'`, have a common point only if the parts they replace have one, unless
one of the parts has all its vertices on one straight line and the other has not -/
def NotNew (pos : P → ℂ) (l : List P) (i j : Int) (l' : List P) (k n : Int) : Prop :=
  (Collinear ℝ {z | z ∈ places pos l i j} ↔ Collinear ℝ {z | z ∈ places pos l' k n}) →
    (chordSet (places pos l i j) ∩ chordSet (places pos l' k n)).Nonempty → (lineSet (places pos l i j) ∩ lineSet (places pos l' k n)).Nonempty

/-- Specification of C117 for a line `l` of the lines read and the line `q` written: `q` consists of the points of `l` at increasing indices from the first to the
last, among them, if requested, those at which `l` meets itself and, for a feature class, those at which it meets other lines; for lines treated one by one, two
segments of `q` have a new common point only as `NotNew` allows. -/
structure MeetingsKept (pos : P → ℂ) (o : Opts ℝ) (fc : Bool) (lines : List (List P)) (l q : List P) (s : List Int) : Prop where
  kept : KeptIndices l.length s
  points : q = verticesAt l s
  revisited : o.planarSelf = true → ∀ k, Revisited pos l k → (k : Int) ∈ s
  crossed : o.planarSelf = true → o.nonPlanarSelf = true → ∀ k, Crossed pos l k → (k : Int) ∈ s
  shared : fc = true → o.planarSelf = true → ∀ k, SharedWith pos lines l k → (k : Int) ∈ s
  crossings : fc = false → o.avoidNewSelfIntersects = true → ∀ i j k n, Consecutive s i j → Consecutive s k n → (i, j) ≠ (k, n) → NotNew pos l i j l k n

end
end Planar

open Planar

section
variable {P C : Type} {pos : P → ℂ} {region : C → Set ℂ} {τ e : ℝ}

theorem Engine.meetings {E : Engine P C EReal ℝ} {o : Opts ℝ} {kind : Io.OffsetKind} {ctx : List C} {lines : List (List P)} (h : E.OK o kind lines)
    (hx : Exact pos region E.lib) (hn : ExactLnr pos E.lnr) (hh : E.heap.Legal (within τ)) (hτ : 0 ≤ τ ∧ τ ≤ e) (heps : E.eps = .fin e) (fc : Bool) :
    E.GuaranteesIn fc o kind ctx lines (fun l q => ∃ s, MeetingsKept pos o fc lines l q s) := by
  refine h.guaranteesIn fc _ (fun fs hf hc k l hl hlk hp hmem hi hinj => ?_)
  obtain ⟨e1, -, -, -⟩ := hf.inst hlk
  refine ⟨?_, ?_⟩
  · rintro rfl dirty fuel out d hr hk
    have h1 := fun hpl => C76_meets_itself (pts := fun _ => l) (env := E.env o kind fs) hc.envOK hc.lnrOK hi hinj (by simp) hx hn hh hτ heps (by rw [e1]; exact hpl) hr
    rw [e1] at h1
    exact ⟨_, hk, rfl, fun hpl => (h1 hpl).2.1, fun hpl => (h1 hpl).2.2, by simp, fun _ hav i j k n hij hkn hne hst hm =>
      C77_no_new_crossing (pts := fun _ => l) (env := E.env o kind fs) hc.envOK hc.lnrOK hi hinj (by simp) hx heps (hτ.1.trans hτ.2) (by rw [e1]; exact hav) hr hij hkn hne hst hm⟩
  · rintro rfl dirty fuel res out hr hm' hk
    have hnear := fun x => Exact.hullNear (env := E.env o kind fs) (pts := fun x : Int => lines[x.toNat]?.getD []) (h := x) hx hn hh hτ.1 hτ.2 heps
    simp only [] at hp
    have h1 : o.planarSelf = true → (∀ v, Revisited pos l v → (v : Int) ∈ out.simple) ∧ (o.nonPlanarSelf = true → ∀ v, Crossed pos l v → (v : Int) ∈ out.simple) := by
      intro hpl
      obtain ⟨js, -, hall⟩ := C13_survive (near := within τ) hc hpl hr
      obtain ⟨-, inters, hint, hall⟩ := hall k out hm' (hnear k) (by rw [e1]; exact hpl)
      rw [e1] at hint
      have := met_itself (pts := fun _ => l) (env := E.env o kind fs) hi hx hn hh hτ heps hint hall
      exact this
    refine ⟨_, hk, rfl, fun hpl => (h1 hpl).1, fun hpl => (h1 hpl).2, fun _ hpl v hv => ?_, by simp⟩
    obtain ⟨a, b, m, p, q, r, hab, ha, hb, hp', hq, hpq, ⟨n, hn', hrn⟩, hlt⟩ := hv
    obtain ⟨b', hne, hb'⟩ : ∃ b', b' ≠ k ∧ ∃ m, lines[b']? = some m ∧ ∃ q ∈ m, pos p = pos q := by
      by_cases hbk : b = k
      · subst hbk
        exact ⟨a, hab, l, ha, p, List.mem_of_getElem? hp', rfl⟩
      · exact ⟨b, hbk, m, hb, q, hq, hpq⟩
    obtain ⟨m, hb', q, hq, hpq⟩ := hb'
    obtain ⟨c, hc', rfl⟩ := List.mem_iff_getElem.1 hn'
    obtain ⟨j, hj, rfl⟩ := List.mem_iff_getElem.1 hq
    have hbl := (List.getElem?_eq_some_iff.1 hb').1
    refine C76_shared (C := C) (pts := fun x : Int => lines[x.toNat]?.getD []) (a := k) (b := b') (c := c) (l := j) hc hpl hr hx hn hh hτ heps (by omega)
      (List.mem_map.2 ⟨b', List.mem_range.2 hbl, rfl⟩) (List.mem_map.2 ⟨c, List.mem_range.2 hc', rfl⟩) hm' (by rw [e1]; exact hpl)
      (p := p) (q := m[j]) (r := r) (by rw [hp]; exact hp') (by simp only [Int.toNat_natCast, hb', Option.getD_some]; exact List.getElem?_eq_getElem hj) hpq
      (by simp only [Int.toNat_natCast, List.getElem?_eq_getElem hc', Option.getD_some]; exact hrn) hlt

end

namespace Io

open Verif.Text

section
variable {P C Props : Type}

/-- **C117**: with an exact geometry library, every part in the saved file keeps the vertices at which the line read meets itself, in a feature class those it
shares with other lines, and two segments of a line treated on its own meet at a new place only as `NotNew` allows, as requested by the options. -/
theorem C117_program (w : World (Fl ℝ) P Props C) (E : Engine P C EReal ℝ) (b f : Str) {obj : ArgObj (Fl ℝ)} {kind : OffsetKind}
    {docs : List (Doc (Fl ℝ))} {ctx : List C} (hr : Reads w b f obj kind docs ctx) (hord : ∀ l, (w.enc.ord l).Perm l) (hlen : docs.length ≤ maxInt)
    (hd : ∀ d ∈ docs, HasGeometry d ∧ docParts d ≠ [] ∧ ∀ x ∈ docParts d, x.1 ≤ maxInt ∧ (x.2.1 = ['n', 'u', 'l', 'l'] ∨ (w.enc.unmarshal x.2.1).isSome))
    (hE : E.OK (E.opts (optsFromCfg obj)) kind (docs.flatMap (fun d => (docParts d).map (fun x => x.2.2.map E.toPoint))))
    {pos : P → ℂ} {region : C → Set ℂ} {τ e : ℝ} (hx : Exact pos region E.lib) (hn : ExactLnr pos E.lnr) (hh : E.heap.Legal (within τ)) (hτ : 0 ≤ τ ∧ τ ≤ e)
    (heps : E.eps = .fin e) :
    ∃ out N, (∀ fuel ≥ N, main (program w E fuel) b f = .saved (trim obj.output) (out.map w.marshal)) ∧
      List.Forall₂ (WrittenAs (fun l q => ∃ s, MeetingsKept pos (asked (E.mul obj.threshold obj.threshold) obj) obj.isFeatureClass
        (docs.flatMap (fun d => (docParts d).map (fun x => x.2.2.map E.toPoint))) l q s) w.enc E.toPoint) docs out :=
  program_lines_in w E b f hr hord hlen hd hE (Engine.meetings hE hx hn hh hτ heps _)

end

end Io

/-! ### several lines -/

section
variable {P : Type}

/-- the sub-line `[i, j]` of the line number `a` is the sub-line `[k, n]` of the line number `b`, or shares no segment with it and its hull is within `e` of the other hull -/
def Planar.Next (pos : P → ℂ) (e : ℝ) (lines : List (List P)) (a : Nat) (i j : Int) (b : Nat) (k n : Int) : Prop :=
  (a = b ∧ i = k ∧ j = n) ∨ (a = b → j ≤ k ∨ n ≤ i) ∧ ∃ l m, lines[a]? = some l ∧ lines[b]? = some m ∧ gap (hullSet (places pos m k n)) (hullSet (places pos l i j)) ≤ e

/-- no sub-line is next to sub-lines of two different lines with the same first and the same last index (single segments do not count) -/
def Planar.HullsApart (pos : P → ℂ) (e : ℝ) (lines : List (List P)) : Prop :=
  ∀ a b c : Nat, ∀ i j k n : Int, 0 ≤ k → k + 1 < n → 0 ≤ i → i + 1 < j → (∀ l, lines[a]? = some l → n < l.length) → (∀ l, lines[b]? = some l → j < l.length) →
    (∀ l, lines[c]? = some l → j < l.length) → a < lines.length → b < lines.length → c < lines.length → Next pos e lines a k n b i j → Next pos e lines a k n c i j → b = c

/-- Specification: the lines `qs` consist of the points of the lines `lines`, one by one, at the indices `ss` -/
structure Planar.PointsOf (lines : List (List P)) (ss : List (List Int)) (qs : List (List P)) : Prop where
  count : qs.length = lines.length
  points : ∀ (k : Nat) (l : List P), lines[k]? = some l → ∃ s, ss[k]? = some s ∧ KeptIndices l.length s ∧ qs[k]? = some (verticesAt l s)

/-- all pairs of different segments of lines with the vertices `ss`, of one line (then the first argument of `R` is `true`) or of two, are related by `R` -/
def Planar.Pairs (R : Bool → List P → Int → Int → List P → Int → Int → Prop) (lines : List (List P)) (ss : List (List Int)) : Prop :=
  ∀ (a b : Nat) (l m : List P) (s t : List Int), lines[a]? = some l → lines[b]? = some m → ss[a]? = some s → ss[b]? = some t →
    ∀ i j k n, Consecutive s i j → Consecutive t k n → (a, i, j) ≠ (b, k, n) → R (decide (a = b)) l i j m k n

/-- Specification: two segments of lines with the vertices `ss`, of one line or of two, have new common points only as `NotNew` allows -/
def Planar.NoneNew (pos : P → ℂ) (lines : List (List P)) (ss : List (List Int)) : Prop :=
  ∀ (a b : Nat) (l m : List P) (s t : List Int), lines[a]? = some l → lines[b]? = some m → ss[a]? = some s → ss[b]? = some t →
    ∀ i j k n, Consecutive s i j → Consecutive t k n → (a, i, j) ≠ (b, k, n) → NotNew pos l i j m k n

end

section
variable {P C : Type} {pos : P → ℂ} {region : C → Set ℂ} {τ e : ℝ}

/-- what holds for all pairs of segments of a simplified feature class without neighbouring parts of equal index range holds for the lines that are written -/
theorem Engine.class_pairs {E : Engine P C EReal ℝ} {o : Opts ℝ} {kind : Io.OffsetKind} {lines : List (List P)} (h : E.OK o kind lines) (ctx : List C)
    (hx : Exact pos region E.lib) (heps : E.eps = .fin e) (hap : HullsApart pos e lines) (R : Bool → List P → Int → Int → List P → Int → Int → Prop)
    (hR : ∀ (fs : List (Inst P C EReal ℝ)) (fuel : Nat) (js : List (Int × Int)) (outs res : List (Int × Out P C EReal)) (d : Int → Bool),
      ClassOK (E.env o kind fs) (fun x : Int => lines[x.toNat]?.getD []) E.ids E.idsOf (handles lines.length) →
      (∀ x ∈ handles lines.length, ((E.env o kind fs).inst x).opts = o) → fcJunctions (E.env o kind fs) (handles lines.length) o.planarSelf = .ok js →
      simplifyInstances (E.env o kind fs) E.idsOf js fuel (handles lines.length) (fun _ => false) = .ok (outs, d) →
      RangesApart (E.env o kind fs) (fun x : Int => lines[x.toNat]?.getD []) outs (handles lines.length) →
      simplifyFeatureClass (E.env o kind fs) E.ids E.idsOf (handles lines.length) o (fun _ => false) fuel = .ok res → ∀ x ∈ res, ∀ y ∈ res, ∀ i j k n,
      Consecutive x.2.simple i j → Consecutive y.2.simple k n → (x.1, i, j) ≠ (y.1, k, n) →
      R (decide (x.1 = y.1)) (lines[x.1.toNat]?.getD []) i j (lines[y.1.toNat]?.getD []) k n) :
    ∃ qs ss, Yields (E.run true lines o ctx kind) qs ∧ List.Forall₂ SubLine lines qs ∧ PointsOf lines ss qs ∧ Pairs R lines ss := by
  obtain ⟨fs, ⟨N, hN⟩, hf⟩ := forest_yields h ctx
  have hc := classOK h hf
  have hlook : ∀ x ∈ handles lines.length, ∃ (k : Nat) (l : List P), x = (k : Int) ∧ lines[k]? = some l ∧ (fun x : Int => lines[x.toNat]?.getD []) x = l := by
    intro x hx
    obtain ⟨k, hk, rfl⟩ := List.mem_map.1 hx
    have hk' := List.mem_range.1 hk
    exact ⟨k, _, rfl, List.getElem?_eq_getElem hk', by simp [List.getElem?_eq_getElem hk']⟩
  obtain ⟨js, res, hj, ⟨M, hM⟩, h1, h2⟩ := simplifyFeatureClass_yields hc.envOK hc.lnrOK hc.inst hc.nodup hc.distinct hc.streams o (fun _ => false)
  have hkept : ∀ x ∈ res, KeptIndices ((fun x : Int => lines[x.toNat]?.getD []) x.1).length x.2.simple := by
    intro x hx
    obtain ⟨src, ids', g, hp⟩ := (h2 x hx).pieces
    rw [(h2 x hx).simple]
    exact hp.kept (hc.inst x.1 (by rw [← h1]; exact List.mem_map_of_mem hx)).two
  have hat : ∀ (k : Nat) (x : Int × Out P C EReal), res[k]? = some x → x.1 = k := by
    intro k x hk
    have := congrArg (fun l => l[k]?) h1
    simp only [List.getElem?_map, hk, handles, Option.map_some] at this
    obtain ⟨hlt, -⟩ := List.getElem?_eq_some_iff.1 hk
    have hlen : res.length = lines.length := by simpa [handles] using congrArg List.length h1
    rw [List.getElem?_range (by omega)] at this
    simpa using this
  obtain ⟨cs, qs, e1, e2, h3⟩ := points_kept (outs := res) (fun x q => ∃ out, (x, out) ∈ res ∧ q = verticesAt (lines[Int.toNat x]?.getD []) out.simple) hc.inst h1 hkept
    (fun x hx q hq => ⟨x.2, hx, coordsPoints_verticesAt hq⟩)
  have hl : (handles lines.length).length = lines.length := by simp [handles]
  refine ⟨qs, res.map (fun x => x.2.simple), ⟨max N M, fun fuel hfu => ?_⟩, ?_, ⟨by rw [← h3.length_eq, hl], ?_⟩, ?_⟩
  · simp only [run, hN fuel (by omega), Res.ok_bind, if_true, runFeatureClass, hM fuel (by omega), e1, e2]
  · rw [List.forall₂_iff_get] at h3 ⊢
    refine ⟨by rw [← hl]; exact h3.1, fun i hi hi' => ?_⟩
    obtain ⟨g1, -⟩ := h3.2 i (by omega) hi'
    simp only [handles, List.get_eq_getElem, List.getElem_map, List.getElem_range, Int.toNat_natCast] at g1
    rwa [List.getElem?_eq_getElem hi, Option.getD_some] at g1
  · intro i l hil
    obtain ⟨hi, hli⟩ := List.getElem?_eq_some_iff.1 hil
    rw [List.forall₂_iff_get] at h3
    obtain ⟨-, out, hm, g2⟩ := h3.2 i (by omega) (by rw [← h3.1]; omega)
    simp only [handles, List.get_eq_getElem, List.getElem_map, List.getElem_range, Int.toNat_natCast] at g2 hm
    rw [hil, Option.getD_some] at g2
    obtain ⟨i', hi2, hri⟩ := List.mem_iff_getElem.1 hm
    have hii := hat i' _ (by rw [List.getElem?_eq_getElem hi2, hri])
    simp only [Int.natCast_inj] at hii
    subst hii
    refine ⟨out.simple, by simp [List.getElem?_map, List.getElem?_eq_getElem hi2, hri], ?_, by rw [← g2]; exact List.getElem?_eq_getElem _⟩
    have := hkept _ hm
    simpa [hil] using this
  · intro a b l m s t ha hb hs ht i j k n hij hkn hne
    rw [List.getElem?_map] at hs ht
    obtain ⟨x, hxa, rfl⟩ := Option.map_eq_some_iff.1 hs
    obtain ⟨y, hyb, rfl⟩ := Option.map_eq_some_iff.1 ht
    have xa := hat a x hxa
    have yb := hat b y hyb
    have hr := hM M le_rfl
    have hs := hr
    simp only [simplifyFeatureClass, Res.bind_eq_ok] at hs
    obtain ⟨js', hj', ⟨outs, d⟩, hs, -⟩ := hs
    rw [hj] at hj'
    cases hj'
    have px : (fun x : Int => lines[x.toNat]?.getD []) x.1 = l := by simp [xa, ha]
    have py : (fun x : Int => lines[x.toNat]?.getD []) y.1 = m := by simp [yb, hb]
    have hnear : ∀ x ∈ handles lines.length, ∀ y ∈ handles lines.length, ∀ i j k n : Int, 0 ≤ i → i < j → j < ((fun x : Int => lines[x.toNat]?.getD []) x).length →
        0 ≤ k → k < n → n < ((fun x : Int => lines[x.toNat]?.getD []) y).length → Touches (E.env o kind fs) (fun x : Int => lines[x.toNat]?.getD []) x i j y k n →
        Next pos e lines x.toNat i j y.toNat k n := by
      intro x hx' y hy' i j k n i0 ij jl k0 kn nl ht
      obtain ⟨a, l, rfl, ha, pa⟩ := hlook x hx'
      obtain ⟨b, m, rfl, hb, pb⟩ := hlook y hy'
      simp only [] at pa pb
      simp only [pa, pb] at jl nl
      rcases ht with ⟨e1, e2, e3⟩ | ⟨e1, g, g', e2, e3, -, e4⟩
      · exact .inl ⟨by omega, e2, e3⟩
      · refine .inr ⟨fun hab => e1 (by simpa using hab), l, m, ha, hb, ?_⟩
        have sh : ∀ (l : List P) (g : Geo P C) (i j : Int), 0 ≤ i → i < j → j < l.length → hullGeometry (E.lib.convexHull (Coords.sub l i j)) = .ok g →
            shape pos region g = hullSet (places pos l i j) ∧ (hullSet (places pos l i j)).Nonempty := by
          intro l g i j h0 h1 h2 hg
          have hp := points_sub l (i := i) (j := j) h0 (by omega) (by omega)
          have hne := between_ne_nil (ps := l) h0 (show i ≤ j by omega) (by omega)
          obtain ⟨g₁, e₁, s₁⟩ := hx.hull_shape (wellIndexed_sub (pts := l) (i := i) (j := j) h0 (by omega)) (by rw [hp]; exact hne)
          rw [hg] at e₁
          cases e₁
          rw [hp] at s₁
          exact ⟨s₁, hullSet_nonempty (by simpa [places] using hne)⟩
        simp only [pa] at e2
        simp only [pb] at e3
        obtain ⟨s1, n1⟩ := sh l g i j i0 ij jl e2
        obtain ⟨s2, n2⟩ := sh m g' k n k0 kn nl e3
        have e4' : (E.lib.distance g' g).le E.eps = true := e4
        rw [heps, hx.distance g' g (by rw [s2]; exact n2) (by rw [s1]; exact n1), s1, s2, Fl.fin_le_fin] at e4'
        simpa using e4'
    have hapart : RangesApart (E.env o kind fs) (fun x : Int => lines[x.toNat]?.getD []) outs (handles lines.length) := by
      intro a ha b hb c hc' i j k l oa ob oc h1 h2 t1 t2
      have bd := fun {h i j : Int} => occurs_bounds (h := h) (i := i) (j := j) hc hj hs
      have ba := bd oa
      have bb := bd ob
      have bc := bd oc
      have n1 := hnear a ha b hb _ _ _ _ ba.1 ba.2.1 ba.2.2 bb.1 bb.2.1 bb.2.2 t1
      have n2 := hnear a ha c hc' _ _ _ _ ba.1 ba.2.1 ba.2.2 bc.1 bc.2.1 bc.2.2 t2
      obtain ⟨a, la, rfl, hla, pa⟩ := hlook a ha
      obtain ⟨b, lb, rfl, hlb, pb⟩ := hlook b hb
      obtain ⟨c, lc, rfl, hlc, pc⟩ := hlook c hc'
      simp only [Int.toNat_natCast, hla, hlb, hlc, Option.getD_some] at ba bb bc n1 n2
      have := hap a b c i j k l ba.1 h1 bb.1 h2 (by rw [hla]; rintro l ⟨⟩; exact ba.2.2) (by rw [hlb]; rintro l ⟨⟩; exact bb.2.2) (by rw [hlc]; rintro l ⟨⟩; exact bc.2.2)
        (List.getElem?_eq_some_iff.1 hla).1 (List.getElem?_eq_some_iff.1 hlb).1 (List.getElem?_eq_some_iff.1 hlc).1 n1 n2
      omega
    have := hR fs M js outs res d hc (fun z hz => by
        obtain ⟨k, l, rfl, hl, -⟩ := hlook z hz
        exact (hf.inst hl).1) hj hs hapart hr x (List.mem_of_getElem? hxa) y (List.mem_of_getElem? hyb) i j k n hij hkn (by
        rw [xa, yb]
        intro hh
        simp only [Prod.mk.injEq, Int.natCast_inj] at hh
        exact hne (by simp [hh]))
    simp only [] at px py
    rw [px, py, xa, yb] at this
    simpa only [Int.natCast_inj] using this

theorem Engine.class_meetings {E : Engine P C EReal ℝ} {o : Opts ℝ} {kind : Io.OffsetKind} {lines : List (List P)} (h : E.OK o kind lines) (ctx : List C)
    (hx : Exact pos region E.lib) (h0 : 0 ≤ e) (heps : E.eps = .fin e) (hcut : ∀ g g', E.lib.intersects g g' = true → E.lib.intersection g g' ≠ [])
    (hav : o.avoidNewSelfIntersects = true) (hap : HullsApart pos e lines) :
    ∃ qs ss, Yields (E.run true lines o ctx kind) qs ∧ List.Forall₂ SubLine lines qs ∧ PointsOf lines ss qs ∧ NoneNew pos lines ss :=
  Engine.class_pairs h ctx hx heps hap (fun _ => NotNew pos) (fun fs fuel js outs res d hc ho hj hs hap hr x hxr y hyr i j k n hij hkn hne hst hm =>
    C78_no_new_crossing_partial (env := E.env o kind fs) (pos := pos) (region := region) (e := e) (pts := fun x : Int => lines[x.toNat]?.getD []) hc hx heps h0 hcut hav
      (fun z hz => by rw [ho z hz]; exact hav) hj hs hap hr hxr hyr hij hkn hne hst hm)

end

namespace Io

open Verif.Text

section
variable {P C Props : Type}

/-- **C117, crossings in a feature class, partial** (missing: classes in which a sub-line is next to sub-lines of two different lines with the same index range):
two segments in the saved file, of one line or of two, have a new common point only as `NotNew` allows. -/
theorem C117_program_class_partial (w : World (Fl ℝ) P Props C) (E : Engine P C EReal ℝ) (b f : Str) {obj : ArgObj (Fl ℝ)} {kind : OffsetKind}
    {docs : List (Doc (Fl ℝ))} {ctx : List C} (hr : Reads w b f obj kind docs ctx) (hord : ∀ l, (w.enc.ord l).Perm l) (hlen : docs.length ≤ maxInt)
    (hd : ∀ d ∈ docs, HasGeometry d ∧ docParts d ≠ [] ∧ ∀ x ∈ docParts d, x.1 ≤ maxInt ∧ (x.2.1 = ['n', 'u', 'l', 'l'] ∨ (w.enc.unmarshal x.2.1).isSome))
    (hE : E.OK (E.opts (optsFromCfg obj)) kind (docs.flatMap (fun d => (docParts d).map (fun x => x.2.2.map E.toPoint))))
    {pos : P → ℂ} {region : C → Set ℂ} {e : ℝ} (hx : Exact pos region E.lib) (h0 : 0 ≤ e) (heps : E.eps = .fin e)
    (hcut : ∀ g g', E.lib.intersects g g' = true → E.lib.intersection g g' ≠ []) (hfc : obj.isFeatureClass = true) (hav : obj.avoidNewSelfIntersects = true)
    (hap : HullsApart pos e (docs.flatMap (fun d => (docParts d).map (fun x => x.2.2.map E.toPoint)))) :
    ∃ out N qs ss, (∀ fuel ≥ N, main (program w E fuel) b f = .saved (trim obj.output) (out.map w.marshal)) ∧ WrittenParts w.enc docs qs out ∧
      PointsOf (docs.flatMap (fun d => (docParts d).map (fun x => x.2.2.map E.toPoint))) ss qs ∧ NoneNew pos (docs.flatMap (fun d => (docParts d).map (fun x => x.2.2.map E.toPoint))) ss := by
  obtain ⟨qs, ss, hy, hsub, hpts, hnew⟩ := Engine.class_meetings hE ctx hx h0 heps hcut hav hap
  rw [← hfc] at hy
  obtain ⟨out, N, h1, -, h2⟩ := program_parts (R := fun _ _ => True) w E b f hr hord hlen hd hy (hsub.imp (fun l q h => ⟨h, trivial⟩))
  exact ⟨out, N, qs, ss, h1, h2, hpts, hnew⟩

end

end Io

/-! ### concrete runs -/

namespace Real

open Io Text

/-- the loop of C76 and a line through one of its vertices; the lines of C78 -/
noncomputable def loopDoc : Doc (Fl ℝ) := .geometry (.line [[.fin 0, .fin 0], [.fin 4, .fin 0], [.fin 2, .fin 2], [.fin 2, .fin (-2)], [.fin 4, .fin 0], [.fin 6, .fin 0]])
noncomputable def sideDoc : Doc (Fl ℝ) := .geometry (.line [[.fin 1, .fin 3], [.fin 2, .fin 2], [.fin 3, .fin 5]])
noncomputable def capDoc : Doc (Fl ℝ) := .geometry (.line [[.fin 0, .fin 0], [.fin 5, .fin 2], [.fin 10, .fin 0]])
noncomputable def hookDoc : Doc (Fl ℝ) := .geometry (.line [[.fin 100, .fin 100], [.fin 101, .fin 101], [.fin 100, .fin (-100)], [.fin 5, .fin (-1)]])

noncomputable def side : List ℂ := [⟨1, 3⟩, ⟨2, 2⟩, ⟨3, 5⟩]

theorem line_ok {P C : Type} (w : World (Fl ℝ) P Str C) (l : List (List (Fl ℝ))) :
    HasGeometry (.geometry (.line l)) ∧ docParts (.geometry (.line l)) ≠ [] ∧
      ∀ x ∈ docParts (.geometry (.line l)), x.1 ≤ maxInt ∧ (x.2.1 = ['n', 'u', 'l', 'l'] ∨ (w.enc.unmarshal x.2.1).isSome) := by
  refine ⟨trivial, by simp [docParts, geomParts], fun x hx => ?_⟩
  simp only [docParts, geomParts, List.mem_singleton] at hx
  subst hx
  exact ⟨Nat.zero_le _, .inl rfl⟩

theorem loop_lines : [loopDoc, sideDoc].flatMap (fun d => (docParts d).map (fun x => x.2.2.map engine.toPoint)) = [loop, side] := by
  simp [loopDoc, sideDoc, docParts, geomParts, engine, loop, side]

theorem cap_lines : [capDoc, hookDoc].flatMap (fun d => (docParts d).map (fun x => x.2.2.map engine.toPoint)) = [cap, hook] := by
  simp [capDoc, hookDoc, docParts, geomParts, engine, cap, hook]

theorem heap_within : engine.heap.Legal (within 0) :=
  ⟨Hdb.listHeap_legal.push, Hdb.listHeap_legal.pop_none, Hdb.listHeap_legal.pop_perm, fun q x r h1 h2 y hy => within_zero (Hdb.listHeap_legal.pop_min q x r h1 h2 y hy)⟩

/-- the second vertex of the side line is the third vertex of the loop -/
theorem side_shared : SharedWith id [loop, side] loop 2 ∧ SharedWith id [loop, side] side 1 := by
  constructor
  · refine ⟨0, 1, side, ⟨2, 2⟩, ⟨2, 2⟩, ⟨6, 0⟩, by decide, rfl, rfl, rfl, by simp [side], rfl, ⟨loop, by simp, by simp [loop]⟩, ?_⟩
    simp only [LexLe, id]
    norm_num
  · refine ⟨1, 0, loop, ⟨2, 2⟩, ⟨2, 2⟩, ⟨6, 0⟩, by decide, rfl, rfl, rfl, by simp [loop], rfl, ⟨loop, by simp, by simp [loop]⟩, ?_⟩
    simp only [LexLe, id]
    norm_num

/-- C117 for the program on the loop and the side line: the returning vertices are kept and, in a feature class, the common one -/
example (fc : Bool) : ∃ out N, (∀ fuel ≥ N, main (program (world ordsC (config ['d', 'p'] fc) loopDoc sideDoc [above]) engine fuel) "e30=".toList ['-'] = .saved ['o'] (out.map (fun _ => []))) ∧
    List.Forall₂ (WrittenAs (fun l q => ∃ s, MeetingsKept id (asked (.fin 5) (config ['d', 'p'] fc)) fc [loop, side] l q s)
      (world ordsC (config ['d', 'p'] fc) loopDoc sideDoc [above]).enc engine.toPoint) [loopDoc, sideDoc] out := by
  have := C117_program _ engine _ _ (reads ordsC ['d', 'p'] .maxOffset (by decide +kernel) fc loopDoc sideDoc [above]) (fun l => .refl l) (by simp [maxInt])
    (by
      intro d hd
      simp only [List.mem_cons, List.not_mem_nil, or_false] at hd
      rcases hd with rfl | rfl <;> exact line_ok _ _)
    (engine_ok _ (by simp [Engine.opts, optsFromCfg, config, Fl.fin_le_fin]) _ _ (by rw [loop_lines]; simp [loop, side])) exactLib_exact exactLnr_exact heap_within ⟨le_rfl, le_rfl⟩ rfl
  rw [loop_lines] at this
  exact this

/-- such vertices exist here -/
example {fc : Bool} {q : List ℂ} {s : List Int} (h : MeetingsKept id (asked (.fin 5) (config ['d', 'p'] fc)) fc [loop, side] loop q s) : (1 : Int) ∈ s ∧ (fc = true → (2 : Int) ∈ s) :=
  ⟨h.revisited rfl 1 loop_revisited, fun hf => h.shared hf rfl 2 side_shared.1⟩

/-- the bump and the beginning of the other line are far from each other -/
theorem cap_apart (z₀ : ℂ) : HullsApart id 0 [cap, [⟨100, 100⟩, ⟨101, 101⟩, ⟨100, -100⟩, z₀]] := by
  set hook : List ℂ := [⟨100, 100⟩, ⟨101, 101⟩, ⟨100, -100⟩, z₀] with hook_def
  have c1 : ∀ z ∈ hullSet (places id cap 0 2), z.re ≤ 10 := by
    intro z hz
    refine convexHull_min ?_ (convex_halfSpace_re_le 10) hz
    intro w hw
    simp [places, between, cap] at hw
    rcases hw with rfl | rfl | rfl <;> norm_num
  have c2 : ∀ z ∈ hullSet (places id hook 0 2), 100 ≤ z.re := by
    intro z hz
    refine convexHull_min ?_ (convex_halfSpace_re_ge 100) hz
    intro w hw
    simp [places, between, hook_def] at hw
    rcases hw with rfl | rfl | rfl <;> norm_num
  have n1 : (hullSet (places id cap 0 2)).Nonempty := hullSet_nonempty (by simp [places, between, cap])
  have n2 : (hullSet (places id hook 0 2)).Nonempty := hullSet_nonempty (by simp [places, between, hook_def])
  have far : ∀ x ∈ hullSet (places id cap 0 2), ∀ y ∈ hullSet (places id hook 0 2), (90 : ℝ) ≤ dist x y := by
    intro x hx y hy
    have h1 := Complex.abs_re_le_norm (x - y)
    rw [Complex.sub_re, abs_sub_comm] at h1
    rw [Complex.dist_eq]
    linarith [le_abs_self (y.re - x.re), c1 x hx, c2 y hy]
  have g1 : ¬ gap (hullSet (places id hook 0 2)) (hullSet (places id cap 0 2)) ≤ 0 := by
    obtain ⟨x, hx⟩ := n1
    obtain ⟨y, hy⟩ := n2
    have : (90 : ℝ) ≤ gap (hullSet (places id hook 0 2)) (hullSet (places id cap 0 2)) :=
      le_csInf ⟨_, y, hy, x, hx, rfl⟩ (by rintro r ⟨y, hy, x, hx, rfl⟩; rw [dist_comm]; exact far x hx y hy)
    linarith
  have g2 : ¬ gap (hullSet (places id cap 0 2)) (hullSet (places id hook 0 2)) ≤ 0 := by
    obtain ⟨x, hx⟩ := n1
    obtain ⟨y, hy⟩ := n2
    have : (90 : ℝ) ≤ gap (hullSet (places id cap 0 2)) (hullSet (places id hook 0 2)) :=
      le_csInf ⟨_, x, hx, y, hy, rfl⟩ (by rintro r ⟨x, hx, y, hy, rfl⟩; exact far x hx y hy)
    linarith
  have key : ∀ (a : Nat) (i j k n : Int), 0 ≤ k → k + 1 < n → 0 ≤ i → i + 1 < j → (∀ l, [cap, hook][a]? = some l → n < l.length) → j < 3 → a < 2 →
      Next id 0 [cap, hook] a k n 0 i j → Next id 0 [cap, hook] a k n 1 i j → False := by
    intro a i j k n h1 h2 h3 h4 h5 h6 h7 t1 t2
    have hi : i = 0 := by omega
    have hj : j = 2 := by omega
    subst hi hj
    rcases (by omega : a = 0 ∨ a = 1) with rfl | rfl
    · have := h5 cap rfl
      simp only [cap, List.length_cons, List.length_nil] at this
      have hk : k = 0 := by omega
      have hn : n = 2 := by omega
      subst hk hn
      rcases t2 with ⟨h, -⟩ | ⟨-, l, m, hl, hm, h⟩
      · exact absurd h (by decide)
      · cases hl; cases hm; exact g1 h
    · have := h5 hook rfl
      simp only [hook_def, List.length_cons, List.length_nil] at this
      have hkn : k = 0 ∧ n = 2 := by
        rcases t2 with ⟨-, h, h'⟩ | ⟨h, -⟩
        · exact ⟨h, h'⟩
        · have := h rfl
          omega
      obtain ⟨rfl, rfl⟩ := hkn
      rcases t1 with ⟨h, -⟩ | ⟨-, l, m, hl, hm, h⟩
      · exact absurd h (by decide)
      · cases hl; cases hm; exact g2 h
  intro a b c i j k n h1 h2 h3 h4 h5 h6 h7 h8 h9 h10 t1 t2
  simp only [List.length_cons, List.length_nil] at h8 h9 h10
  rcases (by omega : b = c ∨ b = 0 ∧ c = 1 ∨ b = 1 ∧ c = 0) with h | ⟨rfl, rfl⟩ | ⟨rfl, rfl⟩
  · exact h
  · exact (key a i j k n h1 h2 h3 h4 h5 (by simpa [cap] using h6 cap rfl) h8 t1 t2).elim
  · exact (key a i j k n h1 h2 h3 h4 h5 (by simpa [cap] using h7 cap rfl) h8 t2 t1).elim

theorem cap_hook_apart : HullsApart id 0 [cap, hook] := cap_apart _

/-- the program on these lines, which would cross if both were replaced by single segments -/
example : ∃ out N qs ss, (∀ fuel ≥ N, main (program (world ordsC (config ['d', 'p'] true) capDoc hookDoc [above]) engine fuel) "e30=".toList ['-'] = .saved ['o'] (out.map (fun _ => []))) ∧
    WrittenParts (world ordsC (config ['d', 'p'] true) capDoc hookDoc [above]).enc [capDoc, hookDoc] qs out ∧ PointsOf [cap, hook] ss qs ∧ NoneNew id [cap, hook] ss := by
  have := C117_program_class_partial _ engine _ _ (reads ordsC ['d', 'p'] .maxOffset (by decide +kernel) true capDoc hookDoc [above]) (fun l => .refl l) (by simp [maxInt])
    (by
      intro d hd
      simp only [List.mem_cons, List.not_mem_nil, or_false] at hd
      rcases hd with rfl | rfl <;> exact line_ok _ _)
    (engine_ok _ (by simp [Engine.opts, optsFromCfg, config, Fl.fin_le_fin]) _ _ (by rw [cap_lines]; simp [cap, hook])) exactLib_exact le_rfl rfl exactLib_cut rfl rfl
    (by rw [cap_lines]; exact cap_hook_apart)
  rw [cap_lines] at this
  exact this

end Real

end Verif
