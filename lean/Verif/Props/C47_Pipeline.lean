import Verif.Model.Pipeline
import Verif.Props.C13_FeatureClass
import Verif.Props.C41_Output

/-! C47: lines with fewer than two coordinates.  C60: the whole program. -/

set_option linter.unusedSectionVars false

namespace Verif

variable {P C B K : Type} [LinearOrder B] [BoundedOrder B] [LinearOrder K]

/-! ### C47 -/

theorem mapRes_ok {α β : Type} {f : α → Res β} : ∀ {l : List α} {r : List β}, Hdb.mapRes f l = .ok r → List.Forall₂ (fun a b => f a = .ok b) l r
  | [], r, h => by cases h; exact .nil
  | a :: l, r, h => by
    obtain ⟨b, hb, h⟩ := Res.bind_eq_ok.1 h
    obtain ⟨bs, hbs, h⟩ := Res.bind_eq_ok.1 h
    cases h
    exact .cons hb (mapRes_ok hbs)

/-- the results of the instances come in the order of the forest -/
theorem simplifyInstances_fst (env : Env P C B K) (idsOf : Int → Nat → Int) (js : List (Int × Int)) (fuel : Nat) : ∀ (handles : List Int) (dirty : Int → Bool)
    (r : List (Int × Out P C B) × (Int → Bool)), simplifyInstances env idsOf js fuel handles dirty = .ok r → r.1.map Prod.fst = handles := by
  intro handles
  induction handles with
  | nil => intro dirty r h; cases h; rfl
  | cons x handles ih =>
    intro dirty r h
    simp only [simplifyInstances] at h
    obtain ⟨a, -, h⟩ := Res.bind_eq_ok.1 h
    obtain ⟨b, hb, h⟩ := Res.bind_eq_ok.1 h
    cases h
    rw [List.map_cons, ih _ _ hb]

theorem simplifyFeatureClass_fst (env : Env P C B K) (ids : Nat → Int) (idsOf : Int → Nat → Int) (handles : List Int) (o : Opts K) (dirty : Int → Bool)
    (fuel : Nat) (r : List (Int × Out P C B)) (h : simplifyFeatureClass env ids idsOf handles o dirty fuel = .ok r) : r.map Prod.fst = handles := by
  simp only [simplifyFeatureClass] at h
  obtain ⟨a, -, h⟩ := Res.bind_eq_ok.1 h
  obtain ⟨b, hb, h⟩ := Res.bind_eq_ok.1 h
  have hf := simplifyInstances_fst env idsOf a fuel handles dirty b hb
  split at h
  · obtain ⟨c, -, h⟩ := Res.bind_eq_ok.1 h
    obtain ⟨d, -, h⟩ := Res.bind_eq_ok.1 h
    obtain ⟨e, -, h⟩ := Res.bind_eq_ok.1 h
    cases h
    rw [List.map_map]
    exact hf
  · cases h; exact hf

theorem setSimpleCoords_short {env : Env P C B K} {outs : List (Int × Out P C B)} {h : Int} (hh : h ∈ outs.map Prod.fst) (hn : (env.inst h).pln.ls = none)
    (r : List (Coords P)) : setSimpleCoords env outs ≠ .ok r := by
  intro he
  obtain ⟨x, hx, rfl⟩ := List.mem_map.1 hh
  have hall : ∀ (outs : List (Int × Out P C B)) r, List.Forall₂ (fun a b => simpleCoords (env.inst a.1).pln a.2.simple = .ok b) outs r → x ∈ outs →
      ∃ b, simpleCoords (env.inst x.1).pln x.2.simple = .ok b := by
    intro outs
    induction outs with
    | nil => intro r _ hx; cases hx
    | cons y outs ih =>
      intro r hr hx
      cases hr with
      | cons hy hr =>
        rcases List.mem_cons.1 hx with rfl | hx
        · exact ⟨_, hy⟩
        · exact ih _ hr hx
  obtain ⟨b, hb⟩ := hall outs r (mapRes_ok he) hx
  simp only [simpleCoords, Polyline.coordinates, hn, Res.ofOption, Res.panic_bind] at hb
  cases hb

/-- **C47 is violated**: a run (of single lines or of a feature class) with a line of fewer than two coordinates never completes, whatever the other
lines, options, constraints, predicates and schedules are. -/
theorem C47_never_completes (env : Env P C B K) (ids : Nat → Int) (idsOf : Int → Nat → Int) (handles : List Int) (o : Opts K) (dirty : Int → Bool)
    (pts : List P) (hshort : pts.length < 2) (h : Int) (hh : h ∈ handles) (hp : (env.inst h).pln = createPolyline (coordsOf pts)) (fuel : Nat) :
    (∀ r, runInstances env idsOf handles dirty fuel ≠ .ok r) ∧ ∀ r, runFeatureClass env ids idsOf handles o dirty fuel ≠ .ok r := by
  have hn : (env.inst h).pln.ls = none := by
    have : (coordsOf pts).len < 2 := by rw [coordsOf_len]; omega
    rw [hp]; simp only [createPolyline, this, if_true]
  refine ⟨fun r he => ?_, fun r he => ?_⟩
  · simp only [runInstances] at he
    obtain ⟨a, ha, he⟩ := Res.bind_eq_ok.1 he
    exact setSimpleCoords_short (by rw [simplifyInstances_fst _ _ _ _ _ _ _ ha]; exact hh) hn r he
  · obtain ⟨a, ha, he⟩ := Res.bind_eq_ok.1 he
    exact setSimpleCoords_short (by rw [simplifyFeatureClass_fst _ _ _ _ _ _ _ _ ha]; exact hh) hn r he

/-- a proper line and a line of one point -/
def shortLines : Int → Demo.Line Int Int Int := fun h => if h = 1 then ⟨[0, 3, 6, 9], [12], Axis.opts 30 2⟩ else ⟨[5], [12], Axis.opts 30 2⟩

/-- **C47 is violated**, concretely: both kinds of run panic on a proper line followed by a line of one point, with and without `planar_self`. -/
theorem C47_refuted : ∀ h, (h = 1 → 2 ≤ (shortLines h).pts.length) ∧
    runInstances (Axis.env shortLines) (fun h n => 4 * n + h) [1, 2] (fun _ => false) 60 = .panic ∧
    runFeatureClass (Axis.env shortLines) (fun n => 4 * n) (fun h n => 4 * n + h) [1, 2] (Axis.opts 30 2) (fun _ => false) 60 = .panic ∧
    runFeatureClass (Axis.env shortLines) (fun n => 4 * n) (fun h n => 4 * n + h) [1, 2] { Axis.opts 30 2 with planarSelf := false } (fun _ => false) 60 = .panic := by
  intro h
  refine ⟨?_, by decide +kernel, by decide +kernel, by decide +kernel⟩
  rintro rfl; decide

/-! ### the other case: all lines have two coordinates -/

/-- Specification: `qs` is a sub-sequence of `ps` with the same first and last point. -/
structure SubLine (ps qs : List P) : Prop where
  sub : qs.Sublist ps
  first : qs.head? = ps.head?
  last : qs.getLast? = ps.getLast?

theorem mapRes_yields {α β : Type} (f : Nat → α → Res β) (R : α → β → Prop) : ∀ (l : List α), (∀ a ∈ l, ∃ b, Yields (fun n => f n a) b ∧ R a b) →
    ∃ bs, Yields (fun n => Hdb.mapRes (f n) l) bs ∧ List.Forall₂ R l bs
  | [], _ => ⟨[], ⟨0, fun _ _ => rfl⟩, .nil⟩
  | a :: l, h => by
    obtain ⟨b, ⟨N, hN⟩, hr⟩ := h a (by simp)
    obtain ⟨bs, ⟨M, hM⟩, hrs⟩ := mapRes_yields f R l (fun x hx => h x (List.mem_cons_of_mem _ hx))
    refine ⟨b :: bs, ⟨max N M, fun fuel hf => ?_⟩, .cons hr hrs⟩
    have e1 := hN fuel (by omega)
    have e2 := hM fuel (by omega)
    simp only [] at e1 e2
    simp only [Hdb.mapRes, e1, e2, Res.ok_bind, Res.pure_eq]

theorem mapRes_of_ok {α β : Type} {f : α → Res β} {R : α → β → Prop} {l : List α} (h : ∀ a ∈ l, ∃ b, f a = .ok b ∧ R a b) :
    ∃ bs, Hdb.mapRes f l = .ok bs ∧ List.Forall₂ R l bs := by
  obtain ⟨bs, ⟨N, hN⟩, hr⟩ := mapRes_yields (fun _ => f) R l (fun a ha => by
    obtain ⟨b, hb, hr⟩ := h a ha
    exact ⟨b, ⟨0, fun _ _ => hb⟩, hr⟩)
  exact ⟨bs, hN N (Nat.le_refl _), hr⟩

/-- kept indices give a sub-sequence with both ends -/
theorem KeptIndices.subLine {ps : List P} {l : List Int} (hk : KeptIndices ps.length l) :
    ∃ qs, coordsPoints ⟨ps, l⟩ = .ok qs ∧ SubLine ps qs := by
  obtain ⟨is, hi, hs⟩ := hk.sublist
  have hpts : ∀ is : List (Fin ps.length), Hdb.mapRes (fun k : Int => if k < 0 then .panic else Res.ofOption ps[k.toNat]?) (is.map (fun i => (i.val : Int))) =
      .ok (is.map (fun i => ps[i])) := by
    intro is
    induction is with
    | nil => rfl
    | cons i is ih =>
      have h0 : ¬ ((i.val : Int) < 0) := by omega
      have e : (if (i.val : Int) < 0 then Res.panic else Res.ofOption ps[(i.val : Int).toNat]?) = .ok ps[i] := by
        rw [if_neg h0, Int.toNat_natCast, List.getElem?_eq_getElem i.isLt]; rfl
      simp only [List.map_cons, Hdb.mapRes, e, ih, Res.ok_bind, Res.pure_eq]
  refine ⟨is.map (fun i => ps[i]), by rw [← hi]; exact hpts is, hs, ?_, ?_⟩
  · have hf := hk.first
    rw [← hi, List.head?_map] at hf
    rw [List.head?_map]
    cases e : is.head? with
    | none => rw [e] at hf; cases hf
    | some i =>
      rw [e] at hf
      simp only [Option.map_some, Option.some.injEq] at hf
      have h0 : i.val = 0 := by omega
      rw [List.head?_eq_getElem?, List.getElem?_eq_getElem (by have := i.isLt; omega), Option.map_some]
      simp only [Fin.getElem_fin, h0]
  · have hf := hk.last
    rw [← hi, List.getLast?_map] at hf
    rw [List.getLast?_map]
    cases e : is.getLast? with
    | none => rw [e] at hf; cases hf
    | some i =>
      rw [e] at hf
      simp only [Option.map_some, Option.some.injEq] at hf
      have h0 : i.val = ps.length - 1 := by have := i.isLt; omega
      rw [List.getLast?_eq_getElem?, List.getElem?_eq_getElem (by have := i.isLt; omega), Option.map_some]
      simp only [Fin.getElem_fin, h0]

section
variable {env : Env P C B K} {pts : Int → List P} {ids : Nat → Int} {idsOf : Int → Nat → Int} {handles : List Int}

theorem points_kept (R : Int → List P → Prop) (hi : ∀ h ∈ handles, InstOK env h (pts h)) {outs : List (Int × Out P C B)} (hf : outs.map Prod.fst = handles)
    (hk : ∀ x ∈ outs, KeptIndices (pts x.1).length x.2.simple) (hR : ∀ x ∈ outs, ∀ q, coordsPoints ⟨pts x.1, x.2.simple⟩ = .ok q → R x.1 q) :
    ∃ cs qs, setSimpleCoords env outs = .ok cs ∧ Hdb.mapRes coordsPoints cs = .ok qs ∧ List.Forall₂ (fun h q => SubLine (pts h) q ∧ R h q) handles qs := by
  induction outs generalizing handles with
  | nil => subst hf; exact ⟨[], [], rfl, rfl, .nil⟩
  | cons x outs ih =>
    subst hf
    obtain ⟨cs, qs, e1, e2, h3⟩ := ih (handles := outs.map Prod.fst) (fun h hh => hi h (List.mem_cons_of_mem _ hh)) rfl
      (fun y hy => hk y (List.mem_cons_of_mem _ hy)) (fun y hy => hR y (List.mem_cons_of_mem _ hy))
    have hx := hi x.1 (by simp)
    obtain ⟨q, e4, h5⟩ := (hk x (by simp)).subLine
    refine ⟨⟨pts x.1, x.2.simple⟩ :: cs, q :: qs, ?_, ?_, .cons ⟨h5, hR x (by simp) q e4⟩ h3⟩
    · have e6 : simpleCoords (env.inst x.1).pln x.2.simple = .ok ⟨pts x.1, x.2.simple⟩ := by
        rw [simpleCoords, hx.pln, polyline_coordinates hx.two]; rfl
      simp only [setSimpleCoords] at e1
      simp only [setSimpleCoords, Hdb.mapRes, e6, e1, Res.ok_bind, Res.pure_eq]
    · simp only [Hdb.mapRes, e2, e4, Res.ok_bind, Res.pure_eq]

/-- every result of `simplifyInstances` is a result of `simplify` -/
theorem simplifyInstances_mem (env : Env P C B K) (idsOf : Int → Nat → Int) (js : List (Int × Int)) (fuel : Nat) : ∀ (handles : List Int) (dirty : Int → Bool)
    (r : List (Int × Out P C B) × (Int → Bool)), simplifyInstances env idsOf js fuel handles dirty = .ok r → ∀ x ∈ r.1,
      ∃ dirty d, simplify env (idsOf x.1) x.1 (junctionsOf js (env.inst x.1).id) dirty fuel = .ok (x.2, d) := by
  intro handles
  induction handles with
  | nil => intro dirty r h x hx; cases h; cases hx
  | cons y handles ih =>
    intro dirty r h x hx
    simp only [simplifyInstances] at h
    obtain ⟨a, ha, h⟩ := Res.bind_eq_ok.1 h
    obtain ⟨b, hb, h⟩ := Res.bind_eq_ok.1 h
    cases h
    rcases List.mem_cons.1 hx with rfl | hx
    · exact ⟨_, _, ha⟩
    · exact ih _ _ hb x hx

/-- what every result of `Simplify` and of `SimplifyFeatureClass` satisfies, the points of the runs satisfy -/
theorem completes (hc : ClassOK env pts ids idsOf handles) (o : Opts K) (dirty : Int → Bool) (R : Int → List P → Prop) :
    ((∀ h ∈ handles, ∀ dirty fuel out d q, simplify env (idsOf h) h [] dirty fuel = .ok (out, d) → coordsPoints ⟨pts h, out.simple⟩ = .ok q → R h q) →
      ∃ cs qs, Yields (runInstances env idsOf handles dirty) cs ∧ Hdb.mapRes coordsPoints cs = .ok qs ∧
        List.Forall₂ (fun h q => SubLine (pts h) q ∧ R h q) handles qs) ∧
    ((∀ h ∈ handles, ∀ fuel res out q, simplifyFeatureClass env ids idsOf handles o dirty fuel = .ok res → (h, out) ∈ res →
        coordsPoints ⟨pts h, out.simple⟩ = .ok q → R h q) →
      ∃ cs qs, Yields (runFeatureClass env ids idsOf handles o dirty) cs ∧ Hdb.mapRes coordsPoints cs = .ok qs ∧
        List.Forall₂ (fun h q => SubLine (pts h) q ∧ R h q) handles qs) := by
  constructor
  · intro hR
    obtain ⟨outs, d, ⟨N, hN⟩, h1, h2⟩ := simplifyInstances_yields (js := []) hc.envOK hc.lnrOK handles dirty hc.inst hc.streams.each
      (fun h _ i hi => by simp [junctionsOf] at hi)
    obtain ⟨cs, qs, e1, e2, h3⟩ := points_kept (outs := outs) R hc.inst h1 (fun x hx => by
      obtain ⟨g, hp⟩ := (h2 x hx).pieces
      rw [(h2 x hx).simple]
      exact hp.kept (hc.inst x.1 (by rw [← h1]; exact List.mem_map_of_mem hx)).two) (fun x hx q hq => by
      obtain ⟨dirty', d', hs⟩ := simplifyInstances_mem env idsOf [] N handles dirty _ (hN N (Nat.le_refl _)) x hx
      exact hR x.1 (by rw [← h1]; exact List.mem_map_of_mem hx) dirty' N x.2 d' q hs hq)
    refine ⟨cs, qs, ⟨N, fun fuel hf => ?_⟩, e2, h3⟩
    have := hN fuel hf
    simp only [] at this
    simp only [runInstances, this, Res.ok_bind, e1]
  · intro hR
    obtain ⟨js, res, -, ⟨N, hN⟩, h1, h2⟩ := simplifyFeatureClass_yields hc.envOK hc.lnrOK hc.inst hc.nodup hc.distinct hc.streams o dirty
    obtain ⟨cs, qs, e1, e2, h3⟩ := points_kept (outs := res) R hc.inst h1 (fun x hx => by
      obtain ⟨src, ids', g, hp⟩ := (h2 x hx).pieces
      rw [(h2 x hx).simple]
      exact hp.kept (hc.inst x.1 (by rw [← h1]; exact List.mem_map_of_mem hx)).two)
      (fun x hx q hq => hR x.1 (by rw [← h1]; exact List.mem_map_of_mem hx) N res x.2 q (hN N (Nat.le_refl _)) hx hq)
    refine ⟨cs, qs, ⟨N, fun fuel hf => ?_⟩, e2, h3⟩
    simp only [runFeatureClass, hN fuel hf, Res.ok_bind, e1]

/-- **C47, partial** (missing: shorter lines): when every line is usable, in particular has at least two coordinates, both kinds of run complete, and the points of
every line become a sub-sequence with the same ends. -/
theorem C47_completes_partial (hc : ClassOK env pts ids idsOf handles) (o : Opts K) (dirty : Int → Bool) :
    (∃ cs qs, Yields (runInstances env idsOf handles dirty) cs ∧ Hdb.mapRes coordsPoints cs = .ok qs ∧ List.Forall₂ (fun h q => SubLine (pts h) q) handles qs) ∧
    ∃ cs qs, Yields (runFeatureClass env ids idsOf handles o dirty) cs ∧ Hdb.mapRes coordsPoints cs = .ok qs ∧
      List.Forall₂ (fun h q => SubLine (pts h) q) handles qs := by
  obtain ⟨h1, h2⟩ := completes hc o dirty (fun _ _ => True)
  obtain ⟨cs, qs, e1, e2, h1⟩ := h1 (fun _ _ _ _ _ _ _ _ _ => trivial)
  obtain ⟨cs', qs', e3, e4, h2⟩ := h2 (fun _ _ _ _ _ _ _ _ _ => trivial)
  exact ⟨⟨cs, qs, e1, e2, h1.imp (fun _ _ h => h.1)⟩, cs', qs', e3, e4, h2.imp (fun _ _ h => h.1)⟩

end

/-- case for the partial theorem: the three features of C13 -/
example : ClassOK (Axis.env Axis.fcLines) (fun k => (Axis.fcLines k).pts) (fun n => 4 * n) (fun h n => 4 * n + h) [1, 2, 3] := Axis.fc_class

/-! ### the whole program -/

namespace Engine

/-- Assumptions about the libraries and the lines of a run. -/
structure OK (E : Engine P C B K) (o : Opts K) (kind : Io.OffsetKind) (lines : List (List P)) : Prop where
  heur : Hdb.Legal E.heur (maxEntries Hdb.defaultCap)
  heap : ∃ near : Fl K → Fl K → Prop, E.heap.Legal near ∧ ∀ a b c, near a b → b.le c = true → near a c
  ord : ∀ g l, (E.ord g l).Perm l
  ordRm : ∀ g l, (E.ordRm g l).Perm l
  point : ∀ p g, (E.lib.intersection (.point p) g).length ≤ 1 ∧ (E.lib.intersection g (.point p)).length ≤ 1
  lnr : LnrOK E.lnr
  instId : Function.Injective E.instId
  streams : Streams E.ids E.idsOf (handles lines.length)
  two : ∀ l ∈ lines, 2 ≤ l.length
  hull : ∀ l ∈ lines, HullOk E.lib l
  box : ∀ l ∈ lines, ∀ i j : Int, 0 ≤ i → i < j → j < l.length → ∀ g : Geo P C, hullGeometry (E.lib.convexHull (Coords.sub l i j)) = .ok g →
    (E.lib.bounds g).Valid
  inside : ∀ l ∈ lines, SplitsInside (E.score kind) (scoreRelation o.threshold) l
  score : ∀ l ∈ lines, ∀ i j : Int, 0 ≤ i → i + 1 < j → j < l.length → ∃ k v, E.score kind (Coords.sub l i j) = .ok (k, v) ∧ 0 < k ∧ k < j - i

/-- the instances made from the lines: each with its line, the options, the score function and an index of all constraints -/
def Forest (E : Engine P C B K) (o : Opts K) (kind : Io.OffsetKind) (ctx : List C) (lines : List (List P)) (fs : List (Inst P C B K)) : Prop :=
  List.Forall₂ (fun x (i : Inst P C B K) => i.id = E.instId x.2 ∧ i.pln = createPolyline (coordsOf x.1) ∧
    i.opts = o ∧ i.score = E.score kind ∧ i.square = none ∧ Hdb.TreeWF nodeOps i.ctxdb ∧ (Hdb.contents i.ctxdb).Perm (ctx.map (ctxNode E.lib x.2)))
    lines.zipIdx fs

theorem forest_yields {E : Engine P C B K} {o : Opts K} {kind : Io.OffsetKind} {lines : List (List P)} (h : E.OK o kind lines) (ctx : List C) :
    ∃ fs, Yields (E.forest o kind ctx lines) fs ∧ Forest E o kind ctx lines fs := by
  refine mapRes_yields (fun fuel => E.newInst o kind ctx fuel) _ _ (fun x _ => ?_)
  obtain ⟨t, ⟨N, hN⟩, w, -, -, p⟩ := Hdb.load_yields (ops := nodeOps) (H := E.heur) (Hdb.newHdb_wf nodeOps Hdb.defaultCap) h.heur
    (ctx.map (ctxNode E.lib x.2))
  rw [contents_new, List.nil_append] at p
  refine ⟨{ id := E.instId x.2, pln := createPolyline (coordsOf x.1), opts := o, score := E.score kind, square := none, ctxdb := t },
    ⟨N, fun fuel hf => ?_⟩, rfl, rfl, rfl, rfl, rfl, w, p⟩
  have := hN fuel hf
  simp only [] at this
  simp only [newInst, buildContextDB, this, Res.ok_bind, Res.pure_eq]

theorem classOK {E : Engine P C B K} {o : Opts K} {kind : Io.OffsetKind} {lines : List (List P)} (h : E.OK o kind lines) {ctx : List C}
    {fs : List (Inst P C B K)} (hf : Forest E o kind ctx lines fs) : ClassOK (E.env o kind fs) (fun k => lines[k.toNat]?.getD []) E.ids E.idsOf (handles lines.length) := by
  have hlen : fs.length = lines.length := by rw [← hf.length_eq, List.length_zipIdx]
  have hget : ∀ k < lines.length, ∃ (l : List P) (i : Inst P C B K), l ∈ lines ∧ lines[k]? = some l ∧ (E.env o kind fs).inst (k : Int) = i ∧ i.id = E.instId k ∧
      i.pln = createPolyline (coordsOf l) ∧ i.opts = o ∧ i.score = E.score kind ∧ i.square = none ∧ Hdb.TreeWF nodeOps i.ctxdb := by
    intro k hk
    have hg := (List.forall₂_iff_get.1 hf).2 k (by rw [List.length_zipIdx]; exact hk) (by omega)
    simp only [List.get_eq_getElem, List.getElem_zipIdx, Nat.zero_add] at hg
    obtain ⟨h1, h2, h3, h4, h5, h6, -⟩ := hg
    refine ⟨lines[k], fs[k], List.getElem_mem _, List.getElem?_eq_getElem hk, ?_, h1, h2, h3, h4, h5, h6⟩
    simp only [env, Int.toNat_natCast, List.getElem?_eq_getElem (show k < fs.length by omega), Option.getD_some]
  have hmem : ∀ x ∈ handles lines.length, ∃ k < lines.length, x = (k : Int) := by
    intro x hx
    obtain ⟨k, hk, rfl⟩ := List.mem_map.1 hx
    exact ⟨k, List.mem_range.1 hk, rfl⟩
  refine ⟨⟨h.heur, h.heap, h.ord, h.ordRm, h.point⟩, h.lnr, fun x hx => ?_, ?_, fun a ha b hb hab => ?_, h.streams⟩
  · obtain ⟨k, hk, rfl⟩ := hmem x hx
    obtain ⟨l, i, hl, hlk, hi, -, h2, h3, h4, h5, h6⟩ := hget k hk
    simp only [Int.toNat_natCast, hlk, Option.getD_some]
    have hs : i.scoreFn = E.score kind := by simp only [Inst.scoreFn, scoreOf, h5, h4, Option.getD_none]
    have hr : i.rel = scoreRelation o.threshold := by simp only [Inst.rel, relationOf, h5, h3]
    refine ⟨by rw [hi, h2], h.two l hl, h.hull l hl, h.box l hl, by rw [hi, hs, hr]; exact h.inside l hl, by rw [hi, hs]; exact h.score l hl, by rw [hi]; exact h6⟩
  · exact (List.nodup_range).map (fun a b hab => by simpa using hab)
  · obtain ⟨k, hk, rfl⟩ := hmem a ha
    obtain ⟨m, hm, rfl⟩ := hmem b hb
    obtain ⟨-, i, -, -, hi, e1, -⟩ := hget k hk
    obtain ⟨-, j, -, -, hj, e2, -⟩ := hget m hm
    rw [hi, hj, e1, e2] at hab
    rw [h.instId hab]

/-- whatever holds of every result of `Simplify` and of `SimplifyFeatureClass` on these lines -/
def Guarantees (E : Engine P C B K) (o : Opts K) (kind : Io.OffsetKind) (ctx : List C) (lines : List (List P)) (R : List P → List P → Prop) : Prop :=
  ∀ fs, Forest E o kind ctx lines fs → ∀ k : Nat, ∀ l, lines[k]? = some l →
    (∀ dirty fuel out d q, Verif.simplify (E.env o kind fs) (E.idsOf k) k [] dirty fuel = .ok (out, d) → coordsPoints ⟨l, out.simple⟩ = .ok q → R l q) ∧
    ∀ dirty fuel res out q, simplifyFeatureClass (E.env o kind fs) E.ids E.idsOf (handles lines.length) o dirty fuel = .ok res → ((k : Int), out) ∈ res →
      coordsPoints ⟨l, out.simple⟩ = .ok q → R l q

/-- whatever holds of every result of `Simplify` (without feature class), or of `SimplifyFeatureClass` (with), on these lines -/
def GuaranteesIn (E : Engine P C B K) (fc : Bool) (o : Opts K) (kind : Io.OffsetKind) (ctx : List C) (lines : List (List P)) (R : List P → List P → Prop) : Prop :=
  ∀ fs, Forest E o kind ctx lines fs → ∀ k : Nat, ∀ l, lines[k]? = some l →
    (fc = false → ∀ dirty fuel out d q, Verif.simplify (E.env o kind fs) (E.idsOf k) k [] dirty fuel = .ok (out, d) → coordsPoints ⟨l, out.simple⟩ = .ok q → R l q) ∧
    (fc = true → ∀ dirty fuel res out q, simplifyFeatureClass (E.env o kind fs) E.ids E.idsOf (handles lines.length) o dirty fuel = .ok res → ((k : Int), out) ∈ res →
      coordsPoints ⟨l, out.simple⟩ = .ok q → R l q)

theorem Guarantees.inMode {E : Engine P C B K} {o : Opts K} {kind : Io.OffsetKind} {ctx : List C} {lines : List (List P)} {R : List P → List P → Prop}
    (h : E.Guarantees o kind ctx lines R) (fc : Bool) : E.GuaranteesIn fc o kind ctx lines R :=
  fun fs hf k l hl => ⟨fun _ => (h fs hf k l hl).1, fun _ => (h fs hf k l hl).2⟩

/-- the simplification step completes, and every line becomes a sub-sequence of itself with the same ends -/
theorem run_yields {E : Engine P C B K} {o : Opts K} {kind : Io.OffsetKind} {lines : List (List P)} (h : E.OK o kind lines) (ctx : List C) (fc : Bool)
    {R : List P → List P → Prop} (hR : E.GuaranteesIn fc o kind ctx lines R) :
    ∃ qs, Yields (E.run fc lines o ctx kind) qs ∧ List.Forall₂ (fun l q => SubLine l q ∧ R l q) lines qs := by
  obtain ⟨fs, ⟨N, hN⟩, hf⟩ := forest_yields h ctx
  have hmem : ∀ x ∈ handles lines.length, ∃ (k : Nat) (l : List P), x = (k : Int) ∧ lines[k]? = some l := by
    intro x hx
    obtain ⟨k, hk, rfl⟩ := List.mem_map.1 hx
    exact ⟨k, _, rfl, List.getElem?_eq_getElem (List.mem_range.1 hk)⟩
  obtain ⟨h1, h2⟩ := completes (classOK h hf) o (fun _ => false) (fun x q => R (lines[Int.toNat x]?.getD []) q)
  have fin : ∀ qs, List.Forall₂ (fun x q => SubLine (lines[Int.toNat x]?.getD []) q ∧ R (lines[Int.toNat x]?.getD []) q) (handles lines.length) qs →
      List.Forall₂ (fun l q => SubLine l q ∧ R l q) lines qs := by
    intro qs hq
    rw [List.forall₂_iff_get] at hq ⊢
    have hl : (handles lines.length).length = lines.length := by simp [handles]
    refine ⟨by rw [← hl]; exact hq.1, fun i hi hi' => ?_⟩
    have := hq.2 i (by omega) hi'
    simp only [handles, List.get_eq_getElem, List.getElem_map, List.getElem_range, Int.toNat_natCast] at this
    rwa [List.getElem?_eq_getElem hi, Option.getD_some] at this
  cases fc with
  | false =>
    obtain ⟨cs, qs, ⟨M, hM⟩, e2, h3⟩ := h1 (fun x hx dirty fuel out d q hs hq => by
      obtain ⟨k, l, rfl, hl⟩ := hmem x hx
      simp only [Int.toNat_natCast, hl, Option.getD_some] at hq ⊢
      exact (hR fs hf k l hl).1 rfl dirty fuel out d q hs hq)
    refine ⟨qs, ⟨max N M, fun fuel hf => ?_⟩, fin qs h3⟩
    simp only [run, hN fuel (by omega), Res.ok_bind, Bool.false_eq_true, if_false, hM fuel (by omega), e2]
  | true =>
    obtain ⟨cs, qs, ⟨M, hM⟩, e2, h3⟩ := h2 (fun x hx fuel res out q hs hm hq => by
      obtain ⟨k, l, rfl, hl⟩ := hmem x hx
      simp only [Int.toNat_natCast, hl, Option.getD_some] at hq ⊢
      exact (hR fs hf k l hl).2 rfl _ fuel res out q hs hm hq)
    refine ⟨qs, ⟨max N M, fun fuel hf => ?_⟩, fin qs h3⟩
    simp only [run, hN fuel (by omega), Res.ok_bind, if_true, hM fuel (by omega), e2]

end Engine

namespace Io

open Verif.Text

variable {Props : Type}

/-- the program with the simplification of this repository, run with the given fuel (the fuel stands for the time the loops may take) -/
def program (w : World (Fl K) P Props C) (E : Engine P C B K) (fuel : Nat) : World (Fl K) P Props C := { w with simplify := E.simplify fuel }

/-- everything the program reads is there and can be read: configuration `obj`, score function, documents, constraints; the output can be saved -/
structure Reads (w : World (Fl K) P Props C) (b f : Str) (obj : ArgObj (Fl K)) (kind : OffsetKind) (docs : List (Doc (Fl K))) (ctx : List C) : Prop where
  config : ∃ t, argText w b f = .ok t ∧ parseInput w (trim t) = .ok obj
  kind : offsetFn w obj = .ok kind
  docs : ∃ data, w.file (trim obj.input) = some data ∧ parseDocs w (readJsonFile data) = .ok docs
  out : trim obj.output ≠ []
  ctx : readConstraints w (trim obj.constraints) = .ok ctx
  save : w.canSave (trim obj.output) = true

/-- Specification: the feature `f` written for the document `d` holds its parts, sorted by part number; each part is a sub-sequence of the points read, with
the same ends, and is related by `R` to the points read. -/
def WrittenAs (R : List P → List P → Prop) (lib : EncLib (Fl K) P Props) (toPoint : List (Fl K) → P) (d : Doc (Fl K)) (f : LineFeature (Fl K) Props) : Prop :=
  ∃ parts qs : List (Part P), List.Forall₂ (fun x p => p.pos = x.1 ∧ p.props = x.2.1 ∧ SubLine (x.2.2.map toPoint) p.simple ∧ R (x.2.2.map toPoint) p.simple)
      (docParts d) parts ∧ qs.Perm parts ∧ qs.Pairwise (fun a b => a.pos ≤ b.pos) ∧ Holds lib qs f

/-- Specification: the feature `f` written for the document `d` holds its parts, sorted by part number; each part is a sub-sequence of the points read, with
the same ends. -/
def Written (lib : EncLib (Fl K) P Props) (toPoint : List (Fl K) → P) (d : Doc (Fl K)) (f : LineFeature (Fl K) Props) : Prop :=
  ∃ parts qs : List (Part P), List.Forall₂ (fun x p => p.pos = x.1 ∧ p.props = x.2.1 ∧ SubLine (x.2.2.map toPoint) p.simple) (docParts d) parts ∧
    qs.Perm parts ∧ qs.Pairwise (fun a b => a.pos ≤ b.pos) ∧ Holds lib qs f

theorem parseDocs_program (w : World (Fl K) P Props C) (E : Engine P C B K) (fuel : Nat) (ls : List Str) :
    parseDocs (program w E fuel) ls = parseDocs w ls := by
  induction ls with
  | nil => rfl
  | cons l ls ih => simp only [parseDocs, ih]; rfl

/-- Specification: the features `out` written for the documents `docs` hold the lines `qs`, one for each part of each document, in the order of the file; those of
one document are sorted by part number. -/
def WrittenParts (lib : EncLib (Fl K) P Props) (docs : List (Doc (Fl K))) (qs : List (List P)) (out : List (LineFeature (Fl K) Props)) : Prop :=
  ∃ bs : List (List (Part P)), List.Forall₂ (fun d ps => List.Forall₂ (fun x p => p.pos = x.1 ∧ p.props = x.2.1) (docParts d) ps) docs bs ∧
    bs.flatten.map Part.simple = qs ∧
    List.Forall₂ (fun ps f => ∃ ps' : List (Part P), ps'.Perm ps ∧ ps'.Pairwise (fun a b => a.pos ≤ b.pos) ∧ Holds lib ps' f) bs out

theorem outLinesFrom_simple (k : Nat) (bs : List (List (Part P))) : (outLinesFrom k bs).map OutLine.simple = bs.flatten.map Part.simple := by
  induction bs generalizing k with
  | nil => rfl
  | cons b bs ih => simp [outLinesFrom, ih, Function.comp_def]

/-- the program, with whatever holds of the results of the simplification -/
theorem program_parts (w : World (Fl K) P Props C) (E : Engine P C B K) (b f : Str) {obj : ArgObj (Fl K)} {kind : OffsetKind} {docs : List (Doc (Fl K))}
    {ctx : List C} (hr : Reads w b f obj kind docs ctx) (hord : ∀ l, (w.enc.ord l).Perm l) (hlen : docs.length ≤ maxInt)
    (hd : ∀ d ∈ docs, HasGeometry d ∧ docParts d ≠ [] ∧ ∀ x ∈ docParts d, x.1 ≤ maxInt ∧ (x.2.1 = ['n', 'u', 'l', 'l'] ∨ (w.enc.unmarshal x.2.1).isSome))
    {R : List P → List P → Prop} {pts : List (List P)}
    (hy : Yields (E.run obj.isFeatureClass (docs.flatMap (fun d => (docParts d).map (fun x => x.2.2.map E.toPoint))) (E.opts (optsFromCfg obj)) ctx kind) pts)
    (hsub : List.Forall₂ (fun l q => SubLine l q ∧ R l q) (docs.flatMap (fun d => (docParts d).map (fun x => x.2.2.map E.toPoint))) pts) :
    ∃ out N, (∀ fuel ≥ N, main (program w E fuel) b f = .saved (trim obj.output) (out.map w.marshal)) ∧
      List.Forall₂ (WrittenAs R w.enc E.toPoint) docs out ∧ WrittenParts w.enc docs pts out := by
  have hparse := C41_parse docs (fun d hm => (hd d hm).1)
  generalize hlines : ((docs.zipIdx.map (fun d => (docParts d.1).map (fun x => (⟨composeId d.2 x.1, x.2.2, x.2.1⟩ : JsonLine (Fl K))))).flatten) = lines at hparse
  have hl : lines.map (fun l => l.coords.map E.toPoint) = docs.flatMap (fun d => (docParts d).map (fun x => x.2.2.map E.toPoint)) := by
    subst hlines
    have : ∀ (ds : List (Doc (Fl K))) (i : Nat), (((ds.zipIdx i).map (fun d => (docParts d.1).map (fun x => (⟨composeId d.2 x.1, x.2.2, x.2.1⟩ : JsonLine (Fl K))))).flatten).map
        (fun l => l.coords.map E.toPoint) = ds.flatMap (fun d => (docParts d).map (fun x => x.2.2.map E.toPoint)) := by
      intro ds
      induction ds with
      | nil => intro i; rfl
      | cons d ds ih =>
        intro i
        rw [List.zipIdx_cons, List.map_cons, List.flatten_cons, List.map_append, ih, List.flatMap_cons, List.map_map]
        rfl
    exact this docs 0
  obtain ⟨N, hN⟩ := hy
  rw [← hl] at hN hsub
  have hout : List.Forall₂ (fun (l : JsonLine (Fl K)) (o : OutLine P) => o.id = l.id ∧ o.props = l.props ∧ (SubLine (l.coords.map E.toPoint) o.simple ∧ R (l.coords.map E.toPoint) o.simple)) lines
      (List.zipWith (fun l ps => ⟨l.id, l.props, ps⟩) lines pts) := by
    clear hparse hl hlines hN
    induction lines generalizing pts with
    | nil => cases hsub; exact .nil
    | cons l lines ih =>
      rw [List.map_cons] at hsub
      cases hsub with
      | cons h1 h2 => exact .cons ⟨rfl, rfl, h1⟩ (ih h2)
  rw [← hlines] at hout
  obtain ⟨bs, hbs, hblocks⟩ := simplified_blocksR (fun c s => SubLine (c.map E.toPoint) s ∧ R (c.map E.toPoint) s) docs 0 _ hout
  have hgood : Good w.enc bs := by
    have hm : ∀ b ∈ bs, ∃ d ∈ docs, List.Forall₂ (fun x p => p.pos = x.1 ∧ p.props = x.2.1 ∧ SubLine (x.2.2.map E.toPoint) p.simple ∧ R (x.2.2.map E.toPoint) p.simple) (docParts d) b := by
      clear hbs hout hlen hl hparse hlines hr hd hsub hN
      intro b hb
      induction hblocks with
      | nil => cases hb
      | cons h1 h2 ih =>
        rcases List.mem_cons.1 hb with rfl | hb
        · exact ⟨_, List.mem_cons_self .., h1⟩
        · obtain ⟨d, hd1, hd2⟩ := ih hb
          exact ⟨d, List.mem_cons_of_mem _ hd1, hd2⟩
    have hp : ∀ b ∈ bs, ∀ p ∈ b, ∃ d ∈ docs, ∃ x ∈ docParts d, p.pos = x.1 ∧ p.props = x.2.1 := by
      intro b hb p hp
      obtain ⟨d, hdm, hf⟩ := hm b hb
      obtain ⟨i, hi, rfl⟩ := List.getElem_of_mem hp
      have hg := (List.forall₂_iff_get.1 hf).2 i (by rw [hf.length_eq]; exact hi) hi
      exact ⟨d, hdm, _, List.getElem_mem _, hg.1, hg.2.1⟩
    refine ⟨hord, by rw [← hblocks.length_eq]; exact hlen, fun b hb p hpp => ?_, fun b hb => ?_, fun b hb p hpp => ?_⟩
    · obtain ⟨d, hdm, x, hx, e1, -⟩ := hp b hb p hpp
      rw [e1]; exact ((hd d hdm).2.2 x hx).1
    · obtain ⟨d, hdm, hf⟩ := hm b hb
      rintro rfl
      exact (hd d hdm).2.1 (List.forall₂_nil_right_iff.1 hf)
    · obtain ⟨d, hdm, x, hx, -, e2⟩ := hp b hb p hpp
      have := ((hd d hdm).2.2 x hx).2
      rw [← e2] at this
      exact this
  obtain ⟨out, hgrp, hholds⟩ := C41_features_partial w.enc bs hgood
  refine ⟨out, N, fun fuel hf => ?_, ?_, bs, ?_, ?_, ?_⟩
  · obtain ⟨t, ht, hobj⟩ := hr.config
    obtain ⟨data, hdata, hdocs⟩ := hr.docs
    have e1 : ∀ {A B : Type} (x : A) (f : A → Proc B), ((Except.ok x : Proc A) >>= f) = f x := fun _ _ => rfl
    have a1 : argText (program w E fuel) b f = .ok t := ht
    have a2 : parseInput (program w E fuel) (trim t) = .ok obj := hobj
    have a3 : offsetFn (program w E fuel) obj = .ok kind := hr.kind
    have a4 : readPolylines (program w E fuel) (trim obj.input) = .ok lines := by
      have b1 : (program w E fuel).file (trim obj.input) = some data := hdata
      have b2 := (parseDocs_program w E fuel (readJsonFile data)).trans hdocs
      simp only [readPolylines, b1, ofOpt, e1, b2, hparse, ofRes]
    have a5 : readConstraints (program w E fuel) (trim obj.constraints) = .ok ctx := hr.ctx
    have a6 : (program w E fuel).simplify obj.isFeatureClass lines (optsFromCfg obj) ctx kind = .ok (outLinesFrom 0 bs) := by
      show E.simplify fuel obj.isFeatureClass lines (optsFromCfg obj) ctx kind = .ok (outLinesFrom 0 bs)
      rw [Engine.simplify, hN fuel hf, Res.ok_bind, Res.pure_eq, ← hbs, hlines]
    have a7 : groupPlnsAsGeoJSONS (program w E fuel).enc (outLinesFrom 0 bs) = .ok out := hgrp
    have a8 : (program w E fuel).canSave (trim obj.output) = true := hr.save
    simp only [main, a1, e1, mainFrom, a2, a3, a4, hr.out, if_false, a5, a6, ofRes, a7, a8, if_true, outcome]
    rfl
  · rw [List.forall₂_iff_get] at hblocks hholds ⊢
    refine ⟨hblocks.1.trans hholds.1, fun i hi hi' => ?_⟩
    have h1 := hblocks.2 i hi (by rw [← hblocks.1]; exact hi)
    obtain ⟨qs, q1, q2, -, q4⟩ := hholds.2 i (by rw [← hblocks.1]; exact hi) hi'
    exact ⟨_, qs, h1, q1, q2, q4⟩
  · exact hblocks.imp (fun d ps h => h.imp (fun x p h => ⟨h.1, h.2.1⟩))
  · rw [← outLinesFrom_simple 0, ← hbs, hlines]
    have := hsub.length_eq
    clear hout hN hsub hl hparse hlines hbs
    induction lines generalizing pts with
    | nil =>
      cases pts with
      | nil => rfl
      | cons q pts => simp at this
    | cons l lines ih =>
      cases pts with
      | nil => simp at this
      | cons q pts => rw [List.zipWith_cons_cons, List.map_cons, ih (by simpa using this)]
  · exact hholds.imp (fun ps f ⟨qs, q1, q2, _, q4⟩ => ⟨qs, q1, q2, q4⟩)

theorem program_written (w : World (Fl K) P Props C) (E : Engine P C B K) (b f : Str) {obj : ArgObj (Fl K)} {kind : OffsetKind} {docs : List (Doc (Fl K))}
    {ctx : List C} (hr : Reads w b f obj kind docs ctx) (hord : ∀ l, (w.enc.ord l).Perm l) (hlen : docs.length ≤ maxInt)
    (hd : ∀ d ∈ docs, HasGeometry d ∧ docParts d ≠ [] ∧ ∀ x ∈ docParts d, x.1 ≤ maxInt ∧ (x.2.1 = ['n', 'u', 'l', 'l'] ∨ (w.enc.unmarshal x.2.1).isSome))
    {R : List P → List P → Prop} {pts : List (List P)}
    (hy : Yields (E.run obj.isFeatureClass (docs.flatMap (fun d => (docParts d).map (fun x => x.2.2.map E.toPoint))) (E.opts (optsFromCfg obj)) ctx kind) pts)
    (hsub : List.Forall₂ (fun l q => SubLine l q ∧ R l q) (docs.flatMap (fun d => (docParts d).map (fun x => x.2.2.map E.toPoint))) pts) :
    ∃ out N, (∀ fuel ≥ N, main (program w E fuel) b f = .saved (trim obj.output) (out.map w.marshal)) ∧
      List.Forall₂ (WrittenAs R w.enc E.toPoint) docs out := by
  obtain ⟨out, N, h1, h2, -⟩ := program_parts w E b f hr hord hlen hd hy hsub
  exact ⟨out, N, h1, h2⟩

/-- the program, with whatever is guaranteed of the results of the simplification in the mode asked for -/
theorem program_lines_in (w : World (Fl K) P Props C) (E : Engine P C B K) (b f : Str) {obj : ArgObj (Fl K)} {kind : OffsetKind} {docs : List (Doc (Fl K))}
    {ctx : List C} (hr : Reads w b f obj kind docs ctx) (hord : ∀ l, (w.enc.ord l).Perm l) (hlen : docs.length ≤ maxInt)
    (hd : ∀ d ∈ docs, HasGeometry d ∧ docParts d ≠ [] ∧ ∀ x ∈ docParts d, x.1 ≤ maxInt ∧ (x.2.1 = ['n', 'u', 'l', 'l'] ∨ (w.enc.unmarshal x.2.1).isSome))
    (hE : E.OK (E.opts (optsFromCfg obj)) kind (docs.flatMap (fun d => (docParts d).map (fun x => x.2.2.map E.toPoint))))
    {R : List P → List P → Prop} (hR : E.GuaranteesIn obj.isFeatureClass (E.opts (optsFromCfg obj)) kind ctx
      (docs.flatMap (fun d => (docParts d).map (fun x => x.2.2.map E.toPoint))) R) :
    ∃ out N, (∀ fuel ≥ N, main (program w E fuel) b f = .saved (trim obj.output) (out.map w.marshal)) ∧
      List.Forall₂ (WrittenAs R w.enc E.toPoint) docs out := by
  obtain ⟨pts, hy, hsub⟩ := Engine.run_yields hE ctx obj.isFeatureClass hR
  exact program_written w E b f hr hord hlen hd hy hsub

/-- the program, with whatever is guaranteed of the results of the simplification -/
theorem program_lines (w : World (Fl K) P Props C) (E : Engine P C B K) (b f : Str) {obj : ArgObj (Fl K)} {kind : OffsetKind} {docs : List (Doc (Fl K))}
    {ctx : List C} (hr : Reads w b f obj kind docs ctx) (hord : ∀ l, (w.enc.ord l).Perm l) (hlen : docs.length ≤ maxInt)
    (hd : ∀ d ∈ docs, HasGeometry d ∧ docParts d ≠ [] ∧ ∀ x ∈ docParts d, x.1 ≤ maxInt ∧ (x.2.1 = ['n', 'u', 'l', 'l'] ∨ (w.enc.unmarshal x.2.1).isSome))
    (hE : E.OK (E.opts (optsFromCfg obj)) kind (docs.flatMap (fun d => (docParts d).map (fun x => x.2.2.map E.toPoint))))
    {R : List P → List P → Prop}
    (hR : E.Guarantees (E.opts (optsFromCfg obj)) kind ctx (docs.flatMap (fun d => (docParts d).map (fun x => x.2.2.map E.toPoint))) R) :
    ∃ out N, (∀ fuel ≥ N, main (program w E fuel) b f = .saved (trim obj.output) (out.map w.marshal)) ∧
      List.Forall₂ (WrittenAs R w.enc E.toPoint) docs out :=
  program_lines_in w E b f hr hord hlen hd hE (hR.inMode _)

/-- **C60**: when everything can be read, every document holds line geometry, and the lines are usable (`Engine.OK`), then the program terminates, and the
saved text has one line per document, in order, with the parts of the document, each part a sub-sequence of the input line with the same ends. -/
theorem C60_program (w : World (Fl K) P Props C) (E : Engine P C B K) (b f : Str) {obj : ArgObj (Fl K)} {kind : OffsetKind} {docs : List (Doc (Fl K))}
    {ctx : List C} (hr : Reads w b f obj kind docs ctx) (hord : ∀ l, (w.enc.ord l).Perm l) (hlen : docs.length ≤ maxInt)
    (hd : ∀ d ∈ docs, HasGeometry d ∧ docParts d ≠ [] ∧ ∀ x ∈ docParts d, x.1 ≤ maxInt ∧ (x.2.1 = ['n', 'u', 'l', 'l'] ∨ (w.enc.unmarshal x.2.1).isSome))
    (hE : E.OK (E.opts (optsFromCfg obj)) kind (docs.flatMap (fun d => (docParts d).map (fun x => x.2.2.map E.toPoint)))) :
    ∃ out N, (∀ fuel ≥ N, main (program w E fuel) b f = .saved (trim obj.output) (out.map w.marshal)) ∧
      List.Forall₂ (Written w.enc E.toPoint) docs out := by
  obtain ⟨out, N, h1, h2⟩ := program_lines w E b f hr hord hlen hd hE (R := fun _ _ => True)
    (fun _ _ _ _ _ => ⟨fun _ _ _ _ _ _ _ => trivial, fun _ _ _ _ _ _ _ _ => trivial⟩)
  refine ⟨out, N, h1, h2.imp (fun d f h => ?_)⟩
  obtain ⟨parts, qs, p1, p2, p3, p4⟩ := h
  exact ⟨parts, qs, p1.imp (fun _ _ h => ⟨h.1, h.2.1, h.2.2.1⟩), p2, p3, p4⟩

end Io

end Verif
