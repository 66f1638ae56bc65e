import Verif.Lemmas.Simplify
import Verif.Lemmas.Mono
import Verif.Props.C16_Index
import Verif.Props.C32_Neighbours

/-! Two runs on the same input: what may differ between them, and that validation and selection do not notice. -/

set_option linter.unusedSectionVars false

namespace Verif

variable {P C B K : Type} [LinearOrder B] [BoundedOrder B] [LinearOrder K]

/-- What may differ between two runs on the same input: the shape of the index (its heuristics), the order in which the priority queue hands out entries of
equal priority, the iteration orders of the maps, and the shape of the constraint indices. -/
structure Sched (P C B K : Type) where
  heur : Heur (Node P C B) B
  heap : Hdb.Heap (Hdb.KObj (Node P C B) B K)
  ord : Nat → List (Node P C B) → List (Node P C B)
  ordRm : Nat → List (Node P C B) → List (Node P C B)
  ctxdb : Int → Db P C B

/-- the environment of one run -/
def Env.run (env : Env P C B K) (s : Sched P C B K) : Env P C B K :=
  { env with heur := s.heur, heap := s.heap, ord := s.ord, ordRm := s.ordRm, inst := fun h => { env.inst h with ctxdb := s.ctxdb h } }

/-- a piece with another identifier -/
def Node.withId (nd : Node P C B) (i : Int) : Node P C B := { nd with id := i }

variable {env : Env P C B K} {s s1 s2 : Sched P C B K} {pts : Int → List P} {h : Int}

/-- pieces of the same polyline with the same range differ at most in their identifiers -/
theorem Known.eq_withId {a b : Node P C B} (ha : Known (env.run s1) pts [h] a) (hb : Known (env.run s2) pts [h] b) (hr : a.range = b.range) :
    b = a.withId b.id := by
  have ia : a.inst = h := List.mem_singleton.1 ha.inst
  have ib : b.inst = h := List.mem_singleton.1 hb.inst
  obtain ⟨a1, a2, a3, -⟩ := ha.piece
  obtain ⟨b1, b2, b3, -⟩ := hb.piece
  cases a; cases b
  simp only at ia ib hr a1 a2 a3 b1 b2 b3
  subst hr; subst ia; subst ib
  have : Res.ok _ = Res.ok _ := a2.symm.trans b2
  cases this
  subst a1; subst b1; subst a3; subst b3
  rfl

theorem Mono.det {α : Type} {f : Nat → Res α} (hf : Mono f) {n m : Nat} {a b : α} (ha : f n = .ok a) (hb : f m = .ok b) : a = b :=
  (hf.yields ha).unique (hf.yields hb)

/-! ### validation does not depend on the order of the constraints -/

theorem Homotopy.homotopy_same {lib : Lib P C B K} (c : Coords P) {l1 l2 : List (Geo P C)} (hl : ∀ g, g ∈ l1 ↔ g ∈ l2) (fuel : Nat) :
    homotopy lib c l1 fuel = homotopy lib c l2 fuel := by
  obtain ⟨x1, d1⟩ := filterLoop_spec lib (.seg c) (.line c) l1
  obtain ⟨x2, d2⟩ := filterLoop_spec lib (.seg c) (.line c) l2
  have hx : (filterLoop lib (.seg c) (.line c) l1).2.2 = [] ↔ (filterLoop lib (.seg c) (.line c) l2).2.2 = [] := by
    rw [x1, x2]; simp only [hl]
  have hd : ∀ g, g ∈ (filterLoop lib (.seg c) (.line c) l1).1 ↔ g ∈ (filterLoop lib (.seg c) (.line c) l2).1 := by
    intro g; rw [d1, d2, hl]
  have hd0 : (filterLoop lib (.seg c) (.line c) l1).1 = [] ↔ (filterLoop lib (.seg c) (.line c) l2).1 = [] := by
    simp only [List.eq_nil_iff_forall_not_mem, hd]
  have hc : ∀ pt ch v, collapseVertex lib pt (filterLoop lib (.seg c) (.line c) l1).1 ch v = collapseVertex lib pt (filterLoop lib (.seg c) (.line c) l2).1 ch v := by
    intro pt ch v
    rw [Bool.eq_iff_iff, collapseVertex_iff, collapseVertex_iff]
    simp only [Free, hd]
  by_cases h0 : (filterLoop lib (.seg c) (.line c) l1).2.2 = []
  · have h1 := hx.1 h0
    by_cases e0 : (filterLoop lib (.seg c) (.line c) l1).1 = []
    · have e1 := hd0.1 e0
      simp only [homotopy, h0, h1, e0, e1, List.length_nil, Nat.lt_irrefl, gt_iff_lt, if_false, if_true]
    · have e1 : ¬ _ := fun h => e0 (hd0.2 h)
      simp only [homotopy, h0, h1, List.length_nil, Nat.lt_irrefl, gt_iff_lt, if_false, List.length_eq_zero_iff, e0, e1, chainDeformation]
      congr 1
      funext ps
      cases ps with
      | nil => rfl
      | cons p0 ps => simp only [deformLoop_congr (hc _)]
  · have h1 : ¬ _ := fun h => h0 (hx.2 h)
    have l0 : 0 < (filterLoop lib (.seg c) (.line c) l1).2.2.length := List.length_pos_iff.2 h0
    have l1 : 0 < (filterLoop lib (.seg c) (.line c) l2).2.2.length := List.length_pos_iff.2 h1
    simp only [homotopy, gt_iff_lt, l0, l1, if_true]

/-- What the nearest-neighbour search needs in order to be exact: the queue pops in order, and a box is never farther than a geometry inside it. -/
structure Exact (env : Env P C B K) (s : Sched P C B K) : Prop where
  heap : s.heap.Legal Hdb.nearLe
  box : ∀ (q g : Geo P C) (b : Box B), env.lib.bounds g ≤ b → (env.lib.boxDistance q b).le (env.lib.distance q g) = true

/-- the constraint index of one run holds the constraints `cs`, each with its own box -/
structure CtxOK (env : Env P C B K) (s : Sched P C B K) (h : Int) (cs : List (Geo P C)) : Prop where
  wf : Hdb.TreeWF nodeOps (s.ctxdb h)
  mbr : ∀ nd ∈ Hdb.contents (s.ctxdb h), nd.mbr = env.lib.bounds nd.geom
  geoms : ∀ g, g ∈ (Hdb.contents (s.ctxdb h)).map Node.geom ↔ g ∈ cs

/-- constdp/validate.go:33-67: the verdict as a function of the piece and the set of constraints -/
def verdict (env : Env P C B K) (h : Int) (cs : List (Geo P C)) (hull : Node P C B) (fuel : Nat) : Res Bool :=
  let o := (env.inst h).opts
  if !(o.geomRelation || o.distRelation || o.dirRelation) then .ok true
  else do
    let ctxtgeoms := cs.filter (fun g => (env.lib.distance hull.geom g).le o.minDist)
    let bln ← andThen true o.geomRelation (.ok (isGeomRelateValid env.lib hull ctxtgeoms))
    let bln ← andThen bln o.distRelation (.ok (isDistRelateValid env.lib o.minDist hull ctxtgeoms))
    andThen bln o.dirRelation (isDirRelateValid env.lib hull ctxtgeoms fuel)

theorem verdict_le (cs : List (Geo P C)) (hull : Node P C B) : Mono (verdict env h cs hull) := by
  intro n
  unfold verdict
  exact .ite (.refl _) (.bind (.refl _) (fun _ => .bind (.refl _) (fun _ => andThen_le (Homotopy.homotopy_le _ _ _ _))))

theorem validate_verdict (hx : Exact env s) {cs : List (Geo P C)} (hc : CtxOK env s h cs) (hull : Node P C B) {n : Nat} {b : Bool}
    (e : validateContextRelation (env.run s) hull ((env.run s).inst h) n = .ok b) : verdict env h cs hull n = .ok b := by
  unfold validateContextRelation at e
  unfold verdict
  have ho : ((env.run s).inst h).opts = (env.inst h).opts := rfl
  have hlib : (env.run s).lib = env.lib := rfl
  simp only [ho, hlib] at e ⊢
  split at e
  · rename_i hopt; rw [if_pos hopt]; exact e
  · rename_i hopt
    rw [if_neg hopt]
    obtain ⟨out, e1, e2⟩ := Res.bind_eq_ok.1 e
    obtain ⟨out', y, hout⟩ := Hdb.contextNeighbours_yields (strong := True) (ops := nodeOps) hc.wf hx.heap (fun a b c h1 h2 => Fl.le_trans h1 h2)
      (boxDist := env.lib.boxDistance hull.geom) (itemDist := fun nd => env.lib.distance hull.geom nd.geom)
      (fun _ nd hnd b hb => hx.box _ _ _ (by have : nd.mbr ≤ b := hb; rwa [hc.mbr nd hnd] at this)) (env.inst h).opts.minDist
    have : out = out' := (Hdb.contextNeighbours_le _ _ _ _ _).val e1 y
    subst this
    have hmem : ∀ g, g ∈ out.map Node.geom ↔ g ∈ cs.filter (fun g => (env.lib.distance hull.geom g).le (env.inst h).opts.minDist) := by
      intro g
      rw [List.mem_filter, ← hc.geoms]
      simp only [List.mem_map, (Hdb.KOut_exact hout).1.mem_iff, List.mem_filter]
      constructor
      · rintro ⟨a, ⟨h1, h2⟩, rfl⟩; exact ⟨⟨a, h1, rfl⟩, h2⟩
      · rintro ⟨⟨a, h1, rfl⟩, h2⟩; exact ⟨a, ⟨h1, h2⟩, rfl⟩
    have g1 : isGeomRelateValid env.lib hull (out.map Node.geom) = isGeomRelateValid env.lib hull (cs.filter (fun g => (env.lib.distance hull.geom g).le (env.inst h).opts.minDist)) := by
      rw [Bool.eq_iff_iff, C26_geom_iff, C26_geom_iff]; simp only [hmem]
    have g2 : isDistRelateValid env.lib (env.inst h).opts.minDist hull (out.map Node.geom) =
        isDistRelateValid env.lib (env.inst h).opts.minDist hull (cs.filter (fun g => (env.lib.distance hull.geom g).le (env.inst h).opts.minDist)) := by
      rw [Bool.eq_iff_iff, C27_dist_iff, C27_dist_iff]; simp only [hmem]
    have g3 := Homotopy.homotopy_same (lib := env.lib) hull.coords hmem
    simp only [isDirRelateValid] at e2 ⊢
    rw [g1, g2, g3] at e2
    exact e2

theorem verdict_withId (cs : List (Geo P C)) (hull : Node P C B) (i : Int) (n : Nat) : verdict env h cs (hull.withId i) n = verdict env h cs hull n := rfl

open Classical in
/-- With an exact search, the verdict on a piece is a function of its range and of the constraints. -/
theorem verdicts_exact (env : Env P C B K) (pts : Int → List P) (h : Int) (cs : List (Geo P C)) : ∃ V : Rng → Bool, ∀ s : Sched P C B K, Exact env s →
    CtxOK env s h cs → ∀ {a : Node P C B} {n : Nat} {v : Bool}, Known (env.run s) pts [h] a →
    validateContextRelation (env.run s) a ((env.run s).inst h) n = .ok v → v = V a.range := by
  refine ⟨fun r => decide (∃ s : Sched P C B K, ∃ a n, Known (env.run s) pts [h] a ∧ a.range = r ∧ verdict env h cs a n = .ok true), ?_⟩
  intro s hx hc a n v ha e
  have k1 := validate_verdict hx hc a e
  rw [eq_comm, Bool.eq_iff_iff, decide_eq_true_iff]
  constructor
  · rintro ⟨t, b, m, hb, hr, k2⟩
    rw [ha.eq_withId hb hr.symm, verdict_withId] at k2
    exact (verdict_le cs a).det k1 k2
  · rintro rfl
    exact ⟨s, a, n, ha, rfl, k1⟩

open Classical in
/-- Without an exact search, but with the same index of the constraints and the same queue, the verdict on a piece is a function of its range. -/
theorem verdicts_fixed (env : Env P C B K) (pts : Int → List P) (h : Int) (heap : Hdb.Heap (Hdb.KObj (Node P C B) B K)) (ctx : Db P C B) :
    ∃ V : Rng → Bool, ∀ s : Sched P C B K, s.heap = heap → s.ctxdb h = ctx → ∀ {a : Node P C B} {n : Nat} {v : Bool}, Known (env.run s) pts [h] a →
    validateContextRelation (env.run s) a ((env.run s).inst h) n = .ok v → v = V a.range := by
  refine ⟨fun r => decide (∃ s : Sched P C B K, ∃ a n, s.heap = heap ∧ s.ctxdb h = ctx ∧ Known (env.run s) pts [h] a ∧ a.range = r ∧
    validateContextRelation (env.run s) a ((env.run s).inst h) n = .ok true), ?_⟩
  intro s hh hc a n v ha k1
  rw [eq_comm, Bool.eq_iff_iff, decide_eq_true_iff]
  constructor
  · rintro ⟨t, b, m, th, tc, hb, hr, k2⟩
    have hsame : validateContextRelation (env.run t) b ((env.run t).inst h) = validateContextRelation (env.run s) a ((env.run s).inst h) := by
      rw [ha.eq_withId hb hr.symm]
      funext i
      show validateContextRelation (env.run t) (a.withId b.id) { env.inst h with ctxdb := t.ctxdb h } i =
        validateContextRelation (env.run s) a { env.inst h with ctxdb := s.ctxdb h } i
      rw [tc, hc]
      unfold validateContextRelation
      simp only [Env.run, th, hh]
      rfl
    rw [hsame] at k2
    exact (validateContextRelation_le _ _ _).det k1 k2
  · rintro rfl
    exact ⟨s, a, n, hh, hc, ha, rfl, k1⟩

/-! ### selection, up to identifiers -/

/-- two lists of pieces have the same ranges -/
def SameR (l1 l2 : List (Node P C B)) : Prop := ∀ r, r ∈ l1.map Node.range ↔ r ∈ l2.map Node.range

theorem SameR.mem {l1 l2 : List (Node P C B)} (hs : SameR l1 l2) {x : Node P C B} (hx : x ∈ l1) : ∃ y ∈ l2, y.range = x.range :=
  List.mem_map.1 ((hs x.range).1 (List.mem_map.2 ⟨x, hx, rfl⟩))

theorem SameR.symm {l1 l2 : List (Node P C B)} (hs : SameR l1 l2) : SameR l2 l1 := fun r => (hs r).symm

theorem SameR.perm {l1 l2 m1 m2 : List (Node P C B)} (hs : SameR l1 l2) (p1 : l1.Perm m1) (p2 : l2.Perm m2) : SameR m1 m2 := by
  intro r
  rw [← (p1.map _).mem_iff, ← (p2.map _).mem_iff]; exact hs r

/-- the two lists may be built in one direction -/
theorem SameR.of {l1 l2 : List (Node P C B)} (h12 : ∀ x ∈ l1, ∃ y ∈ l2, y.range = x.range) (h21 : ∀ x ∈ l2, ∃ y ∈ l1, y.range = x.range) : SameR l1 l2 := by
  intro r
  simp only [List.mem_map]
  constructor
  · rintro ⟨x, hx, rfl⟩; exact h12 x hx
  · rintro ⟨x, hx, rfl⟩; exact h21 x hx

theorem mem_range_dictSet (d : List (Node P C B)) (nd : Node P C B) (r : Rng) :
    r ∈ (dictSet d nd).map Node.range ↔ r ∈ d.map Node.range ∨ r = nd.range := by
  unfold dictSet
  split
  · rename_i h0
    rw [List.any_eq_true] at h0
    obtain ⟨x, hx, hr⟩ := h0
    have hr : x.range = nd.range := by simpa using hr
    have : (d.map (fun x => if x.range = nd.range then nd else x)).map Node.range = d.map Node.range := by
      rw [List.map_map]
      apply List.map_congr_left
      intro y _
      simp only [Function.comp]
      split
      · rename_i h1; exact h1.symm
      · rfl
    rw [this]
    constructor
    · exact .inl
    · rintro (h1 | rfl)
      · exact h1
      · rw [← hr]; exact List.mem_map_of_mem hx
  · simp [eq_comm]

theorem mem_range_dictAdd (d : List (Node P C B)) (c : Option (Node P C B) × Option (Node P C B)) (r : Rng) :
    r ∈ (dictAdd d c).map Node.range ↔ r ∈ d.map Node.range ∨ c.1.map Node.range = some r ∨ c.2.map Node.range = some r := by
  obtain ⟨a, b⟩ := c
  cases a <;> cases b <;> simp only [dictAdd, mem_range_dictSet, Option.map_some, Option.map_none, Option.some.injEq, reduceCtorEq, false_or, or_false] <;> grind

/-- the pair selects a piece of range `r` -/
def Picks (lib : Lib P C B K) (d : Fl K) (hull n : Node P C B) (r : Rng) : Prop :=
  ∃ f c, Node.isContiguous lib hull n = .ok f ∧ candidates lib d hull n f = .ok c ∧ (c.1.map Node.range = some r ∨ c.2.map Node.range = some r)

theorem selectLoop_ranges {lib : Lib P C B K} {d : Fl K} {hull : Node P C B} : ∀ {ns dict out : List (Node P C B)}, selectLoop lib d hull ns dict = .ok out →
    ∀ r, r ∈ out.map Node.range ↔ r ∈ dict.map Node.range ∨ ∃ n ∈ ns, Picks lib d hull n r := by
  intro ns
  induction ns with
  | nil => intro dict out e r; cases e; simp
  | cons n ns ih =>
    intro dict out e r
    rw [selectLoop] at e
    obtain ⟨f, e1, e⟩ := Res.bind_eq_ok.1 e
    obtain ⟨c, e2, e⟩ := Res.bind_eq_ok.1 e
    rw [ih e r, mem_range_dictAdd]
    have : Picks lib d hull n r ↔ c.1.map Node.range = some r ∨ c.2.map Node.range = some r := by
      constructor
      · rintro ⟨f', c', h1, h2, h3⟩
        rw [e1] at h1; cases h1; rw [e2] at h2; cases h2; exact h3
      · intro h; exact ⟨f, c, e1, e2, h⟩
    simp only [List.mem_cons, exists_eq_or_imp, this, or_assoc]

theorem contiguousCandidates_withId (lib : Lib P C B K) (a b : Node P C B) (i j : Int) :
    contiguousCandidates lib (a.withId i) (b.withId j) = (contiguousCandidates lib a b) >>= fun c => .ok (c.1.map (·.withId i), c.2.map (·.withId j)) := by
  have h1 : (a.withId i).collapsible lib (b.withId j) = a.collapsible lib b := rfl
  have h2 : (b.withId j).collapsible lib (a.withId i) = b.collapsible lib a := rfl
  simp only [contiguousCandidates, h1, h2]
  cases a.collapsible lib b with
  | panic => rfl
  | timeout => rfl
  | ok x =>
    cases b.collapsible lib a with
    | panic => rfl
    | timeout => rfl
    | ok y => cases x <;> cases y <;> rfl

theorem nonContiguousCandidates_withId (lib : Lib P C B K) (d : Fl K) (a b : Node P C B) (i j : Int) :
    nonContiguousCandidates lib d (a.withId i) (b.withId j) =
      ((nonContiguousCandidates lib d a b).1.map (·.withId i), (nonContiguousCandidates lib d a b).2.map (·.withId j)) := by
  have h1 : (a.withId i).segment = a.segment := rfl
  have h2 : (b.withId j).segment = b.segment := rfl
  have h3 : (a.withId i).polyline = a.polyline := rfl
  have h4 : (b.withId j).polyline = b.polyline := rfl
  simp only [nonContiguousCandidates, h1, h2, h3, h4]
  split
  · rfl
  · split
    · rfl
    · split
      · split
        · rfl
        · split <;> rfl
      · rfl

theorem Picks.withId {lib : Lib P C B K} {d : Fl K} {a b : Node P C B} {r : Rng} (i j : Int) (hp : Picks lib d a b r) : Picks lib d (a.withId i) (b.withId j) r := by
  obtain ⟨f, c, e1, e2, e3⟩ := hp
  refine ⟨f, (c.1.map (·.withId i), c.2.map (·.withId j)), e1, ?_, ?_⟩
  · unfold candidates at e2 ⊢
    split at e2
    · rename_i h0; rw [if_pos h0]; cases e2; rfl
    · rename_i h0; rw [if_neg h0]
      split at e2
      · rename_i h1; rw [if_pos h1, contiguousCandidates_withId, e2]; rfl
      · rename_i h1; rw [if_neg h1]
        split at e2
        · rename_i h2; rw [if_pos h2, nonContiguousCandidates_withId]; cases e2; rfl
        · rename_i h2; rw [if_neg h2]; cases e2; rfl
  · rcases e3 with e3 | e3
    · left; rw [← e3, Option.map_map]; rfl
    · right; rw [← e3, Option.map_map]; rfl

/-! ### the stored pieces of one run -/

/-- one run: its environment is legal, and its verdicts are given by `V` -/
structure RunOK (env : Env P C B K) (s : Sched P C B K) (pts : Int → List P) (h : Int) (V : Rng → Bool) : Prop where
  legal : EnvOK (env.run s)
  inst : InstOK (env.run s) h (pts h)
  val : ∀ {a : Node P C B} {n : Nat} {v : Bool}, Known (env.run s) pts [h] a →
    validateContextRelation (env.run s) a ((env.run s).inst h) n = .ok v → v = V a.range

theorem RunOK.insts {V : Rng → Bool} (r : RunOK env s pts h V) : ∀ k ∈ [h], InstOK (env.run s) k (pts k) := by
  intro k hk; rw [List.mem_singleton] at hk; rw [hk]; exact r.inst

/-- an index of pieces of `h` in one run, asked for the surroundings of `hull`: in the index, identifiers and ranges single out the same piece -/
structure Around (env : Env P C B K) (s : Sched P C B K) (pts : Int → List P) (h : Int) (db : Db P C B) (hull : Node P C B) : Prop where
  okd : DbOK db
  known : ∀ x ∈ Hdb.contents db, Known (env.run s) pts [h] x ∧ x.mbr.Valid
  own : Known (env.run s) pts [h] hull
  ident : ∀ x ∈ Hdb.contents db, x.id = hull.id ↔ x.range = hull.range

theorem neighboursOf_mem {db : Db P C B} (hd : DbOK db) (hv : ∀ x ∈ Hdb.contents db, x.mbr.Valid) {hull : Node P C B} {n : Nat} {ns : List (Node P C B)}
    (e : neighboursOf env db hull n = .ok ns) : ∀ x, x ∈ ns ↔ x ∈ Hdb.contents db ∧ x.id ≠ hull.id ∧ hull.mbr.intersects x.mbr = true ∧
      (env.lib.distance x.geom hull.geom).le env.eps = true := by
  obtain ⟨ns', y, p⟩ := neighboursOf_yields (env := env) hd hv hull
  have : ns = ns' := (neighboursOf_le env db hull).val e y
  subst this
  intro x
  rw [p.mem_iff, List.mem_filter]
  simp

theorem neighbours_same {db1 db2 : Db P C B} {a b : Node P C B} (h1 : Around env s1 pts h db1 a) (h2 : Around env s2 pts h db2 b)
    (hr : a.range = b.range) (hs : SameR (Hdb.contents db1) (Hdb.contents db2)) {n m : Nat} {ns1 ns2 : List (Node P C B)}
    (e1 : neighboursOf (env.run s1) db1 a n = .ok ns1) (e2 : neighboursOf (env.run s2) db2 b m = .ok ns2) : SameR ns1 ns2 := by
  have key : ∀ {t1 t2 : Sched P C B K} {db1 db2 : Db P C B} {a b : Node P C B}, Around env t1 pts h db1 a → Around env t2 pts h db2 b →
      a.range = b.range → SameR (Hdb.contents db1) (Hdb.contents db2) → ∀ {n m : Nat} {ns1 ns2 : List (Node P C B)},
      neighboursOf (env.run t1) db1 a n = .ok ns1 → neighboursOf (env.run t2) db2 b m = .ok ns2 → ∀ x ∈ ns1, ∃ y ∈ ns2, y.range = x.range := by
    intro t1 t2 db1 db2 a b h1 h2 hr hs n m ns1 ns2 e1 e2 x hx
    obtain ⟨x1, x2, x3, x4⟩ := (neighboursOf_mem h1.okd (fun x hx => (h1.known x hx).2) e1 x).1 hx
    obtain ⟨y, hy, hyr⟩ := hs.mem x1
    refine ⟨y, (neighboursOf_mem h2.okd (fun x hx => (h2.known x hx).2) e2 y).2 ⟨hy, ?_, ?_, ?_⟩, hyr⟩
    · intro hid
      have := (h2.ident y hy).1 hid
      exact x2 ((h1.ident x x1).2 (by rw [← hyr, this, hr]))
    · rw [h1.own.eq_withId h2.own hr, (h1.known x x1).1.eq_withId (h2.known y hy).1 hyr.symm]; exact x3
    · rw [h1.own.eq_withId h2.own hr, (h1.known x x1).1.eq_withId (h2.known y hy).1 hyr.symm]; exact x4
  exact SameR.of (key h1 h2 hr hs e1 e2) (key h2 h1 hr.symm hs.symm e2 e1)

theorem selectLoop_same {ns1 ns2 : List (Node P C B)} {a b : Node P C B} {d : Fl K} (ka : Known (env.run s1) pts [h] a) (kb : Known (env.run s2) pts [h] b)
    (hr : a.range = b.range) (k1 : ∀ x ∈ ns1, Known (env.run s1) pts [h] x) (k2 : ∀ x ∈ ns2, Known (env.run s2) pts [h] x) (hs : SameR ns1 ns2)
    {o1 o2 : List (Node P C B)} (e1 : selectLoop env.lib d a ns1 [] = .ok o1) (e2 : selectLoop env.lib d b ns2 [] = .ok o2) : SameR o1 o2 := by
  intro r
  rw [selectLoop_ranges e1, selectLoop_ranges e2]
  simp only [List.map_nil, List.not_mem_nil, false_or]
  constructor
  · rintro ⟨x, hx, hp⟩
    obtain ⟨y, hy, hyr⟩ := hs.mem hx
    refine ⟨y, hy, ?_⟩
    rw [ka.eq_withId kb hr, (k1 x hx).eq_withId (k2 y hy) hyr.symm]
    exact hp.withId _ _
  · rintro ⟨x, hx, hp⟩
    obtain ⟨y, hy, hyr⟩ := hs.symm.mem hx
    refine ⟨y, hy, ?_⟩
    rw [kb.eq_withId ka hr.symm, (k2 x hx).eq_withId (k1 y hy) hyr.symm]
    exact hp.withId _ _

/-- deform/ln.go:11-50: the ranges of the selected pieces do not depend on the run -/
theorem select_same {db1 db2 : Db P C B} {a b : Node P C B} {d : Fl K} (h1 : Around env s1 pts h db1 a) (h2 : Around env s2 pts h db2 b)
    (hr : a.range = b.range) (hs : SameR (Hdb.contents db1) (Hdb.contents db2)) {n m : Nat} {o1 o2 : List (Node P C B)}
    (e1 : select (env.run s1) d db1 a n = .ok o1) (e2 : select (env.run s2) d db2 b m = .ok o2) : SameR o1 o2 := by
  obtain ⟨ns1, n1, l1⟩ := Res.bind_eq_ok.1 e1
  obtain ⟨ns2, n2, l2⟩ := Res.bind_eq_ok.1 e2
  exact selectLoop_same h1.own h2.own hr
    (fun x hx => (h1.known x ((neighboursOf_mem h1.okd (fun x hx => (h1.known x hx).2) n1 x).1 hx).1).1)
    (fun x hx => (h2.known x ((neighboursOf_mem h2.okd (fun x hx => (h2.known x hx).2) n2 x).1 hx).1).1)
    (neighbours_same h1 h2 hr hs n1 n2) l1 l2

theorem selectFCLoop_one {d : Fl K} {hull : Node P C B} (hh : hull.inst = h) : ∀ (ns dict : List (Node P C B)), (∀ x ∈ ns, x.inst = h) →
    selectFCLoop env d hull ns dict = selectLoop env.lib d hull ns dict := by
  intro ns
  induction ns with
  | nil => intro dict _; rfl
  | cons n ns ih =>
    intro dict hn
    have hf : fcContiguous env hull n = Node.isContiguous env.lib hull n := by
      unfold fcContiguous; rw [hh, hn n (by simp), if_pos rfl]
    rw [selectFCLoop, selectLoop, hf]
    congr 1; funext r; congr 1; funext c
    exact ih _ (fun x hx => hn x (List.mem_cons_of_mem _ hx))

/-- deform/cls.go:25-79 on one polyline that is marked dirty is deform/ln.go:11-50 -/
theorem selectFeatureClass_one {dirty : Int → Bool} (hdirty : dirty h = true) {d : Fl K} {db : Db P C B} {hull : Node P C B} (ha : Around env s pts h db hull)
    {n : Nat} {o : List (Node P C B)} (e : selectFeatureClass (env.run s) dirty d db hull n = .ok o) : select (env.run s) d db hull n = .ok o := by
  have hh : hull.inst = h := List.mem_singleton.1 ha.own.inst
  obtain ⟨ns, n1, l1⟩ := Res.bind_eq_ok.1 e
  unfold select
  rw [n1, Res.ok_bind]
  rw [optimizeNeighbours, hh, if_pos hdirty, selectFCLoop_one hh] at l1
  · exact l1
  · intro x hx
    exact List.mem_singleton.1 (ha.known x ((neighboursOf_mem ha.okd (fun x hx => (ha.known x hx).2) n1 x).1 hx).1).1.inst

/-! ### the pieces to deform -/

/-- the state of the index in one run: it holds a cover of the polyline `h` -/
structure Stored (env : Env P C B K) (s : Sched P C B K) (pts : Int → List P) (h : Int) (ids : Nat → Int) (g : Nat) (db : Db P C B) : Prop where
  okd : DbOK db
  pieces : ∃ src, Pieces (env.run s) pts [h] src ids g (Hdb.contents db)

theorem Stored.around {V : Rng → Bool} {ids : Nat → Int} {g : Nat} {db : Db P C B} (r : RunOK env s pts h V) (hs : Stored env s pts h ids g db)
    {hull : Node P C B} (hh : hull ∈ Hdb.contents db) : Around env s pts h db hull := by
  obtain ⟨hd, src, hp⟩ := hs
  refine ⟨hd, fun x hx => ⟨hp.known hx, hp.valid r.insts hx⟩, hp.known hh, fun x hx => ⟨fun h1 => ?_, fun h1 => ?_⟩⟩
  · rw [hp.eq_of_id hx hh h1]
  · rw [hp.range_inj hx hh h1]

theorem fcSelections_le (dirty : Int → Bool) (db : Db P C B) (hull : Node P C B) : Mono (fcSelections env dirty db hull) :=
  fun n => .ite (selectFeatureClass_le env dirty _ db hull n) (.refl _)

/-- constdp/simple_0.go:33-61 for one piece -/
theorem hullSelections_same {V : Rng → Bool} {ids1 ids2 : Nat → Int} {g1 g2 : Nat} {db1 db2 : Db P C B} (r1 : RunOK env s1 pts h V)
    (r2 : RunOK env s2 pts h V) (t1 : Stored env s1 pts h ids1 g1 db1) (t2 : Stored env s2 pts h ids2 g2 db2)
    (hs : SameR (Hdb.contents db1) (Hdb.contents db2)) {dirty1 dirty2 : Int → Bool} (hd1 : dirty1 h = true) (hd2 : dirty2 h = true)
    {a b : Node P C B} (ha : a ∈ Hdb.contents db1) (hb : b ∈ Hdb.contents db2) (hr : a.range = b.range) {n m : Nat} {o1 o2 : List (Node P C B)}
    (e1 : hullSelections (env.run s1) dirty1 db1 a n = .ok o1) (e2 : hullSelections (env.run s2) dirty2 db2 b m = .ok o2) : SameR o1 o2 := by
  have A1 := t1.around r1 ha
  have A2 := t2.around r2 hb
  have hgeo : b = a.withId b.id := A1.own.eq_withId A2.own hr
  have hg : b.geom = a.geom := by rw [hgeo]; rfl
  have i1 : a.inst = h := List.mem_singleton.1 A1.own.inst
  have i2 : b.inst = h := List.mem_singleton.1 A2.own.inst
  unfold hullSelections at e1 e2
  rw [← hr, hg] at e2
  split at e1
  · rename_i c; rw [if_pos c] at e2; cases e1; cases e2; exact fun r => Iff.rfl
  rename_i c1
  rw [if_neg c1] at e2
  split at e1
  · rename_i c; rw [if_pos c] at e2; cases e1; cases e2; exact fun r => Iff.rfl
  rename_i c2
  rw [if_neg c2] at e2
  obtain ⟨q1, f1, e1⟩ := Res.bind_eq_ok.1 e1
  obtain ⟨q2, f2, e2⟩ := Res.bind_eq_ok.1 e2
  -- the selections
  have hq : SameR q1 q2 ∧ (∀ x ∈ q1, x ∈ Hdb.contents db1) ∧ (∀ x ∈ q2, x ∈ Hdb.contents db2) := by
    obtain ⟨src1, p1⟩ := t1.pieces
    obtain ⟨src2, p2⟩ := t2.pieces
    obtain ⟨z1, y1, m1⟩ := fcSelections_yields r1.legal dirty1 A1.okd A1.known ha
    obtain ⟨z2, y2, m2⟩ := fcSelections_yields r2.legal dirty2 A2.okd A2.known hb
    refine ⟨?_, ?_, ?_⟩
    · unfold fcSelections at f1 f2
      have o1 : ((env.run s1).inst a.inst).opts = (env.inst h).opts := by rw [i1]; rfl
      have o2 : ((env.run s2).inst b.inst).opts = (env.inst h).opts := by rw [i2]; rfl
      simp only [o1] at f1
      simp only [o2] at f2
      by_cases hav : (env.inst h).opts.avoidNewSelfIntersects = true
      · rw [if_pos hav] at f1 f2
        exact select_same A1 A2 hr hs (selectFeatureClass_one hd1 A1 f1) (selectFeatureClass_one hd2 A2 f2)
      · rw [if_neg hav] at f1 f2
        cases f1; cases f2; exact fun r => Iff.rfl
    · have : q1 = z1 := (show Mono (fcSelections (env.run s1) dirty1 db1 a) from fcSelections_le _ _ _).val f1 y1
      rw [this]; exact m1
    · have : q2 = z2 := (show Mono (fcSelections (env.run s2) dirty2 db2 b) from fcSelections_le _ _ _).val f2 y2
      rw [this]; exact m2
  obtain ⟨hq, hq1, hq2⟩ := hq
  have hns : ∀ {t : Sched P C B K} {ids : Nat → Int} {g : Nat} {db : Db P C B} {c : Node P C B} {q : List (Node P C B)}, Stored env t pts h ids g db →
      c ∈ Hdb.contents db → (∀ x ∈ q, x ∈ Hdb.contents db) → (notSelected c q = true ↔ c.range ∉ q.map Node.range) := by
    intro t ids g db c q ht hc hq
    obtain ⟨src, p⟩ := ht.pieces
    simp only [notSelected, Bool.not_eq_true', List.any_eq_false, decide_eq_true_eq, List.mem_map, not_exists, not_and]
    constructor
    · intro h1 x hx h2; exact h1 x hx (by rw [p.range_inj (hq x hx) hc h2])
    · intro h1 x hx h2; exact h1 x hx (by rw [p.eq_of_id (hq x hx) hc h2])
  have hnse : notSelected a q1 = notSelected b q2 := by
    rw [Bool.eq_iff_iff, hns t1 ha hq1, hns t2 hb hq2, hq a.range, hr]
  unfold ctxSelections at e1 e2
  rw [← hnse] at e2
  split at e1
  · rename_i c
    rw [if_pos c] at e2
    obtain ⟨v, v1, w1⟩ := Res.bind_eq_ok.1 e1
    obtain ⟨w, v2, w2⟩ := Res.bind_eq_ok.1 e2
    rw [i1] at v1
    rw [i2] at v2
    have : v = w := (r1.val A1.own v1).trans (by rw [hr]; exact (r2.val A2.own v2).symm)
    subst this
    cases w1; cases w2
    cases v with
    | true => simpa using hq
    | false =>
      simp only [Bool.false_eq_true, if_false]
      intro r
      simp only [List.map_append, List.mem_append, hq r, List.map_cons, List.map_nil, List.mem_singleton, hr]
  · rename_i c
    rw [if_neg c] at e2
    cases e1; cases e2
    exact hq

/-- constdp/simple_0.go:11-61: a range is selected iff one of the pieces selects it -/
theorem selectionsOf_ranges {dirty : Int → Bool} {db : Db P C B} {n : Nat} : ∀ {hulls o : List (Node P C B)}, selectionsOf env dirty db n hulls = .ok o →
    (∀ x ∈ hulls, ∃ q, hullSelections env dirty db x n = .ok q) ∧
    ∀ r, r ∈ o.map Node.range ↔ ∃ x ∈ hulls, ∃ q, hullSelections env dirty db x n = .ok q ∧ r ∈ q.map Node.range := by
  intro hulls
  induction hulls with
  | nil => intro o e; cases e; simp
  | cons x hulls ih =>
    intro o e
    rw [selectionsOf] at e
    obtain ⟨q, e1, e⟩ := Res.bind_eq_ok.1 e
    obtain ⟨rest, e2, e⟩ := Res.bind_eq_ok.1 e
    cases e
    obtain ⟨i1, i2⟩ := ih e2
    refine ⟨?_, fun r => ?_⟩
    · intro y hy
      rcases List.mem_cons.1 hy with rfl | hy
      · exact ⟨q, e1⟩
      · exact i1 y hy
    · have : (∃ q', hullSelections env dirty db x n = .ok q' ∧ r ∈ q'.map Node.range) ↔ r ∈ q.map Node.range :=
        ⟨fun ⟨q', h1, h2⟩ => by rw [e1] at h1; cases h1; exact h2, fun h1 => ⟨q, e1, h1⟩⟩
      simp only [List.map_append, List.mem_append, i2 r, List.mem_cons, exists_eq_or_imp, this]

theorem findDeformable_same {V : Rng → Bool} {ids1 ids2 : Nat → Int} {g1 g2 : Nat} {db1 db2 : Db P C B} (r1 : RunOK env s1 pts h V)
    (r2 : RunOK env s2 pts h V) (t1 : Stored env s1 pts h ids1 g1 db1) (t2 : Stored env s2 pts h ids2 g2 db2)
    (hs : SameR (Hdb.contents db1) (Hdb.contents db2)) {dirty1 dirty2 : Int → Bool} (hd1 : dirty1 h = true) (hd2 : dirty2 h = true)
    {l1 l2 : List (Node P C B)} (m1 : ∀ x ∈ l1, x ∈ Hdb.contents db1) (m2 : ∀ x ∈ l2, x ∈ Hdb.contents db2) (hl : SameR l1 l2)
    {n m : Nat} {o1 o2 : List (Node P C B)}
    (e1 : findDeformable (env.run s1) dirty1 l1 db1 n = .ok o1) (e2 : findDeformable (env.run s2) dirty2 l2 db2 m = .ok o2) : SameR o1 o2 := by
  have key : ∀ {u1 u2 : Sched P C B K} {ids1 ids2 : Nat → Int} {g1 g2 : Nat} {db1 db2 : Db P C B}, RunOK env u1 pts h V → RunOK env u2 pts h V →
      Stored env u1 pts h ids1 g1 db1 → Stored env u2 pts h ids2 g2 db2 → SameR (Hdb.contents db1) (Hdb.contents db2) →
      ∀ {dirty1 dirty2 : Int → Bool}, dirty1 h = true → dirty2 h = true → ∀ {l1 l2 : List (Node P C B)}, (∀ x ∈ l1, x ∈ Hdb.contents db1) →
      (∀ x ∈ l2, x ∈ Hdb.contents db2) → SameR l1 l2 → ∀ {n m : Nat} {o1 o2 : List (Node P C B)},
      findDeformable (env.run u1) dirty1 l1 db1 n = .ok o1 → findDeformable (env.run u2) dirty2 l2 db2 m = .ok o2 → ∀ x ∈ o1, ∃ y ∈ o2, y.range = x.range := by
    intro u1 u2 ids1 ids2 g1 g2 db1 db2 r1 r2 t1 t2 hs dirty1 dirty2 hd1 hd2 l1 l2 m1 m2 hl n m o1 o2 e1 e2 x hx
    obtain ⟨q1, f1, e1⟩ := Res.bind_eq_ok.1 e1
    obtain ⟨q2, f2, e2⟩ := Res.bind_eq_ok.1 e2
    cases e1; cases e2
    obtain ⟨src2, p2⟩ := t2.pieces
    have hq2 : ∀ y ∈ q2, y ∈ Hdb.contents db2 := by
      obtain ⟨z, y, hz, -⟩ := selectionsOf_yields r2.legal r2.insts dirty2 t2.okd (fun x hx => ⟨p2.known hx, p2.valid r2.insts hx⟩) l2 m2
      have : q2 = z := (show Mono (fun n => selectionsOf (env.run u2) dirty2 db2 n l2) from fun n => selectionsOf_le _ _ _ n l2).val f2 y
      rw [this]; exact hz
    have hx1 := (dedupId_spec q1).1 x hx
    obtain ⟨c1, d1⟩ := selectionsOf_ranges f1
    obtain ⟨c2, d2⟩ := selectionsOf_ranges f2
    obtain ⟨a, ha, z1, hz1, hr1⟩ := (d1 x.range).1 (List.mem_map.2 ⟨x, hx1, rfl⟩)
    obtain ⟨b, hb, hab⟩ := hl.mem ha
    obtain ⟨z2, hz2⟩ := c2 b hb
    have hsame := hullSelections_same r1 r2 t1 t2 hs hd1 hd2 (m1 a ha) (m2 b hb) hab.symm hz1 hz2
    have := (d2 x.range).2 ⟨b, hb, z2, hz2, (hsame x.range).1 hr1⟩
    obtain ⟨w, hw, hwr⟩ := List.mem_map.1 this
    obtain ⟨w', hw', hid⟩ := (dedupId_spec q2).2.2 w hw
    exact ⟨w', hw', by rw [p2.eq_of_id (hq2 w' ((dedupId_spec q2).1 w' hw')) (hq2 w hw) hid]; exact hwr⟩
  exact SameR.of (key r1 r2 t1 t2 hs hd1 hd2 m1 m2 hl e1 e2) (key r2 r1 t2 t1 hs.symm hd2 hd1 m2 m1 hl.symm e2 e1)

/-! ### one round, the loop -/

/-- constdp/simple_1.go:16-30: the ranges one selected piece is replaced by -/
def CutTo (env : Env P C B K) (pts : Int → List P) (h : Int) (r r' : Rng) : Prop :=
  if r.size > 1 then ∃ k v, (env.inst h).scoreFn (Coords.sub (pts h) r.I r.J) = .ok (k, v) ∧ (r' = ⟨r.I, r.I + k⟩ ∨ r' = ⟨r.I + k, r.J⟩) else r' = r

theorem createNode_range {lib : Lib P C B K} {id : Int} {c : Coords P} {r : Rng} {inst : Int} {nd : Node P C B} (e : createNode lib id c r inst = .ok nd) :
    nd.range = r := by
  obtain ⟨g, -, e⟩ := Res.bind_eq_ok.1 e
  cases e; rfl

theorem atScoreSelection_ranges {lib : Lib P C B K} {ids : Nat → Int} {g g' : Nat} {score : ScoreFn P K} {hull ha hb : Node P C B}
    (e : atScoreSelection lib ids g score hull = .ok (ha, hb, g')) :
    ∃ k v, score hull.coords = .ok (k, v) ∧ ha.range = ⟨hull.range.I, hull.range.I + k⟩ ∧ hb.range = ⟨hull.range.I + k, hull.range.J⟩ := by
  simp only [atScoreSelection] at e
  obtain ⟨⟨k, v⟩, e1, e⟩ := Res.bind_eq_ok.1 e
  obtain ⟨ca, -, e⟩ := Res.bind_eq_ok.1 e
  obtain ⟨a, ea, e⟩ := Res.bind_eq_ok.1 e
  obtain ⟨cb, -, e⟩ := Res.bind_eq_ok.1 e
  obtain ⟨b, eb, e⟩ := Res.bind_eq_ok.1 e
  cases e
  exact ⟨k, v, e1, createNode_range ea, createNode_range eb⟩

theorem deformNodesLoop_ranges {ids : Nat → Int} : ∀ {sel : List (Node P C B)} {g : Nat} {dirty : Int → Bool} {out : List (Node P C B)} {g' : Nat}
    {dirty' : Int → Bool}, (∀ x ∈ sel, Known (env.run s) pts [h] x) → deformNodesLoop (env.run s) ids sel g dirty = .ok (out, g', dirty') →
    (dirty h = true → dirty' h = true) ∧ ∀ r, r ∈ out.map Node.range ↔ ∃ x ∈ sel, CutTo env pts h x.range r := by
  intro sel
  induction sel with
  | nil => intro g dirty out g' dirty' _ e; cases e; simp
  | cons x sel ih =>
    intro g dirty out g' dirty' hk e
    have hx := hk x (by simp)
    have hxi : x.inst = h := List.mem_singleton.1 hx.inst
    have hk' := fun y hy => hk y (List.mem_cons_of_mem x hy)
    rw [deformNodesLoop] at e
    split at e
    · rename_i hsz
      obtain ⟨⟨ha, hb, g1⟩, e1, e⟩ := Res.bind_eq_ok.1 e
      obtain ⟨⟨rest, g2, dirty2⟩, e2, e⟩ := Res.bind_eq_ok.1 e
      cases e
      obtain ⟨k, v, sc, ra, rb⟩ := atScoreSelection_ranges e1
      obtain ⟨i1, i2⟩ := ih hk' e2
      have hsc : (env.inst h).scoreFn (Coords.sub (pts h) x.range.I x.range.J) = .ok (k, v) := by
        rw [hx.piece.coords, hxi] at sc; exact sc
      refine ⟨fun hd => i1 ?_, fun r => ?_⟩
      · rw [markDirty]; split
        · rfl
        · exact hd
      · have : CutTo env pts h x.range r ↔ r = ha.range ∨ r = hb.range := by
          rw [CutTo, if_pos hsz]
          constructor
          · rintro ⟨k', v', h1, h2⟩
            rw [hsc] at h1; cases h1; rw [ra, rb]; exact h2
          · intro h1; rw [ra, rb] at h1; exact ⟨k, v, hsc, h1⟩
        simp only [List.map_cons, List.mem_cons, i2 r, exists_eq_or_imp, this, or_assoc]
    · rename_i hsz
      obtain ⟨⟨rest, g2, dirty2⟩, e2, e⟩ := Res.bind_eq_ok.1 e
      cases e
      obtain ⟨i1, i2⟩ := ih hk' e2
      refine ⟨i1, fun r => ?_⟩
      have : CutTo env pts h x.range r ↔ r = x.range := by rw [CutTo, if_neg hsz]
      simp only [List.map_cons, List.mem_cons, i2 r, exists_eq_or_imp, this]

/-- constdp/simplify.go:45-50: what one round does to the ranges -/
theorem deformRound_ranges {V : Rng → Bool} {ids : Nat → Int} (r1 : RunOK env s pts h V) (hinj : Function.Injective ids) {st : LoopSt P C B}
    (t : Stored env s pts h ids st.g st.db) {sel : List (Node P C B)} (hm : ∀ x ∈ sel, x ∈ Hdb.contents st.db) (hn : (sel.map Node.id).Nodup)
    {n : Nat} {out : List (Node P C B)} {st' : LoopSt P C B} (e : deformRound (env.run s) ids st sel n = .ok (out, st')) :
    Stored env s pts h ids st'.g st'.db ∧ (∀ x ∈ out, x ∈ Hdb.contents st'.db) ∧ (st.dirty h = true → st'.dirty h = true) ∧
      (∀ r, r ∈ out.map Node.range ↔ ∃ x ∈ sel, CutTo env pts h x.range r) ∧
      ∀ r, r ∈ (Hdb.contents st'.db).map Node.range ↔ r ∈ out.map Node.range ∨ (r ∈ (Hdb.contents st.db).map Node.range ∧ r ∉ sel.map Node.range) := by
  obtain ⟨okd, src, hp⟩ := t
  obtain ⟨out', st1, rest, y, w, hg, p1, b1, b2, -, -, -⟩ := deformRound_yields r1.legal r1.insts hinj okd hp hm hn
  have := (deformRound_le (env.run s) ids st sel).val e y
  cases this
  obtain ⟨⟨o, g1, dirty1⟩, e1, e⟩ := Res.bind_eq_ok.1 e
  obtain ⟨d1, e2, e⟩ := Res.bind_eq_ok.1 e
  obtain ⟨d2, e3, e⟩ := Res.bind_eq_ok.1 e
  cases e
  have ho := r1.legal.ord st.g sel
  obtain ⟨k1, k2⟩ := deformNodesLoop_ranges (env := env) (s := s) (pts := pts) (h := h) (fun x hx => hp.known (hm x (ho.mem_iff.1 hx))) e1
  refine ⟨⟨w, src, p1⟩, fun x hx => b2.mem_iff.2 (List.mem_append_left _ hx), k1, fun r => ?_, fun r => ?_⟩
  · rw [k2 r]; simp only [ho.mem_iff]
  · rw [(b2.map _).mem_iff, (b1.map _).mem_iff, List.map_append, List.map_append, List.mem_append, List.mem_append]
    have hdis : r ∈ rest.map Node.range → r ∉ sel.map Node.range := by
      intro h1 h2
      obtain ⟨x, hx, hxr⟩ := List.mem_map.1 h1
      obtain ⟨z, hz, hzr⟩ := List.mem_map.1 h2
      have hn' := (b1.map Node.id).nodup_iff.1 hp.nodup
      rw [List.map_append, List.nodup_append] at hn'
      have : x = z := hp.range_inj (b1.mem_iff.2 (List.mem_append_right _ hx)) (hm z hz) (hxr.trans hzr.symm)
      exact hn'.2.2 z.id (List.mem_map_of_mem hz) x.id (List.mem_map_of_mem hx) (by rw [this])
    constructor
    · rintro (h1 | h1)
      · exact .inl h1
      · exact .inr ⟨.inr h1, hdis h1⟩
    · rintro (h1 | ⟨h1 | h1, h2⟩)
      · exact .inl h1
      · exact absurd h1 h2
      · exact .inr h1

/-- constdp/simplify.go:41-55: the ranges after the deformation loop do not depend on the run -/
theorem deformLoop_same {V : Rng → Bool} {ids1 ids2 : Nat → Int} (r1 : RunOK env s1 pts h V) (r2 : RunOK env s2 pts h V)
    (j1 : Function.Injective ids1) (j2 : Function.Injective ids2) : ∀ {n m : Nat} {l1 l2 : List (Node P C B)} {a1 a2 b1 b2 : LoopSt P C B},
    Stored env s1 pts h ids1 a1.g a1.db → Stored env s2 pts h ids2 a2.g a2.db → SameR (Hdb.contents a1.db) (Hdb.contents a2.db) →
    a1.dirty h = true → a2.dirty h = true → (∀ x ∈ l1, x ∈ Hdb.contents a1.db) → (∀ x ∈ l2, x ∈ Hdb.contents a2.db) → SameR l1 l2 →
    deformLoop (env.run s1) ids1 n l1 a1 = .ok b1 → deformLoop (env.run s2) ids2 m l2 a2 = .ok b2 →
    Stored env s1 pts h ids1 b1.g b1.db ∧ Stored env s2 pts h ids2 b2.g b2.db ∧ SameR (Hdb.contents b1.db) (Hdb.contents b2.db) := by
  intro n
  induction n with
  | zero => intro m l1 l2 a1 a2 b1 b2 _ _ _ _ _ _ _ _ e1; cases e1
  | succ n ih =>
    intro m l1 l2 a1 a2 b1 b2 t1 t2 hs hd1 hd2 m1 m2 hl e1 e2
    cases m with
    | zero => cases e2
    | succ m =>
      have hnil : ∀ {x y : List (Node P C B)}, SameR x y → x = [] → y = [] := by
        intro x y hxy hx
        subst hx
        rw [List.eq_nil_iff_forall_not_mem]
        intro z hz
        obtain ⟨w, hw, -⟩ := hxy.symm.mem hz
        cases hw
      rw [deformLoop] at e1 e2
      split at e1
      · rename_i c
        rw [if_pos (hnil hl c)] at e2
        cases e1; cases e2
        exact ⟨t1, t2, hs⟩
      · rename_i c
        rw [if_neg (fun c' => c (hnil hl.symm c'))] at e2
        obtain ⟨q1, f1, e1⟩ := Res.bind_eq_ok.1 e1
        obtain ⟨q2, f2, e2⟩ := Res.bind_eq_ok.1 e2
        have hq := findDeformable_same r1 r2 t1 t2 hs hd1 hd2 m1 m2 hl f1 f2
        split at e1
        · rename_i c
          rw [if_pos (hnil hq c)] at e2
          cases e1; cases e2
          exact ⟨t1, t2, hs⟩
        · rename_i c
          rw [if_neg (fun c' => c (hnil hq.symm c'))] at e2
          obtain ⟨⟨o1, c1⟩, k1, e1⟩ := Res.bind_eq_ok.1 e1
          obtain ⟨⟨o2, c2⟩, k2, e2⟩ := Res.bind_eq_ok.1 e2
          obtain ⟨src1, p1⟩ := t1.pieces
          obtain ⟨src2, p2⟩ := t2.pieces
          obtain ⟨z1, y1, u1, v1, -⟩ := findDeformable_yields r1.legal r1.insts a1.dirty t1.okd p1 l1 m1
          obtain ⟨z2, y2, u2, v2, -⟩ := findDeformable_yields r2.legal r2.insts a2.dirty t2.okd p2 l2 m2
          have : q1 = z1 := (findDeformable_le _ _ _ _).val f1 y1
          subst this
          have : q2 = z2 := (findDeformable_le _ _ _ _).val f2 y2
          subst this
          obtain ⟨w1, x1, d1, o1r, b1r⟩ := deformRound_ranges r1 j1 t1 u1 v1 k1
          obtain ⟨w2, x2, d2, o2r, b2r⟩ := deformRound_ranges r2 j2 t2 u2 v2 k2
          have ho : SameR o1 o2 := by
            intro r
            rw [o1r, o2r]
            constructor
            · rintro ⟨x, hx, hc⟩
              obtain ⟨y, hy, hyr⟩ := hq.mem hx
              exact ⟨y, hy, hyr ▸ hc⟩
            · rintro ⟨x, hx, hc⟩
              obtain ⟨y, hy, hyr⟩ := hq.symm.mem hx
              exact ⟨y, hy, hyr ▸ hc⟩
          have hb : SameR (Hdb.contents c1.db) (Hdb.contents c2.db) := by
            intro r
            rw [b1r, b2r, ho r, hs r, hq r]
          exact ih w1 w2 hb (d1 hd1) (d2 hd2) x1 x2 ho e1 e2

end Verif
