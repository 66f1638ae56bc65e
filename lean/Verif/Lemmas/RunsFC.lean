import Verif.Lemmas.RunsMerge
import Verif.Lemmas.SepFC
import Verif.Lemmas.Frame

/-! Two runs on the same feature class: the joint stage leaves the same ranges, if no piece has neighbours of different features with the same index range. -/

set_option linter.unusedSectionVars false

namespace Verif

variable {P C B K : Type} [LinearOrder B] [BoundedOrder B] [LinearOrder K]
variable {env : Env P C B K} {s s1 s2 : Sched P C B K} {pts : Int → List P} {hs : List Int}

/-- the polyline of a piece and its range -/
def Node.key (nd : Node P C B) : Int × Rng := (nd.inst, nd.range)

theorem Known.eq_withId_of_key {a b : Node P C B} (ha : Known (env.run s1) pts hs a) (hb : Known (env.run s2) pts hs b) (hk : a.key = b.key) : b = a.withId b.id := by
  have hi : a.inst = b.inst := congrArg Prod.fst hk
  have hr : a.range = b.range := congrArg Prod.snd hk
  have ka : Known (env.run s1) pts [a.inst] a := ⟨by simp, ha.2, ha.3, ha.4, ha.5⟩
  have kb : Known (env.run s2) pts [a.inst] b := ⟨by simp [hi], hb.2, hb.3, hb.4, hb.5⟩
  exact ka.eq_withId kb hr

/-- two lists of pieces have the same keys -/
def SameK (l1 l2 : List (Node P C B)) : Prop := ∀ k, k ∈ l1.map Node.key ↔ k ∈ l2.map Node.key

/-- the same keys among the pieces that can be split -/
def SameBig (l1 l2 : List (Node P C B)) : Prop := ∀ k : Int × Rng, k.2.size > 1 → (k ∈ l1.map Node.key ↔ k ∈ l2.map Node.key)

theorem SameK.symm {l1 l2 : List (Node P C B)} (h : SameK l1 l2) : SameK l2 l1 := fun k => (h k).symm

theorem SameBig.symm {l1 l2 : List (Node P C B)} (h : SameBig l1 l2) : SameBig l2 l1 := fun k hk => (h k hk).symm

theorem SameK.big {l1 l2 : List (Node P C B)} (h : SameK l1 l2) : SameBig l1 l2 := fun k _ => h k

theorem SameK.mem {l1 l2 : List (Node P C B)} (h : SameK l1 l2) {x : Node P C B} (hx : x ∈ l1) : ∃ y ∈ l2, y.key = x.key :=
  List.mem_map.1 ((h x.key).1 (List.mem_map.2 ⟨x, hx, rfl⟩))

theorem SameBig.mem {l1 l2 : List (Node P C B)} (h : SameBig l1 l2) {x : Node P C B} (hx : x ∈ l1) (hb : x.range.size > 1) : ∃ y ∈ l2, y.key = x.key :=
  List.mem_map.1 ((h x.key hb).1 (List.mem_map.2 ⟨x, hx, rfl⟩))

theorem SameK.perm {l1 l2 m1 m2 : List (Node P C B)} (h : SameK l1 l2) (p1 : l1.Perm m1) (p2 : l2.Perm m2) : SameK m1 m2 := by
  intro k; rw [← (p1.map _).mem_iff, ← (p2.map _).mem_iff]; exact h k

/-- one run: its environment is legal, and its verdicts are given by `V` -/
structure RunFC (env : Env P C B K) (s : Sched P C B K) (pts : Int → List P) (hs : List Int) (V : Int × Rng → Bool) : Prop where
  legal : EnvOK (env.run s)
  insts : ∀ k ∈ hs, InstOK (env.run s) k (pts k)
  ident : ∀ a ∈ hs, ∀ b ∈ hs, (env.inst a).id = (env.inst b).id → a = b
  val : ∀ {a : Node P C B} {n : Nat} {v : Bool}, Known (env.run s) pts hs a →
    validateContextRelation (env.run s) a ((env.run s).inst a.inst) n = .ok v → v = V a.key

/-- the state of the index in one run: it holds a cover of the polylines -/
structure StoredFC (env : Env P C B K) (s : Sched P C B K) (pts : Int → List P) (hs : List Int) (ids : Nat → Int) (g : Nat) (db : Db P C B) : Prop where
  okd : DbOK db
  pieces : ∃ src, Pieces (env.run s) pts hs src ids g (Hdb.contents db)

theorem StoredFC.key_inj {ids : Nat → Int} {g : Nat} {db : Db P C B} (t : StoredFC env s pts hs ids g db) {a b : Node P C B} (ha : a ∈ Hdb.contents db)
    (hb : b ∈ Hdb.contents db) (h : a.key = b.key) : a = b := by
  obtain ⟨-, src, hp⟩ := t
  exact hp.range_eq ha hb (congrArg Prod.fst h) (congrArg Prod.snd h)

theorem StoredFC.id_inj {ids : Nat → Int} {g : Nat} {db : Db P C B} (t : StoredFC env s pts hs ids g db) {a b : Node P C B} (ha : a ∈ Hdb.contents db)
    (hb : b ∈ Hdb.contents db) (h : a.id = b.id) : a = b := by
  obtain ⟨-, src, hp⟩ := t
  exact hp.eq_of_id ha hb h

theorem StoredFC.known {ids : Nat → Int} {g : Nat} {db : Db P C B} (t : StoredFC env s pts hs ids g db) {a : Node P C B} (ha : a ∈ Hdb.contents db) :
    Known (env.run s) pts hs a := by
  obtain ⟨-, src, hp⟩ := t
  exact hp.known ha

/-! ### one run: which pieces are selected -/

theorem selectFCLoop_sound {d : Fl K} {hull : Node P C B} : ∀ {ns dict out : List (Node P C B)}, selectFCLoop env d hull ns dict = .ok out → ∀ x ∈ out,
    x ∈ dict ∨ ∃ n ∈ ns, Wanted env d hull n x := by
  intro ns
  induction ns with
  | nil => intro dict out h x hx; cases h; exact .inl hx
  | cons n ns ih =>
    intro dict out h x hx
    simp only [selectFCLoop, Res.bind_eq_ok] at h
    obtain ⟨r, e1, c, e2, h⟩ := h
    rcases ih h x hx with h1 | ⟨m, hm, h1⟩
    · rcases mem_dictAdd h1 with h1 | h1
      · exact .inl h1
      · exact .inr ⟨n, by simp, r, c, e1, e2, h1⟩
    · exact .inr ⟨m, List.mem_cons_of_mem _ hm, h1⟩

/-- the piece `a` of the index asks for the deformation of `x` because of a conflict -/
def WantN (env : Env P C B K) (dirty : Int → Bool) (l : List (Node P C B)) (a x : Node P C B) : Prop :=
  (env.inst a.inst).opts.avoidNewSelfIntersects = true ∧ ∃ m ∈ l, m.id ≠ a.id ∧ Nbr env a m ∧
    (dirty a.inst = true ∨ (env.inst a.inst).id ≠ (env.inst m.inst).id) ∧ Wanted env (env.inst a.inst).opts.nonPlanarDisplacement a m x

/-- among the piece `a` and its neighbours, pieces that can be split are known by their ranges -/
def Apart (env : Env P C B K) (l : List (Node P C B)) (a : Node P C B) : Prop :=
  (env.inst a.inst).opts.avoidNewSelfIntersects = true → ∀ x ∈ l, ∀ y ∈ l, x.range.size > 1 → x = a ∨ Nbr env a x → y = a ∨ Nbr env a y →
    y.range = x.range → y = x

theorem wanted_cases {e : Env P C B K} (he : EnvOK e) {d : Fl K} {a m x : Node P C B} (ka : Known e pts hs a) (km : Known e pts hs m)
    (hw : Wanted e d a m x) : ∃ r c, fcContiguous e a m = .ok r ∧ candidates e.lib d a m r = .ok c ∧ (x = a ∧ c.1 = some a ∨ x = m ∧ c.2 = some m) := by
  obtain ⟨r, c, f1, f2, f3⟩ := hw
  obtain ⟨r1, g1, g2⟩ := fcContiguous_ok ka km
  rw [f1] at g1; cases g1
  obtain ⟨c1, g3, g4, g5⟩ := candidates_ok he (d := d) ka km g2
  rw [f2] at g3; cases g3
  refine ⟨r, c, f1, f2, ?_⟩
  rcases f3 with f3 | f3
  · have := g4 x f3; subst this; exact .inl ⟨rfl, f3⟩
  · have := g5 x f3; subst this; exact .inr ⟨rfl, f3⟩

theorem fcSelections_mem {e : Env P C B K} (he : EnvOK e) {dirty : Int → Bool} {db : Db P C B} (hd : DbOK db)
    (kv : ∀ x ∈ Hdb.contents db, Known e pts hs x ∧ x.mbr.Valid) {a : Node P C B} (ha : a ∈ Hdb.contents db) (hap : Apart e (Hdb.contents db) a)
    {n : Nat} {q : List (Node P C B)} (eq : fcSelections e dirty db a n = .ok q) {x : Node P C B} (hx : x ∈ Hdb.contents db) (hb : x.range.size > 1) :
    x ∈ q ↔ WantN e dirty (Hdb.contents db) a x := by
  unfold fcSelections at eq
  simp only at eq
  by_cases hav : (e.inst a.inst).opts.avoidNewSelfIntersects = true
  swap
  · rw [if_neg hav] at eq
    cases eq
    exact ⟨fun h => absurd h (by simp), fun h => absurd h.1 hav⟩
  rw [if_pos hav] at eq
  obtain ⟨ns, e4, e5⟩ := Res.bind_eq_ok.1 eq
  have hm := neighboursOf_mem hd (fun x hx => (kv x hx).2) e4
  have hopt : ∀ m, m ∈ optimizeNeighbours e dirty a ns ↔ m ∈ Hdb.contents db ∧ m.id ≠ a.id ∧ Nbr e a m ∧
      (dirty a.inst = true ∨ (e.inst a.inst).id ≠ (e.inst m.inst).id) := by
    intro m
    unfold optimizeNeighbours
    split_ifs with h
    · rw [hm]
      exact ⟨fun ⟨h1, h2, h3, h4⟩ => ⟨h1, h2, ⟨h3, h4⟩, .inl h⟩, fun ⟨h1, h2, ⟨h3, h4⟩, _⟩ => ⟨h1, h2, h3, h4⟩⟩
    · rw [List.mem_filter, hm, decide_eq_true_eq]
      exact ⟨fun ⟨⟨h1, h2, h3, h4⟩, h5⟩ => ⟨h1, h2, ⟨h3, h4⟩, .inr h5⟩, fun ⟨h1, h2, ⟨h3, h4⟩, h5⟩ => ⟨⟨h1, h2, h3, h4⟩, h5.resolve_left h⟩⟩
  constructor
  · intro hxq
    rcases selectFCLoop_sound e5 x hxq with h | ⟨m, hmo, hw⟩
    · cases h
    · obtain ⟨h1, h2, h3, h4⟩ := (hopt m).1 hmo
      exact ⟨hav, m, h1, h2, h3, h4, hw⟩
  · rintro ⟨-, m, h1, h2, h3, h4, hw⟩
    have nx : x = a ∨ Nbr e a x := by
      obtain ⟨_, _, _, _, h⟩ := wanted_cases he (kv a ha).1 (kv m h1).1 hw
      rcases h with ⟨rfl, -⟩ | ⟨rfl, -⟩
      · exact .inl rfl
      · exact .inr h3
    refine selectFCLoop_complete _ _ _ e5 x (.inr ⟨m, (hopt m).2 ⟨h1, h2, h3, h4⟩, hw⟩) ?_
    intro m' hm' y hy hr
    obtain ⟨q1, q2, q3, q4⟩ := (hopt m').1 hm'
    obtain ⟨_, _, _, _, h⟩ := wanted_cases he (kv a ha).1 (kv m' q1).1 hy
    have ⟨hyc, ny⟩ : y ∈ Hdb.contents db ∧ (y = a ∨ Nbr e a y) := by
      rcases h with ⟨rfl, -⟩ | ⟨rfl, -⟩
      · exact ⟨ha, .inl rfl⟩
      · exact ⟨q1, .inr q3⟩
    exact hap hav x hx y hyc hb nx ny hr

/-- what the examination of the piece `a` selects, among the pieces that can be split -/
def PickN (env : Env P C B K) (V : Int × Rng → Bool) (dirty : Int → Bool) (l : List (Node P C B)) (a x : Node P C B) : Prop :=
  a.range.size ≠ 1 ∧ a.geom.isLineString = false ∧ (WantN env dirty l a x ∨ x = a ∧ ¬ WantN env dirty l a a ∧ V a.key = false)

theorem hullSelections_mem {V : Int × Rng → Bool} {ids : Nat → Int} {g : Nat} (ro : RunFC env s pts hs V) {dirty : Int → Bool} {db : Db P C B}
    (t : StoredFC env s pts hs ids g db) {a : Node P C B} (ha : a ∈ Hdb.contents db) (hap : Apart (env.run s) (Hdb.contents db) a)
    {n : Nat} {q : List (Node P C B)} (eq : hullSelections (env.run s) dirty db a n = .ok q) {x : Node P C B} (hx : x ∈ Hdb.contents db) (hb : x.range.size > 1) :
    x ∈ q ↔ PickN (env.run s) V dirty (Hdb.contents db) a x := by
  have t' := t
  obtain ⟨hd, src, hp⟩ := t'
  have kv : ∀ x ∈ Hdb.contents db, Known (env.run s) pts hs x ∧ x.mbr.Valid := fun x hx => ⟨hp.known hx, hp.valid ro.insts hx⟩
  unfold hullSelections at eq
  split at eq
  · rename_i c; cases eq; exact ⟨fun h => absurd h (by simp), fun h => absurd c h.1⟩
  rename_i c1
  split at eq
  · rename_i c; cases eq; exact ⟨fun h => absurd h (by simp), fun h => absurd (c.symm.trans h.2.1) (by simp)⟩
  rename_i c2
  obtain ⟨w, e1, e2⟩ := Res.bind_eq_ok.1 eq
  have hba : a.range.size > 1 := by
    have := (hp.known ha).lt
    simp only [Rng.size] at c1 ⊢; omega
  have hw := fun {z} (hz : z ∈ Hdb.contents db) hb => fcSelections_mem ro.legal hd kv ha hap e1 (x := z) hz hb
  have hwm : ∀ z ∈ w, z ∈ Hdb.contents db := by
    obtain ⟨z1, y1, m1⟩ := fcSelections_yields ro.legal dirty hd kv ha
    have : w = z1 := (show Mono (fcSelections (env.run s) dirty db a) from fcSelections_le _ _ _).val e1 y1
    rw [this]; exact m1
  have hns : notSelected a w = true ↔ a ∉ w := by
    simp only [notSelected, Bool.not_eq_true', List.any_eq_false, decide_eq_true_eq]
    constructor
    · intro h h1; exact h a h1 rfl
    · intro h z hz hid; exact h (hp.eq_of_id (hwm z hz) ha hid ▸ hz)
  have c2' : a.geom.isLineString = false := by simpa using c2
  unfold ctxSelections at e2
  split at e2
  · rename_i c
    have hna := hns.1 c
    rw [hw ha hba] at hna
    obtain ⟨v, v1, e2⟩ := Res.bind_eq_ok.1 e2
    have hv := ro.val (hp.known ha) v1
    cases e2
    cases v with
    | true =>
      simp only [if_true]
      rw [hw hx hb]
      exact ⟨fun h => ⟨c1, c2', .inl h⟩, fun h => h.2.2.resolve_right (fun h => by rw [← hv] at h; exact absurd h.2.2 (by simp))⟩
    | false =>
      simp only [Bool.false_eq_true, if_false, List.mem_append, List.mem_singleton, hw hx hb]
      constructor
      · rintro (h | rfl)
        · exact ⟨c1, c2', .inl h⟩
        · exact ⟨c1, c2', .inr ⟨rfl, hna, hv.symm⟩⟩
      · rintro ⟨-, -, h | ⟨h, -⟩⟩
        · exact .inl h
        · exact .inr h
  · rename_i c
    have hna : WantN (env.run s) dirty (Hdb.contents db) a a := by
      rw [← hw ha hba]; by_contra h; exact c (hns.2 h)
    cases e2
    rw [hw hx hb]
    exact ⟨fun h => ⟨c1, c2', .inl h⟩, fun h => h.2.2.resolve_right (fun h => h.2.1 hna)⟩

theorem selectionsOf_iff {e : Env P C B K} {dirty : Int → Bool} {db : Db P C B} {n : Nat} : ∀ {hulls o : List (Node P C B)}, selectionsOf e dirty db n hulls = .ok o →
    (∀ a ∈ hulls, ∃ q, hullSelections e dirty db a n = .ok q) ∧
    ∀ x, x ∈ o ↔ ∃ a ∈ hulls, ∃ q, hullSelections e dirty db a n = .ok q ∧ x ∈ q := by
  intro hulls
  induction hulls with
  | nil => intro o e; cases e; simp
  | cons a hulls ih =>
    intro o e
    rw [selectionsOf] at e
    obtain ⟨q, e1, e⟩ := Res.bind_eq_ok.1 e
    obtain ⟨rest, e2, e⟩ := Res.bind_eq_ok.1 e
    cases e
    obtain ⟨i1, i2⟩ := ih e2
    refine ⟨fun y hy => ?_, fun x => ?_⟩
    · rcases List.mem_cons.1 hy with rfl | hy
      · exact ⟨q, e1⟩
      · exact i1 y hy
    · have : (∃ q', hullSelections _ dirty db a n = .ok q' ∧ x ∈ q') ↔ x ∈ q :=
        ⟨fun ⟨q', h1, h2⟩ => by rw [e1] at h1; cases h1; exact h2, fun h1 => ⟨q, e1, h1⟩⟩
      simp only [List.mem_append, i2 x, List.mem_cons, exists_eq_or_imp, this]

theorem findDeformable_iff {V : Int × Rng → Bool} {ids : Nat → Int} {g : Nat} (ro : RunFC env s pts hs V) {dirty : Int → Bool} {db : Db P C B}
    (t : StoredFC env s pts hs ids g db) {defs : List (Node P C B)} (hm : ∀ x ∈ defs, x ∈ Hdb.contents db)
    (hap : ∀ a ∈ defs, a.range.size > 1 → Apart (env.run s) (Hdb.contents db) a)
    {n : Nat} {sel : List (Node P C B)} (e : findDeformable (env.run s) dirty defs db n = .ok sel) {x : Node P C B} (hx : x ∈ Hdb.contents db)
    (hb : x.range.size > 1) : x ∈ sel ↔ ∃ a ∈ defs, PickN (env.run s) V dirty (Hdb.contents db) a x := by
  obtain ⟨q, f1, e⟩ := Res.bind_eq_ok.1 e
  cases e
  have t' := t
  obtain ⟨hd, src, hp⟩ := t'
  obtain ⟨d1, d2, d3⟩ := dedupId_spec q
  have hq : ∀ y ∈ q, y ∈ Hdb.contents db := by
    obtain ⟨z, y, hz, -⟩ := selectionsOf_yields ro.legal ro.insts dirty hd (fun x hx => ⟨hp.known hx, hp.valid ro.insts hx⟩) defs hm
    have : q = z := (show Mono (fun n => selectionsOf (env.run s) dirty db n defs) from fun n => selectionsOf_le _ _ _ n defs).val f1 y
    rw [this]; exact hz
  have hxq : x ∈ dedupId q ↔ x ∈ q := by
    refine ⟨d1 x, fun h => ?_⟩
    obtain ⟨y, hy, hid⟩ := d3 x h
    exact hp.eq_of_id (hq y (d1 y hy)) hx hid ▸ hy
  obtain ⟨c1, c2⟩ := selectionsOf_iff f1
  rw [hxq, c2]
  have key : ∀ a ∈ defs, ∀ w, hullSelections (env.run s) dirty db a n = .ok w → (x ∈ w ↔ PickN (env.run s) V dirty (Hdb.contents db) a x) := by
    intro a ha w hw
    by_cases hs1 : a.range.size > 1
    · exact hullSelections_mem ro t (hm a ha) (hap a ha hs1) hw hx hb
    · have h1 : a.range.size = 1 := by
        have := (hp.known (hm a ha)).lt
        simp only [Rng.size] at hs1 ⊢; omega
      rw [hullSelections, if_pos h1] at hw
      cases hw
      exact ⟨fun h => absurd h (by simp), fun h => absurd h1 h.1⟩
  constructor
  · rintro ⟨a, ha, w, hw, hxw⟩
    exact ⟨a, ha, (key a ha w hw).1 hxw⟩
  · rintro ⟨a, ha, h⟩
    obtain ⟨w, hw⟩ := c1 a ha
    exact ⟨a, ha, w, hw, (key a ha w hw).2 h⟩

/-! ### two runs: the same pieces are selected -/

theorem fcContiguous_withId (a b : Node P C B) (i j : Int) : fcContiguous env (a.withId i) (b.withId j) = fcContiguous env a b := rfl

theorem candidates_withId (lib : Lib P C B K) (d : Fl K) (a b : Node P C B) (i j : Int) (f : Bool × Bool × Nat) :
    candidates lib d (a.withId i) (b.withId j) f = candidates lib d a b f >>= fun c => .ok (c.1.map (·.withId i), c.2.map (·.withId j)) := by
  unfold candidates
  split_ifs
  · rfl
  · rw [contiguousCandidates_withId]
  · rw [nonContiguousCandidates_withId]; rfl
  · rfl

theorem WantN.other {ids1 ids2 : Nat → Int} {g1 g2 : Nat} {db1 db2 : Db P C B} {dirty1 dirty2 : Int → Bool} (l1 : EnvOK (env.run s1))
    (t1 : StoredFC env s1 pts hs ids1 g1 db1) (t2 : StoredFC env s2 pts hs ids2 g2 db2) (hk : SameK (Hdb.contents db1) (Hdb.contents db2))
    (hd : ∀ k ∈ hs, dirty1 k = dirty2 k) {a1 a2 x1 x2 : Node P C B} (ha1 : a1 ∈ Hdb.contents db1) (ha2 : a2 ∈ Hdb.contents db2) (ka : a1.key = a2.key)
    (hx2 : x2 ∈ Hdb.contents db2) (kx : x1.key = x2.key)
    (hw : WantN (env.run s1) dirty1 (Hdb.contents db1) a1 x1) : WantN (env.run s2) dirty2 (Hdb.contents db2) a2 x2 := by
  obtain ⟨hav, m1, hm1, hid, hn, hq, hw⟩ := hw
  obtain ⟨m2, hm2, km⟩ := hk.mem hm1
  have ea := (t1.known ha1).eq_withId_of_key (t2.known ha2) ka
  have em := (t1.known hm1).eq_withId_of_key (t2.known hm2) km.symm
  have hne : m2.id ≠ a2.id := by
    intro h
    have := t2.id_inj hm2 ha2 h
    subst this
    exact hid (by rw [t1.key_inj hm1 ha1 (km.symm.trans ka.symm)])
  have hai : a2.inst = a1.inst := congrArg Prod.fst ka.symm
  have hmi : m2.inst = m1.inst := congrArg Prod.fst km
  obtain ⟨r, c, f1, f2, f3⟩ := wanted_cases l1 (t1.known ha1) (t1.known hm1) hw
  refine ⟨by rw [hai]; exact hav, m2, hm2, hne, ?_, ?_, ?_⟩
  · rw [ea, em]; exact hn
  · rw [hai, hmi, ← hd _ (t1.known ha1).inst]; exact hq
  · rw [hai]
    refine ⟨r, (c.1.map (·.withId a2.id), c.2.map (·.withId m2.id)), ?_, ?_, ?_⟩
    · rw [ea, em]; exact f1
    · have h1 : candidates env.lib (env.inst a1.inst).opts.nonPlanarDisplacement (a1.withId a2.id) (m1.withId m2.id) r = _ :=
        candidates_withId env.lib _ a1 m1 a2.id m2.id r
      rw [← ea, ← em] at h1
      have f2 : candidates env.lib (env.inst a1.inst).opts.nonPlanarDisplacement a1 m1 r = .ok c := f2
      rw [f2] at h1
      exact h1
    · rcases f3 with ⟨rfl, f3⟩ | ⟨rfl, f3⟩
      · left
        rw [t2.key_inj hx2 ha2 (kx.symm.trans ka), f3, Option.map_some, ← ea]
      · right
        rw [t2.key_inj hx2 hm2 (kx.symm.trans km.symm), f3, Option.map_some, ← em]

theorem PickN.other {V : Int × Rng → Bool} {ids1 ids2 : Nat → Int} {g1 g2 : Nat} {db1 db2 : Db P C B} {dirty1 dirty2 : Int → Bool} (l1 : EnvOK (env.run s1))
    (l2 : EnvOK (env.run s2)) (t1 : StoredFC env s1 pts hs ids1 g1 db1) (t2 : StoredFC env s2 pts hs ids2 g2 db2)
    (hk : SameK (Hdb.contents db1) (Hdb.contents db2)) (hd : ∀ k ∈ hs, dirty1 k = dirty2 k) {a1 a2 x1 x2 : Node P C B}
    (ha1 : a1 ∈ Hdb.contents db1) (ha2 : a2 ∈ Hdb.contents db2) (ka : a1.key = a2.key) (hx2 : x2 ∈ Hdb.contents db2)
    (kx : x1.key = x2.key) (hw : PickN (env.run s1) V dirty1 (Hdb.contents db1) a1 x1) : PickN (env.run s2) V dirty2 (Hdb.contents db2) a2 x2 := by
  obtain ⟨h1, h2, h3⟩ := hw
  have ea := (t1.known ha1).eq_withId_of_key (t2.known ha2) ka
  refine ⟨by rw [ea]; exact h1, by rw [ea]; exact h2, ?_⟩
  rcases h3 with h3 | ⟨rfl, h3, h4⟩
  · exact .inl (h3.other l1 t1 t2 hk hd ha1 ha2 ka hx2 kx)
  · exact .inr ⟨t2.key_inj hx2 ha2 (kx.symm.trans ka), fun h => h3 (h.other l2 t2 t1 hk.symm (fun k hk => (hd k hk).symm) ha2 ha1 ka.symm ha1 ka.symm),
      by rw [← ka]; exact h4⟩

theorem findDeformable_sameFC {V : Int × Rng → Bool} {ids1 ids2 : Nat → Int} {g1 g2 : Nat} {db1 db2 : Db P C B} {dirty1 dirty2 : Int → Bool}
    (r1 : RunFC env s1 pts hs V) (r2 : RunFC env s2 pts hs V) (t1 : StoredFC env s1 pts hs ids1 g1 db1) (t2 : StoredFC env s2 pts hs ids2 g2 db2)
    (hk : SameK (Hdb.contents db1) (Hdb.contents db2)) (hd : ∀ k ∈ hs, dirty1 k = dirty2 k) {l1 l2 : List (Node P C B)}
    (m1 : ∀ x ∈ l1, x ∈ Hdb.contents db1) (m2 : ∀ x ∈ l2, x ∈ Hdb.contents db2) (hl : SameBig l1 l2)
    (p1 : ∀ a ∈ l1, a.range.size > 1 → Apart (env.run s1) (Hdb.contents db1) a) (p2 : ∀ a ∈ l2, a.range.size > 1 → Apart (env.run s2) (Hdb.contents db2) a)
    {n m : Nat} {o1 o2 : List (Node P C B)} (n1 : ∀ x ∈ o1, x ∈ Hdb.contents db1) (n2 : ∀ x ∈ o2, x ∈ Hdb.contents db2)
    (e1 : findDeformable (env.run s1) dirty1 l1 db1 n = .ok o1) (e2 : findDeformable (env.run s2) dirty2 l2 db2 m = .ok o2) : SameBig o1 o2 := by
  have key : ∀ {u1 u2 : Sched P C B K} {ids1 ids2 : Nat → Int} {g1 g2 : Nat} {db1 db2 : Db P C B} {dirty1 dirty2 : Int → Bool},
      RunFC env u1 pts hs V → RunFC env u2 pts hs V → StoredFC env u1 pts hs ids1 g1 db1 → StoredFC env u2 pts hs ids2 g2 db2 →
      SameK (Hdb.contents db1) (Hdb.contents db2) → (∀ k ∈ hs, dirty1 k = dirty2 k) → ∀ {l1 l2 : List (Node P C B)}, (∀ x ∈ l1, x ∈ Hdb.contents db1) →
      (∀ x ∈ l2, x ∈ Hdb.contents db2) → SameBig l1 l2 → (∀ a ∈ l1, a.range.size > 1 → Apart (env.run u1) (Hdb.contents db1) a) →
      (∀ a ∈ l2, a.range.size > 1 → Apart (env.run u2) (Hdb.contents db2) a) → ∀ {n m : Nat} {o1 o2 : List (Node P C B)}, (∀ x ∈ o1, x ∈ Hdb.contents db1) →
      findDeformable (env.run u1) dirty1 l1 db1 n = .ok o1 → findDeformable (env.run u2) dirty2 l2 db2 m = .ok o2 →
      ∀ k : Int × Rng, k.2.size > 1 → k ∈ o1.map Node.key → k ∈ o2.map Node.key := by
    intro u1 u2 ids1 ids2 g1 g2 db1 db2 dirty1 dirty2 r1 r2 t1 t2 hk hd l1 l2 m1 m2 hl p1 p2 n m o1 o2 n1 e1 e2 k hkb hko
    obtain ⟨x, hx, rfl⟩ := List.mem_map.1 hko
    obtain ⟨y, hy, kxy⟩ := hk.mem (n1 x hx)
    have hxb : x.range.size > 1 := hkb
    have hyb : y.range.size > 1 := by rw [show y.range = x.range from congrArg Prod.snd kxy]; exact hxb
    obtain ⟨a, ha, hp⟩ := (findDeformable_iff r1 t1 m1 p1 e1 (n1 x hx) hxb).1 hx
    have hab : a.range.size > 1 := by
      have h1 := hp.1
      have := (t1.known (m1 a ha)).lt
      simp only [Rng.size] at h1 ⊢; omega
    obtain ⟨b, hb, kab⟩ := hl.mem ha hab
    refine List.mem_map.2 ⟨y, (findDeformable_iff r2 t2 m2 p2 e2 hy hyb).2 ⟨b, hb, ?_⟩, kxy⟩
    exact hp.other r1.legal r2.legal t1 t2 hk hd (m1 a ha) (m2 b hb) kab.symm hy kxy.symm
  exact fun k hkb => ⟨key r1 r2 t1 t2 hk hd m1 m2 hl p1 p2 n1 e1 e2 k hkb,
    key r2 r1 t2 t1 hk.symm (fun k hk => (hd k hk).symm) m2 m1 hl.symm p2 p1 n2 e2 e1 k hkb⟩

/-! ### one round, the loop -/

/-- constdp/simple_1.go:16-30: the keys the selected pieces are replaced by, and the marks -/
theorem deformNodesLoop_keys {ids : Nat → Int} : ∀ {sel : List (Node P C B)} {g : Nat} {dirty : Int → Bool} {out : List (Node P C B)} {g' : Nat}
    {dirty' : Int → Bool}, (∀ x ∈ sel, Known (env.run s) pts hs x) → (∀ k ∈ hs, InstOK (env.run s) k (pts k)) →
    deformNodesLoop (env.run s) ids sel g dirty = .ok (out, g', dirty') →
    (∀ k, dirty' k = true ↔ dirty k = true ∨ ∃ x ∈ sel, x.range.size > 1 ∧ x.inst = k) ∧
    ∀ k : Int × Rng, k ∈ out.map Node.key ↔ ∃ x ∈ sel, x.inst = k.1 ∧ CutTo env pts k.1 x.range k.2 := by
  intro sel
  induction sel with
  | nil => intro g dirty out g' dirty' _ _ e; cases e; simp
  | cons x sel ih =>
    intro g dirty out g' dirty' hk hi e
    have hx := hk x (by simp)
    have hk' := fun y hy => hk y (List.mem_cons_of_mem x hy)
    rw [deformNodesLoop] at e
    split at e
    · rename_i hsz
      obtain ⟨⟨ha, hb, g1⟩, e1, e⟩ := Res.bind_eq_ok.1 e
      obtain ⟨⟨rest, g2, dirty2⟩, e2, e⟩ := Res.bind_eq_ok.1 e
      cases e
      have hsz' : x.range.I + 1 < x.range.J := by simp only [Rng.size] at hsz; omega
      obtain ⟨k, v, sk, k0, k1⟩ := (hi _ hx.inst).score _ _ hx.lo hsz' hx.hi
      obtain ⟨ha', hb', f1, p1, p2, ra, rb, -⟩ := atScoreSelection_spec (hi _ hx.inst).hull hx.piece hx.lo hx.hi sk k0 k1 ids g
      rw [e1] at f1
      cases f1
      obtain ⟨i1, i2⟩ := ih hk' hi e2
      refine ⟨fun k => ?_, fun r => ?_⟩
      · rw [i1]
        simp only [markDirty, List.mem_cons, exists_eq_or_imp, hsz, true_and]
        by_cases h : k = x.inst
        · simp [h]
        · have h' : ¬ x.inst = k := fun h' => h h'.symm
          simp [h, h']
      · have : x.inst = r.1 ∧ CutTo env pts r.1 x.range r.2 ↔ r = ha.key ∨ r = hb.key := by
          have hA : ha.key = (x.inst, ⟨x.range.I, x.range.I + k⟩) := Prod.ext p1.inst ra
          have hB : hb.key = (x.inst, ⟨x.range.I + k, x.range.J⟩) := Prod.ext p2.inst rb
          rw [hA, hB]
          constructor
          · rintro ⟨h1, h2⟩
            rw [CutTo, if_pos hsz, ← h1] at h2
            obtain ⟨k', v', h3, h4⟩ := h2
            have h3' : Res.ok (k, v) = Res.ok (k', v') := sk.symm.trans h3
            cases h3'
            rcases h4 with h4 | h4
            · exact .inl (Prod.ext h1.symm h4)
            · exact .inr (Prod.ext h1.symm h4)
          · rintro (h | h) <;> subst h
            · exact ⟨rfl, by rw [CutTo, if_pos hsz]; exact ⟨k, v, sk, .inl rfl⟩⟩
            · exact ⟨rfl, by rw [CutTo, if_pos hsz]; exact ⟨k, v, sk, .inr rfl⟩⟩
        simp only [List.map_cons, List.mem_cons, i2 r, exists_eq_or_imp, this, or_assoc]
    · rename_i hsz
      obtain ⟨⟨rest, g2, dirty2⟩, e2, e⟩ := Res.bind_eq_ok.1 e
      cases e
      obtain ⟨i1, i2⟩ := ih hk' hi e2
      refine ⟨fun k => ?_, fun r => ?_⟩
      · rw [i1]
        simp only [List.mem_cons, exists_eq_or_imp, hsz, false_and, false_or]
      · have : x.inst = r.1 ∧ CutTo env pts r.1 x.range r.2 ↔ r = x.key := by
          rw [CutTo, if_neg hsz]
          exact ⟨fun ⟨h1, h2⟩ => Prod.ext h1.symm h2, fun h => by subst h; exact ⟨rfl, rfl⟩⟩
        simp only [List.map_cons, List.mem_cons, i2 r, exists_eq_or_imp, this]

/-- the keys of a half come from the key of a piece that can be split -/
theorem CutTo.big {h : Int} {r r' : Rng} (hc : CutTo env pts h r r') (hb : r'.size > 1) (hr : ¬ r.size > 1) : False := by
  rw [CutTo, if_neg hr] at hc
  exact hr (hc ▸ hb)

/-- constdp/fc_simplify.go:56-61: what one round does to the keys -/
theorem deformRound_keys {V : Int × Rng → Bool} {ids : Nat → Int} (ro : RunFC env s pts hs V) (hinj : Function.Injective ids) {st : LoopSt P C B}
    (t : StoredFC env s pts hs ids st.g st.db) {sel : List (Node P C B)} (hm : ∀ x ∈ sel, x ∈ Hdb.contents st.db) (hn : (sel.map Node.id).Nodup)
    {n : Nat} {out : List (Node P C B)} {st' : LoopSt P C B} (e : deformRound (env.run s) ids st sel n = .ok (out, st')) :
    StoredFC env s pts hs ids st'.g st'.db ∧ (∀ x ∈ out, x ∈ Hdb.contents st'.db) ∧
      (∀ k, st'.dirty k = true ↔ st.dirty k = true ∨ ∃ x ∈ sel, x.range.size > 1 ∧ x.inst = k) ∧
      (∀ k : Int × Rng, k ∈ out.map Node.key ↔ ∃ x ∈ sel, x.inst = k.1 ∧ CutTo env pts k.1 x.range k.2) ∧
      (∀ k : Int × Rng, k ∈ (Hdb.contents st'.db).map Node.key ↔ (∃ x ∈ sel, x.range.size > 1 ∧ x.inst = k.1 ∧ CutTo env pts k.1 x.range k.2) ∨
        (k ∈ (Hdb.contents st.db).map Node.key ∧ ∀ x ∈ sel, x.range.size > 1 → x.key ≠ k)) ∧
      ((∀ x ∈ sel, ¬ x.range.size > 1) → out.Perm sel ∧ (Hdb.contents st'.db).Perm (Hdb.contents st.db)) := by
  have t' := t
  obtain ⟨okd, src, hp⟩ := t'
  obtain ⟨out', st1, rest, y, w, hg, p1, b1, b2, -, -, b3⟩ := deformRound_yields ro.legal ro.insts hinj okd hp hm hn
  have := (deformRound_le (env.run s) ids st sel).val e y
  cases this
  obtain ⟨⟨o, g1, dirty1⟩, e1, e⟩ := Res.bind_eq_ok.1 e
  obtain ⟨d1, e2, e⟩ := Res.bind_eq_ok.1 e
  obtain ⟨d2, e3, e⟩ := Res.bind_eq_ok.1 e
  cases e
  have ho := ro.legal.ord st.g sel
  obtain ⟨k1, k2⟩ := deformNodesLoop_keys (env := env) (s := s) (pts := pts) (hs := hs) (fun x hx => hp.known (hm x (ho.mem_iff.1 hx))) ro.insts e1
  have k2' : ∀ k : Int × Rng, k ∈ out.map Node.key ↔ ∃ x ∈ sel, x.inst = k.1 ∧ CutTo env pts k.1 x.range k.2 := by
    intro k; rw [k2 k]; simp only [ho.mem_iff]
  refine ⟨⟨w, src, p1⟩, fun x hx => b2.mem_iff.2 (List.mem_append_left _ hx), fun k => ?_, k2', fun k => ?_, fun hsm => ⟨b3 hsm, ?_⟩⟩
  · rw [k1 k]; simp only [ho.mem_iff]
  · rw [(b2.map _).mem_iff, List.map_append, List.mem_append, k2' k]
    have hrest : k ∈ rest.map Node.key → k ∈ (Hdb.contents st.db).map Node.key ∧ ∀ x ∈ sel, x.key ≠ k := by
      intro h1
      obtain ⟨x, hx, rfl⟩ := List.mem_map.1 h1
      have hxc : x ∈ Hdb.contents st.db := b1.mem_iff.2 (List.mem_append_right _ hx)
      refine ⟨List.mem_map.2 ⟨x, hxc, rfl⟩, fun z hz hzk => ?_⟩
      have hn' := (b1.map Node.id).nodup_iff.1 hp.nodup
      rw [List.map_append, List.nodup_append] at hn'
      have : z = x := t.key_inj (hm z hz) hxc hzk
      exact hn'.2.2 z.id (List.mem_map_of_mem hz) x.id (List.mem_map_of_mem hx) (by rw [this])
    constructor
    · rintro (⟨x, hx, h1, h2⟩ | h1)
      · by_cases hb : x.range.size > 1
        · exact .inl ⟨x, hx, hb, h1, h2⟩
        · rw [CutTo, if_neg hb] at h2
          have hxk : x.key = k := Prod.ext h1 h2.symm
          refine .inr ⟨List.mem_map.2 ⟨x, hm x hx, hxk⟩, fun z hz hzb hzk => hb ?_⟩
          rw [t.key_inj (hm x hx) (hm z hz) (hxk.trans hzk.symm)]; exact hzb
      · exact .inr ⟨(hrest h1).1, fun x hx _ => (hrest h1).2 x hx⟩
    · rintro (⟨x, hx, hb, h1, h2⟩ | ⟨h1, h2⟩)
      · exact .inl ⟨x, hx, h1, h2⟩
      · obtain ⟨z, hz, rfl⟩ := List.mem_map.1 h1
        rcases List.mem_append.1 (b1.mem_iff.1 hz) with hz | hz
        · have hzb : ¬ z.range.size > 1 := fun h => h2 z hz h rfl
          exact .inl ⟨z, hz, rfl, by rw [CutTo, if_neg hzb]; rfl⟩
        · exact .inr (List.mem_map.2 ⟨z, hz, rfl⟩)
  · exact (b2.trans ((b3 hsm).append_right rest)).trans b1.symm

/-- if new self-intersections are to be avoided, no piece has among its neighbours and itself pieces of different features with the same index range -/
def NoClash (env : Env P C B K) (pts : Int → List P) (outs : List (Int × Out P C B)) (handles : List Int) : Prop :=
  ∀ a ∈ handles, (env.inst a).opts.avoidNewSelfIntersects = true → ∀ b ∈ handles, ∀ c ∈ handles, ∀ i j k l, Occurs env pts outs a k l →
    Occurs env pts outs b i j → Occurs env pts outs c i j → k + 1 < l → i + 1 < j → Touches env pts a k l b i j → Touches env pts a k l c i j → b = c

theorem RangesApart.noClash {outs : List (Int × Out P C B)} (h : RangesApart env pts outs hs) : NoClash env pts outs hs := fun a ha _ => h a ha

theorem NoClash.apart {outs : List (Int × Out P C B)} (hap : NoClash env pts outs hs) {ids : Nat → Int} {g : Nat} {db : Db P C B}
    (t : StoredFC env s pts hs ids g db) (hocc : ∀ x ∈ Hdb.contents db, Occurs env pts outs x.inst x.range.I x.range.J) {a : Node P C B}
    (ha : a ∈ Hdb.contents db) (hb : a.range.size > 1) : Apart (env.run s) (Hdb.contents db) a := by
  intro hav x hx y hy bx nx ny hr
  have t' := t
  obtain ⟨-, src, hp⟩ := t'
  have hsz : ∀ x ∈ Hdb.contents db, x.range.size > 1 → x.range.I + 1 < x.range.J := by
    intro x hx bx
    have := (hp.known hx).lt
    simp only [Rng.size] at bx
    omega
  have htouch : ∀ x ∈ Hdb.contents db, x = a ∨ Nbr (env.run s) a x → Touches env pts a.inst a.range.I a.range.J x.inst x.range.I x.range.J := by
    intro x hx hax
    by_cases hxa : x = a
    · subst hxa; exact .inl ⟨rfl, rfl, rfl⟩
    · obtain ⟨h1, h2⟩ := hax.resolve_left hxa
      have pa := (hp.known ha).piece
      have px := (hp.known hx).piece
      rw [pa.mbr, px.mbr] at h1
      refine .inr ⟨fun hin => ?_, _, _, pa.geom, px.geom, h1, h2⟩
      have hd := (hp.restrict (hp.known ha).inst).disjoint (a := a) (b := x) (List.mem_filter.2 ⟨ha, by simp⟩) (List.mem_filter.2 ⟨hx, by simp [hin]⟩)
      exact hd.resolve_left (fun h => hxa h.symm)
  have oy := hocc y hy
  have ty := htouch y hy ny
  rw [hr] at oy ty
  exact hp.range_eq hy hx (hap _ (hp.known ha).inst hav _ (hp.known hy).inst _ (hp.known hx).inst _ _ _ _ (hocc a ha) oy (hocc x hx) (hsz a ha hb)
    (hsz x hx bx) ty (htouch x hx nx)) hr

/-- constdp/fc_simplify.go:51-66: if all pieces to examine are single segments, the loop changes nothing -/
theorem deformLoop_small {V : Int × Rng → Bool} {ids : Nat → Int} (ro : RunFC env s pts hs V) {n : Nat} {l : List (Node P C B)} {a b : LoopSt P C B}
    (t : StoredFC env s pts hs ids a.g a.db) (hm : ∀ x ∈ l, x ∈ Hdb.contents a.db) (hsm : ∀ x ∈ l, ¬ x.range.size > 1)
    (e : deformLoop (env.run s) ids n l a = .ok b) : b = a := by
  cases n with
  | zero => cases e
  | succ n =>
    rw [deformLoop] at e
    split at e
    · cases e; rfl
    obtain ⟨q, f, e⟩ := Res.bind_eq_ok.1 e
    obtain ⟨src, hp⟩ := t.pieces
    obtain ⟨z, y, -, -, hz, -⟩ := findDeformable_yields ro.legal ro.insts a.dirty t.okd hp l hm
    have : q = z := (findDeformable_le _ _ _ _).val f y
    subst this
    have hq : q = [] := hz (fun x hx => by
      have h1 := hsm x hx
      have := (hp.known (hm x hx)).lt
      simp only [Rng.size] at h1 ⊢; omega)
    rw [if_pos hq] at e
    cases e; rfl

/-- the same if no piece that can be split is selected -/
theorem deformLoop_quiet {V : Int × Rng → Bool} {ids : Nat → Int} (ro : RunFC env s pts hs V) (hinj : Function.Injective ids) {n : Nat}
    {sel : List (Node P C B)} {a b : LoopSt P C B} (t : StoredFC env s pts hs ids a.g a.db) (hm : ∀ x ∈ sel, x ∈ Hdb.contents a.db)
    (hn : (sel.map Node.id).Nodup) (hsm : ∀ x ∈ sel, ¬ x.range.size > 1)
    (e : (if sel = [] then .ok a else deformRound (env.run s) ids a sel n >>= fun r => deformLoop (env.run s) ids n r.1 r.2) = .ok b) :
    StoredFC env s pts hs ids b.g b.db ∧ (Hdb.contents b.db).Perm (Hdb.contents a.db) := by
  split at e
  · cases e; exact ⟨t, .refl _⟩
  obtain ⟨⟨o, c⟩, k, e⟩ := Res.bind_eq_ok.1 e
  obtain ⟨w, x, -, -, -, h⟩ := deformRound_keys ro hinj t hm hn k
  obtain ⟨p1, p2⟩ := h hsm
  have : b = c := deformLoop_small ro w x (fun y hy => hsm y (p1.mem_iff.1 hy)) e
  subst this
  exact ⟨w, p2⟩

/-- constdp/fc_simplify.go:51-66: the pieces after the loop do not depend on the run -/
theorem deformLoop_sameFC {V : Int × Rng → Bool} {ids1 ids2 : Nat → Int} (r1 : RunFC env s1 pts hs V) (r2 : RunFC env s2 pts hs V)
    (j1 : Function.Injective ids1) (j2 : Function.Injective ids2) {outs : List (Int × Out P C B)} (hap : NoClash env pts outs hs) :
    ∀ {n m : Nat} {l1 l2 : List (Node P C B)} {a1 a2 b1 b2 : LoopSt P C B},
    StoredFC env s1 pts hs ids1 a1.g a1.db → StoredFC env s2 pts hs ids2 a2.g a2.db → SameK (Hdb.contents a1.db) (Hdb.contents a2.db) →
    (∀ k ∈ hs, a1.dirty k = a2.dirty k) → (∀ x ∈ l1, x ∈ Hdb.contents a1.db) → (∀ x ∈ l2, x ∈ Hdb.contents a2.db) → SameBig l1 l2 →
    (∀ x ∈ Hdb.contents a1.db, Occurs env pts outs x.inst x.range.I x.range.J) →
    deformLoop (env.run s1) ids1 n l1 a1 = .ok b1 → deformLoop (env.run s2) ids2 m l2 a2 = .ok b2 →
    StoredFC env s1 pts hs ids1 b1.g b1.db ∧ StoredFC env s2 pts hs ids2 b2.g b2.db ∧ SameK (Hdb.contents b1.db) (Hdb.contents b2.db) := by
  intro n
  induction n with
  | zero => intro m l1 l2 a1 a2 b1 b2 _ _ _ _ _ _ _ _ e1; cases e1
  | succ n ih =>
    intro m l1 l2 a1 a2 b1 b2 t1 t2 hs' hd m1 m2 hl hocc e1 e2
    have hsmall : ∀ {x y : List (Node P C B)}, SameBig x y → (∀ z ∈ x, ¬ z.range.size > 1) → ∀ z ∈ y, ¬ z.range.size > 1 := by
      intro x y hxy hx z hz hb
      obtain ⟨w, hw, hk⟩ := hxy.symm.mem hz hb
      exact hx w hw (by rw [show w.range = z.range from congrArg Prod.snd hk]; exact hb)
    by_cases c1 : l1 = []
    · have q2 := deformLoop_small r2 t2 m2 (hsmall hl (by simp [c1])) e2
      have q1 := deformLoop_small r1 t1 m1 (by simp [c1]) e1
      subst q1; subst q2
      exact ⟨t1, t2, hs'⟩
    by_cases c2 : l2 = []
    · have q2 := deformLoop_small r2 t2 m2 (by simp [c2]) e2
      have q1 := deformLoop_small r1 t1 m1 (hsmall hl.symm (by simp [c2])) e1
      subst q1; subst q2
      exact ⟨t1, t2, hs'⟩
    cases m with
    | zero => cases e2
    | succ m =>
      rw [deformLoop, if_neg c1] at e1
      rw [deformLoop, if_neg c2] at e2
      obtain ⟨q1, f1, e1⟩ := Res.bind_eq_ok.1 e1
      obtain ⟨q2, f2, e2⟩ := Res.bind_eq_ok.1 e2
      have hocc2 : ∀ x ∈ Hdb.contents a2.db, Occurs env pts outs x.inst x.range.I x.range.J := by
        intro x hx
        obtain ⟨y, hy, hk⟩ := hs'.symm.mem hx
        have := hocc y hy
        rwa [show y.inst = x.inst from congrArg Prod.fst hk, show y.range = x.range from congrArg Prod.snd hk] at this
      obtain ⟨src1, p1⟩ := t1.pieces
      obtain ⟨src2, p2⟩ := t2.pieces
      obtain ⟨z1, y1, u1, v1, -⟩ := findDeformable_yields r1.legal r1.insts a1.dirty t1.okd p1 l1 m1
      obtain ⟨z2, y2, u2, v2, -⟩ := findDeformable_yields r2.legal r2.insts a2.dirty t2.okd p2 l2 m2
      have : q1 = z1 := (findDeformable_le _ _ _ _).val f1 y1
      subst this
      have : q2 = z2 := (findDeformable_le _ _ _ _).val f2 y2
      subst this
      have hq : SameBig q1 q2 := findDeformable_sameFC r1 r2 t1 t2 hs' hd m1 m2 hl (fun a ha hb => hap.apart t1 hocc (m1 a ha) hb)
        (fun a ha hb => hap.apart t2 hocc2 (m2 a ha) hb) u1 u2 f1 f2
      by_cases hb : ∀ x ∈ q1, ¬ x.range.size > 1
      · obtain ⟨w1, k1⟩ := deformLoop_quiet r1 j1 t1 u1 v1 hb e1
        obtain ⟨w2, k2⟩ := deformLoop_quiet r2 j2 t2 u2 v2 (hsmall hq hb) e2
        exact ⟨w1, w2, hs'.perm k1.symm k2.symm⟩
      have n1 : q1 ≠ [] := by rintro rfl; exact hb (by simp)
      have n2 : q2 ≠ [] := by rintro rfl; exact hb (hsmall hq.symm (by simp))
      rw [if_neg n1] at e1
      rw [if_neg n2] at e2
      obtain ⟨⟨o1, c1⟩, k1, e1⟩ := Res.bind_eq_ok.1 e1
      obtain ⟨⟨o2, c2⟩, k2, e2⟩ := Res.bind_eq_ok.1 e2
      obtain ⟨w1, x1, d1, o1r, b1r, -⟩ := deformRound_keys r1 j1 t1 u1 v1 k1
      obtain ⟨w2, x2, d2, o2r, b2r, -⟩ := deformRound_keys r2 j2 t2 u2 v2 k2
      have hsel : ∀ {u v : List (Node P C B)}, SameBig u v → ∀ {F : Int → Rng → Prop}, (∃ x ∈ u, x.range.size > 1 ∧ F x.inst x.range) →
          ∃ x ∈ v, x.range.size > 1 ∧ F x.inst x.range := by
        rintro u v huv F ⟨x, hx, hb, hf⟩
        obtain ⟨y, hy, hk⟩ := huv.mem hx hb
        have h1 : y.range = x.range := congrArg Prod.snd hk
        have h2 : y.inst = x.inst := congrArg Prod.fst hk
        exact ⟨y, hy, h1 ▸ hb, by rw [h1, h2]; exact hf⟩
      have hcut : ∀ {k : Int × Rng}, (∃ x ∈ q1, x.range.size > 1 ∧ x.inst = k.1 ∧ CutTo env pts k.1 x.range k.2) ↔
          ∃ x ∈ q2, x.range.size > 1 ∧ x.inst = k.1 ∧ CutTo env pts k.1 x.range k.2 := by
        intro k
        exact ⟨hsel hq (F := fun i r => i = k.1 ∧ CutTo env pts k.1 r k.2), hsel hq.symm (F := fun i r => i = k.1 ∧ CutTo env pts k.1 r k.2)⟩
      have ho : SameBig o1 o2 := by
        intro k hk
        have hbig : ∀ {q : List (Node P C B)}, (∃ x ∈ q, x.inst = k.1 ∧ CutTo env pts k.1 x.range k.2) ↔
            ∃ x ∈ q, x.range.size > 1 ∧ x.inst = k.1 ∧ CutTo env pts k.1 x.range k.2 := by
          intro q
          constructor
          · rintro ⟨x, hx, h1, h2⟩
            exact ⟨x, hx, by by_contra hb; exact h2.big hk hb, h1, h2⟩
          · rintro ⟨x, hx, -, h1, h2⟩
            exact ⟨x, hx, h1, h2⟩
        rw [o1r, o2r, hbig, hbig, hcut]
      have hcont : SameK (Hdb.contents c1.db) (Hdb.contents c2.db) := by
        intro k
        rw [b1r, b2r, hcut, hs' k]
        have : (∀ x ∈ q1, x.range.size > 1 → x.key ≠ k) ↔ ∀ x ∈ q2, x.range.size > 1 → x.key ≠ k := by
          constructor
          · intro h x hx hb hk
            obtain ⟨y, hy, h1, h2⟩ := hsel hq.symm (F := fun i r => (i, r) = k) ⟨x, hx, hb, hk⟩
            exact h y hy h1 h2
          · intro h x hx hb hk
            obtain ⟨y, hy, h1, h2⟩ := hsel hq (F := fun i r => (i, r) = k) ⟨x, hx, hb, hk⟩
            exact h y hy h1 h2
        rw [this]
      refine ih w1 w2 hcont (fun k hk => ?_) x1 x2 ho ?_ e1 e2
      · rw [Bool.eq_iff_iff, d1, d2, hd k hk]
        exact or_congr Iff.rfl ⟨hsel hq (F := fun i _ => i = k), hsel hq.symm (F := fun i _ => i = k)⟩
      · intro x hx
        rcases (b1r x.key).1 (List.mem_map.2 ⟨x, hx, rfl⟩) with ⟨y, hy, hb, hi, hc⟩ | ⟨h, -⟩
        · rw [CutTo, if_pos hb] at hc
          obtain ⟨k, v, sk, hr⟩ := hc
          have ho := hocc y (u1 y hy)
          have hlt : y.range.I + 1 < y.range.J := by
            have := (p1.known (u1 y hy)).lt
            simp only [Rng.size] at hb; omega
          have hi : y.inst = x.inst := hi
          rw [hi] at ho
          rcases hr with hr | hr <;> rw [show x.range = _ from hr]
          · exact .left ho hlt sk
          · exact .right ho hlt sk
        · obtain ⟨y, hy, hk⟩ := List.mem_map.1 h
          have := hocc y hy
          rwa [show y.inst = x.inst from congrArg Prod.fst hk, show y.range = x.range from congrArg Prod.snd hk] at this

/-! ### the whole class -/

/-- constdp/fc_simplify.go:71-106: afterwards the instances are clean -/
theorem simplifyInstances_clean {e : Env P C B K} (he : EnvOK e) (hl : LnrOK e.lnr) {idsOf : Int → Nat → Int} {js : List (Int × Int)} {fuel : Nat} :
    ∀ {handles : List Int} {d d' : Int → Bool} {outs : List (Int × Out P C B)}, (∀ h ∈ handles, InstOK e h (pts h) ∧ Function.Injective (idsOf h) ∧
      ∀ i ∈ junctionsOf js (e.inst h).id, 0 ≤ i ∧ i < (pts h).length) → simplifyInstances e idsOf js fuel handles d = .ok (outs, d') →
    ∀ k, k ∈ handles ∨ d k = false → d' k = false := by
  intro handles
  induction handles with
  | nil => intro d d' outs _ h k hk; cases h; simpa using hk
  | cons a l ih =>
    intro d d' outs hh h k hk
    simp only [simplifyInstances] at h
    obtain ⟨⟨o, d1⟩, e1, h⟩ := Res.bind_eq_ok.1 h
    obtain ⟨⟨rest, d2⟩, e2, h⟩ := Res.bind_eq_ok.1 h
    cases h
    obtain ⟨i1, i2, i3⟩ := hh a (by simp)
    refine ih (fun x hx => hh x (List.mem_cons_of_mem _ hx)) e2 k ?_
    by_cases hkl : k ∈ l
    · exact .inl hkl
    · right
      rw [(simplify_independent he hl i1 i2 i3 e1).1]
      by_cases hka : k = a
      · simp [markClean, hka]
      · have : d k = false := hk.resolve_left (by simp [hka, hkl])
        simp [markClean, hka, this]

theorem map_eq_of_fst {α β : Type} {f g : Int × α → β} {l1 l2 : List (Int × α)} (hf : l1.map Prod.fst = l2.map Prod.fst)
    (h : ∀ x ∈ l1, ∀ y ∈ l2, x.1 = y.1 → f x = g y) : l1.map f = l2.map g := by
  induction l1 generalizing l2 with
  | nil =>
    cases l2 with
    | nil => rfl
    | cons b l2 => cases hf
  | cons a l1 ih =>
    cases l2 with
    | nil => cases hf
    | cons b l2 =>
      simp only [List.map_cons, List.cons.injEq] at hf ⊢
      exact ⟨h a (by simp) b (by simp) hf.1, ih hf.2 (fun x hx y hy => h x (List.mem_cons_of_mem _ hx) y (List.mem_cons_of_mem _ hy))⟩

theorem RunFC.run {V : Int × Rng → Bool} (r : RunFC env s pts hs V) {h : Int} (hh : h ∈ hs) : RunOK env s pts h (fun q => V (h, q)) := by
  refine ⟨r.legal, r.insts h hh, fun {a n v} ha e => ?_⟩
  have hin : a.inst = h := by simpa using ha.inst
  have ka : Known (env.run s) pts hs a := ⟨by rw [hin]; exact hh, ha.2, ha.3, ha.4, ha.5⟩
  rw [← hin] at e
  have := r.val ka e
  rw [this, Node.key, hin]

/-- constdp/fc_simplify.go:71-106: the pieces of the single features do not depend on the run -/
theorem simplifyInstances_same {V : Int × Rng → Bool} (r1 : RunFC env s1 pts hs V) (r2 : RunFC env s2 pts hs V) (hl : LnrOK env.lnr)
    {idsOf1 idsOf2 : Int → Nat → Int} (j1 : ∀ h ∈ hs, Function.Injective (idsOf1 h)) (j2 : ∀ h ∈ hs, Function.Injective (idsOf2 h)) {js : List (Int × Int)}
    (hj : ∀ h ∈ hs, ∀ i ∈ junctionsOf js (env.inst h).id, 0 ≤ i ∧ i < (pts h).length)
    (hst : ∀ h ∈ hs, SameStart env s1 s2 h (idsOf1 h) (idsOf2 h) (junctionsOf js (env.inst h).id)) {n m : Nat} {d1 d2 d1' d2' : Int → Bool}
    {o1 o2 : List (Int × Out P C B)} (e1 : simplifyInstances (env.run s1) idsOf1 js n hs d1 = .ok (o1, d1'))
    (e2 : simplifyInstances (env.run s2) idsOf2 js m hs d2 = .ok (o2, d2')) :
    o1.map Prod.fst = hs ∧ o2.map Prod.fst = hs ∧ (∀ k ∈ hs, d1' k = d2' k) ∧
      ∀ x ∈ o1, ∀ y ∈ o2, x.1 = y.1 → SameR x.2.hulls y.2.hulls ∧ x.2.simple = y.2.simple := by
  have g1 : ∀ h ∈ hs, InstOK (env.run s1) h (pts h) ∧ Function.Injective (idsOf1 h) ∧
      ∀ i ∈ junctionsOf js ((env.run s1).inst h).id, 0 ≤ i ∧ i < (pts h).length := fun h hh => ⟨r1.insts h hh, j1 h hh, hj h hh⟩
  have g2 : ∀ h ∈ hs, InstOK (env.run s2) h (pts h) ∧ Function.Injective (idsOf2 h) ∧
      ∀ i ∈ junctionsOf js ((env.run s2).inst h).id, 0 ≤ i ∧ i < (pts h).length := fun h hh => ⟨r2.insts h hh, j2 h hh, hj h hh⟩
  obtain ⟨f1, a1⟩ := simplifyInstances_alone r1.legal hl g1 e1
  obtain ⟨f2, a2⟩ := simplifyInstances_alone r2.legal hl g2 e2
  refine ⟨f1, f2, fun k hk => ?_, fun x hx y hy hxy => ?_⟩
  · rw [simplifyInstances_clean r1.legal hl g1 e1 k (.inl hk), simplifyInstances_clean r2.legal hl g2 e2 k (.inl hk)]
  · have hh : x.1 ∈ hs := by rw [← f1]; exact List.mem_map.2 ⟨x, hx, rfl⟩
    have c1 := a1 x hx (fun _ => false)
    have c2 := a2 y hy (fun _ => false)
    rw [← hxy] at c2
    exact simplify_same (r1.run hh) (r2.run hh) hl (hj _ hh) (j1 _ hh) (j2 _ hh) (hst _ hh) c1 c2

/-- constdp/fc_simplify.go:14-69: the kept vertices do not depend on the run -/
theorem simplifyFeatureClass_same {V : Int × Rng → Bool} (r1 : RunFC env s1 pts hs V) (r2 : RunFC env s2 pts hs V) (hl : LnrOK env.lnr) (hn : hs.Nodup)
    {ids1 ids2 : Nat → Int} {idsOf1 idsOf2 : Int → Nat → Int} (t1 : Streams ids1 idsOf1 hs) (t2 : Streams ids2 idsOf2 hs)
    (hst : ∀ h ∈ hs, ∀ cv, SameStart env s1 s2 h (idsOf1 h) (idsOf2 h) cv) {o : Opts K} {js : List (Int × Int)}
    (hj : fcJunctions env hs o.planarSelf = .ok js) {d1 d2 d1' : Int → Bool} {n0 n m : Nat} {outs : List (Int × Out P C B)}
    (h0 : simplifyInstances (env.run s1) idsOf1 js n0 hs d1 = .ok (outs, d1')) (hap : NoClash env pts outs hs) {res1 res2 : List (Int × Out P C B)}
    (e1 : simplifyFeatureClass (env.run s1) ids1 idsOf1 hs o d1 n = .ok res1) (e2 : simplifyFeatureClass (env.run s2) ids2 idsOf2 hs o d2 m = .ok res2) :
    res1.map (fun x => (x.1, x.2.simple)) = res2.map (fun x => (x.1, x.2.simple)) := by
  have hj1 : fcJunctions (env.run s1) hs o.planarSelf = .ok js := hj
  have hj2 : fcJunctions (env.run s2) hs o.planarSelf = .ok js := hj
  obtain ⟨js', y, -, -, hcv⟩ := fcJunctions_ok (env := env.run s1) hl r1.insts r1.ident o.planarSelf
  rw [hj1] at y; cases y
  rw [simplifyFeatureClass, hj1, Res.ok_bind] at e1
  rw [simplifyFeatureClass, hj2, Res.ok_bind] at e2
  obtain ⟨⟨o1, q1⟩, f1, e1⟩ := Res.bind_eq_ok.1 e1
  obtain ⟨⟨o2, q2⟩, f2, e2⟩ := Res.bind_eq_ok.1 e2
  have : (outs, d1') = (o1, q1) := Mono.det (f := fun fuel => simplifyInstances (env.run s1) idsOf1 js fuel hs d1)
    (fun n => simplifyInstances_le _ idsOf1 js n hs d1) h0 f1
  cases this
  obtain ⟨c1, c2, hd, hs'⟩ := simplifyInstances_same r1 r2 hl t1.each t2.each hcv (fun h hh => hst h hh _) f1 f2
  by_cases c : (o.avoidNewSelfIntersects || o.planarSelf || o.geomRelation || o.dirRelation || o.distRelation) = true
  swap
  · simp only [c] at e1 e2
    cases e1; cases e2
    exact map_eq_of_fst (c1.trans c2.symm) (fun x hx y hy hxy => by rw [hxy, (hs' x hx y hy hxy).2])
  simp only [c, if_true] at e1 e2
  obtain ⟨db1, l1, e1⟩ := Res.bind_eq_ok.1 e1
  obtain ⟨db2, l2, e2⟩ := Res.bind_eq_ok.1 e2
  obtain ⟨st1, m1, e1⟩ := Res.bind_eq_ok.1 e1
  obtain ⟨st2, m2, e2⟩ := Res.bind_eq_ok.1 e2
  obtain ⟨w1, z1, e1⟩ := Res.bind_eq_ok.1 e1
  obtain ⟨w2, z2, e2⟩ := Res.bind_eq_ok.1 e2
  cases e1; cases e2
  have start : ∀ {s : Sched P C B K} {ids : Nat → Int} {idsOf : Int → Nat → Int} {d d' : Int → Bool} {n : Nat} {outs : List (Int × Out P C B)} {db : Db P C B},
      RunFC env s pts hs V → Streams ids idsOf hs → simplifyInstances (env.run s) idsOf js n hs d = .ok (outs, d') →
      Hdb.load nodeOps (env.run s).heur (Hdb.newHdb Hdb.defaultCap) (outs.flatMap (fun x => x.2.hulls)) n = .ok db →
      StoredFC env s pts hs ids 0 db ∧ (Hdb.contents db).Perm (outs.flatMap (fun x => x.2.hulls)) ∧ ∀ x ∈ outs, ∀ nd ∈ x.2.hulls, nd.inst = x.1 := by
    intro s ids idsOf d d' n outs db r t f l
    obtain ⟨outs', d2, y1, k1, k2⟩ := simplifyInstances_yields r.legal hl (js := js) hs d r.insts t.each hcv
    have : (outs, d') = (outs', d2) := Mono.val (f := fun fuel => simplifyInstances (env.run s) idsOf js fuel hs d)
      (fun n => simplifyInstances_le _ idsOf js n hs d) f y1
    cases this
    obtain ⟨p1, p2⟩ := joint_pieces (ids := ids) (cv := fun h => junctionsOf js (env.inst h).id) outs (by rw [k1]; exact hn) (by rw [k1]; exact t) k2
    obtain ⟨d2, y2, w2, q2⟩ := DbOK.new.load r.legal (outs.flatMap (fun x => x.2.hulls))
    have : db = d2 := Mono.val (Hdb.load_le nodeOps _ _ _) l y2
    subst this
    rw [contents_new, List.nil_append] at q2
    rw [k1] at p1
    refine ⟨⟨w2, _, p1.perm q2.symm⟩, q2, fun x hx nd hnd => ?_⟩
    obtain ⟨g, hp⟩ := (k2 x hx).pieces
    simpa using (hp.piece nd hnd).1
  obtain ⟨T1, p1, i1⟩ := start r1 t1 f1 l1
  obtain ⟨T2, p2, i2⟩ := start r2 t2 f2 l2
  have keys : ∀ {u v : List (Int × Out P C B)}, u.map Prod.fst = hs → v.map Prod.fst = hs → (∀ x ∈ u, ∀ nd ∈ x.2.hulls, nd.inst = x.1) →
      (∀ x ∈ v, ∀ nd ∈ x.2.hulls, nd.inst = x.1) → (∀ x ∈ u, ∀ y ∈ v, x.1 = y.1 → SameR x.2.hulls y.2.hulls) →
      ∀ k, k ∈ (u.flatMap (fun x => x.2.hulls)).map Node.key → k ∈ (v.flatMap (fun x => x.2.hulls)).map Node.key := by
    intro u v hu hv iu iv h k hk
    obtain ⟨nd, hnd, rfl⟩ := List.mem_map.1 hk
    obtain ⟨x, hx, hnx⟩ := List.mem_flatMap.1 hnd
    have : x.1 ∈ v.map Prod.fst := by rw [hv, ← hu]; exact List.mem_map.2 ⟨x, hx, rfl⟩
    obtain ⟨y, hy, hxy⟩ := List.mem_map.1 this
    obtain ⟨md, hmd, hr⟩ := (h x hx y hy hxy.symm).mem hnx
    exact List.mem_map.2 ⟨md, List.mem_flatMap.2 ⟨y, hy, hmd⟩, Prod.ext (by show md.inst = nd.inst; rw [iu x hx nd hnx, iv y hy md hmd, hxy]) hr⟩
  have hsame : SameK (outs.flatMap (fun x => x.2.hulls)) (o2.flatMap (fun x => x.2.hulls)) := fun k =>
    ⟨keys c1 c2 i1 i2 (fun x hx y hy hxy => (hs' x hx y hy hxy).1) k, keys c2 c1 i2 i1 (fun x hx y hy hxy => (hs' y hy x hx hxy.symm).1.symm) k⟩
  obtain ⟨U1, U2, hfin⟩ := deformLoop_sameFC r1 r2 t1.joint t2.joint hap (a1 := ⟨db1, 0, d1'⟩) (a2 := ⟨db2, 0, q2⟩) T1 T2 (hsame.perm p1.symm p2.symm) hd
    (fun x hx => p1.mem_iff.2 hx) (fun x hx => p2.mem_iff.2 hx) hsame.big (fun x hx => by
      obtain ⟨z, hz, hxz⟩ := List.mem_flatMap.1 (p1.mem_iff.1 hx)
      rw [i1 z hz x hxz]
      exact .first (out := z.2) hz hxz) m1 m2
  obtain ⟨n1, ny1, np1⟩ := Hdb.all_yields U1.okd.wf
  obtain ⟨n2, ny2, np2⟩ := Hdb.all_yields U2.okd.wf
  have : w1 = n1 := (Hdb.all_le _).val z1 ny1
  subst this
  have : w2 = n2 := (Hdb.all_le _).val z2 ny2
  subst this
  have hw := hfin.perm np1.symm np2.symm
  obtain ⟨src1, P1⟩ := U1.pieces
  obtain ⟨src2, P2⟩ := U2.pieces
  rw [List.map_map, List.map_map]
  refine map_eq_of_fst (c1.trans c2.symm) (fun x hx y hy hxy => ?_)
  have hh : x.1 ∈ hs := by rw [← c1]; exact List.mem_map.2 ⟨x, hx, rfl⟩
  have hh2 : y.1 ∈ hs := hxy ▸ hh
  simp only [Function.comp]
  rw [groupResult_eq (env := env.run s1) r1.ident (P1.perm np1.symm) hh (r1.insts _ hh).two, groupResult_eq (env := env.run s2) r2.ident (P2.perm np2.symm) hh2
    (r2.insts _ hh2).two, ← hxy]
  have : SameR (w1.filter (fun nd => nd.inst = x.1)) (w2.filter (fun nd => nd.inst = x.1)) := by
    have key : ∀ {u v : List (Node P C B)}, SameK u v → ∀ r, r ∈ (u.filter (fun nd => nd.inst = x.1)).map Node.range →
        r ∈ (v.filter (fun nd => nd.inst = x.1)).map Node.range := by
      intro u v huv r hr
      obtain ⟨nd, hnd, rfl⟩ := List.mem_map.1 hr
      obtain ⟨h1, h2⟩ := List.mem_filter.1 hnd
      obtain ⟨md, hmd, hk⟩ := huv.mem h1
      exact List.mem_map.2 ⟨md, List.mem_filter.2 ⟨hmd, by rw [show md.inst = nd.inst from congrArg Prod.fst hk]; exact h2⟩, congrArg Prod.snd hk⟩
    exact fun r => ⟨key hw r, key hw.symm r⟩
  rw [simpleSet_same this]

end Verif
