import Verif.Lemmas.Refine
import Verif.Lemmas.RunsSplit
import Verif.Lemmas.Reach
import Verif.Lemmas.InterBounds
import Verif.Props.C01_RngSplit

/-! The pieces after the split at the self-intersections and fixed vertices, exactly. -/

set_option linter.unusedSectionVars false

namespace Verif

theorem Chain.start {a b : Int} : ∀ {rs : List Rng}, Chain a b rs → ∀ {r : Rng}, r ∈ rs → r.I = a ∨ r.I ∈ rs.map Rng.J := by
  intro rs
  induction rs generalizing a with
  | nil => intro _ r hr; cases hr
  | cons x rs ih =>
    rintro ⟨h1, h2, h3⟩ r hr
    rcases List.mem_cons.1 hr with rfl | hr
    · exact .inl h1
    · rcases ih h3 hr with h | h
      · exact .inr (by rw [h]; simp)
      · exact .inr (List.mem_cons_of_mem _ h)

theorem SplitTo.ends {idxs : List Int} {r r' : Rng} (h : SplitTo idxs r r') : (r'.I = r.I ∨ r'.I ∈ idxs) ∧ (r'.J = r.J ∨ r'.J ∈ idxs) := by
  unfold SplitTo at h
  split at h
  · rw [h]; exact ⟨.inl rfl, .inl rfl⟩
  · rename_i hne
    have hex : ∃ v ∈ idxs, r.I < v ∧ v < r.J := by
      by_contra hc
      exact hne (C01_split_empty r idxs (fun v hv hv' => hc ⟨v, hv, hv'⟩))
    obtain ⟨hc, hj⟩ := C01_split_cover r idxs hex
    have hb := hc.mem h
    constructor
    · rcases hc.start h with h1 | h1
      · exact .inl h1
      · exact .inr ((hj _ (by omega)).1 h1).1
    · by_cases he : r'.J = r.J
      · exact .inl he
      · exact .inr ((hj _ he).1 (List.mem_map_of_mem h)).1

/-- two chains with the same ends are the same -/
theorem Chain.eq_of_ends {a b : Int} : ∀ {xs ys : List Rng}, Chain a b xs → Chain a b ys → (∀ v, EndOf xs v ↔ EndOf ys v) → xs = ys := by
  intro xs
  induction xs generalizing a with
  | nil =>
    intro ys h1 h2 _
    cases ys with
    | nil => rfl
    | cons y ys =>
      obtain ⟨h3, h4, h5⟩ := h2
      have := h5.le
      simp only [Chain] at h1
      omega
  | cons x xs ih =>
    intro ys h1 h2 he
    cases ys with
    | nil =>
      obtain ⟨h3, h4, h5⟩ := h1
      have := h5.le
      simp only [Chain] at h2
      omega
    | cons y ys =>
      obtain ⟨h3, h4, h5⟩ := h1
      obtain ⟨k3, k4, k5⟩ := h2
      have hxy : ∀ {p q : Rng} {ps qs : List Rng}, Chain p.J b ps → p.I = a → p.I < p.J → q.I = a → Chain q.J b qs → q.I < q.J → (∀ v, EndOf (p :: ps) v → EndOf (q :: qs) v) → q.J ≤ p.J := by
        intro p q ps qs c1 e1 l1 e2 c2 l2 hh
        obtain ⟨r, hr, hv⟩ := hh p.J ⟨p, by simp, .inr rfl⟩
        rcases List.mem_cons.1 hr with rfl | hr
        · rcases hv with hv | hv <;> omega
        · have := c2.mem hr
          rcases hv with hv | hv <;> omega
      have hJ : x.J = y.J := by
        have e1 := hxy h5 h3 h4 k3 k5 k4 (fun v => (he v).1)
        have e2 := hxy k5 k3 k4 h3 h5 h4 (fun v => (he v).2)
        omega
      have hxe : x = y := by cases x; cases y; simp_all
      subst hxe
      congr 1
      refine ih h5 k5 (fun v => ?_)
      have key : ∀ {ps qs : List Rng}, Chain x.J b ps → Chain x.J b qs → (∀ v, EndOf (x :: ps) v → EndOf (x :: qs) v) → ∀ v, EndOf ps v → EndOf qs v := by
        rintro ps qs c1 c2 hh v ⟨r, hr, hv⟩
        have hb := c1.mem hr
        obtain ⟨r', hr', hv'⟩ := hh v ⟨r, List.mem_cons_of_mem _ hr, hv⟩
        rcases List.mem_cons.1 hr' with rfl | hr'
        · have hvj : v = r'.J := by omega
          cases qs with
          | nil =>
            simp only [Chain] at c2
            omega
          | cons q qs => exact ⟨q, by simp, .inl (by rw [hvj, c2.1])⟩
        · exact ⟨r', hr', hv'⟩
      exact ⟨key h5 k5 (fun v => (he v).1) v, key k5 h5 (fun v => (he v).2) v⟩

variable {P C B K : Type} [LinearOrder B] [BoundedOrder B] [LinearOrder K]
variable {env : Env P C B K} {pts : Int → List P} {src : Int → Prop} {ids : Nat → Int} {g : Nat} {h : Int}

/-- the choices of an environment -/
def Env.sched (env : Env P C B K) : Sched P C B K := ⟨env.heur, env.heap, env.ord, env.ordRm, fun k => (env.inst k).ctxdb⟩

theorem Env.run_sched (env : Env P C B K) : env.run env.sched = env := rfl

theorem runOK_self (he : EnvOK env) (hi : InstOK env h (pts h)) : ∃ V, RunOK env env.sched pts h V := by
  obtain ⟨V, hV⟩ := verdicts_fixed env pts h env.heap (env.inst h).ctxdb
  exact ⟨V, he, hi, fun ha e => hV env.sched rfl rfl ha e⟩

/-- the ends of a piece are among `E` or the split vertices `F` -/
def EndsAmong (E : Int → Prop) (l : List (Node P C B)) : Prop := ∀ x ∈ l, E x.range.I ∧ E x.range.J

theorem splitAtInters_ends (he : EnvOK env) (hi : InstOK env h (pts h)) (hinj : Function.Injective ids) {n : Nat} {E : Int → Prop} :
    ∀ {is : List (Inter P)} {db db' : Db P C B} {g g' : Nat}, DbOK db → Pieces env pts [h] src ids g (Hdb.contents db) →
    (∀ i ∈ is, ∀ v ∈ i.splitIdxs, E v) → EndsAmong E (Hdb.contents db) → splitAtInters env ids n is db g = .ok (db', g') → EndsAmong E (Hdb.contents db') := by
  obtain ⟨V, ro⟩ := runOK_self he hi
  intro is
  induction is with
  | nil => intro db db' g g' _ _ _ hE e; cases e; exact hE
  | cons i is ih =>
    intro db db' g g' hd hp hv hE e
    rw [splitAtInters] at e
    split at e
    · exact ih hd hp (fun j hj => hv j (List.mem_cons_of_mem _ hj)) hE e
    obtain ⟨nodes, e1, e⟩ := Res.bind_eq_ok.1 e
    obtain ⟨⟨d1, g1⟩, e2, e⟩ := Res.bind_eq_ok.1 e
    obtain ⟨near, hlg, hmono⟩ := he.heap
    obtain ⟨nodes', y, rest, kp, -⟩ := Hdb.contextNeighbours_yields (strong := False) hd.wf hlg hmono
        (boxDist := env.lib.boxDistance (.point i.pt)) (itemDist := fun nd => env.lib.distance (.point i.pt) nd.geom) (fun h => h.elim) env.eps
    have : nodes = nodes' := (Hdb.contextNeighbours_le _ _ _ _ _).val e1 y
    subst this
    have hnd : (nodes.map Node.id).Nodup := by
      have := (kp.map Node.id).nodup_iff.2 hp.nodup
      rw [List.map_append, List.nodup_append] at this
      exact this.1
    have hmem : ∀ x ∈ nodes, x ∈ Hdb.contents db := fun x hx => kp.mem_iff.1 (List.mem_append_left _ hx)
    obtain ⟨-, hr⟩ := splitNodes_ranges ro hinj ⟨hd, src, hp⟩ hnd hmem e2
    obtain ⟨d1', g1', y2, w1, hg1, p1, -⟩ := splitNodes_yields he (hs := [h]) (fun k hk => by rw [List.mem_singleton] at hk; rw [hk]; exact hi) hinj i.splitIdxs nodes db g hd hp hnd hmem
    have := Mono.val (f := fun k => splitNodes env ids i.splitIdxs k nodes db g) (fun k => splitNodes_le env ids i.splitIdxs k nodes db g) e2 y2
    cases this
    refine ih w1 p1 (fun j hj => hv j (List.mem_cons_of_mem _ hj)) (fun x hx => ?_) e
    rcases (hr x.range).1 (List.mem_map_of_mem hx) with ⟨z, hz, hs⟩ | ⟨h1, -⟩
    · have hz' := hE z (hmem z hz)
      obtain ⟨h1, h2⟩ := hs.ends
      have hvi := hv i (by simp)
      exact ⟨h1.elim (fun h => h ▸ hz'.1) (hvi _), h2.elim (fun h => h ▸ hz'.2) (hvi _)⟩
    · obtain ⟨z, hz, hzr⟩ := List.mem_map.1 h1
      rw [← hzr]
      exact hE z hz

/-- constrain/toself.go:15-67: the pieces end where the pieces before ended or at fixed vertices -/
theorem toSelfIntersects_ends (he : EnvOK env) (hl : LnrOK env.lnr) (hi : InstOK env h (pts h)) (hinj : Function.Injective ids) {nodes nodes' : List (Node P C B)}
    {cv cvs : List Int} (hcv : ∀ i ∈ cv, 0 ≤ i ∧ i < (pts h).length) {n g' : Nat} (hp : Pieces env pts [h] src ids g nodes)
    (e : toSelfIntersects env ids g nodes (env.inst h) cv n = .ok (nodes', cvs, g')) :
    EndsAmong (fun v => v ∈ simpleSet nodes ∨ v ∈ cvs) nodes' := by
  have h0 : EndsAmong (fun v => v ∈ simpleSet nodes ∨ v ∈ cvs) nodes := by
    intro x hx
    simp only [mem_simpleSet]
    exact ⟨.inl ⟨x, hx, .inl rfl⟩, .inl ⟨x, hx, .inr rfl⟩⟩
  simp only [toSelfIntersects] at e
  split at e
  · cases e; exact h0
  obtain ⟨d1, e1, e⟩ := Res.bind_eq_ok.1 e
  obtain ⟨is, e2, e⟩ := Res.bind_eq_ok.1 e
  obtain ⟨⟨vs, added⟩, e3, e⟩ := Res.bind_eq_ok.1 e
  obtain ⟨⟨b1, c1⟩, e4, e⟩ := Res.bind_eq_ok.1 e
  obtain ⟨a1, e5, e⟩ := Res.bind_eq_ok.1 e
  cases e
  obtain ⟨d0, y0, w0, p0⟩ := DbOK.new.load he nodes
  have : d1 = d0 := (Hdb.load_le _ _ _ _).val e1 y0
  subst this
  rw [contents_new, List.nil_append] at p0
  obtain ⟨vs', added', e3', a1', -, a3⟩ := addConstVerts_ok hi.two cv (is.flatMap Inter.vertexSet) hcv
  rw [← hi.pln] at e3'
  rw [e3'] at e3
  simp only [Res.ok.injEq, Prod.mk.injEq] at e3
  obtain ⟨rfl, rfl⟩ := e3
  have hE := splitAtInters_ends he hi hinj (E := fun v => v ∈ simpleSet nodes ∨ v ∈ sortedIntsSet vs') w0 (hp.perm p0.symm) (fun i hii v hv => by
    right
    rw [mem_sortedIntsSet, a1', List.mem_flatMap]
    rcases List.mem_append.1 hii with h1 | h1
    · exact .inl ⟨i, h1, by rwa [Inter.vertexSet_eq]⟩
    · obtain ⟨w, hw, -, hw2⟩ := a3 i h1
      rw [hw2, List.mem_singleton] at hv
      exact .inr (hv ▸ hw)) (fun x hx => h0 x (p0.mem_iff.1 hx)) e4
  obtain ⟨near, hlg, hmono⟩ := he.heap
  obtain ⟨b1', c1', y4, w4, -⟩ := splitAtInters_yields he (hs := [h]) (fun k hk => by rw [List.mem_singleton] at hk; rw [hk]; exact hi) hinj (strong := False) hlg hmono
    (is ++ added') d1 g w0 (hp.perm p0.symm) (fun hs => hs.elim)
  have := Mono.val (f := fun k => splitAtInters env ids k (is ++ added') d1 g) (fun k => splitAtInters_le env ids k (is ++ added') d1 g) e4 y4
  cases this
  obtain ⟨o, y5, q5⟩ := Hdb.all_yields w4.wf
  have : a1 = o := (Hdb.all_le _).val e5 y5
  subst this
  exact fun x hx => hE x (q5.mem_iff.1 (mem_sortNodes.mem_iff.1 hx))

/-- **The split, exactly.**  Where the fixed vertices can be found, the pieces after the split end exactly at the ends of the pieces before and at the fixed vertices. -/
theorem toSelfIntersects_exact (he : EnvOK env) (hl : LnrOK env.lnr) (hi : InstOK env h (pts h)) (hinj : Function.Injective ids) {nodes nodes' : List (Node P C B)}
    {cv cvs : List Int} (hcv : ∀ i ∈ cv, 0 ≤ i ∧ i < (pts h).length) (hs : (env.inst h).opts.planarSelf = true → Splittable env pts h cv) {n g' : Nat}
    (hp : Pieces env pts [h] src ids g nodes) (e : toSelfIntersects env ids g nodes (env.inst h) cv n = .ok (nodes', cvs, g')) :
    Pieces env pts [h] src ids g' nodes' ∧ ∀ v, v ∈ simpleSet nodes' ↔ v ∈ simpleSet nodes ∨ v ∈ cvs := by
  have hi' : ∀ k ∈ [h], InstOK env k (pts k) := by
    intro k hk; rw [List.mem_singleton] at hk; rw [hk]; exact hi
  have hE := toSelfIntersects_ends he hl hi hinj hcv hp e
  have hsub : ∀ v, v ∈ simpleSet nodes' → v ∈ simpleSet nodes ∨ v ∈ cvs := by
    intro v hv
    rw [mem_simpleSet] at hv
    obtain ⟨x, hx, rfl | rfl⟩ := hv
    · exact (hE x hx).1
    · exact (hE x hx).2
  cases hpl : (env.inst h).opts.planarSelf with
  | false =>
    simp only [toSelfIntersects, hpl, Bool.not_false, if_true] at e
    cases e
    exact ⟨hp, by simp⟩
  | true =>
    obtain ⟨near, hlg, hmono, r1, r2⟩ := (hs hpl).reach
    obtain ⟨n', cv', g'', y, hg, p', s', k1, -, t'⟩ := toSelfIntersects_yields he hl hi' hinj (h := h) (by simp) (strong := True) hlg hmono hp hcv (fun _ => r1) (fun _ => r2)
    have := (toSelfIntersects_le env ids g nodes (env.inst h) cv).val e y
    cases this
    refine ⟨p', fun v => ⟨hsub v, ?_⟩⟩
    obtain ⟨inters, hint, hv⟩ := k1 hpl
    rintro (h1 | h1)
    · rw [mem_simpleSet] at h1
      obtain ⟨x, hx, hx'⟩ := h1
      have hk := hp.known hx
      have hlo := hk.lo; have hlt := hk.lt; have hhi := hk.hi
      rw [List.mem_singleton.1 hk.inst] at hhi
      refine p'.mem_simple hi.two (by omega) (fun m hm hin => ?_)
      obtain ⟨y, hy, hsb⟩ := s' m hm
      have a1 := hsb.lo; have a2 := hsb.hi
      unfold Inside at hin
      rcases hp.disjoint hx hy with rfl | h3 | h3 <;> omega
    · refine p'.mem_simple hi.two ?_ (fun m hm => t' trivial v h1 m hm)
      rcases (hv v).1 h1 with h2 | ⟨i, h2, h3⟩
      · exact hcv v h2
      · rw [hi.pln] at hint
        exact selfIntersection_bounds hl hi.two hint i h2 v h3

end Verif
