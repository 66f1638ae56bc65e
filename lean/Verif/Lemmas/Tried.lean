import Verif.Lemmas.RunsMerge
import Verif.Spec.Refused
import Verif.Spec.MergePass
import Verif.Props.C34_Merge

/-! The merge pass tries every pair of pieces it is meant to try. -/

set_option linter.unusedSectionVars false

namespace Verif

variable {P C B K : Type} [LinearOrder B] [BoundedOrder B] [LinearOrder K]
variable {env : Env P C B K} {pts : Int → List P} {src : Int → Prop} {ids : Nat → Int} {g : Nat} {h : Int}

theorem DbOK.remove_val {db d : Db P C B} (hd : DbOK db) (hn : ((Hdb.contents db).map Node.id).Nodup) {x : Node P C B} (hx : x ∈ Hdb.contents db) {n : Nat}
    (e : Hdb.remove nodeOps db x n = .ok d) : DbOK d ∧ (Hdb.contents db).Perm (x :: Hdb.contents d) ∧ ((Hdb.contents d).map Node.id).Nodup := by
  obtain ⟨d1, y, w, q⟩ := hd.remove hn hx
  have : d = d1 := (Hdb.remove_le _ _ _).val e y
  subst this
  have hn' := (q.map Node.id).nodup_iff.1 hn
  rw [List.map_cons, List.nodup_cons] at hn'
  exact ⟨w, q, hn'.2⟩

theorem contiguousCoordinates_adj {a b : Node P C B} (ha : Known env pts [h] a) (hb : Known env pts [h] b) (adj : a.range.J = b.range.I) :
    contiguousCoordinates a b = .ok (Coords.sub (pts h) a.range.I b.range.J) := by
  have ai := List.mem_singleton.1 ha.inst
  have bi := List.mem_singleton.1 hb.inst
  have pa := ha.piece
  have pb := hb.piece
  rw [ai] at pa
  rw [bi] at pb
  have la := ha.lt; have lb := hb.lt
  have hsw : ¬ (b.range.I < a.range.J ∧ b.range.J = a.range.I) := by omega
  simp only [contiguousCoordinates, contiguous_of_adj adj la lb, Bool.not_true, Bool.false_eq_true, if_false, hsw]
  have hne : a.coords.idxs ≠ [] := by
    rw [pa.coords]
    intro h0
    have := length_rangeInts a.range.I a.range.J
    simp only [Coords.sub] at h0
    rw [h0] at this; simp at this; omega
  simp only [hne, if_false]
  rw [pa.coords, pb.coords, adj]
  simp only [Coords.sub]
  rw [dropLast_append_rangeInts (by omega) (by omega)]

/-- constdp/validate.go:11-28: what a refusal means -/
theorem validateMerge_false (he : EnvOK env) (hi : InstOK env h (pts h)) {db : Db P C B} (hd : DbOK db)
    (hp : ∀ x ∈ Hdb.contents db, Known env pts [h] x ∧ x.mbr.Valid) {m : Node P C B} (hk : Known env pts [h] m) {n : Nat}
    (e : validateMerge env (env.inst h) m db n = .ok false) :
    ((env.inst h).opts.avoidNewSelfIntersects = true ∧ ∃ s, s ≠ [] ∧ Yields (select env (env.inst h).opts.nonPlanarDisplacement db m) s) ∨
      Yields (validateContextRelation env m (env.inst h)) false := by
  have hi' : ∀ k ∈ [h], InstOK env k (pts k) := by
    intro k hk; rw [List.mem_singleton] at hk; rw [hk]; exact hi
  obtain ⟨b, y, hb⟩ := validateMerge_yields he hi' (h := h) (by simp) hd hp hk
  have : false = b := (validateMerge_le env (env.inst h) m db).val e y
  subst this
  obtain ⟨s, ys, -⟩ := select_yields he (env.inst h).opts.nonPlanarDisplacement hd hp hk
  obtain ⟨c, yc⟩ := validate_yields he hi hk
  cases c with
  | false => exact .inr yc
  | true =>
    left
    by_contra hcon
    have : ¬ (false = true) := by simp
    refine this (hb.2 ⟨fun ha => ?_, yc⟩)
    by_cases hs : s = []
    · exact hs ▸ ys
    · exact absurd ⟨ha, s, hs, ys⟩ hcon

theorem tryMerge_none_left {self : Inst P C B K} (en : Bool) (b : Option (Node P C B)) (cache : List (List Int)) (g : Nat) :
    tryMerge env ids self en none b cache g = .ok (none, cache, g) := by
  cases en <;> rfl

theorem tryMerge_none_right {self : Inst P C B K} (en : Bool) (a : Option (Node P C B)) (cache : List (List Int)) (g : Nat) :
    tryMerge env ids self en a none cache g = .ok (none, cache, g) := by
  cases en <;> cases a <;> rfl

/-- constdp/node_aggregates.go:62-80: a first attempt leaves its key and fails only because of the score -/
theorem tryMerge_first (hi : InstOK env h (pts h)) {a b : Node P C B} (ka : Known env pts [h] a) (kb : Known env pts [h] b) (adj : a.range.J = b.range.I)
    {cache c' : List (List Int)} {g g' : Nat} {mo : Option (Node P C B)}
    (e : tryMerge env ids (env.inst h) true (some a) (some b) cache g = .ok (mo, c', g')) :
    (cacheKey env a b ∈ cache ∧ mo = none ∧ c' = cache) ∨
    (cacheKey env a b ∉ cache ∧ c' = cacheKey env a b :: cache ∧
      (mo = none → ∃ k v, (env.inst h).scoreFn (Coords.sub (pts h) a.range.I b.range.J) = .ok (k, v) ∧ (env.inst h).rel v = false) ∧
      ∀ m, mo = some m → Merged env pts ids g g' h a b m) := by
  have hi' : ∀ k ∈ [h], InstOK env k (pts k) := by
    intro k hk; rw [List.mem_singleton] at hk; rw [hk]; exact hi
  have ai := List.mem_singleton.1 ka.inst
  have bi := List.mem_singleton.1 kb.inst
  simp only [tryMerge] at e
  by_cases hc : cacheKey env a b ∈ cache
  · rw [if_pos hc] at e
    cases e
    exact .inl ⟨hc, rfl, rfl⟩
  · rw [if_neg hc] at e
    obtain ⟨⟨mo', g1⟩, e1, e⟩ := Res.bind_eq_ok.1 e
    simp only [Res.pure_eq, Res.ok.injEq, Prod.mk.injEq] at e
    obtain ⟨rfl, rfl, rfl⟩ := e
    obtain ⟨mo2, g2, f1, -, f2⟩ := mergeFragments_ok hi' (h := h) (by simp) ka kb ai bi adj ids g
    rw [e1] at f1
    cases f1
    refine .inr ⟨hc, rfl, fun hm => ?_, f2⟩
    subst hm
    have hbl := kb.hi
    rw [bi] at hbl
    have la := ka.lt; have lb := kb.lt
    obtain ⟨k, v, sk, -⟩ := hi.inside a.range.I b.range.J ka.lo (by omega) hbl
    refine ⟨k, v, sk, ?_⟩
    have hcc : contiguousCoordinates a b = .ok (Coords.sub (pts h) a.range.I b.range.J) := contiguousCoordinates_adj ka kb adj
    simp only [contiguousFragmentsAtThreshold, contiguous_of_adj adj la lb, Bool.not_true, Bool.false_eq_true, if_false, hcc, Res.ok_bind, sk] at e1
    cases hr : (env.inst h).rel v with
    | false => rfl
    | true =>
      rw [hr] at e1
      simp only [if_true] at e1
      obtain ⟨nd, -, e1⟩ := Res.bind_eq_ok.1 e1
      cases e1

theorem Pieces.key_inj {l : List (Node P C B)} (hp : Pieces env pts [h] src ids g l) {a b x y : Node P C B} (ha : a ∈ l) (hb : b ∈ l) (hab : a.range.J = b.range.I)
    (hx : x ∈ l) (hy : y ∈ l) (hxy : x.range.J = y.range.I) (hk : cacheKey env a b = cacheKey env x y) : a = x ∧ b = y := by
  have o : ∀ {z}, z ∈ l → z.inst = h := fun hz => List.mem_singleton.1 (hp.known hz).inst
  obtain ⟨h1, h2⟩ := C49_cacheKey hab hxy (hp.known ha).lt (hp.known hb).lt (hp.known hx).lt (hp.known hy).lt (o ha) (o hb) (o hx) (o hy) hk
  exact ⟨hp.range_inj ha hx h1, hp.range_inj hb hy h2⟩

/-- what the treatment of one fragment remembers: it looks at the pieces before and behind the fragment, and if the fragment survives, what was tried was
refused; so was the union with the piece behind it, if that piece survives -/
structure StepTried (env : Env P C B K) (pts : Int → List P) (h : Int) (cvs : List Int) (hull : Node P C B) (before after : List (Node P C B))
    (cache cache' : List (List Int)) : Prop where
  left : hull.range.I ∉ cvs → ∀ x ∈ before, x.range.J = hull.range.I → cacheKey env x hull ∈ cache'
  right : hull.range.J ∉ cvs → ∀ x ∈ before, hull.range.J = x.range.I → cacheKey env hull x ∈ cache'
  next : hull.range.J ∉ cvs → ∀ x ∈ before, hull.range.J = x.range.I → x ∈ after → cacheKey env hull x ∈ cache ∨ Refused env pts h hull x
  mono : ∀ k ∈ cache, k ∈ cache'
  keys : ∀ k ∈ cache', k ∈ cache ∨ ∃ x ∈ before, ∃ y ∈ before, x.range.J = y.range.I ∧ k = cacheKey env x y ∧ (x = hull ∨ y = hull) ∧ (hull ∈ after → Refused env pts h x y)

/-- constdp/node_aggregates.go:48-115 -/
theorem aggStep_tried (he : EnvOK env) (hi : InstOK env h (pts h)) (ht : Touching env pts h) {cvs : List Int} {hull : Node P C B}
    {u objects : List (Node P C B)} {db : Db P C B} (hd : DbOK db) (hp : Pieces env pts [h] src ids g (Hdb.contents db))
    (hperm : (u ++ hull :: objects).Perm (Hdb.contents db)) (hc : Chain 0 ((pts h).length - 1) ((u ++ hull :: objects).map Node.range))
    {cache : List (List Int)} {n : Nat} {db' : Db P C B} {objects' : List (Node P C B)} {cache' : List (List Int)} {g' : Nat}
    (e : aggStep env ids (env.inst h) cvs hull objects db cache g n = .ok (db', objects', cache', g')) :
    StepTried env pts h cvs hull (Hdb.contents db) (Hdb.contents db') cache cache' := by
  obtain ⟨d0, f0, e⟩ := Res.bind_eq_ok.1 e
  obtain ⟨ns, f1, e⟩ := Res.bind_eq_ok.1 e
  obtain ⟨⟨mp, c1, g1⟩, f2, e⟩ := Res.bind_eq_ok.1 e
  obtain ⟨⟨mn, c2, g2⟩, f3, e⟩ := Res.bind_eq_ok.1 e
  obtain ⟨st, f4, e⟩ := Res.bind_eq_ok.1 e
  obtain ⟨st', f5, e⟩ := Res.bind_eq_ok.1 e
  obtain ⟨d6, f6, e⟩ := Res.bind_eq_ok.1 e
  cases e
  have hi' : ∀ k ∈ [h], InstOK env k (pts k) := by
    intro k hk; rw [List.mem_singleton] at hk; rw [hk]; exact hi
  have hh : hull ∈ Hdb.contents db := hperm.mem_iff.1 (by simp)
  obtain ⟨w0, p0, n0⟩ := hd.remove_val hp.nodup hh f0
  have m0 : ∀ x ∈ Hdb.contents d0, x ∈ Hdb.contents db := fun x hx => p0.mem_iff.2 (List.mem_cons_of_mem _ hx)
  have kv : ∀ x ∈ Hdb.contents db, Known env pts [h] x ∧ x.mbr.Valid := fun x hx => ⟨hp.known hx, hp.valid hi' hx⟩
  have kh := (kv hull hh).1
  have hid0 : ∀ x ∈ Hdb.contents d0, x.id ≠ hull.id := by
    have hn := (p0.map Node.id).nodup_iff.1 hp.nodup
    rw [List.map_cons, List.nodup_cons] at hn
    intro x hx hxe
    exact hn.1 (hxe ▸ List.mem_map_of_mem hx)
  have hns := neighboursOf_mem w0 (fun x hx => (kv x (m0 x hx)).2) f1
  obtain ⟨b1, b2⟩ := neighboursLoop_spec hull ns none none (Hdb.contents d0) (by simp) (by simp) (fun x hx => ((hns x).1 hx).1)
  have hlt := kh.lt
  obtain ⟨z1, z2⟩ := neighboursLoop_none hull ns none none (fun x hx => ⟨((hns x).1 hx).2.1, fun ⟨h1, h2⟩ => by
    have := (kv x (m0 x ((hns x).1 hx).1)).1.lt; omega⟩)
  -- the neighbours along the line are found
  have found1 : ∀ x ∈ Hdb.contents db, x.range.J = hull.range.I → (Node.neighbours hull ns).1 = some x := by
    intro x hx hxj
    have hx0 : x ∈ Hdb.contents d0 := by
      rcases List.mem_cons.1 (p0.mem_iff.1 hx) with rfl | h1
      · omega
      · exact h1
    have hxn : x ∈ ns := by
      obtain ⟨-, t1, t2⟩ := ht x hull (kv x hx).1 kh hxj
      exact (hns x).2 ⟨hx0, hid0 x hx0, t1, t2⟩
    cases hy : (Node.neighbours hull ns).1 with
    | none => exact absurd hxj ((z1 hy).2 x hxn)
    | some y =>
      obtain ⟨y1, y2⟩ := b1 y hy
      have := (kv x hx).1.lt
      have := (kv y (m0 y y1)).1.lt
      rcases hp.disjoint hx (m0 y y1) with h1 | h1 | h1
      · rw [h1]
      · omega
      · omega
  have found2 : ∀ x ∈ Hdb.contents db, hull.range.J = x.range.I → (Node.neighbours hull ns).2 = some x := by
    intro x hx hxj
    have hx0 : x ∈ Hdb.contents d0 := by
      rcases List.mem_cons.1 (p0.mem_iff.1 hx) with rfl | h1
      · omega
      · exact h1
    have hxn : x ∈ ns := by
      obtain ⟨⟨t1, t2⟩, -⟩ := ht hull x kh (kv x hx).1 hxj
      exact (hns x).2 ⟨hx0, hid0 x hx0, t1, t2⟩
    cases hy : (Node.neighbours hull ns).2 with
    | none => exact absurd hxj ((z2 hy).2 x hxn)
    | some y =>
      obtain ⟨y1, y2⟩ := b2 y hy
      have := (kv x hx).1.lt
      have := (kv y (m0 y y1)).1.lt
      rcases hp.disjoint hx (m0 y y1) with h1 | h1 | h1
      · rw [h1]
      · omega
      · omega
  -- what the two attempts leave behind
  have T1 : (c1 = cache ∧ mp = none ∧ ∀ x, hull.range.I ∉ cvs → (Node.neighbours hull ns).1 = some x → cacheKey env x hull ∈ cache) ∨
      (∃ x, (Node.neighbours hull ns).1 = some x ∧ c1 = cacheKey env x hull :: cache ∧
        (mp = none → ∃ k v, (env.inst h).scoreFn (Coords.sub (pts h) x.range.I hull.range.J) = .ok (k, v) ∧ (env.inst h).rel v = false) ∧
        ∀ m, mp = some m → Merged env pts ids g g1 h x hull m) := by
    cases hx : (Node.neighbours hull ns).1 with
    | none => rw [hx, tryMerge_none_left] at f2; cases f2; exact .inl ⟨rfl, rfl, by simp⟩
    | some x =>
      obtain ⟨x1, x2⟩ := b1 x hx
      by_cases hcv : hull.range.I ∈ cvs
      · rw [hx] at f2; simp only [hcv, decide_true, Bool.not_true, tryMerge] at f2; cases f2
        exact .inl ⟨rfl, rfl, fun _ h1 => absurd hcv h1⟩
      · rw [hx] at f2; simp only [hcv, decide_false, Bool.not_false] at f2
        rcases tryMerge_first hi (kv x (m0 x x1)).1 kh x2 f2 with ⟨h1, h2, h3⟩ | ⟨h1, h2, h3, h4⟩
        · refine .inl ⟨h3, h2, ?_⟩
          rintro y - ⟨⟩; exact h1
        · exact .inr ⟨x, rfl, h2, h3, h4⟩
  have T2 : (cache' = c1 ∧ mn = none ∧ ∀ x, hull.range.J ∉ cvs → (Node.neighbours hull ns).2 = some x → cacheKey env hull x ∈ c1) ∨
      (∃ x, (Node.neighbours hull ns).2 = some x ∧ cache' = cacheKey env hull x :: c1 ∧
        (mn = none → ∃ k v, (env.inst h).scoreFn (Coords.sub (pts h) hull.range.I x.range.J) = .ok (k, v) ∧ (env.inst h).rel v = false) ∧
        ∀ m, mn = some m → Merged env pts ids g1 g' h hull x m) := by
    cases hx : (Node.neighbours hull ns).2 with
    | none => rw [hx, tryMerge_none_right] at f3; cases f3; exact .inl ⟨rfl, rfl, by simp⟩
    | some x =>
      obtain ⟨x1, x2⟩ := b2 x hx
      by_cases hcv : hull.range.J ∈ cvs
      · rw [hx] at f3; simp only [hcv, decide_true, Bool.not_true, tryMerge] at f3; cases f3
        exact .inl ⟨rfl, rfl, fun _ h1 => absurd hcv h1⟩
      · rw [hx] at f3; simp only [hcv, decide_false, Bool.not_false] at f3
        rcases tryMerge_first hi kh (kv x (m0 x x1)).1 x2 f3 with ⟨h1, h2, h3⟩ | ⟨h1, h2, h3, h4⟩
        · refine .inl ⟨h3, h2, ?_⟩
          rintro y - ⟨⟩; exact h1
        · exact .inr ⟨x, rfl, h2, h3, h4⟩
  have mono1 : ∀ k ∈ cache, k ∈ c1 := by
    rcases T1 with ⟨h1, -⟩ | ⟨x, -, h1, -⟩ <;> intro k hk <;> simp [h1, hk]
  have mono2 : ∀ k ∈ c1, k ∈ cache' := by
    rcases T2 with ⟨h1, -⟩ | ⟨x, -, h1, -⟩ <;> intro k hk <;> simp [h1, hk]
  have hull_ne : ∀ {a b m : Node P C B} {k l : Nat}, a ∈ Hdb.contents db → b ∈ Hdb.contents db → a = hull ∨ b = hull → Merged env pts ids k l h a b m → m ≠ hull := by
    rintro a b m k l ha hb hab hm rfl
    have l1 := (kv a ha).1.lt; have l2 := (kv b hb).1.lt; have := hm.adj
    have r1 : m.range.I = a.range.I := by rw [hm.range]
    have r2 : m.range.J = b.range.J := by rw [hm.range]
    rcases hab with rfl | rfl <;> omega
  have refused : ∀ {a b m : Node P C B} {k l : Nat} {d : Db P C B} {out : List (Node P C B)}, a ∈ Hdb.contents db → b ∈ Hdb.contents db →
      Merged env pts ids k l h a b m → DbOK d → (Hdb.contents db).Perm (a :: b :: (out ++ Hdb.contents d)) →
      (out = [] ∨ ∃ nxt, out = [nxt] ∧ b.range.J = nxt.range.I) → validateMerge env (env.inst h) m d n = .ok false → Refused env pts h a b := by
    intro a b m k l d out ha hb hm hd' hpm ho hv
    refine .inr ⟨m, d, hm.range, hm.piece, hd', ⟨_, out, hc, hperm.trans hpm, ho⟩, ?_⟩
    refine validateMerge_false he hi hd' (fun x hx => kv x (hpm.mem_iff.2 (by simp [hx]))) ?_ hv
    exact hm.known (by simp) (kv a ha).1 (kv b hb).1 (List.mem_singleton.1 (kv b hb).1.inst)
  -- the union with the successor
  have S : (st.merged = true ∧ DbOK st.db ∧ (∀ x ∈ st.insertList ++ Hdb.contents st.db, x ≠ hull) ∧
        ∀ y, (Node.neighbours hull ns).2 = some y → ∀ x ∈ st.insertList ++ Hdb.contents st.db, x ≠ y) ∨
      (st.merged = false ∧ DbOK st.db ∧ ((Hdb.contents st.db).map Node.id).Nodup ∧ (Hdb.contents d0).Perm (st.insertList ++ Hdb.contents st.db) ∧
        (st.insertList = [] ∨ ∃ nxt, st.insertList = [nxt] ∧ hull.range.J = nxt.range.I) ∧
        (mn ≠ none → ∃ x, (Node.neighbours hull ns).2 = some x ∧ Refused env pts h hull x)) := by
    cases hmn : mn with
    | none =>
      rw [hmn] at f4; simp only [mergeNext] at f4; cases f4
      exact .inr ⟨rfl, w0, n0, List.Perm.refl _, .inl rfl, by simp⟩
    | some m =>
      rcases T2 with ⟨-, h2, -⟩ | ⟨x, hx, -, -, hm⟩
      · rw [h2] at hmn; cases hmn
      · rw [hmn, hx] at f4
        have hm := hm m hmn
        have hx0 := b2 x hx
        obtain ⟨d1, v, q1, q2, q3⟩ := mergeNext_run f4
        obtain ⟨w1, p1, n1⟩ := w0.remove_val n0 hx0.1 q1
        rcases q3 with ⟨-, o, os, -, rfl⟩ | ⟨rfl, rfl⟩
        · refine .inl ⟨rfl, w1, fun y hy => ?_, fun z hz y hy => ?_⟩
          · rcases List.mem_append.1 hy with h1 | h1
            · rw [List.mem_singleton.1 h1]
              exact hull_ne hh (m0 x hx0.1) (.inl rfl) hm
            · rintro rfl
              exact hid0 y (p1.mem_iff.2 (List.mem_cons_of_mem _ h1)) rfl
          · rw [hx] at hz
            cases hz
            rcases List.mem_append.1 hy with h1 | h1
            · rw [List.mem_singleton.1 h1]
              rintro rfl
              have l1 := kh.lt
              have := hx0.2
              have r1 : m.range.I = hull.range.I := by rw [hm.range]
              omega
            · rintro rfl
              have hn := (p1.map Node.id).nodup_iff.1 n0
              rw [List.map_cons, List.nodup_cons] at hn
              exact hn.1 (List.mem_map_of_mem h1)
        · refine .inr ⟨rfl, w1, n1, p1, .inr ⟨x, rfl, hx0.2⟩, fun _ => ⟨x, hx, ?_⟩⟩
          exact refused (out := []) hh (m0 x hx0.1) hm w1 (p0.trans (p1.cons hull)) (.inl rfl) q2
  -- the union with the predecessor
  have S' : hull ∈ Hdb.contents db' → (mn ≠ none → ∃ x, (Node.neighbours hull ns).2 = some x ∧ Refused env pts h hull x) ∧
      (mp ≠ none → ∃ x, (Node.neighbours hull ns).1 = some x ∧ Refused env pts h x hull) := by
    intro hmem
    rcases S with ⟨s1, s0, s2, -⟩ | ⟨s1, s2, s3, s4, s5, s6⟩
    · exfalso
      have : st' = st := by
        obtain ⟨a1, a2, a3, a4⟩ := st
        simp only at s1
        subst s1
        simp only [mergePrev] at f5
        cases f5
        rfl
      subst this
      obtain ⟨z, y, -, q⟩ := s0.load he (if st'.merged then st'.insertList else st'.insertList ++ [hull])
      have : db' = z := (Hdb.load_le _ _ _ _).val f6 y
      subst this
      rw [q.mem_iff, s1, if_pos rfl] at hmem
      exact s2 hull (List.mem_append.2 (List.mem_append.1 hmem).symm) rfl
    · refine ⟨s6, fun hne => ?_⟩
      cases hmp : mp with
      | none => exact absurd hmp hne
      | some m =>
        rcases T1 with ⟨-, h2, -⟩ | ⟨x, hx, -, -, hm⟩
        · rw [h2] at hmp; cases hmp
        · refine ⟨x, hx, ?_⟩
          have hm := hm m hmp
          have hx0 := b1 x hx
          obtain ⟨sd, so, si, sm⟩ := st
          simp only at s1 s2 s3 s4 s5
          subst s1
          rw [hmp, hx] at f5
          obtain ⟨d1, v, q1, q2, rfl⟩ := mergePrev_run f5
          have hxs : x ∈ Hdb.contents sd := by
            rcases List.mem_append.1 (s4.mem_iff.1 hx0.1) with h1 | h1
            · rcases s5 with h2 | ⟨nxt, h2, h3⟩
              · rw [h2] at h1; cases h1
              · rw [h2, List.mem_singleton] at h1
                subst h1
                have := (kv x (m0 x hx0.1)).1.lt
                omega
            · exact h1
          obtain ⟨w1, p1, n1⟩ := s2.remove_val s3 hxs q1
          have hpm : (Hdb.contents db).Perm (x :: hull :: (si ++ Hdb.contents d1)) := by
            refine (p0.trans ((s4.trans (p1.append_left si)).cons hull)).trans ?_
            exact (List.perm_middle.cons hull).trans (List.Perm.swap _ _ _)
          cases v with
          | false => exact refused (m0 x hx0.1) hh hm w1 hpm s5 q2
          | true =>
            exfalso
            dsimp only at f6
            simp only [if_true] at f6
            obtain ⟨z, y, -, q⟩ := w1.load he (si ++ [m])
            have : db' = z := (Hdb.load_le _ _ _ _).val f6 y
            subst this
            rw [q.mem_iff] at hmem
            have hd1 : hull ∈ si ++ Hdb.contents d1 → False := fun h1 => by
              have : hull ∈ Hdb.contents d0 := by
                rw [s4.mem_iff]
                rcases List.mem_append.1 h1 with h1 | h1
                · exact List.mem_append_left _ h1
                · exact List.mem_append_right _ (p1.mem_iff.2 (List.mem_cons_of_mem _ h1))
              exact hid0 hull this rfl
            rcases List.mem_append.1 hmem with h1 | h1
            · exact hd1 (List.mem_append_right _ h1)
            · rcases List.mem_append.1 h1 with h1 | h1
              · exact hd1 (List.mem_append_left _ h1)
              · exact hull_ne (m0 x hx0.1) hh (.inr rfl) hm (List.mem_singleton.1 h1).symm
  refine ⟨fun hcv x hx hxj => ?_, fun hcv x hx hxj => ?_, fun hcv x hx hxj hxa => ?_, fun k hk => mono2 k (mono1 k hk), fun k hk => ?_⟩
  · have hf := found1 x hx hxj
    rcases T1 with ⟨h1, -, h3⟩ | ⟨y, hy, h1, -⟩
    · exact mono2 _ (h1 ▸ h3 x hcv hf)
    · rw [hf] at hy; cases hy
      exact mono2 _ (by rw [h1]; simp)
  · have hf := found2 x hx hxj
    rcases T2 with ⟨h1, -, h3⟩ | ⟨y, hy, h1, -⟩
    · exact h1 ▸ h3 x hcv hf
    · rw [hf] at hy; cases hy
      rw [h1]; simp
  · have hf := found2 x hx hxj
    rcases S with ⟨s1, s0, -, s2⟩ | ⟨-, -, -, -, -, s6⟩
    · exfalso
      have : st' = st := by
        obtain ⟨a1, a2, a3, a4⟩ := st
        simp only at s1
        subst s1
        simp only [mergePrev] at f5
        cases f5
        rfl
      subst this
      obtain ⟨z, y, -, q⟩ := s0.load he (if st'.merged then st'.insertList else st'.insertList ++ [hull])
      have : db' = z := (Hdb.load_le _ _ _ _).val f6 y
      subst this
      rw [q.mem_iff, s1, if_pos rfl] at hxa
      exact s2 x hf x (List.mem_append.2 (List.mem_append.1 hxa).symm) rfl
    · by_cases hmn : mn = none
      · rcases T2 with ⟨-, -, h3⟩ | ⟨y, hy, -, h2, -⟩
        · have h3 := h3 x hcv hf
          rcases T1 with ⟨h1, -⟩ | ⟨y, hy, h1, -⟩
          · exact .inl (h1 ▸ h3)
          · rw [h1] at h3
            rcases List.mem_cons.1 h3 with h3 | h3
            · obtain ⟨h4, -⟩ := hp.key_inj hh hx hxj (m0 y (b1 y hy).1) hh (b1 y hy).2 h3
              have := (b1 y hy).2
              rw [← h4] at this
              omega
            · exact .inl h3
        · rw [hf] at hy; cases hy
          exact .inr (.inl (h2 hmn))
      · obtain ⟨y, hy, hr⟩ := s6 hmn
        rw [hf] at hy; cases hy
        exact .inr hr
  · have old : k ∈ c1 → k ∈ cache ∨ ∃ x ∈ Hdb.contents db, ∃ y ∈ Hdb.contents db, x.range.J = y.range.I ∧ k = cacheKey env x y ∧
        (x = hull ∨ y = hull) ∧ (hull ∈ Hdb.contents db' → Refused env pts h x y) := by
      intro hk
      rcases T1 with ⟨h1, -, -⟩ | ⟨x, hx, h1, h2, -⟩
      · exact .inl (h1 ▸ hk)
      · rw [h1] at hk
        rcases List.mem_cons.1 hk with rfl | hk
        · refine .inr ⟨x, m0 x (b1 x hx).1, hull, hh, (b1 x hx).2, rfl, .inr rfl, fun hmem => ?_⟩
          by_cases hmp : mp = none
          · exact .inl (h2 hmp)
          · obtain ⟨y, hy, hr⟩ := (S' hmem).2 hmp
            rw [hx] at hy; cases hy; exact hr
        · exact .inl hk
    rcases T2 with ⟨h1, -, -⟩ | ⟨x, hx, h1, h2, -⟩
    · exact old (h1 ▸ hk)
    · rw [h1] at hk
      rcases List.mem_cons.1 hk with rfl | hk
      · refine .inr ⟨hull, hh, x, m0 x (b2 x hx).1, (b2 x hx).2, rfl, .inl rfl, fun hmem => ?_⟩
        by_cases hmp : mn = none
        · exact .inl (h2 hmp)
        · obtain ⟨y, hy, hr⟩ := (S' hmem).1 hmp
          rw [hx] at hy; cases hy; exact hr
      · exact old hk

/-! ### the pass -/

/-- the invariant of the merge loop: `u` are the pieces dealt with, `l` the stored pieces, `orig` the pieces before the pass -/
structure Tried (env : Env P C B K) (pts : Int → List P) (h : Int) (cvs : List Int) (orig u l : List (Node P C B)) (cache : List (List Int)) : Prop where
  refused : ∀ a ∈ l, ∀ b ∈ l, a.range.J = b.range.I → cacheKey env a b ∈ cache → Refused env pts h a b
  left : ∀ b ∈ u, b.range.size = 1 → b.range.I ∉ cvs → ∀ a ∈ l, a.range.J = b.range.I → cacheKey env a b ∈ cache
  right : ∀ a ∈ u, a.range.size = 1 → a.range.J ∉ cvs → ∀ b ∈ l, b ∈ orig → a.range.J = b.range.I → cacheKey env a b ∈ cache
  keys : ∀ k ∈ cache, ∃ x y, Known env pts [h] x ∧ Known env pts [h] y ∧ x.range.J = y.range.I ∧ k = cacheKey env x y ∧
    ∀ z ∈ l, ¬ Inside z.range.I x ∧ ¬ Inside z.range.I y

/-- the key of a union and its neighbour is new -/
theorem merged_key_new {l : List (Node P C B)} {cache : List (List Int)} {a b m c : Node P C B} {k l' : Nat}
    (hk : ∀ k ∈ cache, ∃ x y, Known env pts [h] x ∧ Known env pts [h] y ∧ x.range.J = y.range.I ∧ k = cacheKey env x y ∧
      ∀ z ∈ l, ¬ Inside z.range.I x ∧ ¬ Inside z.range.I y)
    (ha : Known env pts [h] a) (hb : Known env pts [h] b) (hbl : b ∈ l) (hm : Merged env pts ids k l' h a b m) (hc : Known env pts [h] c) :
    (m.range.J = c.range.I → cacheKey env m c ∉ cache) ∧ (c.range.J = m.range.I → cacheKey env c m ∉ cache) := by
  have km : Known env pts [h] m := hm.known (by simp) ha hb (List.mem_singleton.1 hb.inst)
  have o : ∀ {z}, Known env pts [h] z → z.inst = h := fun hz => List.mem_singleton.1 hz.inst
  have l1 := ha.lt; have l2 := hb.lt; have l3 := hm.adj
  have hin : ∀ x : Node P C B, x.range = m.range → Inside b.range.I x := by
    intro x hx
    rw [Inside, hx, hm.range]
    dsimp only
    omega
  constructor
  · intro hj hmem
    obtain ⟨x, y, kx, ky, hxy, he, hz⟩ := hk _ hmem
    obtain ⟨h1, h2⟩ := C49_cacheKey hj hxy km.lt hc.lt kx.lt ky.lt (o km) (o hc) (o kx) (o ky) he
    exact (hz b hbl).1 (hin x h1.symm)
  · intro hj hmem
    obtain ⟨x, y, kx, ky, hxy, he, hz⟩ := hk _ hmem
    obtain ⟨h1, h2⟩ := C49_cacheKey hj hxy hc.lt km.lt kx.lt ky.lt (o hc) (o km) (o kx) (o ky) he
    exact (hz b hbl).2 (hin y h2.symm)

/-- one fragment keeps the invariant: nothing merged -/
theorem Tried.keep {cvs : List Int} {orig u l l' : List (Node P C B)} {cache cache' : List (List Int)} {hull : Node P C B} (t : Tried env pts h cvs orig u l cache)
    (hp : Pieces env pts [h] src ids g l) (hh : hull ∈ l) (st : StepTried env pts h cvs hull l l' cache cache') (hl : l'.Perm l) :
    Tried env pts h cvs orig (u ++ [hull]) l' cache' := by
  have hmem : ∀ {x}, x ∈ l' → x ∈ l := fun hx => hl.mem_iff.1 hx
  refine ⟨fun a ha b hb hab hk => ?_, fun b hb h1 hcv a ha hab => ?_, fun a ha h1 hcv b hb ho hab => ?_, fun k hk => ?_⟩
  · rcases st.keys _ hk with hk | ⟨x, hx, y, hy, hxy, he, -, hr⟩
    · exact t.refused a (hmem ha) b (hmem hb) hab hk
    · obtain ⟨rfl, rfl⟩ := hp.key_inj (hmem ha) (hmem hb) hab hx hy hxy he
      exact hr (hl.mem_iff.2 hh)
  · rcases List.mem_append.1 hb with hb | hb
    · exact st.mono _ (t.left b hb h1 hcv a (hmem ha) hab)
    · cases List.mem_singleton.1 hb
      exact st.left hcv a (hmem ha) hab
  · rcases List.mem_append.1 ha with ha | ha
    · exact st.mono _ (t.right a ha h1 hcv b (hmem hb) ho hab)
    · cases List.mem_singleton.1 ha
      exact st.right hcv b (hmem hb) hab
  · rcases st.keys _ hk with hk | ⟨x, hx, y, hy, hxy, he, -, -⟩
    · obtain ⟨x, y, k1, k2, k3, k4, k5⟩ := t.keys k hk
      exact ⟨x, y, k1, k2, k3, k4, fun z hz => k5 z (hmem hz)⟩
    · refine ⟨x, y, hp.known hx, hp.known hy, hxy, he, fun z hz => ⟨?_, ?_⟩⟩
      · rintro ⟨h1, h2⟩
        have := (hp.known (hmem hz)).lt
        rcases hp.disjoint (hmem hz) hx with h3 | h3 | h3
        · rw [h3] at h1; omega
        · omega
        · omega
      · rintro ⟨h1, h2⟩
        have := (hp.known (hmem hz)).lt
        rcases hp.disjoint (hmem hz) hy with h3 | h3 | h3
        · rw [h3] at h1; omega
        · omega
        · omega

/-- one fragment keeps the invariant: it and a neighbour are replaced by their union -/
theorem Tried.merge {cvs : List Int} {orig u u' l l' rest : List (Node P C B)} {cache cache' : List (List Int)} {hull a0 b0 m : Node P C B} {k0 k1 : Nat}
    (t : Tried env pts h cvs orig u l cache) (hp : Pieces env pts [h] src ids g l) (st : StepTried env pts h cvs hull l l' cache cache')
    (hl : l.Perm (a0 :: b0 :: rest)) (hl' : l'.Perm (m :: rest)) (hab : a0 = hull ∨ b0 = hull) (hm : Merged env pts ids k0 k1 h a0 b0 m)
    (hfresh : ∀ x ∈ orig, x.id ≠ m.id) (hu : ∀ x ∈ u', x = m ∨ x ∈ u ∧ x.range.I < m.range.J) : Tried env pts h cvs orig u' l' cache' := by
  have ha0 : a0 ∈ l := hl.mem_iff.2 (by simp)
  have hb0 : b0 ∈ l := hl.mem_iff.2 (by simp)
  have hh : hull ∈ l := by rcases hab with rfl | rfl <;> assumption
  have hnr : hull ∉ rest := by
    have hn := ((hl.map Node.id).nodup_iff.1 hp.nodup).of_map
    rw [List.nodup_cons, List.nodup_cons] at hn
    rcases hab with rfl | rfl
    · exact fun hr => hn.1 (List.mem_cons_of_mem _ hr)
    · exact hn.2.1
  have hrest : ∀ {x}, x ∈ rest → x ∈ l := fun hx => hl.mem_iff.2 (by simp [hx])
  have hmem : ∀ {x}, x ∈ l' → x = m ∨ x ∈ rest := fun hx => List.mem_cons.1 (hl'.mem_iff.1 hx)
  have la := (hp.known ha0).lt; have lb := (hp.known hb0).lt; have adj := hm.adj
  have mI : m.range.I = a0.range.I := by rw [hm.range]
  have mJ : m.range.J = b0.range.J := by rw [hm.range]
  have km : Known env pts [h] m := hm.known (by simp) (hp.known ha0) (hp.known hb0) (List.mem_singleton.1 (hp.known hb0).inst)
  have kn : ∀ {x}, x ∈ l' → Known env pts [h] x := fun hx => by
    rcases hmem hx with rfl | hx
    · exact km
    · exact hp.known (hrest hx)
  have t' : Tried env pts h cvs orig u l cache → ∀ k ∈ cache', ∃ x y, Known env pts [h] x ∧ Known env pts [h] y ∧ x.range.J = y.range.I ∧ k = cacheKey env x y ∧
      ∀ z ∈ l, ¬ Inside z.range.I x ∧ ¬ Inside z.range.I y := by
    intro t k hk
    rcases st.keys _ hk with hk | ⟨x, hx, y, hy, hxy, he, -, -⟩
    · exact t.keys k hk
    · refine ⟨x, y, hp.known hx, hp.known hy, hxy, he, fun z hz => ⟨?_, ?_⟩⟩
      · rintro ⟨h1, h2⟩
        have := (hp.known hz).lt
        rcases hp.disjoint hz hx with h3 | h3 | h3
        · rw [h3] at h1; omega
        · omega
        · omega
      · rintro ⟨h1, h2⟩
        have := (hp.known hz).lt
        rcases hp.disjoint hz hy with h3 | h3 | h3
        · rw [h3] at h1; omega
        · omega
        · omega
  have keys := t' t
  have new := fun {c} (hc : Known env pts [h] c) => merged_key_new keys (hp.known ha0) (hp.known hb0) hb0 hm hc
  refine ⟨fun a ha b hb hab' hk => ?_, fun b hb h1 hcv a ha hab' => ?_, fun a ha h1 hcv b hb ho hab' => ?_, fun k hk => ?_⟩
  · rcases hmem ha with rfl | har
    · exact absurd hk ((new (kn hb)).1 hab')
    · rcases hmem hb with rfl | hbr
      · exact absurd hk ((new (kn ha)).2 hab')
      · rcases st.keys _ hk with hk | ⟨x, hx, y, hy, hxy, he, hxh, -⟩
        · exact t.refused a (hrest har) b (hrest hbr) hab' hk
        · obtain ⟨rfl, rfl⟩ := hp.key_inj (hrest har) (hrest hbr) hab' hx hy hxy he
          rcases hxh with rfl | rfl
          · exact absurd har hnr
          · exact absurd hbr hnr
  · rcases hu b hb with rfl | ⟨hbu, hlt⟩
    · exfalso; simp only [Rng.size] at h1; omega
    · rcases hmem ha with rfl | har
      · omega
      · exact st.mono _ (t.left b hbu h1 hcv a (hrest har) hab')
  · rcases hu a ha with rfl | ⟨hau, hlt⟩
    · exfalso; simp only [Rng.size] at h1; omega
    · rcases hmem hb with rfl | hbr
      · exact absurd rfl (hfresh b ho)
      · exact st.mono _ (t.right a hau h1 hcv b (hrest hbr) ho hab')
  · obtain ⟨x, y, k1, k2, k3, k4, k5⟩ := keys k hk
    refine ⟨x, y, k1, k2, k3, k4, fun z hz => ?_⟩
    rcases hmem hz with rfl | hz
    · rw [mI]; exact k5 a0 ha0
    · exact k5 z (hrest hz)

/-- two pieces with one range differ in their identifiers only -/
theorem IsPiece.same {m nd : Node P C B} (hm : IsPiece env.lib (pts h) h m) (hn : IsPiece env.lib (pts h) h nd) (hr : m.range = nd.range) : m = { nd with id := m.id } := by
  have hmg := hm.geom
  have hmc := hm.coords
  rw [hr] at hmg hmc
  have e1 : m.geom = nd.geom := by rw [hn.geom] at hmg; exact (Res.ok.inj hmg).symm
  have e2 : m.coords = nd.coords := by rw [hmc, hn.coords]
  have e3 : m.mbr = nd.mbr := by rw [hm.mbr, hn.mbr, e1]
  have e4 : m.inst = nd.inst := by rw [hm.inst, hn.inst]
  cases m; cases nd
  simp_all

/-- without the option to avoid new self-intersections what is refused could not be joined -/
theorem Refused.not_joinable (hav : (env.inst h).opts.avoidNewSelfIntersects = false) {a b : Node P C B} (hr : Refused env pts h a b) :
    ¬ Joinable env pts h a.range.I b.range.J := by
  rintro ⟨⟨k, v, h1, h2⟩, m, h3, h4, h5⟩
  rcases hr with ⟨k', v', h1', h2'⟩ | ⟨m', d, h3', h4', -, -, h5'⟩
  · rw [h1] at h1'
    cases h1'
    rw [h2] at h2'
    cases h2'
  · rcases h5' with ⟨h6, -⟩ | h6
    · rw [hav] at h6; cases h6
    · rw [h4'.same h4 (h3'.trans h3.symm)] at h6
      have := Yields.unique h5 h6
      cases this

theorem Merged.joinable (he : EnvOK env) (hi : InstOK env h (pts h)) {k l : Nat} {a b m : Node P C B} (hm : Merged env pts ids k l h a b m) {d : Db P C B} (hd : DbOK d)
    (hp : ∀ x ∈ Hdb.contents d, Known env pts [h] x ∧ x.mbr.Valid) (hk : Known env pts [h] m) (hv : Yields (validateMerge env (env.inst h) m d) true) :
    Joinable env pts h a.range.I b.range.J := by
  have hi' : ∀ k ∈ [h], InstOK env k (pts k) := by
    intro k hk; rw [List.mem_singleton] at hk; rw [hk]; exact hi
  obtain ⟨c, y, hc⟩ := validateMerge_yields he hi' (h := h) (by simp) hd hp hk
  have : true = c := Yields.unique hv y
  exact ⟨hm.score, m, hm.range, hm.piece, (hc.1 this.symm).2⟩

/-- constdp/node_aggregates.go:33-116 -/
theorem aggLoop_tried (he : EnvOK env) (hi : InstOK env h (pts h)) (ht : Touching env pts h) (hinj : Function.Injective ids) {cvs : List Int}
    {orig : List (Node P C B)} {g0 : Nat} (hor : ∀ x ∈ orig, ∀ k, g0 ≤ k → x.id ≠ ids k) : ∀ (n : Nat)
    (u objects : List (Node P C B)) (db : Db P C B) (cache : List (List Int)) (g : Nat) (db' : Db P C B) (g' : Nat), g0 ≤ g → DbOK db →
    Pieces env pts [h] src ids g (Hdb.contents db) → (u ++ objects).Perm (Hdb.contents db) → Chain 0 ((pts h).length - 1) ((u ++ objects).map Node.range) →
    Tried env pts h cvs orig u (Hdb.contents db) cache → aggLoop env ids (env.inst h) cvs n objects db cache g = .ok (db', g') →
    (∃ cache', Tried env pts h cvs orig (Hdb.contents db') (Hdb.contents db') cache') ∧ ((env.inst h).opts.avoidNewSelfIntersects = false →
      ∃ out, MergeSpec (· ∈ cvs) (Joinable env pts h) (u.map Node.range) (objects.map Node.range) out ∧ out.Perm ((Hdb.contents db').map Node.range)) := by
  intro n
  induction n with
  | zero => intro _ _ _ _ _ _ _ _ _ _ _ _ _ e; cases e
  | succ n ih =>
    intro u objects db cache g db' g' hg hd hp hperm hc t e
    cases objects with
    | nil =>
      cases e
      rw [List.append_nil] at hperm
      exact ⟨⟨cache, t.refused, fun b hb => t.left b (hperm.mem_iff.2 hb), fun a ha => t.right a (hperm.mem_iff.2 ha), t.keys⟩,
        fun _ => ⟨_, .done _, hperm.map _⟩⟩
    | cons hull objects =>
      have happ : u ++ hull :: objects = (u ++ [hull]) ++ objects := by simp
      have hh : hull ∈ Hdb.contents db := hperm.mem_iff.1 (by simp)
      have skip : (hull.range.size = 1 → hull.range.I ∈ cvs ∧ hull.range.J ∈ cvs) → Tried env pts h cvs orig (u ++ [hull]) (Hdb.contents db) cache := by
        intro hs
        refine ⟨t.refused, fun b hb h1 hcv => ?_, fun a ha h1 hcv => ?_, t.keys⟩
        · rcases List.mem_append.1 hb with hb | hb
          · exact t.left b hb h1 hcv
          · cases List.mem_singleton.1 hb
            exact absurd (hs h1).1 hcv
        · rcases List.mem_append.1 ha with ha | ha
          · exact t.right a ha h1 hcv
          · cases List.mem_singleton.1 ha
            exact absurd (hs h1).2 hcv
      rw [aggLoop] at e
      by_cases hsz : hull.range.size ≠ 1
      · rw [if_pos hsz] at e
        obtain ⟨r1, r2⟩ := ih _ objects db cache g db' g' hg hd hp (happ ▸ hperm) (happ ▸ hc) (skip (fun h1 => absurd h1 hsz)) e
        refine ⟨r1, fun hav => ?_⟩
        obtain ⟨out, m1, m2⟩ := r2 hav
        rw [List.map_append] at m1
        exact ⟨out, .keep _ (fun h1 => absurd (by rw [Rng.size]; omega) hsz) m1, m2⟩
      · rw [if_neg hsz] at e
        by_cases hcv : hull.range.I ∈ cvs ∧ hull.range.J ∈ cvs
        · rw [if_pos hcv] at e
          obtain ⟨r1, r2⟩ := ih _ objects db cache g db' g' hg hd hp (happ ▸ hperm) (happ ▸ hc) (skip (fun _ => hcv)) e
          refine ⟨r1, fun hav => ?_⟩
          obtain ⟨out, m1, m2⟩ := r2 hav
          rw [List.map_append] at m1
          exact ⟨out, .keep _ (fun _ => ⟨fun _ _ hf => absurd hcv.2 hf, fun _ _ hf => absurd hcv.1 hf⟩) m1, m2⟩
        · rw [if_neg hcv] at e
          obtain ⟨⟨d1, obj1, c1, g1⟩, e1, e2⟩ := Res.bind_eq_ok.1 e
          dsimp only at e2
          have st := aggStep_tried he hi ht hd hp hperm hc e1
          obtain ⟨d2, obj2, c2, g2, y, w1, hg1, hout⟩ := aggStep_yields (ids := ids) he hi cvs hd hp hperm hc cache
          have := (aggStep_le env ids _ cvs hull objects db cache g).val e1 y
          cases this
          have hone : ∀ x ∈ Hdb.contents db, x.inst = h := fun x hx => List.mem_singleton.1 (hp.known hx).inst
          have hu : ∀ x ∈ u, x.range.J ≤ hull.range.I := by
            intro x hx
            rw [List.map_append, List.map_cons] at hc
            obtain ⟨q, c1, c2, c3, c4⟩ := Chain.append_iff.1 hc
            have := c1.mem (List.mem_map.2 ⟨x, hx, rfl⟩)
            omega
          have fresh : ∀ {a b m : Node P C B}, Merged env pts ids g g1 h a b m → ∀ x ∈ orig, x.id ≠ m.id := by
            intro a b m hm x hx
            obtain ⟨k, k1, -, k3⟩ := hm.id
            rw [k3]; exact hor x hx k (by omega)
          have hlt := (hp.known hh).lt
          have before : ∀ x ∈ u, x.range.I < hull.range.I := fun x hx => by
            have := hu x hx
            have := (hp.known (hperm.mem_iff.1 (List.mem_append_left _ hx))).lt
            omega
          have hi' : ∀ k ∈ [h], InstOK env k (pts k) := by
            intro k hk; rw [List.mem_singleton] at hk; rw [hk]; exact hi
          have kv : ∀ x ∈ Hdb.contents db, Known env pts [h] x ∧ x.mbr.Valid := fun x hx => ⟨hp.known hx, hp.valid hi' hx⟩
          have hsz1 : hull.range.J = hull.range.I + 1 := by
            have : hull.range.size = 1 := by simpa using hsz
            rw [Rng.size] at this
            omega
          have noNext : (env.inst h).opts.avoidNewSelfIntersects = false → (∀ z ∈ Hdb.contents db, hull.range.J = z.range.I → z ∈ Hdb.contents d1) →
              ∀ x ∈ (objects.map Node.range).head?, ¬ hull.range.J ∈ cvs → ¬ Joinable env pts h hull.range.I x.J := by
            intro hav hin x hx hf
            cases objects with
            | nil => cases hx
            | cons z objects =>
              simp only [List.map_cons, List.head?_cons, Option.mem_def, Option.some.injEq] at hx
              subst hx
              have hzl : z ∈ Hdb.contents db := hperm.mem_iff.1 (by simp)
              have hzj : hull.range.J = z.range.I := by
                rw [List.map_append, List.map_cons, List.map_cons] at hc
                obtain ⟨q, -, -, -, c4, -⟩ := Chain.append_iff.1 hc
                exact c4.symm
              refine Refused.not_joinable hav (a := hull) (b := z) ?_
              rcases st.next hf z hzl hzj (hin z hzl hzj) with hk | hr
              · exact t.refused hull hh z hzl hzj hk
              · exact hr
          have last : ∀ x ∈ (u.map Node.range).getLast?, ∃ z, z.range = x ∧ z ∈ Hdb.contents db ∧ z.range.J = hull.range.I := by
            intro x hx
            rw [List.getLast?_map, Option.mem_def, Option.map_eq_some_iff] at hx
            obtain ⟨z, hz, rfl⟩ := hx
            have hzu : z ∈ u := List.mem_of_getLast? hz
            refine ⟨z, rfl, hperm.mem_iff.1 (List.mem_append_left _ hzu), ?_⟩
            obtain ⟨u0, rfl⟩ : ∃ u0, u = u0 ++ [z] := ⟨u.dropLast, (List.dropLast_append_getLast? z hz).symm⟩
            rw [List.map_append, List.map_cons] at hc
            obtain ⟨q, c1, c2, -⟩ := Chain.append_iff.1 hc
            rw [List.map_append] at c1
            obtain ⟨q', -, -, -, c3⟩ := Chain.append_iff.1 c1
            exact c3.trans c2.symm
          rcases hout with ⟨hb, ho⟩ | ⟨nxt, m, rest, db0, hb, ha, ho, hj, hm, hd0, hc0, hv⟩ | ⟨prv, m, rest, out, db0, hb, ha, ho, hj, hm, hd0, hc0, -, hv⟩
          · subst ho
            obtain ⟨r1, r2⟩ := ih _ obj1 d1 c1 g1 db' g' (by omega) w1 ((hp.perm hb.symm).mono hg1) ((happ ▸ hperm).trans hb.symm) (happ ▸ hc) (t.keep hp hh st hb) e2
            refine ⟨r1, fun hav => ?_⟩
            obtain ⟨out, m1, m2⟩ := r2 hav
            rw [List.map_append] at m1
            refine ⟨out, .keep _ (fun _ => ⟨fun x hx hf => ?_, fun x hx hf => ?_⟩) m1, m2⟩
            · exact noNext hav (fun z hz _ => hb.mem_iff.2 hz) x hx hf
            · obtain ⟨z, hz, hzl, hzj⟩ := last x hx
              subst hz
              refine Refused.not_joinable hav (a := z) (b := hull) ?_
              have hk := st.left hf z hzl hzj
              rcases st.keys _ hk with hk | ⟨x', hx', y', hy', hxy, hke, -, hr⟩
              · exact t.refused z hzl hull hh hzj hk
              · obtain ⟨rfl, rfl⟩ := hp.key_inj hzl hh hzj hx' hy' hxy hke
                exact hr (hb.mem_iff.2 hh)
          · subst ho
            have hmem1 : hull ∈ Hdb.contents db := hb.mem_iff.2 (by simp)
            have hmem2 : nxt ∈ Hdb.contents db := hb.mem_iff.2 (by simp)
            have hp1 : Pieces env pts [h] src ids g1 (m :: rest) :=
              (hp.perm hb).merge ((hone _ hmem1).trans (hone _ hmem2).symm) hm.adj hm.id hinj (by rw [hone _ hmem1]; exact hm.piece) hm.range
            have happ2 : u ++ hull :: nxt :: obj1 = u ++ ([hull, nxt] ++ obj1) := rfl
            have hlt2 := (hp.known hmem2).lt
            have mJ : m.range.J = nxt.range.J := by rw [hm.range]
            have hadj := hm.adj
            refine And.imp id (fun r2 hav => ?_)
              (ih (u ++ [m]) obj1 d1 c1 g1 db' g' (by omega) w1 (hp1.perm ha.symm) ?_ ?_ (t.merge hp st hb ha (.inl rfl) hm (fresh hm) ?_) e2)
            · obtain ⟨out, m1, m2⟩ := r2 hav
              rw [List.map_append, List.map_singleton, hm.range] at m1
              have hmi : Known env pts [h] m := hm.known (by simp) (hp.known hmem1) (hp.known hmem2) (hone _ hmem2)
              exact ⟨out, .next _ _ hsz1 hj (hm.joinable he hi hd0 (fun x hx => kv x (hb.mem_iff.2 (by simp [hc0.mem_iff.1 hx]))) hmi hv) m1, m2⟩
            · refine List.Perm.trans ?_ ha.symm
              have h3 : (hull :: nxt :: (u ++ obj1)).Perm (hull :: nxt :: rest) := by
                refine List.Perm.trans ?_ (hperm.trans hb)
                rw [happ2]
                exact List.perm_append_comm_assoc [hull, nxt] u obj1
              have h4 := h3.cons_inv.cons_inv
              rw [List.append_assoc]
              exact List.perm_middle.trans (h4.cons m)
            · rw [List.map_append, List.map_cons, List.map_cons] at hc
              obtain ⟨q, c1, c2, c3, c4, c5, c6⟩ := Chain.append_iff.1 hc
              rw [List.append_assoc, List.map_append]
              refine c1.append ?_
              simp only [List.singleton_append, List.map_cons, hm.range]
              exact ⟨c2, by simp; omega, c6⟩
            · intro x hx
              rcases List.mem_append.1 hx with hx | hx
              · have := before x hx
                exact .inr ⟨hx, by omega⟩
              · exact .inl (List.mem_singleton.1 hx)
          · subst ho
            have hmem1 : prv ∈ Hdb.contents db := hb.mem_iff.2 (by simp)
            have hmem2 : hull ∈ Hdb.contents db := hb.mem_iff.2 (by simp)
            have hp0 := hp.perm hb
            have hp1 : Pieces env pts [h] src ids g1 (m :: rest) :=
              hp0.merge ((hone _ hmem1).trans (hone _ hmem2).symm) hm.adj hm.id hinj (by rw [hone _ hmem1]; exact hm.piece) hm.range
            have mJ : m.range.J = hull.range.J := by rw [hm.range]
            obtain ⟨u0, hu0⟩ : ∃ u0, u = u0 ++ [prv] := by
              have hprv : prv ∈ u ++ hull :: obj1 := hperm.mem_iff.2 hmem1
              have hlt := (hp.known hmem1).lt
              have hlt2 := (hp.known hmem2).lt
              have hadj := hm.adj
              rw [List.map_append, List.map_cons] at hc
              obtain ⟨q, c1, c2, c3, c4⟩ := Chain.append_iff.1 hc
              rcases List.mem_append.1 hprv with h1 | h1
              · obtain ⟨u0, v, rfl⟩ := List.append_of_mem h1
                cases v with
                | nil => exact ⟨u0, rfl⟩
                | cons z v =>
                  exfalso
                  rw [List.map_append, List.map_cons, List.map_cons] at c1
                  obtain ⟨q', x1, x2, x3, x4, x5, x6⟩ := Chain.append_iff.1 c1
                  have := x6.le
                  omega
              · exfalso
                rcases List.mem_cons.1 h1 with rfl | h1
                · omega
                · have := c4.mem (List.mem_map.2 ⟨prv, h1, rfl⟩); omega
            subst hu0
            have happ2 : (u0 ++ [prv]) ++ hull :: obj1 = u0 ++ ([prv, hull] ++ obj1) := by simp
            refine And.imp id (fun r2 hav => ?_)
              (ih (u0 ++ [m]) obj1 d1 c1 g1 db' g' (by omega) w1 (hp1.perm ha.symm) ?_ ?_ (t.merge hp st hb ha (.inr rfl) hm (fresh hm) ?_) e2)
            · obtain ⟨out', m1, m2⟩ := r2 hav
              rw [List.map_append, List.map_singleton, hm.range] at m1
              have hmi : Known env pts [h] m := hm.known (by simp) (hp.known hmem1) (hp.known hmem2) (hone _ hmem2)
              rw [List.map_append, List.map_singleton]
              refine ⟨out', .prev _ _ hsz1 ?_ hj (hm.joinable he hi hd0 (fun x hx => kv x (hb.mem_iff.2 (by simp [hc0.mem_iff.2 (List.mem_append_right _ hx)]))) hmi hv) m1, m2⟩
              intro x hx hf
              refine noNext hav (fun z hz hzj => ha.mem_iff.2 ?_) x hx hf
              have lp := (hp.known hmem1).lt
              have hadj := hm.adj
              rcases List.mem_cons.1 (hb.mem_iff.1 hz) with rfl | hz
              · omega
              · rcases List.mem_cons.1 hz with rfl | hz
                · omega
                · exact List.mem_cons_of_mem _ hz
            · refine List.Perm.trans ?_ ha.symm
              have h3 : (prv :: hull :: (u0 ++ obj1)).Perm (prv :: hull :: rest) := by
                refine List.Perm.trans ?_ (hperm.trans hb)
                rw [happ2]
                exact List.perm_append_comm_assoc [prv, hull] u0 obj1
              have h4 := h3.cons_inv.cons_inv
              rw [List.append_assoc]
              exact List.perm_middle.trans (h4.cons m)
            · rw [happ2, List.map_append] at hc
              obtain ⟨q, c1, c2, c3, c4, c5, c6⟩ := Chain.append_iff.1 hc
              rw [List.append_assoc, List.map_append]
              refine c1.append ?_
              simp only [List.singleton_append, List.map_cons, hm.range]
              exact ⟨c2, by simp; omega, c6⟩
            · intro x hx
              rcases List.mem_append.1 hx with hx | hx
              · have := before x (List.mem_append_left _ hx)
                exact .inr ⟨List.mem_append_left _ hx, by omega⟩
              · exact .inl (List.mem_singleton.1 hx)

/-- constdp/node_aggregates.go:14-117: at a free vertex next to a single segment left by the pass the two pieces cannot be made one, if the single segment is the
later piece or the later piece was there before the pass -/
theorem aggregate_tried (he : EnvOK env) (hi : InstOK env h (pts h)) (ht : Touching env pts h) (hinj : Function.Injective ids) {cvs : List Int}
    {db : Db P C B} (hd : DbOK db) (hp : Pieces env pts [h] src ids g (Hdb.contents db)) {n : Nat} {db' : Db P C B} {g' : Nat}
    (e : aggregate env ids (env.inst h) cvs db g n = .ok (db', g')) :
    ∀ a ∈ Hdb.contents db', ∀ b ∈ Hdb.contents db', a.range.J = b.range.I → a.range.J ∉ cvs →
      (b.range.size = 1 ∨ a.range.size = 1 ∧ b ∈ Hdb.contents db) → Refused env pts h a b := by
  obtain ⟨objs, e1, e⟩ := Res.bind_eq_ok.1 e
  obtain ⟨out, y, p⟩ := Hdb.all_yields hd.wf
  have : objs = out := (Hdb.all_le db).val e1 y
  subst this
  obtain ⟨⟨c, t⟩, -⟩ := aggLoop_tried (orig := Hdb.contents db) he hi ht hinj hp.fresh n [] (sortNodes objs) db [] g db' g' (Nat.le_refl _) hd hp
    (mem_sortNodes.trans p) (sortNodes_chain (hp.perm p.symm)) ⟨by simp, by simp, by simp, by simp⟩ e
  intro a ha b hb hab hcv hs
  refine t.refused a ha b hb hab ?_
  rcases hs with hs | ⟨hs, ho⟩
  · exact t.left b hb hs (hab ▸ hcv) a ha hab
  · exact t.right a ha hs hcv b hb ho hab

/-- constdp/node_aggregates.go:14-117: without the option to avoid new self-intersections the pass is the one of the specification -/
theorem aggregate_spec (he : EnvOK env) (hi : InstOK env h (pts h)) (ht : Touching env pts h) (hinj : Function.Injective ids)
    (hav : (env.inst h).opts.avoidNewSelfIntersects = false) {cvs : List Int} {db : Db P C B} (hd : DbOK db) (hp : Pieces env pts [h] src ids g (Hdb.contents db)) {n : Nat}
    {db' : Db P C B} {g' : Nat} (e : aggregate env ids (env.inst h) cvs db g n = .ok (db', g')) {ls : List Rng} (hc : Chain 0 ((pts h).length - 1) ls)
    (hl : ls.Perm ((Hdb.contents db).map Node.range)) :
    ∃ out, MergeSpec (· ∈ cvs) (Joinable env pts h) [] ls out ∧ out.Perm ((Hdb.contents db').map Node.range) := by
  obtain ⟨objs, e1, e⟩ := Res.bind_eq_ok.1 e
  obtain ⟨out, y, p⟩ := Hdb.all_yields hd.wf
  have : objs = out := (Hdb.all_le db).val e1 y
  subst this
  obtain ⟨-, r⟩ := aggLoop_tried (orig := Hdb.contents db) he hi ht hinj hp.fresh n [] (sortNodes objs) db [] g db' g' (Nat.le_refl _) hd hp
    (mem_sortNodes.trans p) (sortNodes_chain (hp.perm p.symm)) ⟨by simp, by simp, by simp, by simp⟩ e
  obtain ⟨out, m1, m2⟩ := r hav
  have hs : (sortNodes objs).map Node.range = ls :=
    (sortNodes_chain (hp.perm p.symm)).eq_of_mem hc (fun r => (((mem_sortNodes (l := objs)).trans p).map Node.range).mem_iff.trans hl.symm.mem_iff)
  rw [hs] at m1
  exact ⟨out, m1, m2⟩

end Verif
