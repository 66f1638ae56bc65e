import Verif.Lemmas.Merge

/-! The merge pass as a whole. -/

set_option linter.unusedSectionVars false

namespace Verif

variable {P C B K : Type} [LinearOrder B] [BoundedOrder B] [LinearOrder K]
variable {env : Env P C B K} {pts : Int → List P} {hs : List Int} {src : Int → Prop} {ids : Nat → Int} {g : Nat}

/-- the score of the piece is acceptable to the relation in use -/
def Accepted (env : Env P C B K) (pts : Int → List P) (nd : Node P C B) : Prop :=
  ∃ k v, (env.inst nd.inst).scoreFn (Coords.sub (pts nd.inst) nd.range.I nd.range.J) = .ok (k, v) ∧ (env.inst nd.inst).rel v = true

theorem Merged.accepted {h : Int} {g' : Nat} {a b m : Node P C B} (hm : Merged env pts ids g g' h a b m) : Accepted env pts m := by
  obtain ⟨k, v, h1, h2⟩ := hm.score
  rw [Accepted, hm.piece.inst, hm.range]
  exact ⟨k, v, h1, h2⟩

theorem Merged.not_inside {h : Int} {g' : Nat} {a b m : Node P C B} (hm : Merged env pts ids g g' h a b m) {v : Int} (h1 : ¬ Inside v a)
    (h2 : ¬ Inside v b) (h3 : v ≠ a.range.J) : ¬ Inside v m := by
  have := hm.adj
  simp only [Inside, hm.range] at h1 h2 ⊢
  omega

/-- pieces of one polyline sorted by their start are in chain order -/
theorem sortNodes_chain {h : Int} {l : List (Node P C B)} (hp : Pieces env pts [h] src ids g l) :
    Chain 0 ((pts h).length - 1) ((sortNodes l).map Node.range) := by
  obtain ⟨s, h1, h2⟩ := hp.cover h (by simp)
  have hall : l.filter (fun nd => decide (nd.inst = h)) = l := by
    rw [List.filter_eq_self]
    intro a ha
    simpa using List.mem_singleton.1 (hp.piece a ha).1
  rw [hall] at h1
  have hpw : s.Pairwise (fun a b => a.range.I < b.range.I) := by
    have := h2.pairwise
    rw [List.pairwise_map] at this
    refine List.Pairwise.imp_of_mem ?_ this
    intro a b ha _ hab
    have := h2.mem (List.mem_map.2 ⟨a, ha, rfl⟩)
    omega
  have heq : sortNodes l = s := by
    refine List.Perm.eq_of_pairwise (le := fun a b => a.range.I ≤ b.range.I) ?_ (List.pairwise_insertionSort _ l) (hpw.imp (fun h => Int.le_of_lt h))
      (mem_sortNodes.trans h1.symm)
    intro a b ha hb hab hba
    have ha' : a ∈ s := h1.mem_iff.2 (mem_sortNodes.mem_iff.1 ha)
    by_contra hne
    obtain ⟨i, hi⟩ := List.getElem?_of_mem ha'
    obtain ⟨j, hj⟩ := List.getElem?_of_mem hb
    rw [List.pairwise_iff_getElem] at hpw
    have hi' := List.getElem?_eq_some_iff.1 hi
    have hj' := List.getElem?_eq_some_iff.1 hj
    obtain ⟨hi1, hi2⟩ := hi'
    obtain ⟨hj1, hj2⟩ := hj'
    rcases Nat.lt_trichotomy i j with hlt | heq | hlt
    · have := hpw i j hi1 hj1 hlt; rw [hi2, hj2] at this; omega
    · subst heq; rw [hi2] at hj2; exact hne hj2
    · have := hpw j i hj1 hi1 hlt; rw [hi2, hj2] at this; omega
  rw [heq]; exact h2

/-- constdp/node_aggregates.go:33-116: the merge loop terminates and keeps the cover; pieces are kept or merged with acceptable scores, settled pieces stay
settled, fixed vertices stay piece ends -/
theorem aggLoop_yields (he : EnvOK env) {h : Int} (hi : InstOK env h (pts h)) (hinj : Function.Injective ids) (cvs : List Int) : ∀ (n : Nat)
    (u objects : List (Node P C B)) (db : Db P C B) (cache : List (List Int)) (g : Nat), objects.length = n → DbOK db →
    Pieces env pts [h] src ids g (Hdb.contents db) → (u ++ objects).Perm (Hdb.contents db) → Chain 0 ((pts h).length - 1) ((u ++ objects).map Node.range) →
    ∃ db' g', Yields (fun fuel => aggLoop env ids (env.inst h) cvs fuel objects db cache g) (db', g') ∧ DbOK db' ∧ g ≤ g' ∧
      Pieces env pts [h] src ids g' (Hdb.contents db') ∧
      ((∀ x ∈ Hdb.contents db, Settled env x) → ∀ x ∈ Hdb.contents db', Settled env x) ∧
      (∀ x ∈ Hdb.contents db', x ∈ Hdb.contents db ∨ Accepted env pts x) ∧
      ((∀ v ∈ cvs, ∀ x ∈ Hdb.contents db, ¬ Inside v x) → ∀ v ∈ cvs, ∀ x ∈ Hdb.contents db', ¬ Inside v x)  ∧
      (∀ Q : List (Node P C B) → Prop, (∀ g g' hull o o' l l', Pieces env pts [h] src ids g l → AggOut env pts ids g g' h cvs hull o o' l l' → Q l → Q l') →
        Q (Hdb.contents db) → Q (Hdb.contents db')) := by
  intro n
  induction n using Nat.strong_induction_on with
  | _ n ih =>
    intro u objects db cache g hlen hd hp hperm hc
    cases objects with
    | nil =>
      refine ⟨db, g, ⟨1, fun fuel hf => ?_⟩, hd, Nat.le_refl _, hp, fun h => h, fun x hx => .inl hx, fun h => h, fun _ _ h => h⟩
      obtain ⟨f, rfl⟩ := Nat.exists_eq_add_of_le' hf
      rfl
    | cons hull objects =>
      have hskip : ∀ {db' g'}, Yields (fun fuel => aggLoop env ids (env.inst h) cvs fuel objects db cache g) (db', g') →
          (hull.range.size ≠ 1 ∨ (hull.range.I ∈ cvs ∧ hull.range.J ∈ cvs)) →
          Yields (fun fuel => aggLoop env ids (env.inst h) cvs fuel (hull :: objects) db cache g) (db', g') := by
        rintro db' g' ⟨N, hN⟩ hcond
        refine ⟨N + 1, fun fuel hf => ?_⟩
        obtain ⟨f, rfl⟩ := Nat.exists_eq_add_of_le' (Nat.le_trans (by omega : 1 ≤ N + 1) hf)
        have e := hN f (by omega)
        simp only [] at e
        by_cases hsz : hull.range.size ≠ 1
        · simp only [aggLoop, hsz, if_true, e, ne_eq, not_false_iff]
        · have := hcond.resolve_left hsz
          simp only [aggLoop, hsz, if_false, this, if_true, e, and_self]
      have happ : u ++ hull :: objects = (u ++ [hull]) ++ objects := by simp
      by_cases hcond : hull.range.size ≠ 1 ∨ (hull.range.I ∈ cvs ∧ hull.range.J ∈ cvs)
      · obtain ⟨db', g', y, d', r⟩ := ih objects.length (by simp at hlen; omega) (u ++ [hull]) objects db cache g rfl hd hp (happ ▸ hperm) (happ ▸ hc)
        exact ⟨db', g', hskip y hcond, d', r⟩
      · obtain ⟨d1, obj1, c1, g1, ⟨N1, hN1⟩, w1, hg1, hout⟩ := aggStep_yields (ids := ids) he hi cvs hd hp hperm hc cache
        have hstep : ∀ {db' g'}, Yields (fun fuel => aggLoop env ids (env.inst h) cvs fuel obj1 d1 c1 g1) (db', g') →
            Yields (fun fuel => aggLoop env ids (env.inst h) cvs fuel (hull :: objects) db cache g) (db', g') := by
          rintro db' g' ⟨N, hN⟩
          refine ⟨max N N1 + 1, fun fuel hf => ?_⟩
          obtain ⟨f, rfl⟩ := Nat.exists_eq_add_of_le' (Nat.le_trans (by omega : 1 ≤ max N N1 + 1) hf)
          have e := hN f (by omega)
          simp only [] at e
          have h1 : ¬ hull.range.size ≠ 1 := fun h => hcond (.inl h)
          have h2 : ¬ (hull.range.I ∈ cvs ∧ hull.range.J ∈ cvs) := fun h => hcond (.inr h)
          simp only [aggLoop, h1, if_false, h2, hN1 f (by omega), Res.ok_bind, e]
        have hset : ∀ {m : Node P C B} {db0 : Db P C B}, m.inst = h → Known env pts [h] m → DbOK db0 → (∀ x ∈ Hdb.contents db0, Known env pts [h] x ∧ x.mbr.Valid) →
            Yields (validateMerge env (env.inst h) m db0) true → Settled env m := by
          intro m db0 hmi hk hd0 hkn hv
          have hi' : ∀ k ∈ [h], InstOK env k (pts k) := by
            intro k hk; rw [List.mem_singleton] at hk; rw [hk]; exact hi
          obtain ⟨b, hb, hb2⟩ := validateMerge_yields he hi' (h := h) (by simp) hd0 hkn hk
          have : b = true := hb.unique hv
          right; right; rw [hmi]
          exact (hb2.1 this).2
        have hi' : ∀ k ∈ [h], InstOK env k (pts k) := by
          intro k hk; rw [List.mem_singleton] at hk; rw [hk]; exact hi
        have kv : ∀ x ∈ Hdb.contents db, Known env pts [h] x ∧ x.mbr.Valid := fun x hx => ⟨hp.known hx, hp.valid hi' hx⟩
        have hone : ∀ x ∈ Hdb.contents db, x.inst = h := fun x hx => List.mem_singleton.1 (hp.known hx).inst
        have hall := hout
        rcases hout with ⟨hb, ho⟩ | ⟨nxt, m, rest, db0, hb, ha, ho, hj, hm, hd0, hc0, hv⟩ | ⟨prv, m, rest, out, db0, hb, ha, ho, hj, hm, hd0, hc0, -, hv⟩
        · -- nothing changed
          subst ho
          obtain ⟨db', g', y, d', hg, p', r1, r2, r3, r4⟩ := ih obj1.length (by simp at hlen; omega) (u ++ [hull]) obj1 d1 c1 g1 rfl w1
            ((hp.perm hb.symm).mono hg1) ((happ ▸ hperm).trans hb.symm) (happ ▸ hc)
          refine ⟨db', g', hstep y, d', by omega, p', ?_, ?_, ?_, fun Q hQ hq => r4 Q hQ (hQ _ _ _ _ _ _ _ hp hall hq)⟩
          · intro h; exact r1 (fun x hx => h x (hb.mem_iff.1 hx))
          · intro x hx
            rcases r2 x hx with h | h
            · exact .inl (hb.mem_iff.1 h)
            · exact .inr h
          · intro h; exact r3 (fun v hv x hx => h v hv x (hb.mem_iff.1 hx))
        · -- merged with the successor
          subst ho
          have hmem1 : hull ∈ Hdb.contents db := hb.mem_iff.2 (by simp)
          have hmem2 : nxt ∈ Hdb.contents db := hb.mem_iff.2 (by simp)
          have hmi := hm.piece.inst
          have hp1 : Pieces env pts [h] src ids g1 (m :: rest) :=
            (hp.perm hb).merge ((hone _ hmem1).trans (hone _ hmem2).symm) hm.adj hm.id hinj (by rw [hone _ hmem1]; exact hm.piece) hm.range
          have happ2 : u ++ hull :: nxt :: obj1 = u ++ ([hull, nxt] ++ obj1) := rfl
          have hperm1 : ((u ++ [m]) ++ obj1).Perm (Hdb.contents d1) := by
            refine List.Perm.trans ?_ ha.symm
            have h3 : (hull :: nxt :: (u ++ obj1)).Perm (hull :: nxt :: rest) := by
              refine List.Perm.trans ?_ (hperm.trans hb)
              rw [happ2]
              exact List.perm_append_comm_assoc [hull, nxt] u obj1
            have h4 := h3.cons_inv.cons_inv
            rw [List.append_assoc]
            exact List.perm_middle.trans (h4.cons m)
          have hc1 : Chain 0 ((pts h).length - 1) (((u ++ [m]) ++ obj1).map Node.range) := by
            rw [List.map_append, List.map_cons, List.map_cons] at hc
            obtain ⟨q, c1, c2, c3, c4, c5, c6⟩ := Chain.append_iff.1 hc
            rw [List.append_assoc, List.map_append]
            refine c1.append ?_
            simp only [List.singleton_append, List.map_cons, hm.range]
            exact ⟨c2, by simp; omega, c6⟩
          have hkm := hm.known (hs := [h]) (by simp) (kv _ hmem1).1 (kv _ hmem2).1 (hone _ hmem2)
          obtain ⟨db', g', y, d', hg, p', r1, r2, r3, r4⟩ := ih obj1.length (by simp at hlen; omega) (u ++ [m]) obj1 d1 c1 g1 rfl w1
            (hp1.perm ha.symm) hperm1 hc1
          have hkn0 : ∀ x ∈ Hdb.contents db0, Known env pts [h] x ∧ x.mbr.Valid := fun x hx =>
            kv x (hb.mem_iff.2 (List.mem_cons_of_mem _ (List.mem_cons_of_mem _ (hc0.mem_iff.1 hx))))
          refine ⟨db', g', hstep y, d', by omega, p', ?_, ?_, ?_, fun Q hQ hq => r4 Q hQ (hQ _ _ _ _ _ _ _ hp hall hq)⟩
          · intro hS
            refine r1 (fun x hx => ?_)
            rcases List.mem_cons.1 (ha.mem_iff.1 hx) with rfl | hx
            · exact hset hmi hkm hd0 hkn0 hv
            · exact hS x (hb.mem_iff.2 (List.mem_cons_of_mem _ (List.mem_cons_of_mem _ hx)))
          · intro x hx
            rcases r2 x hx with hx | hx
            · rcases List.mem_cons.1 (ha.mem_iff.1 hx) with rfl | hx
              · exact .inr hm.accepted
              · exact .inl (hb.mem_iff.2 (List.mem_cons_of_mem _ (List.mem_cons_of_mem _ hx)))
            · exact .inr hx
          · intro hS
            refine r3 (fun v hv' x hx => ?_)
            rcases List.mem_cons.1 (ha.mem_iff.1 hx) with rfl | hx
            · refine hm.not_inside (hS v hv' _ hmem1) (hS v hv' _ hmem2) ?_
              rintro rfl; exact hj hv'
            · exact hS v hv' x (hb.mem_iff.2 (List.mem_cons_of_mem _ (List.mem_cons_of_mem _ hx)))
        · -- merged with the predecessor
          subst ho
          have hmem1 : prv ∈ Hdb.contents db := hb.mem_iff.2 (by simp)
          have hmem2 : hull ∈ Hdb.contents db := hb.mem_iff.2 (by simp)
          have hmi := hm.piece.inst
          have hp0 := hp.perm hb
          have hp1 : Pieces env pts [h] src ids g1 (m :: rest) :=
            hp0.merge ((hone _ hmem1).trans (hone _ hmem2).symm) hm.adj hm.id hinj (by rw [hone _ hmem1]; exact hm.piece) hm.range
          -- the predecessor is the last piece before the fragment
          obtain ⟨u0, hu0⟩ : ∃ u0, u = u0 ++ [prv] := by
            have hall : (prv :: hull :: rest).filter (fun nd => decide (nd.inst = prv.inst)) = prv :: hull :: rest := by
              rw [List.filter_eq_self]
              intro a ha
              rw [hone prv hmem1, hone a (hb.mem_iff.2 ha)]; simp
            obtain ⟨p, q, hpq⟩ := hp0.adjacent (s := u ++ hull :: obj1) ((hone _ hmem1).trans (hone _ hmem2).symm) hm.adj
              (by rw [hall]; exact hperm.trans hb) (by rw [hone prv hmem1]; exact hc)
            have hnd : ((u ++ hull :: obj1).map Node.id).Nodup := (hperm.map Node.id).nodup_iff.2 hp.nodup
            have hnd' : (u ++ hull :: obj1).Nodup := hnd.of_map
            have h1 : u ++ hull :: obj1 = (p ++ [prv]) ++ hull :: q := by rw [hpq]; simp
            refine ⟨p, ?_⟩
            have hnu : hull ∉ u := by
              intro hm'
              rw [List.nodup_append] at hnd'
              exact hnd'.2.2 hull hm' hull (by simp) rfl
            have hnp : hull ∉ p ++ [prv] := by
              intro hm'
              rw [h1, List.nodup_append] at hnd'
              exact hnd'.2.2 hull hm' hull (by simp) rfl
            rcases List.append_eq_append_iff.1 h1 with ⟨as, h2, h3⟩ | ⟨bs, h2, h3⟩
            · cases as with
              | nil => simpa using h2.symm
              | cons a as =>
                simp only [List.cons_append, List.cons.injEq] at h3
                exact absurd (h2 ▸ (by rw [h3.1]; simp)) hnp
            · cases bs with
              | nil => simpa using h2
              | cons a as =>
                simp only [List.cons_append, List.cons.injEq] at h3
                exact absurd (h2 ▸ (by rw [h3.1]; simp)) hnu
          subst hu0
          have happ2 : (u0 ++ [prv]) ++ hull :: obj1 = u0 ++ ([prv, hull] ++ obj1) := by simp
          have hperm1 : ((u0 ++ [m]) ++ obj1).Perm (Hdb.contents d1) := by
            refine List.Perm.trans ?_ ha.symm
            have h3 : (prv :: hull :: (u0 ++ obj1)).Perm (prv :: hull :: rest) := by
              refine List.Perm.trans ?_ (hperm.trans hb)
              rw [happ2]
              exact List.perm_append_comm_assoc [prv, hull] u0 obj1
            have h4 := h3.cons_inv.cons_inv
            rw [List.append_assoc]
            exact List.perm_middle.trans (h4.cons m)
          have hc1 : Chain 0 ((pts h).length - 1) (((u0 ++ [m]) ++ obj1).map Node.range) := by
            rw [happ2, List.map_append] at hc
            obtain ⟨q, c1, c2, c3, c4, c5, c6⟩ := Chain.append_iff.1 hc
            rw [List.append_assoc, List.map_append]
            refine c1.append ?_
            simp only [List.singleton_append, List.map_cons, hm.range]
            exact ⟨c2, by simp; omega, c6⟩
          have hkm := hm.known (hs := [h]) (by simp) (kv _ hmem1).1 (kv _ hmem2).1 (hone _ hmem2)
          obtain ⟨db', g', y, d', hg, p', r1, r2, r3, r4⟩ := ih obj1.length (by simp at hlen; omega) (u0 ++ [m]) obj1 d1 c1 g1 rfl w1
            (hp1.perm ha.symm) hperm1 hc1
          have hkn0 : ∀ x ∈ Hdb.contents db0, Known env pts [h] x ∧ x.mbr.Valid := fun x hx =>
            kv x (hb.mem_iff.2 (List.mem_cons_of_mem _ (List.mem_cons_of_mem _ (hc0.mem_iff.2 (List.mem_append_right _ hx)))))
          refine ⟨db', g', hstep y, d', by omega, p', ?_, ?_, ?_, fun Q hQ hq => r4 Q hQ (hQ _ _ _ _ _ _ _ hp hall hq)⟩
          · intro hS
            refine r1 (fun x hx => ?_)
            rcases List.mem_cons.1 (ha.mem_iff.1 hx) with rfl | hx
            · exact hset hmi hkm hd0 hkn0 hv
            · exact hS x (hb.mem_iff.2 (List.mem_cons_of_mem _ (List.mem_cons_of_mem _ hx)))
          · intro x hx
            rcases r2 x hx with hx | hx
            · rcases List.mem_cons.1 (ha.mem_iff.1 hx) with rfl | hx
              · exact .inr hm.accepted
              · exact .inl (hb.mem_iff.2 (List.mem_cons_of_mem _ (List.mem_cons_of_mem _ hx)))
            · exact .inr hx
          · intro hS
            refine r3 (fun v hv' x hx => ?_)
            rcases List.mem_cons.1 (ha.mem_iff.1 hx) with rfl | hx
            · refine hm.not_inside (hS v hv' _ hmem1) (hS v hv' _ hmem2) ?_
              rintro rfl
              rw [hm.adj] at hv'; exact hj hv'
            · exact hS v hv' x (hb.mem_iff.2 (List.mem_cons_of_mem _ (List.mem_cons_of_mem _ hx)))

/-- constdp/node_aggregates.go:14-117 -/
theorem aggregate_yields (he : EnvOK env) {h : Int} (hi : InstOK env h (pts h)) (hinj : Function.Injective ids) (cvs : List Int) {db : Db P C B}
    (hd : DbOK db) (hp : Pieces env pts [h] src ids g (Hdb.contents db)) :
    ∃ db' g', Yields (aggregate env ids (env.inst h) cvs db g) (db', g') ∧ DbOK db' ∧ g ≤ g' ∧ Pieces env pts [h] src ids g' (Hdb.contents db') ∧
      ((∀ x ∈ Hdb.contents db, Settled env x) → ∀ x ∈ Hdb.contents db', Settled env x) ∧
      (∀ x ∈ Hdb.contents db', x ∈ Hdb.contents db ∨ Accepted env pts x) ∧
      ((∀ v ∈ cvs, ∀ x ∈ Hdb.contents db, ¬ Inside v x) → ∀ v ∈ cvs, ∀ x ∈ Hdb.contents db', ¬ Inside v x)  ∧
      (∀ Q : List (Node P C B) → Prop, (∀ g g' hull o o' l l', Pieces env pts [h] src ids g l → AggOut env pts ids g g' h cvs hull o o' l l' → Q l → Q l') →
        Q (Hdb.contents db) → Q (Hdb.contents db')) := by
  obtain ⟨out, ⟨N, hN⟩, p⟩ := Hdb.all_yields hd.wf
  obtain ⟨db', g', ⟨M, hM⟩, r⟩ := aggLoop_yields he hi hinj cvs _ [] (sortNodes out) db [] g rfl hd hp (mem_sortNodes.trans p)
    (sortNodes_chain (hp.perm p.symm))
  refine ⟨db', g', ⟨max N M, fun fuel hf => ?_⟩, r⟩
  have e := hM fuel (by omega)
  simp only [] at e
  simp only [aggregate, hN fuel (by omega), Res.ok_bind, e]

end Verif
