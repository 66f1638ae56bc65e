import Verif.Props.C50_BySize
import Verif.Props.C25_NonPlanar

/-!
C132: what merging by size records as not merged.  The specification is about the pieces given, the pieces removed and nearness only: the map `unmerged` is to hold
fragments of the asked size that were left alone although there was something next to them.
-/

set_option linter.unusedSectionVars false

namespace Verif

variable {P C B K : Type} [LinearOrder B] [BoundedOrder B] [LinearOrder K]
variable {env : Env P C B K} {pts : Int → List P} {src : Int → Prop} {ids : Nat → Int}
variable {h0 : Int} {score : ScoreFn P K} {valid : Fl K → Bool} {vs : List Int} {size : Int} {hulls : List (Node P C B)}

theorem mem_dictSet_self (d : List (Node P C B)) (h : Node P C B) : h ∈ dictSet d h := by
  unfold dictSet
  split
  · rename_i e
    obtain ⟨x, hx, hr⟩ := List.any_eq_true.1 e
    exact List.mem_map.2 ⟨x, hx, by rw [if_pos (by simpa using hr)]⟩
  · simp

theorem of_mem_dictSet {d : List (Node P C B)} {h x : Node P C B} (hx : x ∈ dictSet d h) : x = h ∨ x ∈ d := by
  unfold dictSet at hx
  split at hx
  · obtain ⟨y, hy, e⟩ := List.mem_map.1 hx
    split at e
    · exact Or.inl e.symm
    · exact Or.inr (e ▸ hy)
  · rcases List.mem_append.1 hx with h | h
    · exact Or.inr h
    · exact Or.inl (List.mem_singleton.1 h)

theorem mem_dictSet_of_ne {d : List (Node P C B)} {h x : Node P C B} (hx : x ∈ d) (hn : x.range ≠ h.range) : x ∈ dictSet d h := by
  unfold dictSet
  split
  · exact List.mem_map.2 ⟨x, hx, by rw [if_neg hn]⟩
  · exact List.mem_append_left _ hx

/-- what the loop over the neighbours does to the record -/
theorem sizeInner_unmerged {lib : Lib P C B K} {h : Node P C B} : ∀ (ns : List (Node P C B)) (st st' : SizeSt P C B),
    sizeInner lib ids score valid vs h ns st = .ok st' →
    (∀ x ∈ st.unmerged, x.range ≠ h.range → x ∈ st'.unmerged) ∧
    ((∃ s ∈ ns, s.range ∉ st.mrg ∧ sizeMergeable score valid vs h s = .ok true ∧ st'.mrg = s.range :: h.range :: st.mrg ∧
        ∀ x ∈ st'.unmerged, x ∈ st.unmerged ∧ x.range ≠ h.range) ∨
     (st'.mrg = st.mrg ∧ (∀ x ∈ st'.unmerged, x ∈ st.unmerged ∨ (x = h ∧ ∃ s ∈ ns, s.range ∉ st.mrg)) ∧
        (h ∈ st.unmerged → h ∈ st'.unmerged) ∧ ((∃ s ∈ ns, s.range ∉ st.mrg) → h ∈ st'.unmerged)))
  | [], st, st', e => by
    simp only [sizeInner, Res.ok.injEq] at e
    subst e
    exact ⟨fun x hx _ => hx, Or.inr ⟨rfl, fun x hx => Or.inl hx, id, by simp⟩⟩
  | s :: ns, st, st', e => by
    by_cases hm : s.range ∈ st.mrg
    · simp only [sizeInner, hm, if_true] at e
      obtain ⟨k, r⟩ := sizeInner_unmerged ns st st' e
      refine ⟨k, r.imp ?_ ?_⟩
      · rintro ⟨t, ht, r⟩
        exact ⟨t, List.mem_cons_of_mem _ ht, r⟩
      · rintro ⟨r1, r2, r3, r4⟩
        refine ⟨r1, fun x hx => (r2 x hx).imp id ?_, r3, ?_⟩
        · rintro ⟨e, t, ht, q⟩
          exact ⟨e, t, List.mem_cons_of_mem _ ht, q⟩
        · rintro ⟨t, ht, q⟩
          rcases List.mem_cons.1 ht with rfl | ht
          · exact absurd hm q
          · exact r4 ⟨t, ht, q⟩
    · simp only [sizeInner, hm, if_false] at e
      cases hq : sizeMergeable score valid vs h s with
      | panic => rw [hq] at e; cases e
      | timeout => rw [hq] at e; cases e
      | ok m =>
        rw [hq] at e
        simp only [Res.ok_bind] at e
        cases m with
        | true =>
          simp only [if_true, sizeMerge] at e
          cases hc : contiguousCoordinates h s with
          | panic => rw [hc] at e; cases e
          | timeout => rw [hc] at e; cases e
          | ok c =>
            rw [hc] at e
            simp only [Res.ok_bind] at e
            cases hd : createNode lib (ids st.g) c (mergeRange s.range h.range) h.inst with
            | panic => rw [hd] at e; cases e
            | timeout => rw [hd] at e; cases e
            | ok nd =>
              rw [hd] at e
              simp only [Res.ok_bind, Res.pure_eq, Res.ok.injEq] at e
              subst e
              refine ⟨fun x hx hn => List.mem_filter.2 ⟨hx, by simpa using hn⟩, Or.inl ⟨s, by simp, hm, hq, rfl, fun x hx => ?_⟩⟩
              obtain ⟨a, b⟩ := List.mem_filter.1 hx
              exact ⟨a, by simpa using b⟩
        | false =>
          simp only [Bool.false_eq_true, if_false] at e
          obtain ⟨k, r⟩ := sizeInner_unmerged ns _ st' e
          refine ⟨fun x hx hn => k x (mem_dictSet_of_ne hx hn) hn, r.imp ?_ ?_⟩
          · rintro ⟨t, ht, q1, q2, q3, q4⟩
            refine ⟨t, List.mem_cons_of_mem _ ht, q1, q2, q3, fun x hx => ?_⟩
            obtain ⟨a, b⟩ := q4 x hx
            rcases of_mem_dictSet a with rfl | a
            · exact absurd rfl b
            · exact ⟨a, b⟩
          · rintro ⟨r1, r2, r3, r4⟩
            have hin : h ∈ st'.unmerged := r3 (mem_dictSet_self _ _)
            refine ⟨r1, fun x hx => ?_, fun _ => hin, fun _ => hin⟩
            rcases r2 x hx with a | ⟨rfl, -⟩
            · rcases of_mem_dictSet a with rfl | a
              · exact Or.inr ⟨rfl, s, by simp, hm⟩
              · exact Or.inl a
            · exact Or.inr ⟨rfl, s, by simp, hm⟩

/-- the record after the pieces `done` -/
structure Recorded (env : Env P C B K) (size : Int) (hulls done : List (Node P C B)) (st : SizeSt P C B) : Prop where
  sound : ∀ x ∈ st.unmerged, x ∈ done ∧ x.range.size = size ∧ x.range ∉ st.mrg ∧ ∃ s, Near env hulls x s
  complete : ∀ x ∈ done, x.range.size = size → x.range ∉ st.mrg → ∀ s, Near env hulls x s → s.range ∉ st.mrg → x ∈ st.unmerged

theorem CanMerge.symm {q : List P} {a b : Node P C B} (h : CanMerge q score valid vs a b) : CanMerge q score valid vs b a := Or.symm h

theorem sizeStep_recorded {db : Db P C B} (hdb : DbOK db) (hcon : (Hdb.contents db).Perm hulls)
    (hbox : ∀ x ∈ hulls, x.mbr.Valid)
    (hsc : ∀ i j : Int, 0 ≤ i → i < j → j < (pts h0).length → ∃ k v, score (Coords.sub (pts h0) i j) = .ok (k, v))
    (hsym : ∀ x ∈ hulls, ∀ s ∈ hulls, (env.lib.distance s.geom x.geom).le env.eps = true → (env.lib.distance x.geom s.geom).le env.eps = true)
    {done : List (Node P C B)} {h : Node P C B} {todo : List (Node P C B)} (hdt : hulls = done ++ h :: todo) (hn : (hulls.map Node.range).Nodup)
    {st st' : SizeSt P C B} {ps : List (SizePair P C B)} (inv : SizeInv env pts h0 src ids score valid vs size hulls done done st ps)
    (rec : Recorded env size hulls done st) (y : Yields (sizeStep env ids score valid vs size db h st) st') :
    Recorded env size hulls (done ++ [h]) st' := by
  have hhm : h ∈ hulls := by rw [hdt]; simp
  have hdm : ∀ x ∈ done, x ∈ hulls := fun x hx => by rw [hdt]; simp [hx]
  have huniq : ∀ x ∈ hulls, ∀ s ∈ hulls, x.range = s.range → x = s := fun x hx s hs e => List.inj_on_of_nodup_map hn hx hs e
  have hdne : ∀ x ∈ done, x.range ≠ h.range := by
    intro x hx he
    rw [hdt, List.map_append, List.nodup_append] at hn
    exact hn.2.2 _ (List.mem_map.2 ⟨x, hx, rfl⟩) _ (List.mem_map.2 ⟨h, by simp, rfl⟩) he
  obtain ⟨N1, y⟩ := y
  by_cases hm : h.range ∈ st.mrg
  · have := y N1 (Nat.le_refl _)
    simp only [sizeStep, hm, if_true, Res.ok.injEq] at this
    subst this
    refine ⟨fun x hx => ?_, fun x hx hs hx2 => ?_⟩
    · obtain ⟨a, b⟩ := rec.sound x hx
      exact ⟨List.mem_append_left _ a, b⟩
    · rcases List.mem_append.1 hx with hx | hx
      · exact rec.complete x hx hs hx2
      · rw [List.mem_singleton.1 hx] at hx2
        exact absurd hm hx2
  by_cases hsz : h.range.size = size
  · obtain ⟨ns, ⟨N, hN⟩, hp⟩ := neighboursOf_yields (env := env) hdb (fun x hx => hbox x (hcon.mem_iff.1 hx)) h
    have hso : ∀ x, x ∈ sortNodes ns ↔ x ∈ ns := fun x => (List.perm_insertionSort _ ns).mem_iff
    have hmem : ∀ x, x ∈ sortNodes ns ↔ Near env hulls h x := by
      intro x
      rw [hso, hp.mem_iff, List.mem_filter, hcon.mem_iff]
      simp [Near]
    have e := y (max N N1) (Nat.le_max_right _ _)
    simp only [sizeStep, hm, if_false, hsz, ne_eq, not_true, hN _ (Nat.le_max_left N N1), Res.ok_bind] at e
    obtain ⟨k, r⟩ := sizeInner_unmerged _ _ _ e
    rcases r with ⟨s, hs, q1, q2, q3, q4⟩ | ⟨r1, r2, r3, r4⟩
    · -- merged with `s`
      have hnear := (hmem s).1 hs
      have hsm := hnear.1
      have hs' : s ∈ free st.mrg hulls := mem_free.2 ⟨hsm, q1⟩
      have hh' : h ∈ free st.mrg hulls := mem_free.2 ⟨hhm, hm⟩
      have hcm : CanMerge (pts h0) score valid vs h s := by
        have mh : h ∈ free st.mrg hulls ++ ps.map SizePair.union := List.mem_append_left _ hh'
        have ms : s ∈ free st.mrg hulls ++ ps.map SizePair.union := List.mem_append_left _ hs'
        have bh := inv.cover.bounds mh
        have bs := inv.cover.bounds ms
        obtain ⟨ih, ph⟩ := inv.cover.piece h mh
        obtain ⟨is, pps⟩ := inv.cover.piece s ms
        simp only [List.mem_singleton] at ih is
        rw [ih] at ph bh
        rw [is] at pps bs
        obtain ⟨m, em, hmc⟩ := sizeMergeable_spec (valid := valid) (vs := vs) hsc ph pps bh bs
        rw [q2] at em
        simp only [Res.ok.injEq] at em
        exact hmc.1 em.symm
      refine ⟨fun x hx => ?_, fun x hx hxs hx2 t ht htm => ?_⟩
      · obtain ⟨a, b⟩ := q4 x hx
        obtain ⟨c1, c2, c3, c4⟩ := rec.sound x a
        refine ⟨List.mem_append_left _ c1, c2, ?_, c4⟩
        rw [q3]
        simp only [List.mem_cons, not_or]
        refine ⟨fun he => ?_, b, c3⟩
        have hxe := huniq x (hdm x c1) s hsm he
        subst hxe
        refine inv.max x (mem_free.2 ⟨c1, c3⟩) c2 h hh' ⟨hhm, Ne.symm hnear.2.1, ?_, hsym h hhm x hsm hnear.2.2.2⟩ hcm.symm
        rw [Box.intersects_comm]; exact hnear.2.2.1
      · rw [q3] at hx2 htm
        simp only [List.mem_cons, not_or] at hx2 htm
        rcases List.mem_append.1 hx with hx | hx
        · exact k x (rec.complete x hx hxs hx2.2.2 t ht htm.2.2) hx2.2.1
        · exact absurd (by rw [List.mem_singleton.1 hx]) hx2.2.1
    · refine ⟨fun x hx => ?_, fun x hx hxs hx2 t ht htm => ?_⟩
      · rw [r1]
        rcases r2 x hx with a | ⟨rfl, s, hs, -⟩
        · obtain ⟨c1, c2⟩ := rec.sound x a
          exact ⟨List.mem_append_left _ c1, c2⟩
        · exact ⟨by simp, hsz, hm, s, (hmem s).1 hs⟩
      · rw [r1] at hx2 htm
        rcases List.mem_append.1 hx with hx | hx
        · exact k x (rec.complete x hx hxs hx2 t ht htm) (hdne x hx)
        · rw [List.mem_singleton.1 hx] at ht ⊢
          exact r4 ⟨t, (hmem t).2 ht, htm⟩
  · have := y N1 (Nat.le_refl _)
    simp only [sizeStep, hm, if_false, hsz, ne_eq, not_false_iff, if_true, Res.ok.injEq] at this
    subst this
    refine ⟨fun x hx => ?_, fun x hx hs hx2 => ?_⟩
    · obtain ⟨a, b⟩ := rec.sound x hx
      exact ⟨List.mem_append_left _ a, b⟩
    · rcases List.mem_append.1 hx with hx | hx
      · exact rec.complete x hx hs hx2
      · rw [List.mem_singleton.1 hx] at hs
        exact absurd hs hsz

theorem sizeLoop_recorded (hi : InstOK env h0 (pts h0)) (hinj : Function.Injective ids) {db : Db P C B} (hdb : DbOK db) (hcon : (Hdb.contents db).Perm hulls)
    (hbox : ∀ x ∈ hulls, x.mbr.Valid)
    (hsc : ∀ i j : Int, 0 ≤ i → i < j → j < (pts h0).length → ∃ k v, score (Coords.sub (pts h0) i j) = .ok (k, v))
    (hsym : ∀ x ∈ hulls, ∀ s ∈ hulls, (env.lib.distance s.geom x.geom).le env.eps = true → (env.lib.distance x.geom s.geom).le env.eps = true)
    (hn : (hulls.map Node.range).Nodup) :
    ∀ (todo done : List (Node P C B)) (st : SizeSt P C B) (ps : List (SizePair P C B)), hulls = done ++ todo →
      SizeInv env pts h0 src ids score valid vs size hulls done done st ps → Recorded env size hulls done st →
      ∃ st' ps', Yields (sizeLoop env ids score valid vs size db todo st) st' ∧ SizeInv env pts h0 src ids score valid vs size hulls hulls hulls st' ps' ∧
        Recorded env size hulls hulls st'
  | [], done, st, ps, hd, inv, rec => by
    rw [List.append_nil] at hd
    subst hd
    exact ⟨st, ps, Yields.const st, inv, rec⟩
  | h :: todo, done, st, ps, hd, inv, rec => by
    obtain ⟨st1, ps1, y1, inv1⟩ := sizeStep_spec hi hinj hdb hcon hbox hsc hd hn st ps inv
    have rec1 := sizeStep_recorded hdb hcon hbox hsc hsym hd hn inv rec y1
    obtain ⟨st2, ps2, y2, inv2, rec2⟩ := sizeLoop_recorded hi hinj hdb hcon hbox hsc hsym hn todo (done ++ [h]) st1 ps1 (by rw [hd]; simp) inv1 rec1
    exact ⟨st2, ps2, Yields.bind y1 y2, inv2, rec2⟩

/-- **C132**.  Merging by size on a cover of one polyline that is also the content of the index, started with an empty record of unmerged fragments, with a distance that
does not depend on the order of its arguments (as far as being within the tolerance goes): the call returns; every piece recorded as unmerged is a given fragment of the
asked size that was not removed and has a neighbour; and every given fragment of the asked size that was not removed and has a neighbour that was not removed is recorded. -/
theorem C132_unmerged {g : Nat} (hi : InstOK env h0 (pts h0)) (hinj : Function.Injective ids) (hp : Pieces env pts [h0] src ids g hulls) {db : Db P C B} (hdb : DbOK db)
    (hcon : (Hdb.contents db).Perm hulls)
    (hsc : ∀ i j : Int, 0 ≤ i → i < j → j < (pts h0).length → ∃ k v, score (Coords.sub (pts h0) i j) = .ok (k, v))
    (hsym : ∀ x ∈ hulls, ∀ s ∈ hulls, (env.lib.distance s.geom x.geom).le env.eps = true → (env.lib.distance x.geom s.geom).le env.eps = true) :
    ∃ out : SizeSt P C B, Yields (contiguousFragmentsBySize env ids g hulls db vs [] size valid score) out ∧
      (∀ x ∈ out.unmerged, x ∈ hulls ∧ x ∉ out.rm ∧ x.range.size = size ∧ ∃ s, Near env hulls x s) ∧
      (∀ x ∈ hulls, x ∉ out.rm → x.range.size = size → (∃ s, s ∉ out.rm ∧ Near env hulls x s) → x ∈ out.unmerged) := by
  have hf : free [] hulls = hulls := by simp [free]
  obtain ⟨out, ps, y, inv, rec⟩ := sizeLoop_recorded (score := score) (valid := valid) (vs := vs) (size := size) hi hinj hdb hcon
    (fun x hx => hp.valid (by simpa using hi) hx) hsc hsym hp.ranges hulls [] { hdict := [], mrg := [], unmerged := [], rm := [], g := g } [] rfl
    ⟨by simpa [hf] using hp, by simp [free], rfl, by simp [taken, hf], by simp, by simp [free]⟩ ⟨by simp, by simp⟩
  have hnd : (free out.mrg hulls ++ taken ps).Nodup := inv.part.nodup_iff.1 (List.Nodup.of_map _ hp.ranges)
  have hrm : ∀ x ∈ hulls, (x ∉ out.rm ↔ x.range ∉ out.mrg) := by
    intro x hx
    rw [inv.rm]
    constructor
    · intro h
      exact (mem_free.1 ((List.mem_append.1 (inv.part.mem_iff.1 hx)).resolve_right h)).2
    · intro h ht
      exact (List.nodup_append.1 hnd).2.2 x (mem_free.2 ⟨hx, h⟩) x ht rfl
  refine ⟨out, y, fun x hx => ?_, fun x hx hr hs => ?_⟩
  · obtain ⟨a, b, c, d⟩ := rec.sound x hx
    exact ⟨a, (hrm x a).2 c, b, d⟩
  · rintro ⟨s, h1, h2⟩
    exact rec.complete x hx hs ((hrm x hx).1 hr) s h2 ((hrm s h2.1).1 h1)

end Verif
