import Verif.Model.MergeSize
import Verif.Lemmas.Merge

/-! C50, C61: merging fragments of a given size. -/

set_option linter.unusedSectionVars false

namespace Verif

variable {P C B K : Type} [LinearOrder B] [BoundedOrder B] [LinearOrder K]
variable {env : Env P C B K} {pts : Int → List P} {src : Int → Prop} {ids : Nat → Int}

/-! ### specification -/

/-- one merge: the fragment, its partner and the new piece -/
structure SizePair (P C B : Type) where
  frag : Node P C B
  other : Node P C B
  union : Node P C B

/-- the two pieces meet in a vertex outside the vertex set, and the score of the sub-line of their union is valid -/
def CanMerge (pts : List P) (score : ScoreFn P K) (valid : Fl K → Bool) (vs : List Int) (a b : Node P C B) : Prop :=
  (a.range.J = b.range.I ∧ a.range.J ∉ vs ∧ ∃ k v, score (Coords.sub pts a.range.I b.range.J) = .ok (k, v) ∧ valid v = true) ∨
  (b.range.J = a.range.I ∧ b.range.J ∉ vs ∧ ∃ k v, score (Coords.sub pts b.range.I a.range.J) = .ok (k, v) ∧ valid v = true)

/-- the new piece is the piece of the polyline for the union of two ranges that meet -/
def IsUnion (lib : Lib P C B K) (pts : List P) (inst : Int) (p : SizePair P C B) : Prop :=
  IsPiece lib pts inst p.union ∧
  ((p.frag.range.J = p.other.range.I ∧ p.union.range = ⟨p.frag.range.I, p.other.range.J⟩) ∨
   (p.other.range.J = p.frag.range.I ∧ p.union.range = ⟨p.other.range.I, p.frag.range.J⟩))

/-- the pieces taken out by merges -/
def taken (ps : List (SizePair P C B)) : List (Node P C B) := ps.flatMap (fun p => [p.other, p.frag])

/-! ### dictionaries keyed by range -/

theorem dictSet_fresh {d : List (Node P C B)} {nd : Node P C B} (h : ∀ x ∈ d, x.range ≠ nd.range) : dictSet d nd = d ++ [nd] := by
  unfold dictSet
  rw [if_neg]
  simp only [List.any_eq_true, not_exists, not_and, decide_eq_true_eq]
  exact h

theorem Chain.nodup {a b : Int} {rs : List Rng} (h : Chain a b rs) : rs.Nodup := by
  induction rs generalizing a with
  | nil => exact List.nodup_nil
  | cons r rs ih =>
    obtain ⟨h1, h2, h3⟩ := h
    refine List.nodup_cons.2 ⟨fun hm => ?_, ih h3⟩
    have := h3.mem hm
    omega

/-- pieces of a single polyline have different ranges -/
theorem Pieces.ranges {h : Int} {g : Nat} {l : List (Node P C B)} (hp : Pieces env pts [h] src ids g l) : (l.map Node.range).Nodup := by
  obtain ⟨s, s1, s2⟩ := hp.cover h (by simp)
  have : l.filter (fun nd => nd.inst = h) = l := List.filter_eq_self.2 (fun nd hnd => by simpa using (hp.piece nd hnd).1)
  rw [this] at s1
  exact (s1.map _).nodup_iff.1 s2.nodup

/-! ### invariant of the outer loop -/

/-- pieces that take no part in a merge so far -/
def free (mrg : List Rng) (l : List (Node P C B)) : List (Node P C B) := l.filter (fun x => x.range ∉ mrg)

/-- the index neighbours of a piece -/
def Near (env : Env P C B K) (l : List (Node P C B)) (x s : Node P C B) : Prop :=
  s ∈ l ∧ s.id ≠ x.id ∧ x.mbr.intersects s.mbr = true ∧ (env.lib.distance s.geom x.geom).le env.eps = true

structure SizeInv (env : Env P C B K) (pts : Int → List P) (h0 : Int) (src : Int → Prop) (ids : Nat → Int) (score : ScoreFn P K) (valid : Fl K → Bool)
    (vs : List Int) (size : Int) (hulls done seen : List (Node P C B)) (st : SizeSt P C B) (ps : List (SizePair P C B)) : Prop where
  cover : Pieces env pts [h0] src ids st.g (free st.mrg hulls ++ ps.map SizePair.union)
  dict : st.hdict.Perm (free st.mrg done ++ ps.map SizePair.union)
  rm : st.rm = taken ps
  part : hulls.Perm (free st.mrg hulls ++ taken ps)
  pairs : ∀ p ∈ ps, p.frag.range.size = size ∧ CanMerge (pts h0) score valid vs p.frag p.other ∧ IsUnion env.lib (pts h0) h0 p
  max : ∀ x ∈ free st.mrg seen, x.range.size = size → ∀ s ∈ free st.mrg hulls, Near env hulls x s → ¬ CanMerge (pts h0) score valid vs x s

section
variable {h0 : Int} {score : ScoreFn P K} {valid : Fl K → Bool} {vs : List Int} {size : Int} {hulls : List (Node P C B)}

/-- C48, merging: the coordinates built for two adjacent pieces, given in either order, are those of the united range. -/
theorem C48_merged {a b : Node P C B} {q : List P} (pa : IsPiece env.lib q h0 a) (pb : IsPiece env.lib q h0 b) (adj : a.range.J = b.range.I)
    (la : a.range.I < a.range.J) (lb : b.range.I < b.range.J) :
    contiguousCoordinates a b = .ok (Coords.sub q a.range.I b.range.J) ∧ contiguousCoordinates b a = .ok (Coords.sub q a.range.I b.range.J) := by
  have hne : a.coords.idxs ≠ [] := by
    rw [pa.coords]
    intro h0
    have := length_rangeInts a.range.I a.range.J
    simp only [Coords.sub] at h0
    rw [h0] at this; simp at this; omega
  have hj : (⟨a.coords.pnts, a.coords.idxs.dropLast ++ b.coords.idxs⟩ : Coords P) = Coords.sub q a.range.I b.range.J := by
    rw [pa.coords, pb.coords, adj]
    simp only [Coords.sub]
    rw [dropLast_append_rangeInts (by omega) (by omega)]
  have hc := contiguous_of_adj adj la lb
  constructor
  · have hsw : ¬ (b.range.I < a.range.J ∧ b.range.J = a.range.I) := by omega
    simp only [contiguousCoordinates, hc, Bool.not_true, Bool.false_eq_true, if_false, hsw, hne, hj]
  · have hsw : a.range.I < b.range.J ∧ a.range.J = b.range.I := by omega
    rw [C02_contiguous_comm] at hc
    simp only [contiguousCoordinates, hc, Bool.not_true, Bool.false_eq_true, if_false, hsw, and_self, if_true, hne, hj]

theorem sizeMergeable_spec {a b : Node P C B} {q : List P} (hs : ∀ i j : Int, 0 ≤ i → i < j → j < q.length → ∃ k v, score (Coords.sub q i j) = .ok (k, v))
    (pa : IsPiece env.lib q h0 a) (pb : IsPiece env.lib q h0 b)
    (la : 0 ≤ a.range.I ∧ a.range.I < a.range.J ∧ a.range.J < q.length) (lb : 0 ≤ b.range.I ∧ b.range.I < b.range.J ∧ b.range.J < q.length) :
    ∃ m, sizeMergeable score valid vs a b = .ok m ∧ (m = true ↔ CanMerge q score valid vs a b) := by
  unfold sizeMergeable CanMerge
  by_cases h1 : a.range.J = b.range.I
  · have h2 : ¬ a.range.I = b.range.J := by omega
    obtain ⟨c1, c2⟩ := C48_merged pa pb h1 la.2.1 lb.2.1
    obtain ⟨k, v, sk⟩ := hs a.range.I b.range.J la.1 (by omega) lb.2.2
    by_cases h3 : b.range.I ∈ vs
    · rw [if_neg (by simp [h2, h3])]
      exact ⟨false, rfl, by simp [h1, h3]; omega⟩
    · rw [if_pos (Or.inl ⟨h1, h3⟩), c2]
      simp only [Res.ok_bind, sk, Res.pure_eq]
      refine ⟨valid v, rfl, fun h => Or.inl ⟨h1, by rw [h1]; exact h3, k, v, rfl, h⟩, ?_⟩
      rintro (⟨-, -, k', v', e, hv⟩ | ⟨e, -⟩)
      · cases e; exact hv
      · omega
  · by_cases h2 : a.range.I = b.range.J
    · obtain ⟨c1, c2⟩ := C48_merged pb pa h2.symm lb.2.1 la.2.1
      obtain ⟨k, v, sk⟩ := hs b.range.I a.range.J lb.1 (by omega) la.2.2
      by_cases h3 : b.range.J ∈ vs
      · rw [if_neg (by simp [h1, h3])]
        exact ⟨false, rfl, by simp [h1, h3]⟩
      · rw [if_pos (Or.inr ⟨h2, h3⟩), c1]
        simp only [Res.ok_bind, sk, Res.pure_eq]
        refine ⟨valid v, rfl, fun h => Or.inr ⟨h2.symm, h3, k, v, rfl, h⟩, ?_⟩
        rintro (⟨e, -⟩ | ⟨-, -, k', v', e, hv⟩)
        · exact absurd e h1
        · cases e; exact hv
    · rw [if_neg (by simp [h1, h2])]
      exact ⟨false, rfl, by simp [h1, Ne.symm h2]⟩

theorem mem_free {mrg : List Rng} {l : List (Node P C B)} {x : Node P C B} : x ∈ free mrg l ↔ x ∈ l ∧ x.range ∉ mrg := by
  simp [free]

theorem free_two {mrg : List Rng} {l : List (Node P C B)} {a b : Node P C B} (hn : ((free mrg l).map Node.range).Nodup) (ha : a ∈ free mrg l) (hb : b ∈ free mrg l)
    (hab : a.range ≠ b.range) : (free mrg l).Perm (a :: b :: free (b.range :: a.range :: mrg) l) := by
  have hn' : (free mrg l).Nodup := List.Nodup.of_map _ hn
  have hinj : ∀ x ∈ free mrg l, ∀ y ∈ free mrg l, x.range = y.range → x = y := fun x hx y hy h => List.inj_on_of_nodup_map hn hx hy h
  rw [List.perm_ext_iff_of_nodup hn']
  · intro x
    simp only [List.mem_cons, mem_free, not_or]
    constructor
    · rintro ⟨h1, h2⟩
      by_cases xa : x = a
      · exact Or.inl xa
      · by_cases xb : x = b
        · exact Or.inr (Or.inl xb)
        · exact Or.inr (Or.inr ⟨h1, fun h => xb (hinj x (mem_free.2 ⟨h1, h2⟩) b hb h), fun h => xa (hinj x (mem_free.2 ⟨h1, h2⟩) a ha h), h2⟩)
    · rintro (rfl | rfl | h)
      · exact mem_free.1 ha
      · exact mem_free.1 hb
      · exact ⟨h.1, h.2.2.2⟩
  · refine List.nodup_cons.2 ⟨?_, List.nodup_cons.2 ⟨?_, ?_⟩⟩
    · simp only [List.mem_cons, mem_free, not_or]
      exact ⟨fun h => hab (by rw [h]), fun h => h.2.2.1 trivial⟩
    · simp only [mem_free, List.mem_cons, not_or]
      exact fun h => h.2.1 trivial
    · have : free (b.range :: a.range :: mrg) l = (free mrg l).filter (fun x => x.range ∉ [b.range, a.range]) := by
        simp only [free, List.filter_filter]
        apply List.filter_congr
        intro x _
        simp only [List.mem_cons, List.not_mem_nil, or_false, not_or, ← Bool.decide_and]
        congr 1
        simp only [eq_iff_iff]; tauto
      rw [this]
      exact hn'.filter _

theorem sizeMerge_spec {done seen : List (Node P C B)} {st : SizeSt P C B} {ps : List (SizePair P C B)} (hi : InstOK env h0 (pts h0)) (hinj : Function.Injective ids)
    (inv : SizeInv env pts h0 src ids score valid vs size hulls done seen st ps) {h s : Node P C B} (hsz : h.range.size = size)
    (hh : h ∈ free st.mrg hulls) (hs : s ∈ free st.mrg hulls) (hd : ∀ x ∈ done, x ∈ hulls) (hc : CanMerge (pts h0) score valid vs h s) :
    ∃ st' ps', sizeMerge env.lib ids h s st = .ok st' ∧ SizeInv env pts h0 src ids score valid vs size hulls done seen st' ps' ∧ st'.mrg = s.range :: h.range :: st.mrg := by
  have mh : h ∈ free st.mrg hulls ++ ps.map SizePair.union := List.mem_append_left _ hh
  have ms : s ∈ free st.mrg hulls ++ ps.map SizePair.union := List.mem_append_left _ hs
  obtain ⟨h1, h2, h3⟩ := inv.cover.bounds mh
  obtain ⟨s1, s2, s3⟩ := inv.cover.bounds ms
  obtain ⟨ih, ph⟩ := inv.cover.piece h mh
  obtain ⟨is, ps'⟩ := inv.cover.piece s ms
  simp only [List.mem_singleton] at ih is
  rw [ih] at ph h3
  rw [is] at ps' s3
  have hadj : h.range.J = s.range.I ∨ s.range.J = h.range.I := hc.elim (fun x => Or.inl x.1) (fun x => Or.inr x.1)
  have hne : h.range ≠ s.range := by
    intro he
    rw [he] at hadj
    omega
  -- coordinates and range of the union
  obtain ⟨i, j, hco, hmr, i0, ij, jn, hij⟩ : ∃ i j : Int, contiguousCoordinates h s = .ok (Coords.sub (pts h0) i j) ∧ mergeRange s.range h.range = ⟨i, j⟩ ∧ 0 ≤ i ∧ i < j ∧
      j < (pts h0).length ∧ ((h.range.J = s.range.I ∧ i = h.range.I ∧ j = s.range.J) ∨ (s.range.J = h.range.I ∧ i = s.range.I ∧ j = h.range.J)) := by
    rcases hadj with ha | ha
    · refine ⟨h.range.I, s.range.J, (C48_merged ph ps' ha h2 s2).1, ?_, h1, by omega, s3, Or.inl ⟨ha, rfl, rfl⟩⟩
      rw [(C02_merge_union _ _ h2 s2 ha).2.2.1, mergeRange_of_adj ha h2 s2]
    · refine ⟨s.range.I, h.range.J, (C48_merged ps' ph ha s2 h2).2, ?_, s1, by omega, h3, Or.inr ⟨ha, rfl, rfl⟩⟩
      rw [mergeRange_of_adj ha s2 h2]
  obtain ⟨nd, e1, p1, r1, i1⟩ := createNode_isPiece hi.hull (i := i) (j := j) i0 ij jn (ids st.g) h0
  have hrg := inv.cover.ranges
  have hfn : ((free st.mrg hulls).map Node.range).Nodup := by
    rw [List.map_append] at hrg
    exact hrg.of_append_left
  have hperm := free_two hfn hh hs hne
  -- the new cover
  have hcov : Pieces env pts [h0] src ids (st.g + 1) (nd :: (free (s.range :: h.range :: st.mrg) hulls ++ ps.map SizePair.union)) := by
    rcases hij with ⟨ha, rfl, rfl⟩ | ⟨ha, rfl, rfl⟩
    · have := inv.cover.perm (hperm.append_right (ps.map SizePair.union))
      refine Pieces.merge this (ih.trans is.symm) ha ⟨st.g, by omega, by omega, i1⟩ hinj ?_ r1
      rw [ih]; exact p1
    · have := inv.cover.perm ((hperm.trans (List.Perm.swap s h _)).append_right (ps.map SizePair.union))
      refine Pieces.merge this (is.trans ih.symm) ha ⟨st.g, by omega, by omega, i1⟩ hinj ?_ r1
      rw [is]; exact p1
  have hsub : ∀ l : List (Node P C B), (∀ x ∈ l, x ∈ hulls) → ∀ x ∈ free (s.range :: h.range :: st.mrg) l, x ∈ free (s.range :: h.range :: st.mrg) hulls :=
    fun l hl x hx => mem_free.2 ⟨hl x (mem_free.1 hx).1, (mem_free.1 hx).2⟩
  have hsub' : ∀ l : List (Node P C B), ∀ x ∈ free (s.range :: h.range :: st.mrg) l, x ∈ free st.mrg l := by
    intro l x hx
    have := mem_free.1 hx
    simp only [List.mem_cons, not_or] at this
    exact mem_free.2 ⟨this.1, this.2.2.2⟩
  refine ⟨{ hdict := dictSet (dictDel (dictDel st.hdict s.range) h.range) nd, mrg := s.range :: h.range :: st.mrg,
            unmerged := dictDel st.unmerged h.range, rm := st.rm ++ [s, h], g := st.g + 1 }, ps ++ [⟨h, s, nd⟩], ?_, ?_, ?_⟩
  · simp only [sizeMerge, hco, hmr, Res.ok_bind, ih, e1, Res.pure_eq]
  · constructor
    · refine hcov.perm ?_
      rw [List.map_append, ← List.append_assoc]
      exact (List.perm_append_singleton nd _).symm
    · show (dictSet (dictDel (dictDel st.hdict s.range) h.range) nd).Perm _
      have hunion : ∀ x ∈ ps.map SizePair.union, x.range ≠ s.range ∧ x.range ≠ h.range := by
        intro x hx
        rw [List.map_append] at hrg
        have hdis := (List.nodup_append.1 hrg).2.2
        exact ⟨fun he => hdis _ (List.mem_map.2 ⟨s, hs, rfl⟩) _ (List.mem_map.2 ⟨x, hx, rfl⟩) he.symm,
          fun he => hdis _ (List.mem_map.2 ⟨h, hh, rfl⟩) _ (List.mem_map.2 ⟨x, hx, rfl⟩) he.symm⟩
      have hdel : (dictDel (dictDel st.hdict s.range) h.range).Perm (free (s.range :: h.range :: st.mrg) done ++ ps.map SizePair.union) := by
        unfold dictDel
        refine ((inv.dict.filter _).filter _).trans (List.Perm.of_eq ?_)
        rw [List.filter_append, List.filter_append, List.filter_filter, List.filter_filter, (List.filter_eq_self (l := ps.map SizePair.union)).2]
        · congr 1
          simp only [free, List.filter_filter]
          apply List.filter_congr
          intro x _
          simp only [List.mem_cons, not_or, ← Bool.decide_and]
          congr 1
          simp only [eq_iff_iff]; tauto
        · intro x hx
          have := hunion x hx
          simp [this.1, this.2]
      rw [dictSet_fresh, List.map_append, ← List.append_assoc]
      · exact hdel.append_right _
      · intro x hx he
        have hx := hdel.mem_iff.1 hx
        have hn := hcov.ranges
        rw [List.map_cons, List.nodup_cons] at hn
        apply hn.1
        rw [← he]
        refine List.mem_map.2 ⟨x, ?_, rfl⟩
        rcases List.mem_append.1 hx with hx | hx
        · exact List.mem_append_left _ (hsub done hd x hx)
        · exact List.mem_append_right _ hx
    · show st.rm ++ [s, h] = _
      rw [inv.rm]; simp [taken]
    · refine inv.part.trans ((hperm.append_right _).trans ?_)
      have : taken (ps ++ [⟨h, s, nd⟩]) = taken ps ++ [s, h] := by simp [taken]
      rw [this]
      show List.Perm _ (free (s.range :: h.range :: st.mrg) hulls ++ _)
      generalize free (s.range :: h.range :: st.mrg) hulls = f
      simp only [List.cons_append]
      rw [← List.append_assoc]
      refine List.Perm.trans ?_ List.perm_append_comm
      exact List.Perm.swap s h _
    · intro p hp
      rcases List.mem_append.1 hp with hp | hp
      · exact inv.pairs p hp
      · rw [List.mem_singleton] at hp
        subst hp
        refine ⟨hsz, hc, p1, ?_⟩
        rcases hij with ⟨ha, rfl, rfl⟩ | ⟨ha, rfl, rfl⟩
        · exact Or.inl ⟨ha, r1⟩
        · exact Or.inr ⟨ha, r1⟩
    · intro x hx hxs y hy hn
      exact inv.max x (hsub' _ x hx) hxs y (hsub' _ y hy) hn
  · rfl

theorem sizeInner_spec (hi : InstOK env h0 (pts h0)) (hinj : Function.Injective ids)
    (hsc : ∀ i j : Int, 0 ≤ i → i < j → j < (pts h0).length → ∃ k v, score (Coords.sub (pts h0) i j) = .ok (k, v))
    {done seen : List (Node P C B)} {h : Node P C B} (hsz : h.range.size = size) (hd : ∀ x ∈ done, x ∈ hulls) :
    ∀ (ns : List (Node P C B)) (st : SizeSt P C B) (ps : List (SizePair P C B)), SizeInv env pts h0 src ids score valid vs size hulls done seen st ps →
      h ∈ free st.mrg hulls → (∀ x ∈ ns, x ∈ hulls) →
      ∃ st' ps', sizeInner env.lib ids score valid vs h ns st = .ok st' ∧ SizeInv env pts h0 src ids score valid vs size hulls done seen st' ps' ∧
        (h.range ∈ st'.mrg ∨ (st'.mrg = st.mrg ∧ ∀ s ∈ ns, s ∈ free st.mrg hulls → ¬ CanMerge (pts h0) score valid vs h s))
  | [], st, ps, inv, _, _ => ⟨st, ps, rfl, inv, Or.inr ⟨rfl, by simp⟩⟩
  | s :: ns, st, ps, inv, hh, hns => by
    have hns' : ∀ x ∈ ns, x ∈ hulls := fun x hx => hns x (List.mem_cons_of_mem _ hx)
    by_cases hm : s.range ∈ st.mrg
    · obtain ⟨st', ps', e, i', r⟩ := sizeInner_spec hi hinj hsc hsz hd ns st ps inv hh hns'
      refine ⟨st', ps', by simp only [sizeInner, hm, if_true, e], i', r.imp id ?_⟩
      rintro ⟨r1, r2⟩
      refine ⟨r1, fun x hx hf => ?_⟩
      rcases List.mem_cons.1 hx with rfl | hx
      · exact absurd hm (mem_free.1 hf).2
      · exact r2 x hx hf
    · have hs : s ∈ free st.mrg hulls := mem_free.2 ⟨hns s (by simp), hm⟩
      have mh : h ∈ free st.mrg hulls ++ ps.map SizePair.union := List.mem_append_left _ hh
      have ms : s ∈ free st.mrg hulls ++ ps.map SizePair.union := List.mem_append_left _ hs
      have bh := inv.cover.bounds mh
      have bs := inv.cover.bounds ms
      obtain ⟨ih, ph⟩ := inv.cover.piece h mh
      obtain ⟨is, pps⟩ := inv.cover.piece s ms
      simp only [List.mem_singleton] at ih is
      rw [ih] at ph bh
      rw [is] at pps bs
      obtain ⟨m, em, hmc⟩ := sizeMergeable_spec (valid := valid) (vs := vs) hsc ph pps bh bs
      cases m with
      | true =>
        obtain ⟨st', ps', e, i', r⟩ := sizeMerge_spec hi hinj inv hsz hh hs hd (hmc.1 rfl)
        refine ⟨st', ps', by simp only [sizeInner, hm, if_false, em, Res.ok_bind, if_true, e], i', Or.inl ?_⟩
        rw [r]; simp
      | false =>
        have inv' : SizeInv env pts h0 src ids score valid vs size hulls done seen { st with unmerged := dictSet st.unmerged h } ps :=
          ⟨inv.cover, inv.dict, inv.rm, inv.part, inv.pairs, inv.max⟩
        obtain ⟨st', ps', e, i', r⟩ := sizeInner_spec hi hinj hsc hsz hd ns _ ps inv' hh hns'
        refine ⟨st', ps', by simp only [sizeInner, hm, if_false, em, Res.ok_bind, Bool.false_eq_true, e], i', r.imp id ?_⟩
        rintro ⟨r1, r2⟩
        refine ⟨r1, fun x hx hf => ?_⟩
        rcases List.mem_cons.1 hx with rfl | hx
        · exact fun hcm => by simpa using hmc.2 hcm
        · exact r2 x hx hf

theorem sizeStep_spec (hi : InstOK env h0 (pts h0)) (hinj : Function.Injective ids) {db : Db P C B} (hdb : DbOK db) (hcon : (Hdb.contents db).Perm hulls)
    (hbox : ∀ x ∈ hulls, x.mbr.Valid)
    (hsc : ∀ i j : Int, 0 ≤ i → i < j → j < (pts h0).length → ∃ k v, score (Coords.sub (pts h0) i j) = .ok (k, v))
    {done : List (Node P C B)} {h : Node P C B} {todo : List (Node P C B)} (hdt : hulls = done ++ h :: todo) (hn : (hulls.map Node.range).Nodup)
    (st : SizeSt P C B) (ps : List (SizePair P C B)) (inv : SizeInv env pts h0 src ids score valid vs size hulls done done st ps) :
    ∃ st' ps', Yields (sizeStep env ids score valid vs size db h st) st' ∧
      SizeInv env pts h0 src ids score valid vs size hulls (done ++ [h]) (done ++ [h]) st' ps' := by
  have hsplit : ∀ m, free m (done ++ [h]) = free m done ++ free m [h] := fun m => by simp [free]
  have hhm : h ∈ hulls := by rw [hdt]; simp
  by_cases hm : h.range ∈ st.mrg
  · have h0 : free st.mrg [h] = [] := by simp [free, hm]
    refine ⟨st, ps, ⟨0, fun fuel _ => by simp only [sizeStep, hm, if_true]⟩, inv.cover, ?_, inv.rm, inv.part, inv.pairs, ?_⟩
    · rw [hsplit, h0, List.append_nil]; exact inv.dict
    · rw [hsplit, h0, List.append_nil]; exact inv.max
  · have h1 : free st.mrg [h] = [h] := by simp [free, hm]
    have hfr : ∀ x ∈ st.hdict, x.range ≠ h.range := by
      intro x hx he
      rcases List.mem_append.1 (inv.dict.mem_iff.1 hx) with hx | hx
      · rw [hdt, List.map_append, List.nodup_append] at hn
        exact hn.2.2 _ (List.mem_map.2 ⟨x, (mem_free.1 hx).1, rfl⟩) _ (List.mem_map.2 ⟨h, by simp, rfl⟩) he
      · have hrg := inv.cover.ranges
        rw [List.map_append, List.nodup_append] at hrg
        exact hrg.2.2 _ (List.mem_map.2 ⟨h, mem_free.2 ⟨hhm, hm⟩, rfl⟩) _ (List.mem_map.2 ⟨x, hx, rfl⟩) he.symm
    have inv1 : SizeInv env pts h0 src ids score valid vs size hulls (done ++ [h]) done { st with hdict := dictSet st.hdict h } ps := by
      refine ⟨inv.cover, ?_, inv.rm, inv.part, inv.pairs, inv.max⟩
      show (dictSet st.hdict h).Perm (free st.mrg (done ++ [h]) ++ _)
      rw [dictSet_fresh hfr, hsplit, h1]
      refine (inv.dict.append_right _).trans ?_
      rw [List.append_assoc, List.append_assoc]
      exact List.Perm.append_left _ List.perm_append_comm
    by_cases hsz : h.range.size = size
    · obtain ⟨ns, ⟨N, hN⟩, hp⟩ := neighboursOf_yields (env := env) hdb (fun x hx => hbox x (hcon.mem_iff.1 hx)) h
      have hso : ∀ x, x ∈ sortNodes ns ↔ x ∈ ns := fun x => (List.perm_insertionSort _ ns).mem_iff
      have hmem : ∀ x, x ∈ sortNodes ns ↔ Near env hulls h x := by
        intro x
        rw [hso, hp.mem_iff, List.mem_filter, hcon.mem_iff]
        simp [Near]
      obtain ⟨st', ps', e, i', r⟩ := sizeInner_spec (done := done ++ [h]) (seen := done) (h := h) hi hinj hsc hsz
        (fun x hx => by rw [hdt]; rcases List.mem_append.1 hx with hx | hx <;> simp_all)
        (sortNodes ns) _ ps inv1 (mem_free.2 ⟨hhm, hm⟩) (fun x hx => ((hmem x).1 hx).1)
      refine ⟨st', ps', ⟨N, fun fuel hf => by simp only [sizeStep, hm, if_false, hsz, ne_eq, not_true, hN fuel hf, Res.ok_bind, e]⟩, ?_⟩
      refine ⟨i'.cover, i'.dict, i'.rm, i'.part, i'.pairs, ?_⟩
      intro x hx hxs s hs hnear
      rw [hsplit] at hx
      rcases List.mem_append.1 hx with hx | hx
      · exact i'.max x hx hxs s hs hnear
      · obtain ⟨hx1, hx2⟩ := mem_free.1 hx
        rw [List.mem_singleton] at hx1
        subst hx1
        rcases r with r | ⟨r1, r2⟩
        · exact absurd r hx2
        · exact r2 s ((hmem s).2 hnear) (by rw [r1] at hs; exact hs)
    · refine ⟨_, ps, ⟨0, fun fuel _ => by simp only [sizeStep, hm, if_false, hsz, ne_eq, not_false_iff, if_true]⟩, inv1.cover, inv1.dict, inv1.rm, inv1.part, inv1.pairs, ?_⟩
      intro x hx hxs s hs hnear
      rw [hsplit] at hx
      rcases List.mem_append.1 hx with hx | hx
      · exact inv.max x hx hxs s hs hnear
      · obtain ⟨hx1, -⟩ := mem_free.1 hx
        rw [List.mem_singleton] at hx1
        subst hx1
        exact absurd hxs hsz

theorem sizeLoop_spec (hi : InstOK env h0 (pts h0)) (hinj : Function.Injective ids) {db : Db P C B} (hdb : DbOK db) (hcon : (Hdb.contents db).Perm hulls)
    (hbox : ∀ x ∈ hulls, x.mbr.Valid)
    (hsc : ∀ i j : Int, 0 ≤ i → i < j → j < (pts h0).length → ∃ k v, score (Coords.sub (pts h0) i j) = .ok (k, v)) (hn : (hulls.map Node.range).Nodup) :
    ∀ (todo done : List (Node P C B)) (st : SizeSt P C B) (ps : List (SizePair P C B)), hulls = done ++ todo →
      SizeInv env pts h0 src ids score valid vs size hulls done done st ps →
      ∃ st' ps', Yields (sizeLoop env ids score valid vs size db todo st) st' ∧ SizeInv env pts h0 src ids score valid vs size hulls hulls hulls st' ps'
  | [], done, st, ps, hd, inv => by
    rw [List.append_nil] at hd
    subst hd
    exact ⟨st, ps, Yields.const st, inv⟩
  | h :: todo, done, st, ps, hd, inv => by
    obtain ⟨st1, ps1, y1, inv1⟩ := sizeStep_spec hi hinj hdb hcon hbox hsc hd hn st ps inv
    obtain ⟨st2, ps2, y2, inv2⟩ := sizeLoop_spec hi hinj hdb hcon hbox hsc hn todo (done ++ [h]) st1 ps1 (by rw [hd]; simp) inv1
    exact ⟨st2, ps2, Yields.bind y1 y2, inv2⟩

/-- C50, C61.  Merging by size on a cover of one polyline that is also the content of the index: the call returns; the input is made of some untouched pieces and of the
removed ones; what is kept are the untouched pieces and one new piece for each pair of removed ones; each new piece is the piece of the union of a fragment of the asked
size and an adjacent piece, meeting it outside the vertex set, with a valid score; the kept pieces cover the polyline again; and no untouched fragment of the asked size could be merged
with an untouched neighbour. -/
theorem C50_merge_by_size {g : Nat} (hi : InstOK env h0 (pts h0)) (hinj : Function.Injective ids) (hp : Pieces env pts [h0] src ids g hulls) {db : Db P C B} (hdb : DbOK db)
    (hcon : (Hdb.contents db).Perm hulls)
    (hsc : ∀ i j : Int, 0 ≤ i → i < j → j < (pts h0).length → ∃ k v, score (Coords.sub (pts h0) i j) = .ok (k, v)) (unmerged : List (Node P C B)) :
    ∃ (out : SizeSt P C B) (ps : List (SizePair P C B)) (untouched : List (Node P C B)), Yields (contiguousFragmentsBySize env ids g hulls db vs unmerged size valid score) out ∧
      hulls.Perm (untouched ++ out.rm) ∧ out.rm = ps.flatMap (fun p => [p.other, p.frag]) ∧ out.hdict.Perm (untouched ++ ps.map SizePair.union) ∧
      (∀ p ∈ ps, p.frag.range.size = size ∧ CanMerge (pts h0) score valid vs p.frag p.other ∧ IsUnion env.lib (pts h0) h0 p) ∧
      Pieces env pts [h0] src ids out.g out.hdict ∧
      (∀ x ∈ untouched, x.range.size = size → ∀ s ∈ untouched, Near env hulls x s → ¬ CanMerge (pts h0) score valid vs x s) := by
  have hf : free [] hulls = hulls := by simp [free]
  obtain ⟨out, ps, y, inv⟩ := sizeLoop_spec (score := score) (valid := valid) (vs := vs) (size := size) hi hinj hdb hcon
    (fun x hx => hp.valid (by simpa using hi) hx) hsc hp.ranges hulls [] { hdict := [], mrg := [], unmerged := unmerged, rm := [], g := g } [] rfl
    ⟨by simpa [hf] using hp, by simp [free], rfl, by simp [taken, hf], by simp, by simp [free]⟩
  refine ⟨out, ps, free out.mrg hulls, y, ?_, inv.rm, inv.dict, inv.pairs, inv.cover.perm inv.dict.symm, inv.max⟩
  rw [inv.rm]; exact inv.part

/-- C61.  The pieces that are neither removed nor new contain no fragment of the asked size that could be merged with an index neighbour among them. -/
theorem C61_no_mergeable_pair {g : Nat} (hi : InstOK env h0 (pts h0)) (hinj : Function.Injective ids) (hp : Pieces env pts [h0] src ids g hulls) {db : Db P C B} (hdb : DbOK db)
    (hcon : (Hdb.contents db).Perm hulls)
    (hsc : ∀ i j : Int, 0 ≤ i → i < j → j < (pts h0).length → ∃ k v, score (Coords.sub (pts h0) i j) = .ok (k, v)) (unmerged : List (Node P C B)) :
    ∃ out : SizeSt P C B, Yields (contiguousFragmentsBySize env ids g hulls db vs unmerged size valid score) out ∧
      ∀ x ∈ hulls, x ∉ out.rm → x.range.size = size → ∀ s ∈ hulls, s ∉ out.rm → Near env hulls x s → ¬ CanMerge (pts h0) score valid vs x s := by
  obtain ⟨out, ps, u, y, p1, -, -, -, -, p6⟩ := C50_merge_by_size (score := score) (valid := valid) (vs := vs) (size := size) hi hinj hp hdb hcon hsc unmerged
  have hu : ∀ x ∈ hulls, x ∉ out.rm → x ∈ u := fun x hx hr => (List.mem_append.1 (p1.mem_iff.1 hx)).resolve_right hr
  exact ⟨out, y, fun x hx hr hs s hsm hsr hn => p6 x (hu x hx hr) hs s (hu s hsm hsr) hn⟩

end
end Verif
