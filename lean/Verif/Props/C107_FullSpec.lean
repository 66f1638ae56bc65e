import Verif.Props.C106_Thresholds

/-! C107: the whole simplification of one line as a procedure, from the offset scores, the fixed vertices and the verdicts on sub-lines alone. -/

set_option linter.unusedSectionVars false

namespace Verif

section
variable {P C B K : Type} [LinearOrder B] [BoundedOrder B] [LinearOrder K]
variable {env : Env P C B K} {pts : Int → List P} {src : Int → Prop} {ids : Nat → Int} {h : Int}

/-! ### the procedure -/

/-- Specification: the segments with which the whole line `ps` is replaced: those of `ConstrainedDP`, after one pass from left to right in which single segments of the
line are joined with the segment after or before them, unless the vertex between is `fixed` or the union is not `ok`. -/
def SimplifySpec (score : ScoreFn P K) (rel : Fl K → Bool) (fixed : Int → Prop) (bad ok : Int → Int → Prop) (ps : List P) (out : List Rng) : Prop :=
  ∃ ls, ConstrainedDP score rel fixed bad ps ls ∧ MergeSpec fixed ok [] ls out

/-- it is a function -/
theorem SimplifySpec.unique {score : ScoreFn P K} {rel : Fl K → Bool} {fixed : Int → Prop} {bad ok : Int → Int → Prop} {ps : List P} {out out' : List Rng}
    (h1 : SimplifySpec score rel fixed bad ok ps out) (h2 : SimplifySpec score rel fixed bad ok ps out') : out = out' := by
  obtain ⟨ls, a1, b1⟩ := h1
  obtain ⟨ls', a2, b2⟩ := h2
  cases a1.unique a2
  exact b1.unique b2

/-- the segments of the recursive cutting lead from one end of the sub-line to the other -/
theorem RecCut.chain_inside {score : ScoreFn P K} {bad : Int → Int → Prop} {ps : List P}
    (hin : ∀ i j : Int, 0 ≤ i → i < j → j < ps.length → bad i j → ∃ k v, score (Coords.sub ps i j) = .ok (k, v) ∧ 0 < k ∧ k < j - i) {i j : Int} {rs : List Rng}
    (h : RecCut score bad ps i j rs) : 0 ≤ i → i < j → j < ps.length → Chain i j rs := by
  induction h with
  | keep i j hb => intro _ h1 _; exact Chain.singleton h1
  | cut i j k v xs ys hb hs hx hy ihx ihy =>
    intro h0 h1 h2
    obtain ⟨k', v', hs', k0, k1⟩ := hin i j h0 h1 h2 hb
    rw [hs] at hs'
    cases hs'
    exact (ihx h0 (by omega) (by omega)).append (ihy (by omega) (by omega) h2)

theorem Each.chain {R : Rng → List Rng → Prop} {ms ls : List Rng} (h : Each R ms ls) :
    ∀ {a b : Int}, Chain a b ms → (∀ r ∈ ms, ∀ l, R r l → Chain r.I r.J l) → Chain a b ls := by
  induction h with
  | nil => intro a b hc _; exact hc
  | @cons r ms xs ys h t ih =>
    intro a b hc hR
    obtain ⟨h1, -, h3⟩ := hc
    have := hR r (by simp) _ h
    rw [h1] at this
    exact this.append (ih h3 (fun r' hr' => hR r' (List.mem_cons_of_mem _ hr')))

/-- the segments of the procedure of C103 lead from one end of the line to the other -/
theorem ConstrainedDP.chain {score : ScoreFn P K} {rel : Fl K → Bool} {fixed : Int → Prop} {bad : Int → Int → Prop} {ps : List P}
    (hin : ∀ i j : Int, 0 ≤ i → i < j → j < ps.length → bad i j → ∃ k v, score (Coords.sub ps i j) = .ok (k, v) ∧ 0 < k ∧ k < j - i) {ls : List Rng}
    (h : ConstrainedDP score rel fixed bad ps ls) : Chain 0 (ps.length - 1) ls := by
  obtain ⟨rs, ms, -, hc, -, he⟩ := h
  refine he.chain hc (fun r hr l hl => ?_)
  have := hc.mem hr
  exact hl.chain_inside hin (by omega) (by omega) (by omega)

/-- the pass keeps the segments connected -/
theorem MergeSpec.chain {fixed : Int → Prop} {ok : Int → Int → Prop} {d rs out : List Rng} (h : MergeSpec fixed ok d rs out) :
    ∀ {a b : Int}, Chain a b (d ++ rs) → Chain a b out := by
  induction h with
  | done d => intro a b hc; simpa using hc
  | keep r h t ih => intro a b hc; exact ih (by simpa using hc)
  | next r n h hf hn t ih =>
    intro a b hc
    obtain ⟨c, h1, h2, h3, h4, h5, h6⟩ := Chain.append_iff.1 hc
    refine ih ?_
    rw [List.append_assoc]
    exact h1.append ⟨h2, by dsimp only; omega, h6⟩
  | prev p r h hn hf hp t ih =>
    intro a b hc
    rw [List.append_assoc] at hc
    obtain ⟨c, h1, h2, h3, h4, h5, h6⟩ := Chain.append_iff.1 hc
    refine ih ?_
    rw [List.append_assoc]
    exact h1.append ⟨h2, by dsimp only; omega, h6⟩

/-- the pass only removes vertices -/
theorem MergeSpec.ends {fixed : Int → Prop} {ok : Int → Int → Prop} {d rs out : List Rng} (h : MergeSpec fixed ok d rs out) :
    ∀ v, EndOf out v → EndOf (d ++ rs) v := by
  induction h with
  | done d => intro v hv; simpa using hv
  | keep r h t ih => intro v hv; simpa using ih v hv
  | next r n h hf hn t ih =>
    intro v hv
    obtain ⟨q, hq, hv⟩ := ih v hv
    simp only [List.append_assoc, List.mem_append, List.mem_cons, List.not_mem_nil, or_false] at hq
    rcases hq with hq | rfl | hq
    · exact ⟨q, List.mem_append_left _ hq, hv⟩
    · rcases hv with rfl | rfl
      · exact ⟨r, by simp, .inl rfl⟩
      · exact ⟨n, by simp, .inr rfl⟩
    · exact ⟨q, by simp [hq], hv⟩
  | prev p r h hn hf hp t ih =>
    intro v hv
    obtain ⟨q, hq, hv⟩ := ih v hv
    simp only [List.append_assoc, List.mem_append, List.mem_cons, List.not_mem_nil, or_false] at hq
    rcases hq with hq | rfl | hq
    · exact ⟨q, by simp [hq], hv⟩
    · rcases hv with rfl | rfl
      · exact ⟨p, by simp, .inl rfl⟩
      · exact ⟨r, by simp, .inr rfl⟩
    · exact ⟨q, by simp [hq], hv⟩

/-- the pass removes no fixed vertex -/
theorem MergeSpec.fixed_stays {fixed : Int → Prop} {ok : Int → Int → Prop} {d rs out : List Rng} (h : MergeSpec fixed ok d rs out) :
    ∀ {a b : Int}, Chain a b (d ++ rs) → ∀ v, fixed v → EndOf (d ++ rs) v → EndOf out v := by
  induction h with
  | done d => intro a b _ v _ hv; simpa using hv
  | keep r h t ih => intro a b hc v hf hv; exact ih (a := a) (b := b) (by simpa using hc) v hf (by simpa using hv)
  | next r n h hf hn t ih =>
    intro a b hc v hv he
    obtain ⟨c, h1, h2, h3, h4, h5, h6⟩ := Chain.append_iff.1 hc
    refine ih (a := a) (b := b) (by rw [List.append_assoc]; exact h1.append ⟨h2, by dsimp only; omega, h6⟩) v hv ?_
    obtain ⟨q, hq, hq'⟩ := he
    rw [List.append_assoc]
    simp only [List.mem_append, List.mem_cons] at hq
    rcases hq with hq | rfl | rfl | hq
    · exact ⟨q, by simp [hq], hq'⟩
    · rcases hq' with rfl | rfl
      · exact ⟨⟨q.I, n.J⟩, by simp, .inl rfl⟩
      · exact absurd hv hf
    · rcases hq' with rfl | rfl
      · rw [h4] at hv; exact absurd hv hf
      · exact ⟨⟨r.I, q.J⟩, by simp, .inr rfl⟩
    · exact ⟨q, by simp [hq], hq'⟩
  | prev p r h hn hf hp t ih =>
    intro a b hc v hv he
    rw [List.append_assoc] at hc
    obtain ⟨c, h1, h2, h3, h4, h5, h6⟩ := Chain.append_iff.1 hc
    refine ih (a := a) (b := b) (by rw [List.append_assoc]; exact h1.append ⟨h2, by dsimp only; omega, h6⟩) v hv ?_
    obtain ⟨q, hq, hq'⟩ := he
    rw [List.append_assoc] at hq ⊢
    simp only [List.mem_append, List.mem_cons, List.not_mem_nil, or_false] at hq
    rcases hq with hq | rfl | rfl | hq
    · exact ⟨q, by simp [hq], hq'⟩
    · rcases hq' with rfl | rfl
      · exact ⟨⟨q.I, r.J⟩, by simp, .inl rfl⟩
      · rw [← h4] at hv; exact absurd hv hf
    · rcases hq' with rfl | rfl
      · exact absurd hv hf
      · exact ⟨⟨p.I, q.J⟩, by simp, .inr rfl⟩
    · exact ⟨q, by simp [hq], hq'⟩

/-! ### the run -/

/-- what the validation rejects can be cut inside -/
theorem rejected_inside (hi : InstOK env h (pts h)) : ∀ i j : Int, 0 ≤ i → i < j → j < (pts h).length → Rejected env pts h i j →
    ∃ k v, (env.inst h).scoreFn (Coords.sub (pts h) i j) = .ok (k, v) ∧ 0 < k ∧ k < j - i :=
  fun i j h0 _ h2 hr => hi.score i j h0 hr.1 h2

/-- C107.  When new self-intersections need not be avoided, the pieces of the result of a run are the segments of the procedure `SimplifySpec`, and the vertices it keeps
are their ends.  The procedure is a function of the scores of the sub-lines, the fixed vertices and the verdicts on sub-lines. -/
theorem C107_run (he : EnvOK env) (hl : LnrOK env.lnr) (hi : InstOK env h (pts h)) (ht : Touching env pts h) (hinj : Function.Injective ids)
    (hav : (env.inst h).opts.avoidNewSelfIntersects = false) {cv : List Int} (hcv : ∀ i ∈ cv, 0 ≤ i ∧ i < (pts h).length)
    (hsp : (env.inst h).opts.planarSelf = true → Splittable env pts h cv) {dirty dirty' : Int → Bool} {fuel : Nat}
    {out : Out P C B} (e : simplify env ids h cv dirty fuel = .ok (out, dirty')) :
    ∃ rs, SimplifySpec (env.inst h).scoreFn (env.inst h).rel (FixedVertex env h cv) (Rejected env pts h) (Joinable env pts h) (pts h) rs ∧
      Chain 0 ((pts h).length - 1) rs ∧ (out.hulls.map Node.range).Perm rs ∧ out.simple.Pairwise (· < ·) ∧ ∀ v, v ∈ out.simple ↔ EndOf rs v := by
  have hi' : ∀ k ∈ [h], InstOK env k (pts k) := by
    intro k hk; rw [List.mem_singleton] at hk; rw [hk]; exact hi
  obtain ⟨h0, g0, ⟨N0, e0⟩, p0, -⟩ := decompose_yields hi hinj
  obtain ⟨near, hlg, hmono⟩ := he.heap
  obtain ⟨h1, cvs, g1, ⟨N1, e1⟩, hg1, p1, s1, k1, k2, -⟩ := toSelfIntersects_yields he hl hi' hinj (h := h) (by simp) (strong := False)
    hlg hmono p0 hcv (fun hs => hs.elim) (fun hs => hs.elim)
  obtain ⟨-, hends⟩ := toSelfIntersects_exact he hl hi hinj hcv hsp p0 (e1 N1 (Nat.le_refl _))
  obtain ⟨d2, ⟨N2, e2⟩, w2, q2⟩ := DbOK.new.load he h1
  rw [contents_new, List.nil_append] at q2
  obtain ⟨st, ⟨N3, e3⟩, w3, hg3, p3, s3, set3⟩ := deformLoop_yields he hi' hinj _ ⟨d2, g1, markDirty dirty h⟩ h1 rfl w2 (p1.perm q2.symm)
    (fun x hx => q2.mem_iff.2 hx) (fun x hx => .inl (q2.mem_iff.1 hx))
  obtain ⟨d4, g4, ⟨N4, e4⟩, w4, -⟩ := aggregate_yields he hi hinj cvs w3 p3
  obtain ⟨o, ⟨N5, e5⟩, q5⟩ := Hdb.all_yields w4.wf
  have hy : Yields (simplify env ids h cv dirty) (⟨o, simpleSet o⟩, markClean st.dirty h) := by
    refine ⟨max N0 (max N1 (max N2 (max N3 (max N4 N5)))), fun fuel hf => ?_⟩
    have e3 := e3 fuel (by omega)
    simp only [] at e3
    simp only [simplify, e0 fuel (by omega), e1 fuel (by omega), e2 fuel (by omega), e3, e4 fuel (by omega), e5 fuel (by omega), Res.ok_bind, Res.pure_eq]
  have := (simplify_le env ids h cv dirty).val e hy
  cases this
  obtain ⟨ls', c', q'⟩ := C103_loop he hi hinj hav w2 (p1.perm q2.symm) q2.symm (e3 N3 (Nat.le_refl _))
  obtain ⟨ls, c, q''⟩ := c'.perm ((mem_sortNodes (l := h1)).symm.map Node.range)
  have q := q''.symm.trans q'
  have e0' := e0 N0 (Nat.le_refl _)
  rw [hi.pln, createPolyline_coordsOf hi.two] at e0'
  have hr := C63_decompose_recursive _ _ _ _ _ _ _ hi.two _ _ _ e0'
  have hfix : ∀ v, v ∈ cvs ↔ FixedVertex env h cv v := by
    intro v
    unfold FixedVertex
    cases hpl : (env.inst h).opts.planarSelf with
    | false => rw [(k2 hpl).1]; simp
    | true =>
      obtain ⟨inters, hint, hv⟩ := k1 hpl
      rw [hpl] at hint
      rw [hv v]
      simp only [true_and]
      refine or_congr_right ⟨fun h2 => ⟨inters, hint, h2⟩, ?_⟩
      rintro ⟨inters', hint', h2⟩
      rw [hint] at hint'
      cases hint'
      exact h2
  have hEO : ∀ (l : List (Node P C B)) v, EndOf (l.map Node.range) v ↔ v ∈ simpleSet l := by
    intro l v
    rw [mem_simpleSet]
    simp only [EndOf, List.mem_map, exists_exists_and_eq_and]
  have hms : ∀ v, EndOf ((sortNodes h1).map Node.range) v ↔ EndOf (h0.map Node.range) v ∨ FixedVertex env h cv v := by
    intro v
    rw [hEO, hEO, ← hfix, ← hends v, mem_simpleSet, mem_simpleSet]
    simp only [mem_sortNodes.mem_iff]
  have hls : ConstrainedDP (env.inst h).scoreFn (env.inst h).rel (FixedVertex env h cv) (Rejected env pts h) (pts h) ls := ⟨_, _, hr, sortNodes_chain p1, hms, c⟩
  have hch := hls.chain (rejected_inside hi)
  obtain ⟨rs, m1, m2⟩ := aggregate_spec he hi ht hinj hav w3 p3 (e4 N4 (Nat.le_refl _)) hch q
  have hp : (o.map Node.range).Perm rs := (q5.map _).trans m2.symm
  have hfe : (· ∈ cvs) = FixedVertex env h cv := funext fun v => propext (hfix v)
  rw [hfe] at m1
  refine ⟨rs, ⟨ls, hls, m1⟩, m1.chain hch, hp, simpleSet_pairwise _, fun v => ?_⟩
  rw [← hEO]
  exact ⟨fun ⟨r, hr, hv⟩ => ⟨r, hp.mem_iff.1 hr, hv⟩, fun ⟨r, hr, hv⟩ => ⟨r, hp.mem_iff.2 hr, hv⟩⟩

end

/-! ### two lines -/

section
variable {P C B K : Type} [LinearOrder B] [BoundedOrder B] [LinearOrder K]
variable {P' C' B' K' : Type} [LinearOrder B'] [BoundedOrder B'] [LinearOrder K']

/-- Two lines that are judged alike: they have as many vertices, and on every sub-line the scores name the same vertex, are both accepted or both not, and the verdicts
are the same; the same vertices are fixed. -/
structure Alike (score : ScoreFn P K) (rel : Fl K → Bool) (fixed : Int → Prop) (bad ok : Int → Int → Prop) (ps : List P)
    (score' : ScoreFn P' K') (rel' : Fl K' → Bool) (fixed' : Int → Prop) (bad' ok' : Int → Int → Prop) (ps' : List P') : Prop where
  len : ps.length = ps'.length
  score : ∀ i j : Int, 0 ≤ i → i < j → j < ps.length → ∀ k v, score (Coords.sub ps i j) = .ok (k, v) →
    ∃ v', score' (Coords.sub ps' i j) = .ok (k, v') ∧ rel v = rel' v'
  fixed : ∀ v : Int, 0 ≤ v → v < ps.length → (fixed v ↔ fixed' v)
  bad : ∀ i j : Int, 0 ≤ i → i < j → j < ps.length → (bad i j ↔ bad' i j)
  ok : ∀ i j : Int, 0 ≤ i → i < j → j < ps.length → (ok i j ↔ ok' i j)

theorem RecDP.alike {score : ScoreFn P K} {rel : Fl K → Bool} {ps : List P} {score' : ScoreFn P' K'} {rel' : Fl K' → Bool} {ps' : List P'} 
    (hsc : ∀ i j : Int, 0 ≤ i → i < j → j < ps.length → ∀ k v, score (Coords.sub ps i j) = .ok (k, v) → ∃ v', score' (Coords.sub ps' i j) = .ok (k, v') ∧ rel v = rel' v')
    (hin : SplitsInside score rel ps) {i j : Int} {rs : List Rng} (h : RecDP score rel ps i j rs) : 0 ≤ i → i < j → j < ps.length → RecDP score' rel' ps' i j rs := by
  induction h with
  | keep i j k v hs hv =>
    intro h0 h1 h2
    obtain ⟨v', hs', hr⟩ := hsc i j h0 h1 h2 k v hs
    exact .keep i j k v' hs' (by rw [← hr]; exact hv)
  | cut i j k v xs ys hs hv hx hy ihx ihy =>
    intro h0 h1 h2
    obtain ⟨v', hs', hr⟩ := hsc i j h0 h1 h2 k v hs
    obtain ⟨k', v'', hs'', hk⟩ := hin i j h0 h1 h2
    rw [hs] at hs''
    cases hs''
    have := hk hv
    exact .cut i j k v' xs ys hs' (by rw [← hr]; exact hv) (ihx h0 (by omega) (by omega)) (ihy (by omega) (by omega) h2)

theorem RecCut.alike {score : ScoreFn P K} {bad : Int → Int → Prop} {ps : List P} {score' : ScoreFn P' K'} {bad' : Int → Int → Prop} {ps' : List P'}
    (hsc : ∀ i j : Int, 0 ≤ i → i < j → j < ps.length → ∀ k v, score (Coords.sub ps i j) = .ok (k, v) → ∃ v', score' (Coords.sub ps' i j) = .ok (k, v'))
    (hb : ∀ i j : Int, 0 ≤ i → i < j → j < ps.length → (bad i j ↔ bad' i j))
    (hin : ∀ i j : Int, 0 ≤ i → i < j → j < ps.length → bad i j → ∃ k v, score (Coords.sub ps i j) = .ok (k, v) ∧ 0 < k ∧ k < j - i) {i j : Int} {rs : List Rng}
    (h : RecCut score bad ps i j rs) : 0 ≤ i → i < j → j < ps.length → RecCut score' bad' ps' i j rs := by
  induction h with
  | keep i j h => intro h0 h1 h2; exact .keep i j (fun h' => h ((hb i j h0 h1 h2).2 h'))
  | cut i j k v xs ys hbad hs hx hy ihx ihy =>
    intro h0 h1 h2
    obtain ⟨v', hs'⟩ := hsc i j h0 h1 h2 k v hs
    obtain ⟨k', v'', hs'', k0, k1⟩ := hin i j h0 h1 h2 hbad
    rw [hs] at hs''
    cases hs''
    exact .cut i j k v' xs ys ((hb i j h0 h1 h2).1 hbad) hs' (ihx h0 (by omega) (by omega)) (ihy (by omega) (by omega) h2)

theorem Each.imp {α β : Type} {R R' : α → List β → Prop} {l : List α} {xs : List β} (h : Each R l xs) : (∀ a ∈ l, ∀ ys, R a ys → R' a ys) → Each R' l xs := by
  induction h with
  | nil => intro _; exact .nil
  | cons h t ih => intro hR; exact .cons (hR _ (by simp) _ h) (ih (fun a ha => hR a (List.mem_cons_of_mem _ ha)))

theorem MergeSpec.alike {fixed fixed' : Int → Prop} {ok ok' : Int → Int → Prop} {a b : Int} (hf : ∀ v : Int, a ≤ v → v ≤ b → (fixed v ↔ fixed' v))
    (ho : ∀ i j : Int, a ≤ i → i < j → j ≤ b → (ok i j ↔ ok' i j)) {d rs out : List Rng} (h : MergeSpec fixed ok d rs out) :
    Chain a b (d ++ rs) → MergeSpec fixed' ok' d rs out := by
  induction h with
  | done d => intro _; exact .done d
  | @keep d rs out r h t ih =>
    intro hc
    refine .keep r (fun h1 => ?_) (ih (by simpa using hc))
    obtain ⟨c, c1, c2, c3, c4⟩ := Chain.append_iff.1 hc
    have l1 := c1.le
    have l4 := c4.le
    refine ⟨fun n hn hfn hon => ?_, fun p hp hfp hop => ?_⟩
    · cases rs with
      | nil => cases hn
      | cons n' rs =>
        cases hn
        obtain ⟨c5, c6, c7⟩ := c4
        have l7 := c7.le
        exact (h h1).1 n (by simp) (fun hh => hfn ((hf _ (by omega) (by omega)).1 hh)) ((ho _ _ (by omega) (by omega) (by omega)).2 hon)
    · have hpm : p ∈ d := List.mem_of_getLast? hp
      have lp := c1.mem hpm
      exact (h h1).2 p hp (fun hh => hfp ((hf _ (by omega) (by omega)).1 hh)) ((ho _ _ (by omega) (by omega) (by omega)).2 hop)
  | @next d rs out r n h hfx hn t ih =>
    intro hc
    obtain ⟨c, c1, c2, c3, c4, c5, c6⟩ := Chain.append_iff.1 hc
    have l1 := c1.le
    have l6 := c6.le
    refine .next r n h (fun hh => hfx ((hf _ (by omega) (by omega)).2 hh)) ((ho _ _ (by omega) (by omega) (by omega)).1 hn) (ih ?_)
    rw [List.append_assoc]
    exact c1.append ⟨c2, by dsimp only; omega, c6⟩
  | @prev d rs out p r h hn hfx hp t ih =>
    intro hc
    rw [List.append_assoc] at hc
    obtain ⟨c, c1, c2, c3, c4, c5, c6⟩ := Chain.append_iff.1 hc
    have l1 := c1.le
    have l6 := c6.le
    refine .prev p r h (fun n hn' hfn hon => ?_) (fun hh => hfx ((hf _ (by omega) (by omega)).2 hh)) ((ho _ _ (by omega) (by omega) (by omega)).1 hp) (ih ?_)
    · cases rs with
      | nil => cases hn'
      | cons n' rs =>
        cases hn'
        obtain ⟨c7, c8, c9⟩ := c6
        have l9 := c9.le
        exact hn n (by simp) (fun hh => hfn ((hf _ (by omega) (by omega)).1 hh)) ((ho _ _ (by omega) (by omega) (by omega)).2 hon)
    · rw [List.append_assoc]
      exact c1.append ⟨c2, by dsimp only; omega, c6⟩

/-- what is judged alike is simplified alike -/
theorem SimplifySpec.alike {score : ScoreFn P K} {rel : Fl K → Bool} {fixed : Int → Prop} {bad ok : Int → Int → Prop} {ps : List P}
    {score' : ScoreFn P' K'} {rel' : Fl K' → Bool} {fixed' : Int → Prop} {bad' ok' : Int → Int → Prop} {ps' : List P'}
    (ha : Alike score rel fixed bad ok ps score' rel' fixed' bad' ok' ps') (h2 : 2 ≤ ps.length) (hin : SplitsInside score rel ps)
    (hbad : ∀ i j : Int, 0 ≤ i → i < j → j < ps.length → bad i j → ∃ k v, score (Coords.sub ps i j) = .ok (k, v) ∧ 0 < k ∧ k < j - i)
    (hfx : ∀ v, fixed v → 0 ≤ v ∧ v < ps.length) (hfx' : ∀ v, fixed' v → 0 ≤ v ∧ v < ps'.length) {out : List Rng}
    (h : SimplifySpec score rel fixed bad ok ps out) : SimplifySpec score' rel' fixed' bad' ok' ps' out := by
  obtain ⟨ls, hls, hm⟩ := h
  have hch := hls.chain hbad
  obtain ⟨rs, ms, a1, b1, c1, d1⟩ := hls
  have hfe : ∀ v, fixed v ↔ fixed' v := fun v =>
    ⟨fun hv => (ha.fixed v (hfx v hv).1 (hfx v hv).2).1 hv, fun hv => (ha.fixed v (hfx' v hv).1 (by rw [ha.len]; exact (hfx' v hv).2)).2 hv⟩
  refine ⟨ls, ⟨rs, ms, ?_, ?_, fun v => (c1 v).trans (or_congr_right (hfe v)), d1.imp (fun r hr l hl => ?_)⟩, hm.alike (a := 0) (b := ps.length - 1)
    (fun v _ _ => hfe v) (fun i j k0 k1 k2 => ha.ok i j k0 k1 (by omega)) (by simpa using hch)⟩
  · rw [← ha.len]
    exact a1.alike ha.score hin (by omega) (by omega) (by omega)
  · rw [← ha.len]; exact b1
  · have := b1.mem hr
    exact hl.alike (fun i j k0 k1 k2 k v hs => (ha.score i j k0 k1 k2 k v hs).imp fun _ hh => hh.1) ha.bad hbad (by omega) (by omega) (by omega)

variable {env : Env P C B K} {pts : Int → List P} {ids : Nat → Int} {h : Int}
variable {env' : Env P' C' B' K'} {pts' : Int → List P'} {ids' : Nat → Int} {h' : Int}

/-- fixed vertices are vertices of the line -/
theorem fixed_inside (hl : LnrOK env.lnr) (hi : InstOK env h (pts h)) {cv : List Int} (hcv : ∀ i ∈ cv, 0 ≤ i ∧ i < (pts h).length) {v : Int} (hv : FixedVertex env h cv v) :
    0 ≤ v ∧ v < (pts h).length := by
  obtain ⟨-, hv | ⟨inters, hint, i, hi', hv⟩⟩ := hv
  · exact hcv v hv
  · rw [hi.pln] at hint
    exact selfIntersection_bounds hl hi.two hint i hi' v hv

/-- C107, two lines.  Two lines, in whatever coordinates, with whatever geometry library, that are judged alike on all sub-lines keep the same vertices, whatever the
order in which the hash maps, the index and the queues deliver, whatever the identifiers. -/
theorem C107_alike (he : EnvOK env) (hl : LnrOK env.lnr) (hi : InstOK env h (pts h)) (ht : Touching env pts h) (hinj : Function.Injective ids)
    (hav : (env.inst h).opts.avoidNewSelfIntersects = false) {cv : List Int} (hcv : ∀ i ∈ cv, 0 ≤ i ∧ i < (pts h).length)
    (hsp : (env.inst h).opts.planarSelf = true → Splittable env pts h cv)
    (he' : EnvOK env') (hl' : LnrOK env'.lnr) (hi' : InstOK env' h' (pts' h')) (ht' : Touching env' pts' h') (hinj' : Function.Injective ids')
    (hav' : (env'.inst h').opts.avoidNewSelfIntersects = false) {cv' : List Int} (hcv' : ∀ i ∈ cv', 0 ≤ i ∧ i < (pts' h').length)
    (hsp' : (env'.inst h').opts.planarSelf = true → Splittable env' pts' h' cv')
    (ha : Alike (env.inst h).scoreFn (env.inst h).rel (FixedVertex env h cv) (Rejected env pts h) (Joinable env pts h) (pts h)
      (env'.inst h').scoreFn (env'.inst h').rel (FixedVertex env' h' cv') (Rejected env' pts' h') (Joinable env' pts' h') (pts' h'))
    {d1 d1' d2 d2' : Int → Bool} {n1 n2 : Nat} {o1 : Out P C B} {o2 : Out P' C' B'}
    (e1 : simplify env ids h cv d1 n1 = .ok (o1, d1')) (e2 : simplify env' ids' h' cv' d2 n2 = .ok (o2, d2')) :
    o1.simple = o2.simple ∧ (o1.hulls.map Node.range).Perm (o2.hulls.map Node.range) := by
  obtain ⟨rs1, s1, -, p1, w1, q1⟩ := C107_run he hl hi ht hinj hav hcv hsp e1
  obtain ⟨rs2, s2, -, p2, w2, q2⟩ := C107_run he' hl' hi' ht' hinj' hav' hcv' hsp' e2
  cases (s1.alike ha hi.two hi.inside (rejected_inside hi) (fun v hv => fixed_inside hl hi hcv hv) (fun v hv => fixed_inside hl' hi' hcv' hv)).unique s2
  exact ⟨pairwise_lt_ext w1 w2 (fun v => (q1 v).trans (q2 v).symm), p1.trans p2.symm⟩

end

/-! ### concrete cases -/

namespace Axis

/-- a line running to and fro, at another place and in another scale: `v ↦ a + b v` -/
def zig (a b : Int) : Demo.Line Int Int Int :=
  ⟨[0, 10, 1, 20, 4, 14, 13].map (fun v => a + b * v), [], { opts (3 * b) 2 with planarSelf := false, nonPlanarSelf := false, avoidNewSelfIntersects := false, geomRelation := false, distRelation := false, dirRelation := false }⟩

/-- a line with constraints at 17 and 3 that keeps its self-intersections -/
def fixedLine : Demo.Line Int Int Int :=
  ⟨[11, 8, 19, 1, 0, 12, 18, 13], [17, 3], { opts 6 20 with nonPlanarSelf := false, avoidNewSelfIntersects := false, distRelation := false, dirRelation := false }⟩

/-- All steps matter: Douglas–Peucker keeps the segments 0-2, 2-4 and 4-7; the vertex 3 is fixed; 4-7 is rejected because of the constraint at 17 and cut at its farthest
vertex 6; the single segment 3-4 is joined with 4-6. -/
example : ∃ out d, run fixedLine [3] = .ok (out, d) ∧ out.simple = [0, 2, 3, 6, 7] ∧
    SimplifySpec ((env (fun _ => fixedLine)).inst 0).scoreFn ((env (fun _ => fixedLine)).inst 0).rel (FixedVertex (env (fun _ => fixedLine)) 0 [3])
      (Rejected (env (fun _ => fixedLine)) (fun _ => fixedLine.pts) 0) (Joinable (env (fun _ => fixedLine)) (fun _ => fixedLine.pts) 0) fixedLine.pts
      [⟨0, 2⟩, ⟨2, 3⟩, ⟨3, 6⟩, ⟨6, 7⟩] := by
  have hr : (match run fixedLine [3] with | .ok (o, _) => (o.simple, o.hulls.map Node.range) | _ => ([], [])) =
      ([0, 2, 3, 6, 7], [⟨0, 2⟩, ⟨2, 3⟩, ⟨3, 6⟩, ⟨6, 7⟩]) := by decide +kernel
  cases e : run fixedLine [3] with
  | ok r =>
    obtain ⟨out, d⟩ := r
    rw [e] at hr
    simp only [Prod.mk.injEq] at hr
    have hi : InstOK (env (fun _ => fixedLine)) 0 fixedLine.pts := inst_ok (lines := fun _ => fixedLine) (by decide) (by decide)
    have hcv : ∀ i ∈ [(3 : Int)], 0 ≤ i ∧ i < (fixedLine.pts.length : Int) := by decide
    obtain ⟨rs, h1, h2, h3, -, -⟩ := C107_run (pts := fun _ => fixedLine.pts) env_ok lnr_ok hi (touching (lines := fun _ => fixedLine)) (fun a b h => by simpa using h) rfl hcv
      (fun _ => (hull_near (lines := fun _ => fixedLine) (h := 0)).splittable hi hcv) e
    have hc : Chain 0 ((fixedLine.pts.length : Int) - 1) [⟨0, 2⟩, ⟨2, 3⟩, ⟨3, 6⟩, ⟨6, 7⟩] := ⟨rfl, by decide, rfl, by decide, rfl, by decide, rfl, by decide, rfl⟩
    rw [hr.2] at h3
    rw [h2.eq_of_mem hc (fun r => h3.symm.mem_iff)] at h1
    exact ⟨out, d, rfl, hr.1, h1⟩
  | panic => rw [e] at hr; cases hr
  | timeout => rw [e] at hr; cases hr

/-- nothing is rejected -/
theorem zig_bad {a b i j : Int} : ¬ Rejected (env (fun _ => zig a b)) (fun _ => (zig a b).pts) 0 i j := by
  rintro ⟨-, nd, -, -, -, N, hv⟩
  cases hv N (Nat.le_refl _)

/-- what has an acceptable score can be joined -/
theorem zig_ok {a b i j : Int} (hi : InstOK (env (fun _ => zig a b)) 0 (zig a b).pts) (h0 : 0 ≤ i) (h1 : i < j) (h2 : j < (zig a b).pts.length) :
    Joinable (env (fun _ => zig a b)) (fun _ => (zig a b).pts) 0 i j ↔
      ∃ k v, ((env (fun _ => zig a b)).inst 0).scoreFn (Coords.sub (zig a b).pts i j) = .ok (k, v) ∧ ((env (fun _ => zig a b)).inst 0).rel v = true := by
  refine ⟨fun h => h.1, fun h => ⟨h, ?_⟩⟩
  obtain ⟨g, hg⟩ := hi.hull i j h0 h1 h2
  exact ⟨⟨0, Coords.sub (zig a b).pts i j, ⟨i, j⟩, lib.bounds g, g, 0⟩, rfl, ⟨rfl, hg, rfl, rfl⟩, 0, fun _ _ => rfl⟩

/-- the line at two places and in two scales is judged alike, so it keeps the same vertices -/
example : ∃ o1 d1 o2 d2, run (zig 0 1) [] = .ok (o1, d1) ∧ run (zig 100 2) [] = .ok (o2, d2) ∧ o1.simple = [0, 3, 4, 6] ∧ o1.simple = o2.simple := by
  have key : ∀ {r : Res (Out Int Int Bx × (Int → Bool))} {l : List Int}, (match r with | .ok (o, _) => o.simple | _ => []) = l → l ≠ [] →
      ∃ o d, r = .ok (o, d) ∧ o.simple = l := by
    intro r l h1 h2
    cases r with
    | ok r => exact ⟨r.1, r.2, rfl, h1⟩
    | panic => exact absurd h1.symm h2
    | timeout => exact absurd h1.symm h2
  obtain ⟨o1, d1, e1, h1⟩ := key (r := run (zig 0 1) []) (l := [0, 3, 4, 6]) (by decide +kernel) (by simp)
  obtain ⟨o2, d2, e2, h2⟩ := key (r := run (zig 100 2) []) (l := [0, 3, 4, 6]) (by decide +kernel) (by simp)
  have hi1 : InstOK (env (fun _ => zig 0 1)) 0 (zig 0 1).pts := inst_ok (lines := fun _ => zig 0 1) (by decide) (by decide)
  have hi2 : InstOK (env (fun _ => zig 100 2)) 0 (zig 100 2).pts := inst_ok (lines := fun _ => zig 100 2) (by decide) (by decide)
  have hsc : ∀ i : Fin 7, ∀ j : Fin 7, i < j → (match ((env (fun _ => zig 0 1)).inst 0).scoreFn (Coords.sub (zig 0 1).pts (i : Nat) (j : Nat)),
        ((env (fun _ => zig 100 2)).inst 0).scoreFn (Coords.sub (zig 100 2).pts (i : Nat) (j : Nat)) with
      | .ok (k, v), .ok (k', v') => decide (k = k' ∧ ((env (fun _ => zig 0 1)).inst 0).rel v = ((env (fun _ => zig 100 2)).inst 0).rel v')
      | _, _ => false) = true := by
    decide +kernel
  have hsc' : ∀ i j : Int, 0 ≤ i → i < j → j < 7 → ∃ k v v', ((env (fun _ => zig 0 1)).inst 0).scoreFn (Coords.sub (zig 0 1).pts i j) = .ok (k, v) ∧
      ((env (fun _ => zig 100 2)).inst 0).scoreFn (Coords.sub (zig 100 2).pts i j) = .ok (k, v') ∧
      ((env (fun _ => zig 0 1)).inst 0).rel v = ((env (fun _ => zig 100 2)).inst 0).rel v' := by
    intro i j h0 h1 h2
    have := hsc ⟨i.toNat, by omega⟩ ⟨j.toNat, by omega⟩ (by simp only [Fin.mk_lt_mk]; omega)
    simp only [Int.toNat_of_nonneg h0, Int.toNat_of_nonneg (Int.le_trans h0 (Int.le_of_lt h1))] at this
    split at this
    · rename_i k v k' v' x1 x2
      obtain ⟨rfl, h4⟩ := of_decide_eq_true this
      exact ⟨k, v, v', x1, x2, h4⟩
    · cases this
  refine ⟨o1, d1, o2, d2, e1, e2, h1, (C107_alike (pts := fun _ => (zig 0 1).pts) (pts' := fun _ => (zig 100 2).pts) env_ok lnr_ok hi1 (touching (lines := fun _ => zig 0 1))
    (fun a b h => by simpa using h) rfl (by simp) (fun h => by cases h) env_ok lnr_ok hi2 (touching (lines := fun _ => zig 100 2)) (fun a b h => by simpa using h) rfl (by simp)
    (fun h => by cases h) ⟨rfl, ?_, ?_, fun i j _ _ _ => iff_of_false zig_bad zig_bad, fun i j h0 h1 h2 => ?_⟩ e1 e2).1⟩
  · intro i j h0 h1 h2 k v hs
    obtain ⟨k', w, w', x1, x2, x3⟩ := hsc' i j h0 h1 h2
    rw [x1] at hs
    cases hs
    exact ⟨w', x2, x3⟩
  · exact fun v _ _ => iff_of_false (fun h => by cases h.1) (fun h => by cases h.1)
  · rw [zig_ok hi1 h0 h1 h2, zig_ok hi2 h0 h1 h2]
    obtain ⟨k', w, w', x1, x2, x3⟩ := hsc' i j h0 h1 h2
    constructor
    · rintro ⟨k, v, y1, y2⟩
      rw [x1] at y1
      cases y1
      exact ⟨_, _, x2, by rw [← x3]; exact y2⟩
    · rintro ⟨k, v, y1, y2⟩
      rw [x2] at y1
      cases y1
      exact ⟨_, _, x1, by rw [x3]; exact y2⟩

end Axis

end Verif
