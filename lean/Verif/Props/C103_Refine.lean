import Verif.Lemmas.RefineSplit
import Verif.Props.C102_Leftover

/-! C103: what the constrained simplification computes, as a recursive procedure. -/

set_option linter.unusedSectionVars false

namespace Verif

section
variable {P C B K : Type} [LinearOrder B] [BoundedOrder B] [LinearOrder K]
variable {env : Env P C B K} {pts : Int → List P} {src : Int → Prop} {ids : Nat → Int} {h : Int}

/-! ### the merge pass without single segments -/

theorem aggLoop_none {self : Inst P C B K} {cvs : List Int} {db : Db P C B} {cache : List (List Int)} {g : Nat} : ∀ {objects : List (Node P C B)} {fuel : Nat}
    {db' : Db P C B} {g' : Nat}, (∀ x ∈ objects, x.range.size ≠ 1) → aggLoop env ids self cvs fuel objects db cache g = .ok (db', g') → db' = db := by
  intro objects
  induction objects with
  | nil =>
    intro fuel db' g' _ e
    cases fuel with
    | zero => cases e
    | succ n => cases e; rfl
  | cons x objects ih =>
    intro fuel db' g' hx e
    cases fuel with
    | zero => cases e
    | succ n =>
      rw [aggLoop, if_pos (hx x (by simp))] at e
      exact ih (fun y hy => hx y (List.mem_cons_of_mem _ hy)) e

/-- constdp/node_aggregates.go:14-117: without single segments nothing is merged -/
theorem aggregate_none {self : Inst P C B K} {cvs : List Int} {db : Db P C B} (hd : DbOK db) {g fuel : Nat} {db' : Db P C B} {g' : Nat}
    (hx : ∀ x ∈ Hdb.contents db, x.range.size ≠ 1) (e : aggregate env ids self cvs db g fuel = .ok (db', g')) : db' = db := by
  obtain ⟨objects, e1, e2⟩ := Res.bind_eq_ok.1 e
  obtain ⟨o, y, q⟩ := Hdb.all_yields hd.wf
  have : objects = o := (Hdb.all_le db).val e1 y
  subst this
  exact aggLoop_none (fun x hx' => hx x (q.mem_iff.1 (mem_sortNodes.mem_iff.1 hx'))) e2

/-! ### the recursion -/

/-- Specification: the segments with which the whole line `ps` is replaced before the merge pass: Douglas–Peucker first, then its parts are cut at all `fixed`
vertices, then every part is cut as long as it is `bad`. -/
def ConstrainedDP (score : ScoreFn P K) (rel : Fl K → Bool) (fixed : Int → Prop) (bad : Int → Int → Prop) (ps : List P) (ls : List Rng) : Prop :=
  ∃ rs ms, RecDP score rel ps 0 (ps.length - 1) rs ∧ Chain 0 (ps.length - 1) ms ∧ (∀ v, EndOf ms v ↔ EndOf rs v ∨ fixed v) ∧
    Each (fun r l => RecCut score bad ps r.I r.J l) ms ls

theorem Each.unique {α β : Type} {R : α → List β → Prop} (hR : ∀ a xs ys, R a xs → R a ys → xs = ys) {l : List α} {xs ys : List β} (h1 : Each R l xs)
    (h2 : Each R l ys) : xs = ys := by
  induction h1 generalizing ys with
  | nil => cases h2; rfl
  | cons h t ih => cases h2 with
    | cons h' t' => rw [hR _ _ _ h h', ih t']

/-- it is a function -/
theorem ConstrainedDP.unique {score : ScoreFn P K} {rel : Fl K → Bool} {fixed : Int → Prop} {bad : Int → Int → Prop} {ps : List P} {ls ls' : List Rng}
    (h1 : ConstrainedDP score rel fixed bad ps ls) (h2 : ConstrainedDP score rel fixed bad ps ls') : ls = ls' := by
  obtain ⟨rs, ms, a1, b1, c1, d1⟩ := h1
  obtain ⟨rs', ms', a2, b2, c2, d2⟩ := h2
  cases a1.unique a2
  cases b1.eq_of_ends b2 (fun v => (c1 v).trans (c2 v).symm)
  exact d1.unique (fun _ _ _ h1 h2 => h1.unique h2) d2

/-- C103, the loop.  When new self-intersections need not be avoided, the deformation loop over the pieces of one polyline ends with exactly the segments of the
recursive procedure on each of the pieces it starts with (as a bag). -/
theorem C103_loop (he : EnvOK env) (hi : InstOK env h (pts h)) (hinj : Function.Injective ids) (hav : (env.inst h).opts.avoidNewSelfIntersects = false) {fuel : Nat}
    {st st' : LoopSt P C B} {defs : List (Node P C B)} (hd : DbOK st.db) (hp : Pieces env pts [h] src ids st.g (Hdb.contents st.db))
    (hm : defs.Perm (Hdb.contents st.db)) (e : deformLoop env ids fuel defs st = .ok st') :
    ∃ ls, Each (fun r l => RecCut (env.inst h).scoreFn (Rejected env pts h) (pts h) r.I r.J l) (defs.map Node.range) ls ∧
      ls.Perm ((Hdb.contents st'.db).map Node.range) := by
  have hi' : ∀ k ∈ [h], InstOK env k (pts k) := by
    intro k hk; rw [List.mem_singleton] at hk; rw [hk]; exact hi
  have hav' : ∀ k ∈ [h], (env.inst k).opts.avoidNewSelfIntersects = false := by
    intro k hk; rw [List.mem_singleton] at hk; rw [hk]; exact hav
  obtain ⟨L, c, q⟩ := deformLoop_cuts he hi' hinj hav' fuel st defs st' hd hp (fun x hx => hm.mem_iff.1 hx) (fun x hx => .inl (hm.mem_iff.2 hx)) e
  obtain ⟨L', c', q'⟩ := c.perm (hm.symm.map Node.key)
  have key : ∀ {l : List (Node P C B)} {M : List (Int × Rng)}, (∀ x ∈ l, x.inst = h) → Each (Cuts env pts) (l.map Node.key) M →
      Each (fun r l => RecCut (env.inst h).scoreFn (Rejected env pts h) (pts h) r.I r.J l) (l.map Node.range) (M.map Prod.snd) := by
    intro l
    induction l with
    | nil => intro M _ hM; cases hM; exact .nil
    | cons x l ih =>
      intro M hl hM
      rw [List.map_cons] at hM
      cases hM with
      | cons h1 t =>
        obtain ⟨rs, r1, rfl⟩ := h1
        rw [List.map_append, List.map_map]
        have hx := hl x (by simp)
        have r2 : RecCut (env.inst h).scoreFn (Rejected env pts h) (pts h) x.range.I x.range.J rs := by
          have := r1; simp only [Node.key, hx] at this; exact this
        have := Each.cons (R := fun r l => RecCut (env.inst h).scoreFn (Rejected env pts h) (pts h) r.I r.J l) (a := x.range) r2
          (ih (fun y hy => hl y (List.mem_cons_of_mem _ hy)) t)
        simpa [Function.comp_def] using this
  refine ⟨L'.map Prod.snd, key (fun x hx => List.mem_singleton.1 (hp.known (hm.mem_iff.1 hx)).inst) c', ?_⟩
  have := (q'.symm.trans q).map Prod.snd
  rwa [List.map_map] at this

/-- C103, the run.  When new self-intersections need not be avoided, the run keeps only vertices at which the segments of the recursive procedure end: first
Douglas–Peucker on the whole line, then its parts are cut at the fixed vertices, then every part is cut at its farthest vertex as long as the context validation
rejects it.  If no segment of the procedure is a single segment of the line, the merge pass has nothing to do and the pieces of the result are those of the
procedure. -/
theorem C103_run (he : EnvOK env) (hl : LnrOK env.lnr) (hi : InstOK env h (pts h)) (hinj : Function.Injective ids)
    (hav : (env.inst h).opts.avoidNewSelfIntersects = false) {cv : List Int} (hcv : ∀ i ∈ cv, 0 ≤ i ∧ i < (pts h).length)
    (hsp : (env.inst h).opts.planarSelf = true → Splittable env pts h cv) {dirty dirty' : Int → Bool} {fuel : Nat}
    {out : Out P C B} (e : simplify env ids h cv dirty fuel = .ok (out, dirty')) :
    ∃ ls, ConstrainedDP (env.inst h).scoreFn (env.inst h).rel (FixedVertex env h cv) (Rejected env pts h) (pts h) ls ∧ (∀ v ∈ out.simple, EndOf ls v) ∧
      ((∀ r ∈ ls, r.J ≠ r.I + 1) → (out.hulls.map Node.range).Perm ls ∧ ∀ v, v ∈ out.simple ↔ EndOf ls v) := by
  have hi' : ∀ k ∈ [h], InstOK env k (pts k) := by
    intro k hk; rw [List.mem_singleton] at hk; rw [hk]; exact hi
  obtain ⟨h0, g0, ⟨N0, e0⟩, p0, -⟩ := decompose_yields hi hinj
  obtain ⟨near, hlg, hmono⟩ := he.heap
  obtain ⟨h1, cvs, g1, ⟨N1, e1⟩, hg1, p1, s1, k1, k2, -⟩ := toSelfIntersects_yields he hl hi' hinj (h := h) (by simp) (strong := False)
    hlg hmono p0 hcv (fun hs => hs.elim) (fun hs => hs.elim)
  obtain ⟨-, hends⟩ := toSelfIntersects_exact he hl hi hinj hcv hsp p0 (e1 N1 (Nat.le_refl _))
  obtain ⟨d2, ⟨N2, e2⟩, w2, q2⟩ := DbOK.new.load he h1
  rw [contents_new, List.nil_append] at q2
  obtain ⟨st, ⟨N3, e3⟩, w3, hg3, p3, s3, set3⟩ := deformLoop_yields he hi' hinj _ ⟨d2, g1, markDirty dirty h⟩ h1 rfl w2 (p1.perm q2.symm)
    (fun x hx => q2.mem_iff.2 hx) (fun x hx => .inl (q2.mem_iff.1 hx))
  obtain ⟨d4, g4, ⟨N4, e4⟩, w4, -, p4, -, -, -, sep4⟩ := aggregate_yields he hi hinj cvs w3 p3
  obtain ⟨o, ⟨N5, e5⟩, q5⟩ := Hdb.all_yields w4.wf
  have hy : Yields (simplify env ids h cv dirty) (⟨o, simpleSet o⟩, markClean st.dirty h) := by
    refine ⟨max N0 (max N1 (max N2 (max N3 (max N4 N5)))), fun fuel hf => ?_⟩
    have e3 := e3 fuel (by omega)
    simp only [] at e3
    simp only [simplify, e0 fuel (by omega), e1 fuel (by omega), e2 fuel (by omega), e3, e4 fuel (by omega), e5 fuel (by omega), Res.ok_bind, Res.pure_eq]
  have := (simplify_le env ids h cv dirty).val e hy
  cases this
  obtain ⟨ls', c', q'⟩ := C103_loop he hi hinj hav w2 (p1.perm q2.symm) q2.symm (e3 N3 (Nat.le_refl _))
  obtain ⟨ls, c, q''⟩ := c'.perm ((mem_sortNodes (l := h1)).symm.map Node.range)
  have q := q''.symm.trans q'
  have e0' := e0 N0 (Nat.le_refl _)
  rw [hi.pln, createPolyline_coordsOf hi.two] at e0'
  have hr := C63_decompose_recursive _ _ _ _ _ _ _ hi.two _ _ _ e0'
  have hfix : ∀ v, v ∈ cvs ↔ FixedVertex env h cv v := by
    intro v
    unfold FixedVertex
    cases hpl : (env.inst h).opts.planarSelf with
    | false => rw [(k2 hpl).1]; simp
    | true =>
      obtain ⟨inters, hint, hv⟩ := k1 hpl
      rw [hpl] at hint
      rw [hv v]
      simp only [true_and]
      refine or_congr_right ⟨fun h2 => ⟨inters, hint, h2⟩, ?_⟩
      rintro ⟨inters', hint', h2⟩
      rw [hint] at hint'
      cases hint'
      exact h2
  have hms : ∀ v, EndOf ((sortNodes h1).map Node.range) v ↔ EndOf (h0.map Node.range) v ∨ FixedVertex env h cv v := by
    intro v
    have hEO : ∀ l : List (Node P C B), EndOf (l.map Node.range) v ↔ v ∈ simpleSet l := by
      intro l
      rw [mem_simpleSet]
      simp only [EndOf, List.mem_map, exists_exists_and_eq_and]
    rw [hEO, hEO, ← hfix, ← hends v, mem_simpleSet, mem_simpleSet]
    simp only [mem_sortNodes.mem_iff]
  have hE : EndsIn (simpleSet (Hdb.contents st.db)) (Hdb.contents st.db) := by
    intro x hx
    rw [mem_simpleSet, mem_simpleSet]
    exact ⟨⟨x, hx, .inl rfl⟩, x, hx, .inr rfl⟩
  have hE4 := sep4 (EndsIn (simpleSet (Hdb.contents st.db))) (fun _ _ _ _ _ _ _ _ ha hq => hq.step ha) hE
  have hend : ∀ v, v ∈ simpleSet (Hdb.contents st.db) ↔ EndOf ls v := by
    intro v
    rw [mem_simpleSet]
    constructor
    · rintro ⟨x, hx, hv⟩
      exact ⟨x.range, q.mem_iff.2 (List.mem_map_of_mem hx), hv⟩
    · rintro ⟨r, hr, hv⟩
      obtain ⟨x, hx, rfl⟩ := List.mem_map.1 (q.mem_iff.1 hr)
      exact ⟨x, hx, hv⟩
  refine ⟨ls, ⟨_, _, hr, sortNodes_chain p1, hms, c⟩, fun v hv => ?_, fun hns => ?_⟩
  · rw [mem_simpleSet] at hv
    obtain ⟨x, hx, hv⟩ := hv
    have := hE4 x (q5.mem_iff.1 hx)
    rcases hv with rfl | rfl
    · exact (hend _).1 this.1
    · exact (hend _).1 this.2
  · have hd4 : d4 = st.db := aggregate_none w3 (fun x hx => by
      have h1 := hns x.range (q.mem_iff.2 (List.mem_map_of_mem hx))
      simp only [Rng.size]; omega) (e4 N4 (Nat.le_refl _))
    subst hd4
    have hq : (o.map Node.range).Perm ls := (q5.map _).trans q.symm
    refine ⟨hq, fun v => ?_⟩
    rw [← hend v, mem_simpleSet, mem_simpleSet]
    simp only [q5.mem_iff]

end

/-! ### concrete cases -/

/-- a line over a point it must not be pulled across -/
def archLine : Demo.Line Plane.Pt (List Plane.Pt) ℚ :=
  ⟨[(0, 0), (2, 3), (4, 5), (6, 3), (8, 0), (10, -3), (12, 0)], [[(4, 0)]], { Plane.opts 20 10 with geomRelation := true }⟩

/-- Douglas–Peucker would keep the ends only; the chord meets the constraint point, the line does not; so the line is cut once at its farthest vertex.  The result is
the recursive procedure's. -/
example : ∃ out d, Plane.run archLine [] = .ok (out, d) ∧ out.simple = [0, 2, 6] ∧ ∃ ls,
    ConstrainedDP ((Plane.env (fun _ => archLine)).inst 0).scoreFn ((Plane.env (fun _ => archLine)).inst 0).rel (FixedVertex (Plane.env (fun _ => archLine)) 0 [])
      (Rejected (Plane.env (fun _ => archLine)) (fun _ => archLine.pts) 0) archLine.pts ls ∧ ∀ v ∈ out.simple, EndOf ls v := by
  have hr : (match Plane.run archLine [] with | .ok (o, _) => o.simple | _ => []) = [0, 2, 6] := by decide +kernel
  cases e : Plane.run archLine [] with
  | ok r =>
    obtain ⟨out, d⟩ := r
    rw [e] at hr
    have hr : out.simple = _ := hr
    have hi : InstOK (Plane.env (fun _ => archLine)) 0 archLine.pts := Plane.inst_ok (lines := fun _ => archLine) (by decide) (by decide +kernel)
    obtain ⟨ls, h1, h2, -⟩ := C103_run (pts := fun _ => archLine.pts) Plane.env_ok Plane.lnr_ok hi (fun a b h => by simpa using h) rfl (by simp)
      (fun h => by cases h) e
    exact ⟨out, d, rfl, hr, ls, h1, h2⟩
  | panic => rw [e] at hr; cases hr
  | timeout => rw [e] at hr; cases hr

end Verif
