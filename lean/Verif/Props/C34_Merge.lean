import Verif.Demo.Plane
import Verif.Demo.Axis
import Verif.Lemmas.MergePass

/-! C34, C49: the merge pass. -/

set_option linter.unusedSectionVars false

namespace Verif

variable {P C B K : Type} [LinearOrder B] [BoundedOrder B] [LinearOrder K]
variable {env : Env P C B K} {pts : Int → List P} {src : Int → Prop} {ids : Nat → Int} {g : Nat} {h : Int}

/-- Specification: `m` is the union of the adjacent pieces `a` and `b` of the line `h`, its offset score is acceptable, and the vertex between them is not
fixed. -/
structure GoodUnion (env : Env P C B K) (pts : Int → List P) (h : Int) (cvs : List Int) (a b m : Node P C B) : Prop where
  adjacent : a.range.J = b.range.I
  range : m.range = ⟨a.range.I, b.range.J⟩
  piece : IsPiece env.lib (pts h) h m
  score : ∃ k v, (env.inst h).scoreFn (Coords.sub (pts h) a.range.I b.range.J) = .ok (k, v) ∧ (env.inst h).rel v = true
  free : a.range.J ∉ cvs

/-- C34, the part that holds.  One step of the merge pass either leaves the index as a bag of pieces unchanged, or replaces two adjacent pieces by their union,
whose score is acceptable, whose inner vertex is free, and which passed the validation against an index holding the other pieces — all of them, or all but
the successor of the fragment.  Missing for the full statement: "all but the successor" cannot be excluded, `C34_refuted`. -/
theorem C34_step_partial (he : EnvOK env) (hi : InstOK env h (pts h)) (cvs : List Int) {hull : Node P C B}
    {u objects : List (Node P C B)} {db : Db P C B} (hd : DbOK db) (hp : Pieces env pts [h] src ids g (Hdb.contents db))
    (hperm : (u ++ hull :: objects).Perm (Hdb.contents db)) (hc : Chain 0 ((pts h).length - 1) ((u ++ hull :: objects).map Node.range))
    (cache : List (List Int)) :
    ∃ db' objects' cache' g', Yields (aggStep env ids (env.inst h) cvs hull objects db cache g) (db', objects', cache', g') ∧
      ((Hdb.contents db').Perm (Hdb.contents db) ∨
       ∃ a b m rest, (Hdb.contents db).Perm (a :: b :: rest) ∧ (Hdb.contents db').Perm (m :: rest) ∧ GoodUnion env pts h cvs a b m ∧
        ∃ out checked, rest.Perm (out ++ Hdb.contents checked) ∧ (out = [] ∨ b = hull ∧ ∃ nxt, out = [nxt] ∧ hull.range.J = nxt.range.I) ∧
          ((env.inst h).opts.avoidNewSelfIntersects = true → Yields (select env (env.inst h).opts.nonPlanarDisplacement checked m) []) ∧
          Yields (validateContextRelation env m (env.inst h)) true) := by
  have hi' : ∀ k ∈ [h], InstOK env k (pts k) := by
    intro k hk; rw [List.mem_singleton] at hk; rw [hk]; exact hi
  obtain ⟨db', objects', cache', g', hy, -, -, hout⟩ := aggStep_yields (ids := ids) he hi cvs hd hp hperm hc cache
  refine ⟨db', objects', cache', g', hy, ?_⟩
  have valid : ∀ (d : Db P C B) (m : Node P C B), DbOK d → (∀ x ∈ Hdb.contents d, x ∈ Hdb.contents db) → Known env pts [h] m →
      Yields (validateMerge env (env.inst h) m d) true →
      ((env.inst h).opts.avoidNewSelfIntersects = true → Yields (select env (env.inst h).opts.nonPlanarDisplacement d m) []) ∧
        Yields (validateContextRelation env m (env.inst h)) true := by
    intro d m hd hs hk hv
    obtain ⟨b, y, e⟩ := validateMerge_yields he hi' (h := h) (by simp) hd (fun x hx => ⟨hp.known (hs x hx), hp.valid hi' (hs x hx)⟩) hk
    exact e.1 (y.unique hv)
  cases hout with
  | keep hb ho => exact .inl hb
  | next nxt m rest d hb ha ho hj hm hd' hc' hv =>
    right
    have k1 := hp.known (hb.mem_iff.2 (by simp : hull ∈ _))
    have k2 := hp.known (hb.mem_iff.2 (by simp : nxt ∈ _))
    refine ⟨hull, nxt, m, rest, hb, ha, ⟨hm.adj, hm.range, hm.piece, hm.score, hj⟩, [], d, hc'.symm, .inl rfl, ?_⟩
    exact valid d m hd' (fun x hx => hb.mem_iff.2 (by simp [hc'.mem_iff.1 hx])) (hm.known (by simp) k1 k2 (List.mem_singleton.1 k2.inst)) hv
  | prev prv m rest out d hb ha ho hi2 hm hd' hc' hout' hv =>
    right
    have k1 := hp.known (hb.mem_iff.2 (by simp : prv ∈ _))
    have k2 := hp.known (hb.mem_iff.2 (by simp : hull ∈ _))
    refine ⟨prv, hull, m, rest, hb, ha, ⟨hm.adj, hm.range, hm.piece, hm.score, by rw [hm.adj]; exact hi2⟩, out, d, hc', ?_, ?_⟩
    · rcases hout' with h | ⟨nxt, h1, h2⟩
      · exact .inl h
      · exact .inr ⟨rfl, nxt, h1, h2.symm⟩
    · exact valid d m hd' (fun x hx => hb.mem_iff.2 (by
        have : x ∈ rest := hc'.mem_iff.2 (by simp [hx])
        simp [this])) (hm.known (by simp) k1 k2 (List.mem_singleton.1 k2.inst)) hv

/-- C34 for the whole pass: a piece of the result was there before, or its score is acceptable; and if all pieces were valid in context before, all are after. -/
theorem C34_pass (he : EnvOK env) (hi : InstOK env h (pts h)) (hinj : Function.Injective ids) (cvs : List Int) {db : Db P C B}
    (hd : DbOK db) (hp : Pieces env pts [h] src ids g (Hdb.contents db)) :
    ∃ db' g', Yields (aggregate env ids (env.inst h) cvs db g) (db', g') ∧ Pieces env pts [h] src ids g' (Hdb.contents db') ∧
      (∀ x ∈ Hdb.contents db', x ∈ Hdb.contents db ∨
        ∃ k v, (env.inst h).scoreFn (Coords.sub (pts h) x.range.I x.range.J) = .ok (k, v) ∧ (env.inst h).rel v = true) ∧
      ((∀ x ∈ Hdb.contents db, Settled env x) → ∀ x ∈ Hdb.contents db', Settled env x) ∧
      ((∀ v ∈ cvs, ∀ x ∈ Hdb.contents db, ¬ Inside v x) → ∀ v ∈ cvs, ∀ x ∈ Hdb.contents db', ¬ Inside v x) := by
  obtain ⟨db', g', hy, -, -, p, s, a, i, -⟩ := aggregate_yields he hi hinj cvs hd hp
  refine ⟨db', g', hy, p, fun x hx => (a x hx).imp id (fun h1 => ?_), s, i⟩
  have hins : x.inst = h := List.mem_singleton.1 (p.known hx).inst
  rw [Accepted, hins] at h1
  exact h1

/-- C49: the merge pass over a cover of one polyline never panics, whatever predicates, fixed vertices, options and index heuristics -/
theorem C49_no_panic (he : EnvOK env) (hi : InstOK env h (pts h)) (hinj : Function.Injective ids) (cvs : List Int) {db : Db P C B}
    (hd : DbOK db) (hp : Pieces env pts [h] src ids g (Hdb.contents db)) (fuel : Nat) : aggregate env ids (env.inst h) cvs db g fuel ≠ .panic := by
  obtain ⟨db', g', hy, -⟩ := aggregate_yields he hi hinj cvs hd hp
  rcases (aggregate_le env ids (env.inst h) cvs db g).eq_of_yields hy fuel with h | h <;> rw [h] <;> simp

/-- C49: the memo key of a pair of adjacent pieces determines both ranges -/
theorem C49_cacheKey {a b c d : Node P C B} (hab : a.range.J = b.range.I) (hcd : c.range.J = d.range.I) (ha : a.range.I < a.range.J)
    (hb : b.range.I < b.range.J) (hc : c.range.I < c.range.J) (hd : d.range.I < d.range.J) (h1 : a.inst = h) (h2 : b.inst = h) (h3 : c.inst = h) (h4 : d.inst = h)
    (hk : cacheKey env a b = cacheKey env c d) : a.range = c.range ∧ b.range = d.range := by
  have hp : [a.range.I, a.range.J, b.range.I, b.range.J, (env.inst h).id, (env.inst h).id].Perm
      [c.range.I, c.range.J, d.range.I, d.range.J, (env.inst h).id, (env.inst h).id] := by
    unfold cacheKey sortInts at hk
    rw [h1, h2, h3, h4] at hk
    exact ((List.perm_insertionSort _ _).symm.trans (List.Perm.of_eq hk)).trans (List.perm_insertionSort _ _)
  have hp : [a.range.I, a.range.J, b.range.I, b.range.J].Perm [c.range.I, c.range.J, d.range.I, d.range.J] :=
    (List.perm_append_right_iff [(env.inst h).id, (env.inst h).id]).1 hp
  rw [← hab, ← hcd] at hp
  have hmid : a.range.J = c.range.J := by
    by_contra hne
    have := hp.count_eq a.range.J
    simp only [List.count_cons, List.count_nil, beq_iff_eq] at this
    split_ifs at this <;> omega
  have m1 : a.range.I ∈ [c.range.I, c.range.J, c.range.J, d.range.J] := hp.mem_iff.1 (by simp)
  have m2 : b.range.J ∈ [c.range.I, c.range.J, c.range.J, d.range.J] := hp.mem_iff.1 (by simp)
  simp only [List.mem_cons, List.not_mem_nil, or_false] at m1 m2
  have ext : ∀ r s : Rng, r.I = s.I → r.J = s.J → r = s := by
    rintro ⟨_, _⟩ ⟨_, _⟩ h1 h2
    simp only at h1 h2
    rw [h1, h2]
  exact ⟨ext _ _ (by omega) hmid, ext _ _ (by omega) (by omega)⟩

/-! ### concrete cases -/

namespace Plane

/-- three sides of a square and a segment from its corner to its centre; a constraint point on that segment -/
def sqLine : Demo.Line Pt (List Pt) ℚ :=
  ⟨[(0, 0), (0, 6), (6, 6), (6, 0), (3, 3)], [[(9/2, 3/2)]], { opts 10 0 with geomRelation := true, avoidNewSelfIntersects := true }⟩

abbrev sqEnv : Env Pt (List Pt) Bx ℚ := Plane.env (fun _ => sqLine)

/-- the piece `i..j` -/
def sqPiece (id i j : Int) : Node Pt (List Pt) Bx :=
  match createNode sqEnv.lib id (Coords.sub sqLine.pts i j) ⟨i, j⟩ 0 with
  | .ok nd => nd
  | _ => { id := id, coords := ⟨[], []⟩, range := ⟨i, j⟩, mbr := ⟨⊥, ⊥, ⊤, ⊤⟩, geom := .ctx [], inst := 0 }

def sqDb (l : List (Node Pt (List Pt) Bx)) : Db Pt (List Pt) Bx :=
  match Hdb.load nodeOps sqEnv.heur (Hdb.newHdb Hdb.defaultCap) l 10 with
  | .ok t => t
  | _ => Hdb.newHdb Hdb.defaultCap

end Plane

open Plane in
/-- C34 refuted.  The pieces `0..2`, `2..3`, `3..4` cover the line; the step for the fragment `2..3` replaces it and its predecessor by `0..3` although that union
does not pass the validation against the index without its two parts (the successor ends inside its hull): the successor had been taken out of the index
for a rejected attempt. -/
theorem C34_refuted : ∃ m db', aggStep sqEnv (fun n => n) (sqEnv.inst 0) [] (sqPiece 1 2 3) [sqPiece 2 3 4]
      (sqDb [sqPiece 0 0 2, sqPiece 1 2 3, sqPiece 2 3 4]) [] 3 50 = .ok db' ∧
    Hdb.contents db'.1 = [sqPiece 2 3 4, m] ∧ m.range = ⟨0, 3⟩ ∧
    Hdb.contents (sqDb [sqPiece 2 3 4]) = [sqPiece 2 3 4] ∧ validateMerge sqEnv (sqEnv.inst 0) m (sqDb [sqPiece 2 3 4]) 50 = .ok false := by
  have h : (match aggStep sqEnv (fun n => n) (sqEnv.inst 0) [] (sqPiece 1 2 3) [sqPiece 2 3 4] (sqDb [sqPiece 0 0 2, sqPiece 1 2 3, sqPiece 2 3 4]) [] 3 50 with
      | .ok db' => decide (Hdb.contents db'.1 = [sqPiece 2 3 4, sqPiece 3 0 3])
      | _ => false) = true := by decide +kernel
  split at h
  · rename_i db' e
    exact ⟨sqPiece 3 0 3, db', e, of_decide_eq_true h, by decide +kernel, by decide +kernel, by decide +kernel⟩
  · cases h

/-- the pieces `0..1`, `1..2`, `2..4` of the line 0 3 1 2 4; vertex 2 fixed: the first two are merged, the fixed vertex stays -/
example : (match (do
      let env := Axis.env (fun _ => ⟨[0, 3, 1, 2, 4], [9], Axis.opts 5 1⟩)
      let a ← createNode env.lib 0 (Coords.sub [0, 3, 1, 2, 4] 0 1) ⟨0, 1⟩ 0
      let b ← createNode env.lib 1 (Coords.sub [0, 3, 1, 2, 4] 1 2) ⟨1, 2⟩ 0
      let c ← createNode env.lib 2 (Coords.sub [0, 3, 1, 2, 4] 2 4) ⟨2, 4⟩ 0
      let db ← Hdb.load nodeOps env.heur (Hdb.newHdb Hdb.defaultCap) [a, b, c] 50
      aggregate env (fun n => n) (env.inst 0) [2] db 3 50) with
    | .ok (db, _) => (Hdb.contents db).map (fun n => (n.range.I, n.range.J))
    | _ => []) = [(2, 4), (0, 2)] := by decide +kernel

end Verif
