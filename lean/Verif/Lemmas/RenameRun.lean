import Verif.Lemmas.Rename
import Verif.Lemmas.RunsMerge

/-! Two runs that draw other identifiers: with index code that does not look at them, the deformation loop starts from the same ranges. -/

set_option linter.unusedSectionVars false

namespace Verif

variable {P C B K : Type} [LinearOrder B] [BoundedOrder B] [LinearOrder K]

/-- a piece under another name -/
def Node.named (φ : Int → Int) (nd : Node P C B) : Node P C B := nd.withId (φ nd.id)

/-- The code of the index does not look at the identifiers of the pieces: reordering, selecting and queueing commute with every change of names. -/
structure Blind (H : Heur (Node P C B) B) (Q : Hdb.Heap (Hdb.KObj (Node P C B) B K)) : Prop where
  arrange : ∀ (φ : Int → Int) l, H.arrange (l.map (DbNode.rename (Node.named φ))) = (H.arrange l).map (DbNode.rename (Node.named φ))
  select : ∀ (φ : Int → Int) b n l, H.select b n (l.map (Node.named φ)) = (H.select b n l).map (Node.named φ)
  push : ∀ (φ : Int → Int) q o, Q.push (q.map (Hdb.KObj.rename (Node.named φ))) (o.rename (Node.named φ)) = (Q.push q o).map (Hdb.KObj.rename (Node.named φ))
  pop : ∀ (φ : Int → Int) q, Q.pop (q.map (Hdb.KObj.rename (Node.named φ))) =
    (Q.pop q).map (fun x => (x.1.rename (Node.named φ), x.2.map (Hdb.KObj.rename (Node.named φ))))

section
variable {env : Env P C B K} {φ : Int → Int} {ids : Nat → Int}

theorem Blind.renames {H : Heur (Node P C B) B} {Q : Hdb.Heap (Hdb.KObj (Node P C B) B K)} (b : Blind H Q) (hφ : Function.Injective φ) :
    Hdb.Renames nodeOps H (Node.named φ) :=
  ⟨fun _ => rfl, fun _ _ => ⟨fun h => hφ h, fun h => congrArg φ h⟩, b.arrange φ, b.select φ⟩

theorem Blind.heap {H : Heur (Node P C B) B} {Q : Hdb.Heap (Hdb.KObj (Node P C B) B K)} (b : Blind H Q) : Hdb.HeapRenames Q (Node.named φ) :=
  ⟨b.push φ, b.pop φ⟩

theorem createNode_named (lib : Lib P C B K) (i : Int) (c : Coords P) (r : Rng) (inst : Int) :
    createNode lib (φ i) c r inst = Res.mp (Node.named φ) (createNode lib i c r inst) := by
  unfold createNode; rw [Res.mp_bind]; rfl

/-- the names of the pieces change, their number stays -/
def namedPair (φ : Int → Int) (x : List (Node P C B) × Nat) : List (Node P C B) × Nat := (x.1.map (Node.named φ), x.2)

theorem atIndexLoop_named (lib : Lib P C B K) (hull : Node P C B) : ∀ (rs : List Rng) (g : Nat),
    atIndexLoop lib (fun n => φ (ids n)) (hull.named φ) rs g = Res.mp (namedPair φ) (atIndexLoop lib ids hull rs g) := by
  intro rs
  induction rs with
  | nil => intro g; rfl
  | cons r rs ih =>
    intro g
    simp only [atIndexLoop, ih, createNode_named, Res.mp_bind, Res.bind_mp]
    apply Res.bind_congr; intro c
    apply Res.bind_congr; intro nd
    apply Res.bind_congr; rintro ⟨l, g'⟩
    rfl

theorem atIndex_named (lib : Lib P C B K) (hull : Node P C B) (g : Nat) (idxs : List Int) :
    atIndex lib (fun n => φ (ids n)) g (hull.named φ) idxs = Res.mp (namedPair φ) (atIndex lib ids g hull idxs) := atIndexLoop_named lib hull _ g

theorem dpLoop_named (lib : Lib P C B K) (pln : Polyline P) (score : ScoreFn P K) (rel : Fl K → Bool) (inst : Int) : ∀ (fuel : Nat) (st : List Rng)
    (q : List (Node P C B)) (g : Nat), dpLoop lib (fun n => φ (ids n)) pln score rel inst fuel st (q.map (Node.named φ)) g =
      Res.mp (namedPair φ) (dpLoop lib ids pln score rel inst fuel st q g) := by
  intro fuel
  induction fuel with
  | zero => intro st q g; cases st <;> rfl
  | succ fuel ih =>
    intro st q g
    cases st with
    | nil => rfl
    | cons r st =>
      simp only [dpLoop, Res.mp_bind]
      apply Res.bind_congr; intro c
      apply Res.bind_congr; rintro ⟨k, v⟩
      dsimp only
      split_ifs
      · rw [createNode_named, Res.bind_mp, Res.mp_bind]
        apply Res.bind_congr; intro nd
        have := ih st (q ++ [nd]) (g + 1)
        rw [List.map_append] at this
        exact this
      · exact ih _ q g

theorem decompose_named (lib : Lib P C B K) (pln : Polyline P) (score : ScoreFn P K) (rel : Fl K → Bool) (inst : Int) (g fuel : Nat) :
    decompose lib (fun n => φ (ids n)) g pln score rel inst fuel = Res.mp (namedPair φ) (decompose lib ids g pln score rel inst fuel) := by
  unfold decompose
  cases pln.ls with
  | none => rfl
  | some _ =>
    dsimp only
    rw [Res.mp_bind]
    apply Res.bind_congr; intro r
    exact dpLoop_named lib pln score rel inst fuel [r] [] g

/-- the names of the pieces in the index change -/
def namedDb (φ : Int → Int) (x : Db P C B × Nat) : Db P C B × Nat := (x.1.rename (Node.named φ), x.2)

theorem splitNodes_named (b : Blind env.heur env.heap) (hφ : Function.Injective φ) (idxs : List Int) (fuel : Nat) : ∀ (l : List (Node P C B)) (db : Db P C B) (g : Nat),
    splitNodes env (fun n => φ (ids n)) idxs fuel (l.map (Node.named φ)) (db.rename (Node.named φ)) g = Res.mp (namedDb φ) (splitNodes env ids idxs fuel l db g) := by
  intro l
  induction l with
  | nil => intro db g; rfl
  | cons x l ih =>
    intro db g
    simp only [List.map_cons, splitNodes, atIndex_named, Res.mp_bind, Res.bind_mp]
    apply Res.bind_congr; rintro ⟨tokens, g'⟩
    simp only [namedPair, List.length_map]
    split_ifs
    · exact ih db g'
    · rw [Hdb.remove_rename (b.renames hφ), Res.bind_mp, Res.mp_bind]
      apply Res.bind_congr; intro db1
      rw [Hdb.load_rename (b.renames hφ), Res.bind_mp, Res.mp_bind]
      apply Res.bind_congr; intro db2
      exact ih db2 g'

theorem splitAtInters_named (b : Blind env.heur env.heap) (hφ : Function.Injective φ) (fuel : Nat) : ∀ (l : List (Inter P)) (db : Db P C B) (g : Nat),
    splitAtInters env (fun n => φ (ids n)) fuel l (db.rename (Node.named φ)) g = Res.mp (namedDb φ) (splitAtInters env ids fuel l db g) := by
  intro l
  induction l with
  | nil => intro db g; rfl
  | cons x l ih =>
    intro db g
    simp only [splitAtInters]
    split_ifs
    · exact ih db g
    · rw [Hdb.contextNeighbours_rename b.heap db _ _ (fun a => rfl), Res.bind_mp, Res.mp_bind]
      apply Res.bind_congr; intro nodes
      rw [splitNodes_named b hφ, Res.bind_mp, Res.mp_bind]
      apply Res.bind_congr; rintro ⟨db1, g1⟩
      exact ih db1 g1

theorem sortNodes_named (l : List (Node P C B)) : sortNodes (l.map (Node.named φ)) = (sortNodes l).map (Node.named φ) := by
  unfold sortNodes
  exact (List.map_insertionSort (r := fun a b : Node P C B => a.range.I ≤ b.range.I) (s := fun a b : Node P C B => a.range.I ≤ b.range.I) (Node.named φ) l (fun a _ b _ => Iff.rfl)).symm

theorem toSelfIntersects_named (b : Blind env.heur env.heap) (hφ : Function.Injective φ) (g : Nat) (nodes : List (Node P C B)) (self : Inst P C B K) (cv : List Int)
    (fuel : Nat) : toSelfIntersects env (fun n => φ (ids n)) g (nodes.map (Node.named φ)) self cv fuel =
      Res.mp (fun x => (x.1.map (Node.named φ), x.2.1, x.2.2)) (toSelfIntersects env ids g nodes self cv fuel) := by
  unfold toSelfIntersects
  split_ifs
  · rfl
  · have e := Hdb.load_rename (b.renames hφ) (Hdb.newHdb Hdb.defaultCap) nodes fuel
    rw [Hdb.newHdb_rename] at e
    rw [e, Res.bind_mp, Res.mp_bind]
    apply Res.bind_congr; intro db
    rw [Res.mp_bind]
    apply Res.bind_congr; intro inters
    rw [Res.mp_bind]
    apply Res.bind_congr; rintro ⟨vs, added⟩
    dsimp only
    rw [splitAtInters_named b hφ, Res.bind_mp, Res.mp_bind]
    apply Res.bind_congr; rintro ⟨db1, g1⟩
    simp only [namedDb]
    rw [Hdb.all_rename, Res.bind_mp, Res.mp_bind]
    apply Res.bind_congr; intro l
    simp only [sortNodes_named, Res.pure_eq, Res.mp_ok]

end

/-- a change of names that gives the identifiers of a sequence the names 0, 2, 4, … -/
theorem exists_naming {ids : Nat → Int} (hi : Function.Injective ids) : ∃ φ : Int → Int, Function.Injective φ ∧ ∀ n, φ (ids n) = 2 * (n : Int) := by
  classical
  refine ⟨fun x => if h : ∃ n, ids n = x then 2 * (h.choose : Int) else 2 * x + 1, fun x y e => ?_, fun n => ?_⟩
  · dsimp only at e
    split_ifs at e with h1 h2 h2
    · have : h1.choose = h2.choose := by omega
      rw [← h1.choose_spec, ← h2.choose_spec, this]
    · omega
    · omega
    · omega
  · have h : ∃ m, ids m = ids n := ⟨n, rfl⟩
    dsimp only
    rw [dif_pos h, hi h.choose_spec]

variable {env : Env P C B K} {s s1 s2 : Sched P C B K} {h : Int}

theorem sameR_named (φ : Int → Int) (l : List (Node P C B)) : SameR (l.map (Node.named φ)) l := by
  intro r
  rw [List.map_map]
  exact Iff.rfl

/-- same index code, which does not look at identifiers: all runs start the loop from the same ranges, whatever identifiers they draw -/
theorem SameStart.blind {ids1 ids2 : Nat → Int} {cv : List Int} (hh : s1.heur = s2.heur) (hp : s1.heap = s2.heap) (b : Blind s1.heur s1.heap)
    (j1 : Function.Injective ids1) (j2 : Function.Injective ids2) : SameStart env s1 s2 h ids1 ids2 cv := by
  obtain ⟨φ1, i1, e1⟩ := exists_naming j1
  obtain ⟨φ2, i2, e2⟩ := exists_naming j2
  have b1 : Blind (env.run s1).heur (env.run s1).heap := b
  have b2 : Blind (env.run s2).heur (env.run s2).heap := by
    show Blind s2.heur s2.heap
    rw [← hh, ← hp]; exact b
  intro n m h1 h2 o1 o2 g1 g2 k1 k2 v1 v2 a1 a2 c1 c2
  have f1 : (fun k => φ1 (ids1 k)) = fun k : Nat => 2 * (k : Int) := funext e1
  have f2 : (fun k => φ2 (ids2 k)) = fun k : Nat => 2 * (k : Int) := funext e2
  have A1 := decompose_named (φ := φ1) (ids := ids1) (env.run s1).lib ((env.run s1).inst h).pln ((env.run s1).inst h).scoreFn ((env.run s1).inst h).rel h 0 n
  have A2 := decompose_named (φ := φ2) (ids := ids2) (env.run s2).lib ((env.run s2).inst h).pln ((env.run s2).inst h).scoreFn ((env.run s2).inst h).rel h 0 m
  have C1 := toSelfIntersects_named (φ := φ1) (ids := ids1) b1 i1 g1 h1 ((env.run s1).inst h) cv n
  have C2 := toSelfIntersects_named (φ := φ2) (ids := ids2) b2 i2 g2 h2 ((env.run s2).inst h) cv m
  rw [a1] at A1; rw [a2] at A2; rw [c1] at C1; rw [c2] at C2
  rw [f1] at A1 C1; rw [f2] at A2 C2
  obtain ⟨r, q⟩ := SameStart.fixed (env := env) (h := h) (cv := cv) hh hp A1 A2 C1 C2
  refine ⟨fun x => ?_, q⟩
  rw [← sameR_named φ1 o1 x, ← sameR_named φ2 o2 x]
  exact r x

end Verif
