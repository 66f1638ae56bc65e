import Verif.Model.ConstDP
import Verif.Model.Yields

/-! More fuel never changes an outcome: a run that returned or panicked with some fuel does the same with more. -/

set_option linter.unusedSectionVars false

namespace Verif

/-- `x` ran out of fuel, or `y` has the same outcome -/
def Res.Le {α : Type} (x y : Res α) : Prop := x = .timeout ∨ x = y

namespace Res.Le

variable {α β : Type}

theorem refl (x : Res α) : Res.Le x x := .inr rfl
theorem timeout (x : Res α) : Res.Le .timeout x := .inl rfl

theorem trans {x y z : Res α} (h : Res.Le x y) (h' : Res.Le y z) : Res.Le x z := by
  rcases h with h | h
  · exact .inl h
  · rw [h]; exact h'

theorem bind {x y : Res α} {f g : α → Res β} (h : Res.Le x y) (hf : ∀ a, Res.Le (f a) (g a)) : Res.Le (x >>= f) (y >>= g) := by
  rcases h with rfl | rfl
  · exact .inl rfl
  · cases x with
    | ok a => exact hf a
    | panic => exact .inr rfl
    | timeout => exact .inr rfl

theorem ite {p : Prop} [Decidable p] {a b c d : Res α} (h : Res.Le a b) (h' : Res.Le c d) : Res.Le (if p then a else c) (if p then b else d) := by
  split <;> assumption

theorem ok {x y : Res α} (h : Res.Le x y) {a : α} (hx : x = .ok a) : y = .ok a := by
  rcases h with h | h
  · rw [h] at hx; cases hx
  · rw [← h]; exact hx

theorem panic {x y : Res α} (h : Res.Le x y) (hx : x = .panic) : y = .panic := by
  rcases h with h | h
  · rw [h] at hx; cases hx
  · rw [← h]; exact hx

end Res.Le

/-- one more unit of fuel does not change the outcome -/
def Mono {α : Type} (f : Nat → Res α) : Prop := ∀ n, Res.Le (f n) (f (n + 1))

theorem Mono.le {α : Type} {f : Nat → Res α} (h : Mono f) {n m : Nat} (hnm : n ≤ m) : Res.Le (f n) (f m) := by
  induction hnm with
  | refl => exact Res.Le.refl _
  | step _ ih => exact ih.trans (h _)

theorem Mono.yields {α : Type} {f : Nat → Res α} (h : Mono f) {n : Nat} {a : α} (hn : f n = .ok a) : Yields f a :=
  ⟨n, fun _ hm => (h.le hm).ok hn⟩

theorem Mono.val {α : Type} {f : Nat → Res α} (hf : Mono f) {n : Nat} {a b : α} (ha : f n = .ok a) (hb : Yields f b) : a = b :=
  (hf.yields ha).unique hb

theorem Mono.panics {α : Type} {f : Nat → Res α} (h : Mono f) {n : Nat} (hn : f n = .panic) : Panics f :=
  ⟨n, fun _ hm => (h.le hm).panic hn⟩

/-- every outcome at any fuel is the final outcome -/
theorem Mono.eq_of_yields {α : Type} {f : Nat → Res α} (h : Mono f) {a : α} (hy : Yields f a) (n : Nat) : f n = .timeout ∨ f n = .ok a := by
  cases hn : f n with
  | ok b => rw [(h.yields hn).unique hy]; exact .inr rfl
  | panic => exact absurd hy (h.panics hn).not_yields
  | timeout => exact .inl rfl

variable {P C B K : Type}

namespace Hdb

variable {T : Type} [LinearOrder B] [BoundedOrder B]

theorem mapRes_le {α β : Type} {f g : α → Res β} (h : ∀ a, Res.Le (f a) (g a)) : ∀ l : List α, Res.Le (mapRes f l) (mapRes g l)
  | [] => .refl _
  | a :: as => by
    simp only [mapRes]
    exact .bind (h a) (fun b => .bind (mapRes_le h as) (fun _ => .refl _))

theorem buildTree_le (ops : ItemOps T B) (H : Heur T B) (maxE : Nat) : ∀ (n : Nat) (items : List T) (h : Nat),
    Res.Le (buildTree ops H maxE n items h) (buildTree ops H maxE (n + 1) items h)
  | 0, _, _ => .timeout _
  | n + 1, items, h => by
    rw [buildTree.eq_2, buildTree.eq_2]
    exact .ite (.refl _) (.bind (mapRes_le (fun t => buildTree_le ops H maxE n t _) _) (fun _ => .refl _))

theorem load_le (ops : ItemOps T B) (H : Heur T B) (t : Tree T B) (items : List T) : Mono (load ops H t items) := by
  intro n
  simp only [load]
  exact .ite (.refl _) (.bind (buildTree_le ops H _ n _ _) (fun _ => .refl _))

theorem allLoop_le : ∀ (n : Nat) (nd : DbNode T B) stack result, Res.Le (allLoop n nd stack result) (allLoop (n + 1) nd stack result)
  | 0, _, _, _ => .timeout _
  | n + 1, nd, stack, result => by
    rw [allLoop.eq_2, allLoop.eq_2]
    generalize (if nd.leaf = true then stack else nd.children.reverse ++ stack) = st
    cases st with
    | nil => exact .refl _
    | cons a st => exact allLoop_le n _ _ _

theorem searchChildren_le (q : Box B) (leaf : Bool) (n : Nat) : ∀ (cs : List (DbNode T B)) stack result,
    Res.Le (searchChildren n q leaf cs stack result) (searchChildren (n + 1) q leaf cs stack result)
  | [], _, _ => .refl _
  | c :: cs, stack, result => by
    rw [searchChildren.eq_2, searchChildren.eq_2]
    exact .ite (.ite (searchChildren_le q leaf n cs _ _) (.ite (.bind (allLoop_le n _ _ _) (fun _ => searchChildren_le q leaf n cs _ _))
      (searchChildren_le q leaf n cs _ _))) (searchChildren_le q leaf n cs _ _)

theorem searchLoop_le (q : Box B) : ∀ (n : Nat) (nd : DbNode T B) stack result, Res.Le (searchLoop q n nd stack result) (searchLoop q (n + 1) nd stack result)
  | 0, _, _, _ => .timeout _
  | n + 1, nd, stack, result => by
    rw [searchLoop.eq_2, searchLoop.eq_2]
    refine .bind (searchChildren_le q _ n _ _ _) ?_
    rintro ⟨st, r⟩
    cases st with
    | nil => exact .refl _
    | cons a st => exact searchLoop_le q n _ _ _

theorem search_le (t : Tree T B) (q : Box B) : Mono (search t q) := by
  intro n
  simp only [search]
  exact .ite (.refl _) (.bind (searchLoop_le q n _ _ _) (fun _ => .refl _))

theorem all_le (t : Tree T B) : Mono (all t) := by
  intro n
  simp only [all]
  exact .bind (allLoop_le n _ _ _) (fun _ => .refl _)

/-- the body of the loop of `removeLoop` after going up, with the recursive call as a parameter -/
def remBody (ops : ItemOps T B) (id : Int) (bbox : Box B) (rec : RemState T B → Res (Option (List Nat × Nat))) (s : RemState T B) :
    Res (Option (List Nat × Nat)) :=
  match s.nd with
  | none => .panic
  | some nd =>
    match (if nd.leaf then indexOfId ops id nd.children else none) with
    | some idx => .ok (some ((s.i :: s.indexes).reverse.tail, idx))
    | none =>
      if !s.goingUp && !nd.leaf && nd.bbox.contains bbox then
        match nd.children[0]? with
        | none => .panic
        | some c => rec { nd := some c, parent := some nd, path := nd :: s.path, indexes := s.i :: s.indexes, i := 0, goingUp := s.goingUp }
      else
        match s.parent with
        | some p => rec { s with nd := p.children[s.i + 1]?, i := s.i + 1, goingUp := false }
        | none => rec { s with nd := none }

theorem remBody_le (ops : ItemOps T B) (id : Int) (bbox : Box B) {r r' : RemState T B → Res (Option (List Nat × Nat))} (h : ∀ s, Res.Le (r s) (r' s))
    (s : RemState T B) : Res.Le (remBody ops id bbox r s) (remBody ops id bbox r' s) := by
  unfold remBody
  cases s.nd with
  | none => exact .refl _
  | some nd =>
    simp only []
    generalize (if nd.leaf = true then indexOfId ops id nd.children else none) = x
    cases x with
    | some i => exact .refl _
    | none =>
      simp only []
      refine .ite ?_ ?_
      · cases nd.children[0]? with
        | none => exact .refl _
        | some c => exact h _
      · cases s.parent with
        | none => exact h _
        | some c => exact h _

theorem removeLoop_le (ops : ItemOps T B) (id : Int) (bbox : Box B) : ∀ (n : Nat) (s : RemState T B),
    Res.Le (removeLoop ops id bbox n s) (removeLoop ops id bbox (n + 1) s)
  | 0, _ => .timeout _
  | n + 1, s => by
    have h1 : ∀ m nd parent path indexes i up, removeLoop ops id bbox (m + 1) ⟨some nd, parent, path, indexes, i, up⟩ =
        remBody ops id bbox (removeLoop ops id bbox m) ⟨some nd, parent, path, indexes, i, up⟩ := by
      intro m nd parent path indexes i up
      rw [removeLoop, remBody]
      · simp only []
        generalize (if nd.leaf = true then indexOfId ops id nd.children else none) = x
        generalize nd.children[0]? = c
        cases x <;> cases c <;> cases parent <;> rfl
    have h2 : ∀ m parent p ps indexes i up, removeLoop ops id bbox (m + 1) ⟨none, parent, p :: ps, indexes, i, up⟩ =
        remBody ops id bbox (removeLoop ops id bbox m) ⟨some p, ps.head?, ps, indexes.tail, indexes.head?.getD 0, true⟩ := by
      intro m parent p ps indexes i up
      rw [removeLoop, remBody]
      · simp only []
        generalize (if p.leaf = true then indexOfId ops id p.children else none) = x
        generalize p.children[0]? = c
        generalize ps.head? = parent
        cases x <;> cases c <;> cases parent <;> rfl
    obtain ⟨nd, parent, path, indexes, i, up⟩ := s
    cases nd with
    | some nd => rw [h1, h1]; exact remBody_le ops id bbox (removeLoop_le ops id bbox n) _
    | none =>
      cases path with
      | nil => exact .refl _
      | cons p ps => rw [h2, h2]; exact remBody_le ops id bbox (removeLoop_le ops id bbox n) _

theorem remove_le (ops : ItemOps T B) (t : Tree T B) (item : T) : Mono (remove ops t item) := by
  intro n
  simp only [remove]
  exact .bind (removeLoop_le ops _ _ n _) (fun _ => .refl _)

theorem knnDrain_le (hp : Heap (KObj T B K)) (limit : Int) (pred : KObj T B K → Bool × Bool) : ∀ (n : Nat) queue result,
    Res.Le (knnDrain hp limit pred n queue result) (knnDrain hp limit pred (n + 1) queue result)
  | 0, _, _ => .timeout _
  | n + 1, queue, result => by
    rw [knnDrain.eq_2, knnDrain.eq_2]
    cases hp.pop queue with
    | none => exact .refl _
    | some x =>
      exact .ite (.ite (.refl _) (.ite (.refl _) (knnDrain_le hp limit pred n _ _))) (.refl _)

theorem knnLoop_le (hp : Heap (KObj T B K)) (limit : Int) (score : Option T → Box B → Fl K) (pred : KObj T B K → Bool × Bool) : ∀ (n : Nat) nd queue result,
    Res.Le (knnLoop hp limit score pred n nd queue result) (knnLoop hp limit score pred (n + 1) nd queue result)
  | 0, _, _, _ => .timeout _
  | n + 1, nd, queue, result => by
    rw [knnLoop.eq_2, knnLoop.eq_2]
    refine .bind (knnDrain_le hp limit pred _ _ _) ?_
    rintro (r | ⟨q, r⟩)
    · exact .refl _
    · simp only []
      cases hp.pop q with
      | none => exact .refl _
      | some x => exact knnLoop_le hp limit score pred n _ _ _

theorem contextNeighbours_le [LinearOrder K] (hp : Heap (KObj T B K)) (t : Tree T B) (boxDist : Box B → Fl K) (itemDist : T → Fl K) (dist : Fl K) :
    Mono (contextNeighbours hp t boxDist itemDist dist) := by
  intro n
  exact .bind (knnLoop_le hp _ _ _ n _ _ _) (fun _ => .refl _)

theorem nodeNeighbours_le [LinearOrder K] (ops : ItemOps T B) (geomDist : T → T → Fl K) (t : Tree T B) (hull : T) (dist : Fl K) :
    Mono (nodeNeighbours ops geomDist t hull dist) := by
  intro n
  exact .bind (search_le _ _ n) (fun _ => .refl _)

end Hdb

namespace Homotopy
variable [LinearOrder B]

theorem pass_le (lib : Lib P C B K) (pt : Nat → P) (db : List (Geo P C)) : ∀ (n : Nat) (l : Option Nat) (ch : Chain) (d : Bool),
    Res.Le (pass lib pt db n l ch d) (pass lib pt db (n + 1) l ch d)
  | 0, none, _, _ => .refl _
  | n + 1, none, _, _ => .refl _
  | 0, some _, _, _ => .timeout _
  | n + 1, some l, ch, d => by
    rw [pass.eq_3, pass.eq_3]
    exact .ite (pass_le lib pt db n _ _ _) (pass_le lib pt db n _ _ _)

theorem deformLoop_le (lib : Lib P C B K) (pt : Nat → P) (db : List (Geo P C)) : ∀ (n : Nat) (ch : Chain),
    Res.Le (deformLoop lib pt db n ch) (deformLoop lib pt db (n + 1) ch)
  | 0, _ => .timeout _
  | n + 1, ch => by
    rw [deformLoop.eq_2, deformLoop.eq_2]
    refine .ite (.bind (pass_le lib pt db n _ _ _) ?_) (.refl _)
    rintro ⟨ch, d⟩
    exact .ite (deformLoop_le lib pt db n _) (.refl _)

theorem homotopy_le (lib : Lib P C B K) (c : Coords P) (ctx : List (Geo P C)) : Mono (homotopy lib c ctx) := by
  intro n
  simp only [homotopy]
  refine .ite (.refl _) (.ite (.refl _) (.bind (.refl _) ?_))
  intro pts
  cases pts with
  | nil => exact .refl _
  | cons p ps => exact .bind (deformLoop_le lib _ _ n _) (fun _ => .refl _)

end Homotopy

theorem dpLoop_le (lib : Lib P C B K) (ids : Nat → Int) (pln : Polyline P) (score : ScoreFn P K) (rel : Fl K → Bool) (inst : Int) :
    ∀ (n : Nat) stack hque g, Res.Le (dpLoop lib ids pln score rel inst n stack hque g) (dpLoop lib ids pln score rel inst (n + 1) stack hque g)
  | 0, [], _, _ => .refl _
  | n + 1, [], _, _ => .refl _
  | 0, _ :: _, _, _ => .timeout _
  | n + 1, r :: stack, hque, g => by
    rw [dpLoop.eq_3, dpLoop.eq_3]
    refine .bind (.refl _) (fun c => .bind (.refl _) ?_)
    rintro ⟨k, v⟩
    exact .ite (.bind (.refl _) (fun _ => dpLoop_le lib ids pln score rel inst n _ _ _)) (dpLoop_le lib ids pln score rel inst n _ _ _)

theorem decompose_le (lib : Lib P C B K) (ids : Nat → Int) (g : Nat) (pln : Polyline P) (score : ScoreFn P K) (rel : Fl K → Bool) (inst : Int) :
    Mono (decompose lib ids g pln score rel inst) := by
  intro n
  simp only [decompose]
  cases pln.ls with
  | none => exact .refl _
  | some l => exact .bind (.refl _) (fun _ => dpLoop_le lib ids pln score rel inst n _ _ _)

section
variable [LinearOrder B] [BoundedOrder B] [LinearOrder K] (env : Env P C B K) (ids : Nat → Int)

theorem neighboursOf_le (db : Db P C B) (hull : Node P C B) : Mono (neighboursOf env db hull) := Hdb.nodeNeighbours_le _ _ _ _ _

theorem select_le (d : Fl K) (db : Db P C B) (hull : Node P C B) : Mono (select env d db hull) :=
  fun n => .bind (neighboursOf_le env db hull n) (fun _ => .refl _)

theorem selectFeatureClass_le (dirty : Int → Bool) (d : Fl K) (db : Db P C B) (hull : Node P C B) : Mono (selectFeatureClass env dirty d db hull) :=
  fun n => .bind (neighboursOf_le env db hull n) (fun _ => .refl _)

theorem andThen_le {b f : Bool} {x y : Res Bool} (h : Res.Le x y) : Res.Le (andThen b f x) (andThen b f y) := .ite h (.refl _)

theorem validateContextRelation_le (hull : Node P C B) (self : Inst P C B K) : Mono (validateContextRelation env hull self) := by
  intro n
  refine .ite (.refl _) (.bind (Hdb.contextNeighbours_le _ _ _ _ _ n) (fun l => .bind (.refl _) (fun b => .bind (.refl _) (fun b => andThen_le ?_))))
  exact Homotopy.homotopy_le _ _ _ n

theorem validateMerge_le (self : Inst P C B K) (hull : Node P C B) (db : Db P C B) : Mono (validateMerge env self hull db) := by
  intro n
  simp only [validateMerge]
  have := select_le env self.opts.nonPlanarDisplacement db hull n
  exact .ite (.bind this (fun l => .ite (.refl _) (validateContextRelation_le env hull self n)))
    (.bind (.refl _) (fun l => .ite (.refl _) (validateContextRelation_le env hull self n)))

theorem hullSelections_le (dirty : Int → Bool) (db : Db P C B) (hull : Node P C B) : Mono (hullSelections env dirty db hull) := by
  intro n
  refine .ite (.refl _) (.ite (.refl _) (.bind (.ite (selectFeatureClass_le env dirty _ db hull n) (.refl _)) (fun l => ?_)))
  exact .ite (.bind (validateContextRelation_le env hull _ n) (fun _ => .refl _)) (.refl _)

theorem selectionsOf_le (dirty : Int → Bool) (db : Db P C B) (n : Nat) : ∀ l, Res.Le (selectionsOf env dirty db n l) (selectionsOf env dirty db (n + 1) l)
  | [] => .refl _
  | h :: hs => .bind (hullSelections_le env dirty db h n) (fun _ => .bind (selectionsOf_le dirty db n hs) (fun _ => .refl _))

theorem findDeformable_le (dirty : Int → Bool) (hulls : List (Node P C B)) (db : Db P C B) : Mono (findDeformable env dirty hulls db) :=
  fun n => .bind (selectionsOf_le env dirty db n hulls) (fun _ => .refl _)

theorem cleanUpLoop_le (n : Nat) : ∀ (l : List (Node P C B)) (db : Db P C B), Res.Le (cleanUpLoop n l db) (cleanUpLoop (n + 1) l db)
  | [], _ => .refl _
  | _ :: os, _ => .bind (Hdb.remove_le _ _ _ n) (fun _ => cleanUpLoop_le n os _)

theorem deformRound_le (st : LoopSt P C B) (sel : List (Node P C B)) : Mono (deformRound env ids st sel) := by
  intro n
  refine .bind (.refl _) ?_
  rintro ⟨d, g, dirty⟩
  exact .bind (cleanUpLoop_le n _ _) (fun _ => .bind (Hdb.load_le _ _ _ _ n) (fun _ => .refl _))

theorem deformLoop_le : ∀ (n : Nat) (d : List (Node P C B)) (st : LoopSt P C B), Res.Le (deformLoop env ids n d st) (deformLoop env ids (n + 1) d st)
  | 0, _, _ => .timeout _
  | n + 1, d, st => by
    rw [deformLoop.eq_2, deformLoop.eq_2]
    refine .ite (.refl _) (.bind (findDeformable_le env _ _ _ n) (fun sel => .ite (.refl _) (.bind (deformRound_le env ids st sel n) ?_)))
    rintro ⟨d, st⟩
    exact deformLoop_le n d st

theorem splitNodes_le (idxs : List Int) (n : Nat) : ∀ (l : List (Node P C B)) (db : Db P C B) (g : Nat),
    Res.Le (splitNodes env ids idxs n l db g) (splitNodes env ids idxs (n + 1) l db g)
  | [], _, _ => .refl _
  | h :: hs, db, g => by
    rw [splitNodes.eq_2, splitNodes.eq_2]
    refine .bind (.refl _) ?_
    rintro ⟨t, g⟩
    exact .ite (splitNodes_le idxs n hs _ _) (.bind (Hdb.remove_le _ _ _ n) (fun _ => .bind (Hdb.load_le _ _ _ _ n) (fun _ => splitNodes_le idxs n hs _ _)))

theorem splitAtInters_le (n : Nat) : ∀ (l : List (Inter P)) (db : Db P C B) (g : Nat),
    Res.Le (splitAtInters env ids n l db g) (splitAtInters env ids (n + 1) l db g)
  | [], _, _ => .refl _
  | i :: is, db, g => by
    rw [splitAtInters.eq_2, splitAtInters.eq_2]
    refine .ite (splitAtInters_le n is _ _) (.bind (Hdb.contextNeighbours_le _ _ _ _ _ n) (fun l => .bind (splitNodes_le env ids _ n _ _ _) ?_))
    rintro ⟨db, g⟩
    exact splitAtInters_le n is _ _

theorem toSelfIntersects_le (g : Nat) (nodes : List (Node P C B)) (self : Inst P C B K) (cv : List Int) : Mono (toSelfIntersects env ids g nodes self cv) := by
  intro n
  simp only [toSelfIntersects]
  refine .ite (.refl _) (.bind (Hdb.load_le _ _ _ _ n) (fun db => .bind (.refl _) (fun inters => .bind (.refl _) ?_)))
  rintro ⟨vs, added⟩
  refine .bind (splitAtInters_le env ids n _ _ _) ?_
  rintro ⟨db, g⟩
  exact .bind (Hdb.all_le _ n) (fun _ => .refl _)

theorem mergeNext_le (self : Inst P C B K) (m nxt : Option (Node P C B)) (s : MergeSt P C B) : Mono (fun n => mergeNext env self m nxt n s) := by
  intro n
  obtain ⟨db, o, i, b⟩ := s
  cases b <;> cases m <;> cases nxt <;> try exact .refl _
  exact .bind (Hdb.remove_le _ _ _ n) (fun _ => .bind (validateMerge_le env _ _ _ n) (fun _ => .refl _))

theorem mergePrev_le (self : Inst P C B K) (m nxt : Option (Node P C B)) (s : MergeSt P C B) : Mono (fun n => mergePrev env self m nxt n s) := by
  intro n
  obtain ⟨db, o, i, b⟩ := s
  cases b <;> cases m <;> cases nxt <;> try exact .refl _
  exact .bind (Hdb.remove_le _ _ _ n) (fun _ => .bind (validateMerge_le env _ _ _ n) (fun _ => .refl _))

theorem aggStep_le (self : Inst P C B K) (cvs : List Int) (hull : Node P C B) (objects : List (Node P C B)) (db : Db P C B) (cache : List (List Int))
    (g : Nat) : Mono (aggStep env ids self cvs hull objects db cache g) := by
  intro n
  refine .bind (Hdb.remove_le _ _ _ n) (fun db => .bind (neighboursOf_le env _ _ n) (fun ns => .bind (.refl _) ?_))
  rintro ⟨mp, cache, g⟩
  refine .bind (.refl _) ?_
  rintro ⟨mn, cache, g⟩
  exact .bind (mergeNext_le env _ _ _ _ n) (fun s => .bind (mergePrev_le env _ _ _ _ n) (fun s => .bind (Hdb.load_le _ _ _ _ n) (fun _ => .refl _)))

theorem aggLoop_le (self : Inst P C B K) (cvs : List Int) : ∀ (n : Nat) (l : List (Node P C B)) (db : Db P C B) (cache : List (List Int)) (g : Nat),
    Res.Le (aggLoop env ids self cvs n l db cache g) (aggLoop env ids self cvs (n + 1) l db cache g)
  | 0, _, _, _, _ => .timeout _
  | n + 1, [], _, _, _ => .refl _
  | n + 1, h :: hs, db, cache, g => by
    rw [aggLoop.eq_3, aggLoop.eq_3]
    refine .ite (aggLoop_le self cvs n _ _ _ _) (.ite (aggLoop_le self cvs n _ _ _ _) (.bind (aggStep_le env ids _ _ _ _ _ _ _ n) ?_))
    rintro ⟨db, l, cache, g⟩
    exact aggLoop_le self cvs n _ _ _ _

theorem aggregate_le (self : Inst P C B K) (cvs : List Int) (db : Db P C B) (g : Nat) : Mono (aggregate env ids self cvs db g) :=
  fun n => .bind (Hdb.all_le _ n) (fun _ => aggLoop_le env ids self cvs n _ _ _ _)

theorem simplify_le (h : Int) (cv : List Int) (dirty : Int → Bool) : Mono (simplify env ids h cv dirty) := by
  intro n
  refine .bind (decompose_le _ _ _ _ _ _ _ n) ?_
  rintro ⟨hulls, g⟩
  refine .bind (toSelfIntersects_le env ids _ _ _ _ n) ?_
  rintro ⟨hulls, cvs, g⟩
  refine .bind (Hdb.load_le _ _ _ _ n) (fun db => .bind (deformLoop_le env ids n _ _) (fun st => .bind (aggregate_le env ids _ _ _ _ n) ?_))
  rintro ⟨db, g⟩
  exact .bind (Hdb.all_le _ n) (fun _ => .refl _)

theorem simplifyInstances_le (idsOf : Int → Nat → Int) (j : List (Int × Int)) (n : Nat) : ∀ (hs : List Int) (dirty : Int → Bool),
    Res.Le (simplifyInstances env idsOf j n hs dirty) (simplifyInstances env idsOf j (n + 1) hs dirty)
  | [], _ => .refl _
  | h :: hs, dirty => by
    refine .bind (simplify_le env _ _ _ _ n) ?_
    rintro ⟨o, dirty⟩
    refine .bind (simplifyInstances_le idsOf j n hs dirty) ?_
    rintro ⟨r, d⟩
    exact .refl _

theorem simplifyFeatureClass_le (idsOf : Int → Nat → Int) (hs : List Int) (o : Opts K) (dirty : Int → Bool) :
    Mono (simplifyFeatureClass env ids idsOf hs o dirty) := by
  intro n
  refine .bind (.refl _) (fun j => .bind (simplifyInstances_le env idsOf j n hs dirty) ?_)
  rintro ⟨outs, d⟩
  exact .ite (.bind (Hdb.load_le _ _ _ _ n) (fun db => .bind (deformLoop_le env ids n _ _) (fun st => .bind (Hdb.all_le _ n) (fun _ => .refl _)))) (.refl _)

end

end Verif
