import Verif.Model.Knn

/-! The index does not notice when its items are renamed: all operations commute with a map on the items that keeps boxes and keeps identifiers apart. -/

set_option linter.unusedSectionVars false

namespace Verif

/-- apply a function to the value of a computation -/
def Res.mp {A A' : Type} (g : A → A') : Res A → Res A'
  | .ok a => .ok (g a)
  | .panic => .panic
  | .timeout => .timeout

namespace Res
variable {A A' A'' : Type}
@[simp] theorem mp_ok (g : A → A') (a : A) : Res.mp g (.ok a) = .ok (g a) := rfl
@[simp] theorem mp_panic (g : A → A') : Res.mp g .panic = .panic := rfl
@[simp] theorem mp_timeout (g : A → A') : Res.mp g .timeout = .timeout := rfl
theorem mp_bind (g : A' → A'') (x : Res A) (k : A → Res A') : Res.mp g (x >>= k) = x >>= fun a => Res.mp g (k a) := by cases x <;> rfl
theorem bind_mp (g : A → A') (x : Res A) (k : A' → Res A'') : (Res.mp g x >>= k) = x >>= fun a => k (g a) := by cases x <;> rfl
theorem mp_eq_ok {g : A → A'} {x : Res A} {b : A'} (h : Res.mp g x = .ok b) : ∃ a, x = .ok a ∧ g a = b := by
  cases x with
  | ok a => cases h; exact ⟨a, rfl, rfl⟩
  | panic => cases h
  | timeout => cases h
theorem bind_congr {x : Res A} {k k' : A → Res A'} (h : ∀ a, k a = k' a) : (x >>= k) = (x >>= k') := by cases x <;> simp [h]
end Res

/-- the tree with other items -/
def DbNode.rename {T B : Type} (f : T → T) : DbNode T B → DbNode T B
  | .mk cs it h lf bb => .mk (cs.map (DbNode.rename f)) (it.map f) h lf bb

namespace Hdb

variable {T B K : Type} [LinearOrder B] [BoundedOrder B]

theorem rename_mk (f : T → T) (cs : List (DbNode T B)) (it : Option T) (h : Nat) (lf : Bool) (bb : Box B) :
    (DbNode.mk cs it h lf bb).rename f = .mk (cs.map (DbNode.rename f)) (it.map f) h lf bb := by rw [DbNode.rename]

@[simp] theorem rename_children (f : T → T) (n : DbNode T B) : (n.rename f).children = n.children.map (DbNode.rename f) := by cases n; rw [rename_mk]; rfl
@[simp] theorem rename_item (f : T → T) (n : DbNode T B) : (n.rename f).item = n.item.map f := by cases n; rw [rename_mk]; rfl
@[simp] theorem rename_height (f : T → T) (n : DbNode T B) : (n.rename f).height = n.height := by cases n; rw [rename_mk]; rfl
@[simp] theorem rename_leaf (f : T → T) (n : DbNode T B) : (n.rename f).leaf = n.leaf := by cases n; rw [rename_mk]; rfl
@[simp] theorem rename_bbox (f : T → T) (n : DbNode T B) : (n.rename f).bbox = n.bbox := by cases n; rw [rename_mk]; rfl

/-- a map on items that the index cannot tell from a change of names -/
structure Renames (ops : ItemOps T B) (H : Heur T B) (f : T → T) : Prop where
  mbr : ∀ a, ops.mbr (f a) = ops.mbr a
  id : ∀ a b, ops.id (f a) = ops.id (f b) ↔ ops.id a = ops.id b
  arrange : ∀ l, H.arrange (l.map (DbNode.rename f)) = (H.arrange l).map (DbNode.rename f)
  select : ∀ b n l, H.select b n (l.map f) = (H.select b n l).map f

def Tree.rename (f : T → T) (t : Tree T B) : Tree T B := { t with data := t.data.rename f }

variable {ops : ItemOps T B} {H : Heur T B} {f : T → T}

theorem bboxes_rename (cs : List (DbNode T B)) : (cs.map (DbNode.rename f)).map DbNode.bbox = cs.map DbNode.bbox := by
  rw [List.map_map]; exact List.map_congr_left (fun a _ => rename_bbox f a)

theorem calcBBox_rename (cs : List (DbNode T B)) : calcBBox (cs.map (DbNode.rename f)) = calcBBox cs := by
  unfold calcBBox; rw [bboxes_rename]

theorem newLeafNode_rename (r : Renames ops H f) (t : T) : newLeafNode ops (f t) = (newLeafNode ops t).rename f := by
  unfold newLeafNode; rw [rename_mk, r.mbr]; rfl

theorem emptyRoot_rename : (emptyRoot : DbNode T B).rename f = emptyRoot := by unfold emptyRoot; rw [rename_mk]; rfl

theorem newHdb_rename (c : Nat) : (newHdb c : Tree T B).rename f = newHdb c := by
  unfold Tree.rename newHdb; simp only [emptyRoot_rename]

theorem splitNode_rename (r : Renames ops H f) (cs : List (DbNode T B)) (h : Nat) (lf : Bool) :
    splitNode H (cs.map (DbNode.rename f)) h lf = ((splitNode H cs h lf).1.rename f, (splitNode H cs h lf).2.rename f) := by
  unfold splitNode
  simp only [r.arrange, bboxes_rename, ← List.map_take, ← List.map_drop, calcBBox_rename, rename_mk, Option.map_none]

theorem insertAt_rename (r : Renames ops H f) (maxE : Nat) (new : DbNode T B) : ∀ (level : Nat) (nd : DbNode T B),
    insertAt H maxE (new.rename f) level (nd.rename f) = Res.mp (fun p => (p.1.rename f, p.2.map (DbNode.rename f))) (insertAt H maxE new level nd) := by
  intro level
  induction level with
  | zero =>
    intro nd
    obtain ⟨cs, it, h, lf, bb⟩ := nd
    rw [rename_mk]
    have e : cs.map (DbNode.rename f) ++ [new.rename f] = (cs ++ [new]).map (DbNode.rename f) := by simp
    simp only [insertAt, e, List.length_map, splitNode_rename r, rename_bbox]
    split_ifs
    · rfl
    · simp only [Res.mp_ok, rename_mk, Option.map_none]
  | succ level ih =>
    intro nd
    obtain ⟨cs, it, h, lf, bb⟩ := nd
    rw [rename_mk]
    simp only [insertAt, rename_bbox, bboxes_rename]
    cases lf
    · simp only [Bool.false_eq_true, if_false]
      cases hc : H.choose new.bbox (cs.map DbNode.bbox) with
      | none => rfl
      | some i =>
        simp only [List.getElem?_map]
        cases hi : cs[i]? with
        | none => rfl
        | some c =>
          simp only [Option.map_some, ih, Res.bind_mp, Res.mp_bind]
          apply Res.bind_congr
          rintro ⟨c', sib⟩
          cases sib with
          | none => simp only [Option.map_none, Res.mp_ok, rename_mk, List.map_set]
          | some sib =>
            have e : (cs.map (DbNode.rename f)).set i (c'.rename f) ++ [sib.rename f] = (cs.set i c' ++ [sib]).map (DbNode.rename f) := by simp [List.map_set]
            simp only [Option.map_some, e, List.length_map, splitNode_rename r]
            split_ifs
            · rfl
            · simp only [Res.mp_ok, rename_mk, Option.map_none]
    · rfl

theorem splitRoot_rename (a b : DbNode T B) : splitRoot (a.rename f) (b.rename f) = (splitRoot a b).rename f := by
  unfold splitRoot
  rw [rename_mk, show [a.rename f, b.rename f] = [a, b].map (DbNode.rename f) from rfl, calcBBox_rename, rename_height]; rfl

theorem insertNode_rename (r : Renames ops H f) (maxE : Nat) (root new : DbNode T B) (level : Nat) :
    insertNode H maxE (root.rename f) (new.rename f) level = Res.mp (DbNode.rename f) (insertNode H maxE root new level) := by
  unfold insertNode
  rw [insertAt_rename r, Res.bind_mp, Res.mp_bind]
  apply Res.bind_congr
  rintro ⟨c, s⟩
  cases s with
  | none => rfl
  | some s => simp only [Option.map_some, Res.mp_ok, splitRoot_rename]

theorem insertItem_rename (r : Renames ops H f) (maxE : Nat) (root : DbNode T B) (t : T) :
    insertItem ops H maxE (root.rename f) (f t) = Res.mp (DbNode.rename f) (insertItem ops H maxE root t) := by
  unfold insertItem; rw [newLeafNode_rename r, insertNode_rename r, rename_height]

theorem insertItems_rename (r : Renames ops H f) (maxE : Nat) : ∀ (l : List T) (root : DbNode T B),
    insertItems ops H maxE (root.rename f) (l.map f) = Res.mp (DbNode.rename f) (insertItems ops H maxE root l) := by
  intro l
  induction l with
  | nil => intro root; rfl
  | cons t l ih =>
    intro root
    simp only [List.map_cons, insertItems, insertItem_rename r, Res.bind_mp, Res.mp_bind]
    exact Res.bind_congr (fun a => ih a)

theorem chunks_map {A A' : Type} (g : A → A') (n : Nat) : ∀ (fuel : Nat) (l : List A), chunks fuel n (l.map g) = (chunks fuel n l).map (List.map g) := by
  intro fuel
  induction fuel with
  | zero => intro l; rfl
  | succ fuel ih =>
    intro l
    simp only [chunks, List.map_eq_nil_iff]
    split_ifs
    · rfl
    · rw [List.map_cons, ← List.map_take, ← List.map_drop, ih]

theorem mapRes_map {A A' D D' : Type} (g : A → A') (k : D → D') {F : A → Res D} {F' : A' → Res D'} (h : ∀ a, F' (g a) = Res.mp k (F a)) :
    ∀ l : List A, mapRes F' (l.map g) = Res.mp (List.map k) (mapRes F l) := by
  intro l
  induction l with
  | nil => rfl
  | cons a l ih =>
    simp only [List.map_cons, mapRes, h, ih, Res.bind_mp, Res.mp_bind]
    apply Res.bind_congr; intro x
    apply Res.bind_congr; intro y
    rfl

theorem buildTree_rename (r : Renames ops H f) (maxE : Nat) : ∀ (fuel : Nat) (l : List T) (h : Nat),
    buildTree ops H maxE fuel (l.map f) h = Res.mp (DbNode.rename f) (buildTree ops H maxE fuel l h) := by
  intro fuel
  induction fuel with
  | zero => intro l h; rfl
  | succ fuel ih =>
    intro l h
    have e1 : (l.map f).map (newLeafNode ops) = (l.map (newLeafNode ops)).map (DbNode.rename f) := by
      rw [List.map_map, List.map_map]; exact List.map_congr_left (fun a _ => newLeafNode_rename r a)
    have e2 : ∀ (N1 N2 : Nat), (chunks l.length N1 (H.select false N1 (l.map f))).flatMap (fun row => chunks l.length N2 (H.select true N2 row)) =
        ((chunks l.length N1 (H.select false N1 l)).flatMap (fun row => chunks l.length N2 (H.select true N2 row))).map (List.map f) := by
      intro N1 N2
      rw [r.select, chunks_map, List.flatMap_map, List.map_flatMap]
      congr 1; funext row
      rw [r.select, chunks_map]
    simp only [buildTree, List.length_map, e1, calcBBox_rename]
    split_ifs with h1 h2
    · simp only [Res.mp_ok, rename_mk, Option.map_none]
    all_goals
      rw [e2, mapRes_map (List.map f) (DbNode.rename f) (fun a => ih a _), Res.bind_mp, Res.mp_bind]
      apply Res.bind_congr; intro cs
      simp only [Res.pure_eq, Res.mp_ok, rename_mk, calcBBox_rename, Option.map_none]

theorem load_rename (r : Renames ops H f) (t : Tree T B) (l : List T) (fuel : Nat) :
    load ops H (t.rename f) (l.map f) fuel = Res.mp (Tree.rename f) (load ops H t l fuel) := by
  simp only [load, List.length_map, Tree.rename, insertItems_rename r, buildTree_rename r, rename_children, rename_height]
  split_ifs with h1 h2
  · rw [Res.bind_mp, Res.mp_bind]; rfl
  · rw [Res.bind_mp, Res.mp_bind]; rfl
  · rw [Res.bind_mp, Res.mp_bind]
    apply Res.bind_congr; intro nd
    rw [rename_height]
    split_ifs with h3 h4
    · simp only [splitRoot_rename]; rfl
    · simp only [rename_height, insertNode_rename r, Res.bind_mp, Res.mp_bind]; rfl
    · simp only [rename_height, insertNode_rename r, Res.bind_mp, Res.mp_bind]; rfl

theorem allLoop_rename : ∀ (fuel : Nat) (nd : DbNode T B) (st : List (DbNode T B)) (res : List (Option T)),
    allLoop fuel (nd.rename f) (st.map (DbNode.rename f)) (res.map (Option.map f)) = Res.mp (List.map (Option.map f)) (allLoop fuel nd st res) := by
  intro fuel
  induction fuel with
  | zero => intros; rfl
  | succ fuel ih =>
    intro nd st res
    have e1 : res.map (Option.map f) ++ (nd.children.map (DbNode.rename f)).map DbNode.item = (res ++ nd.children.map DbNode.item).map (Option.map f) := by
      rw [List.map_append, List.map_map, List.map_map]
      congr 1; exact List.map_congr_left (fun a _ => rename_item f a)
    have e2 : (nd.children.map (DbNode.rename f)).reverse ++ st.map (DbNode.rename f) = (nd.children.reverse ++ st).map (DbNode.rename f) := by simp
    simp only [allLoop, rename_leaf, rename_children, e1, e2]
    cases hl : nd.leaf
    · simp only [Bool.false_eq_true, if_false]
      cases hs : nd.children.reverse ++ st with
      | nil => rfl
      | cons a b => simp only [List.map_cons]; exact ih a b res
    · simp only [if_true]
      cases st with
      | nil => rfl
      | cons a b => simp only [List.map_cons]; exact ih a b _

theorem derefAll_map : ∀ l : List (Option T), derefAll (l.map (Option.map f)) = Res.mp (List.map f) (derefAll l) := by
  intro l
  induction l with
  | nil => rfl
  | cons a l ih =>
    cases a with
    | none => rfl
    | some a =>
      simp only [List.map_cons, Option.map_some, derefAll, ih, Res.bind_mp, Res.mp_bind]
      rfl

theorem all_rename (t : Tree T B) (fuel : Nat) : all (t.rename f) fuel = Res.mp (List.map f) (all t fuel) := by
  unfold all
  have := allLoop_rename (f := f) fuel t.data [] []
  simp only [List.map_nil] at this
  simp only [Tree.rename, this, Res.bind_mp, Res.mp_bind]
  exact Res.bind_congr (fun a => derefAll_map a)

theorem indexOfId_rename (r : Renames ops H f) (t : T) : ∀ l : List (DbNode T B),
    indexOfId ops (ops.id (f t)) (l.map (DbNode.rename f)) = indexOfId ops (ops.id t) l := by
  intro l
  induction l with
  | nil => rfl
  | cons c l ih =>
    have : (((c.rename f).item.map ops.id) = some (ops.id (f t))) = (c.item.map ops.id = some (ops.id t)) := by
      rw [rename_item]
      cases c.item with
      | none => simp
      | some a => simp [r.id]
    simp only [List.map_cons, indexOfId, this, ih]

theorem map_eraseIdx {A A' : Type} (g : A → A') : ∀ (l : List A) (i : Nat), (l.map g).eraseIdx i = (l.eraseIdx i).map g := by
  intro l
  induction l with
  | nil => intro i; rfl
  | cons a l ih =>
    intro i
    cases i with
    | zero => rfl
    | succ i => simp only [List.map_cons, List.eraseIdx_cons_succ, ih]

theorem removeAt_rename : ∀ (is : List Nat) (idx : Nat) (nd : DbNode T B), removeAt is idx (nd.rename f) = (removeAt is idx nd).rename f := by
  intro is
  induction is with
  | nil =>
    intro idx nd
    obtain ⟨cs, it, h, lf, bb⟩ := nd
    rw [rename_mk]
    have e : (cs.map (DbNode.rename f)).eraseIdx idx = (cs.eraseIdx idx).map (DbNode.rename f) := map_eraseIdx _ _ _
    simp only [removeAt, e, List.map_eq_nil_iff, calcBBox_rename, rename_mk]
  | cons i is ih =>
    intro idx nd
    obtain ⟨cs, it, h, lf, bb⟩ := nd
    rw [rename_mk]
    simp only [removeAt, List.getElem?_map]
    cases hi : cs[i]? with
    | none => simp only [Option.map_none, rename_mk]
    | some c =>
      have e : (if (removeAt is idx (c.rename f)).children = [] then (cs.map (DbNode.rename f)).eraseIdx i
          else (cs.map (DbNode.rename f)).set i (removeAt is idx (c.rename f))) =
          (if (removeAt is idx c).children = [] then cs.eraseIdx i else cs.set i (removeAt is idx c)).map (DbNode.rename f) := by
        rw [ih, rename_children]
        simp only [List.map_eq_nil_iff]
        split_ifs
        · exact map_eraseIdx _ _ _
        · rw [List.map_set]
      simp only [Option.map_some, e, List.map_eq_nil_iff, calcBBox_rename, rename_mk]

def RemState.rename (f : T → T) (s : RemState T B) : RemState T B :=
  { s with nd := s.nd.map (DbNode.rename f), parent := s.parent.map (DbNode.rename f), path := s.path.map (DbNode.rename f) }

theorem removeLoop_rename (r : Renames ops H f) (t : T) (bb : Box B) : ∀ (fuel : Nat) (s : RemState T B),
    removeLoop ops (ops.id (f t)) bb fuel (s.rename f) = removeLoop ops (ops.id t) bb fuel s := by
  intro fuel
  induction fuel with
  | zero => intros; rfl
  | succ fuel ih =>
    have core : ∀ (nd : DbNode T B) (parent : Option (DbNode T B)) (path : List (DbNode T B)) (ix : List Nat) (i : Nat) (up : Bool),
        (match (if (nd.rename f).leaf then indexOfId ops (ops.id (f t)) (nd.rename f).children else none) with
        | some idx => (.ok (some ((i :: ix).reverse.tail, idx)) : Res (Option (List Nat × Nat)))
        | none =>
          if !up && !(nd.rename f).leaf && (nd.rename f).bbox.contains bb then
            match (nd.rename f).children[0]? with
            | none => .panic
            | some c => removeLoop ops (ops.id (f t)) bb fuel
                { nd := some c, parent := some (nd.rename f), path := (nd.rename f) :: path.map (DbNode.rename f), indexes := i :: ix, i := 0, goingUp := up }
          else
            match parent.map (DbNode.rename f) with
            | some p => removeLoop ops (ops.id (f t)) bb fuel ⟨p.children[i + 1]?, some p, path.map (DbNode.rename f), ix, i + 1, false⟩
            | none => removeLoop ops (ops.id (f t)) bb fuel ⟨none, none, path.map (DbNode.rename f), ix, i, up⟩) =
        (match (if nd.leaf then indexOfId ops (ops.id t) nd.children else none) with
        | some idx => .ok (some ((i :: ix).reverse.tail, idx))
        | none =>
          if !up && !nd.leaf && nd.bbox.contains bb then
            match nd.children[0]? with
            | none => .panic
            | some c => removeLoop ops (ops.id t) bb fuel
                { nd := some c, parent := some nd, path := nd :: path, indexes := i :: ix, i := 0, goingUp := up }
          else
            match parent with
            | some p => removeLoop ops (ops.id t) bb fuel ⟨p.children[i + 1]?, some p, path, ix, i + 1, false⟩
            | none => removeLoop ops (ops.id t) bb fuel ⟨none, none, path, ix, i, up⟩) := by
      intro nd parent path ix i up
      rw [rename_leaf, rename_children, indexOfId_rename r, rename_bbox]
      cases (if nd.leaf then indexOfId ops (ops.id t) nd.children else none) with
      | some idx => rfl
      | none =>
        simp only [List.getElem?_map]
        split_ifs
        · cases nd.children[0]? with
          | none => rfl
          | some c => exact ih ⟨some c, some nd, nd :: path, i :: ix, 0, up⟩
        · cases parent with
          | none => exact ih ⟨none, none, path, ix, i, up⟩
          | some p =>
            simp only [Option.map_some, rename_children, List.getElem?_map]
            exact ih ⟨p.children[i + 1]?, some p, path, ix, i + 1, false⟩
    intro s
    obtain ⟨nd, parent, path, ix, i, up⟩ := s
    cases nd with
    | none =>
      cases path with
      | nil => rfl
      | cons p ps =>
        have := core p ps.head? ps ix.tail (ix.head?.getD 0) true
        cases ps with
        | nil => exact this
        | cons q qs => exact this
    | some nd =>
      have := core nd parent path ix i up
      cases parent <;> exact this

theorem remove_rename (r : Renames ops H f) (t : Tree T B) (x : T) (fuel : Nat) :
    remove ops (t.rename f) (f x) fuel = Res.mp (Tree.rename f) (remove ops t x fuel) := by
  have e := removeLoop_rename r x (ops.mbr x) fuel { nd := some t.data, parent := none, path := [], indexes := [], i := 0, goingUp := false }
  simp only [RemState.rename, Option.map_some, Option.map_none, List.map_nil] at e
  unfold remove
  rw [r.mbr, Res.mp_bind]
  show (removeLoop ops (ops.id (f x)) (ops.mbr x) fuel { nd := some (t.data.rename f), parent := none, path := [], indexes := [], i := 0, goingUp := false } >>= _) = _
  rw [e]
  apply Res.bind_congr
  intro a
  cases a with
  | none => rfl
  | some a =>
    obtain ⟨is, idx⟩ := a
    simp only [Tree.rename, removeAt_rename, rename_children, List.map_eq_nil_iff, Res.pure_eq, Res.mp_ok]
    split_ifs
    · rw [emptyRoot_rename]
    · rfl

/-! ### nearest neighbours -/

def KObj.rename (f : T → T) (o : KObj T B K) : KObj T B K := { o with node := o.node.rename f }

/-- a priority queue that cannot tell the items apart by their names -/
structure HeapRenames (hp : Heap (KObj T B K)) (f : T → T) : Prop where
  push : ∀ q o, hp.push (q.map (KObj.rename f)) (o.rename f) = (hp.push q o).map (KObj.rename f)
  pop : ∀ q, hp.pop (q.map (KObj.rename f)) = (hp.pop q).map (fun x => (x.1.rename f, x.2.map (KObj.rename f)))

theorem isItem_rename (o : KObj T B K) : (o.rename f).isItem = o.isItem := by
  unfold KObj.isItem KObj.rename
  rw [rename_children]
  cases o.node.children <;> rfl

variable {hp : Heap (KObj T B K)}

theorem knnDrain_rename (q : HeapRenames hp f) (limit : Int) {pred : KObj T B K → Bool × Bool} (hpr : ∀ o : KObj T B K, pred (o.rename f) = pred o) :
    ∀ (fuel : Nat) (queue : List (KObj T B K)) (res : List (Option T)),
    knnDrain hp limit pred fuel (queue.map (KObj.rename f)) (res.map (Option.map f)) =
      Res.mp (Sum.map (List.map (Option.map f)) (Prod.map (List.map (KObj.rename f)) (List.map (Option.map f)))) (knnDrain hp limit pred fuel queue res) := by
  intro fuel
  induction fuel with
  | zero => intros; rfl
  | succ fuel ih =>
    intro queue res
    simp only [knnDrain, q.pop]
    cases hp.pop queue with
    | none => rfl
    | some x =>
      obtain ⟨x, rest⟩ := x
      have e : (if (pred x).1 = true then res.map (Option.map f) ++ [(x.rename f).node.item] else res.map (Option.map f)) =
          (if (pred x).1 = true then res ++ [x.node.item] else res).map (Option.map f) := by
        split_ifs
        · simp [KObj.rename]
        · rfl
      simp only [Option.map_some, isItem_rename, hpr, e, List.length_map, ih]
      split_ifs <;> rfl

theorem foldl_push_rename (q : HeapRenames hp f) (score : Option T → Box B → Fl K) (hs : ∀ (o : Option T) (b : Box B), score (o.map f) b = score o b) :
    ∀ (cs : List (DbNode T B)) (queue : List (KObj T B K)),
    (cs.map (DbNode.rename f)).foldl (fun q c => hp.push q { node := c, dist := score c.item c.bbox }) (queue.map (KObj.rename f)) =
      (cs.foldl (fun q c => hp.push q { node := c, dist := score c.item c.bbox }) queue).map (KObj.rename f) := by
  intro cs
  induction cs with
  | nil => intro queue; rfl
  | cons c cs ih =>
    intro queue
    simp only [List.map_cons, List.foldl_cons, rename_item, rename_bbox, hs]
    rw [← ih, ← q.push]; rfl

theorem knnLoop_rename (q : HeapRenames hp f) (limit : Int) {score : Option T → Box B → Fl K} (hs : ∀ (o : Option T) (b : Box B), score (o.map f) b = score o b)
    {pred : KObj T B K → Bool × Bool} (hpr : ∀ o : KObj T B K, pred (o.rename f) = pred o) :
    ∀ (fuel : Nat) (nd : DbNode T B) (queue : List (KObj T B K)) (res : List (Option T)),
    knnLoop hp limit score pred fuel (nd.rename f) (queue.map (KObj.rename f)) (res.map (Option.map f)) =
      Res.mp (List.map (Option.map f)) (knnLoop hp limit score pred fuel nd queue res) := by
  intro fuel
  induction fuel with
  | zero => intros; rfl
  | succ fuel ih =>
    intro nd queue res
    simp only [knnLoop, rename_children, foldl_push_rename q score hs, knnDrain_rename q limit hpr, Res.bind_mp, Res.mp_bind]
    apply Res.bind_congr
    intro a
    cases a with
    | inl a => rfl
    | inr a =>
      obtain ⟨qu, re⟩ := a
      simp only [Sum.map_inr, Prod.map, q.pop]
      cases hp.pop qu with
      | none => rfl
      | some x => exact ih x.1.node x.2 re

theorem contextNeighbours_rename [LinearOrder K] (q : HeapRenames hp f) (t : Tree T B) (boxDist : Box B → Fl K) (itemDist : T → Fl K) (hd : ∀ a, itemDist (f a) = itemDist a)
    (dist : Fl K) (fuel : Nat) : contextNeighbours hp (t.rename f) boxDist itemDist dist fuel =
      Res.mp (List.map f) (contextNeighbours hp t boxDist itemDist dist fuel) := by
  unfold contextNeighbours knn
  have := knnLoop_rename q (-1) (score := scoreFn boxDist itemDist) (pred := predicateFn dist)
    (fun o b => by cases o <;> simp [scoreFn, hd]) (fun o => rfl) fuel t.data [] []
  simp only [List.map_nil] at this
  simp only [Tree.rename, this, Res.bind_mp, Res.mp_bind]
  exact Res.bind_congr (fun a => derefAll_map a)

end Hdb
end Verif
