import Verif.Lemmas.RenameRun
import Verif.Props.C22_Select
import Verif.Lemmas.SelectMono
import Verif.Demo.Tolerance

/-! The index heuristics of the code do not look at the identifiers of the pieces. -/

set_option linter.unusedSectionVars false

namespace Verif
namespace Sel

variable {T B : Type} [LinearOrder B]

/-- the slice with other items -/
def Arr.map (f : T → T) (a : Arr T) : Arr T := ⟨a.n, fun i => f (a.at_ i)⟩

variable {f : T → T} {key : T → B}

theorem get_map (a : Arr T) (i : Int) : (a.map f).get i = Res.mp f (a.get i) := by
  unfold Arr.get Arr.map; dsimp only; split_ifs <;> rfl

theorem swap_map (a : Arr T) (i j : Int) : (a.map f).swap i j = Res.mp (Arr.map f) (a.swap i j) := by
  unfold Arr.swap Arr.map; dsimp only
  split_ifs
  · rw [Res.mp_ok]
    congr 2
    funext x
    dsimp only
    split_ifs <;> rfl
  · rfl

theorem scanUp_map (hk : ∀ x, key (f x) = key x) (t : B) : ∀ (fuel : Nat) (a : Arr T) (i : Int), scanUp key t fuel (a.map f) i = scanUp key t fuel a i := by
  intro fuel
  induction fuel with
  | zero => intro a i; rfl
  | succ fuel ih =>
    intro a i
    simp only [scanUp, get_map, Res.bind_mp, hk, ih]

theorem scanDown_map (hk : ∀ x, key (f x) = key x) (t : B) : ∀ (fuel : Nat) (a : Arr T) (i : Int), scanDown key t fuel (a.map f) i = scanDown key t fuel a i := by
  intro fuel
  induction fuel with
  | zero => intro a i; rfl
  | succ fuel ih =>
    intro a i
    simp only [scanDown, get_map, Res.bind_mp, hk, ih]

theorem partLoop_map (hk : ∀ x, key (f x) = key x) (t : B) : ∀ (fuel : Nat) (a : Arr T) (i j : Int),
    partLoop key t fuel (a.map f) i j = Res.mp (fun x => (x.1.map f, x.2)) (partLoop key t fuel a i j) := by
  intro fuel
  induction fuel with
  | zero => intro a i j; rfl
  | succ fuel ih =>
    intro a i j
    simp only [partLoop]
    split_ifs
    · simp only [swap_map, Res.bind_mp, Res.mp_bind, scanUp_map hk, scanDown_map hk, ih]
    · rfl

theorem condSwap_map (hk : ∀ x, key (f x) = key x) (t : B) (a : Arr T) (l r : Int) : condSwap key t (a.map f) l r = Res.mp (Arr.map f) (condSwap key t a l r) := by
  simp only [condSwap, get_map, Res.bind_mp, Res.mp_bind, hk]
  apply Res.bind_congr; intro x
  split_ifs
  · exact swap_map a l r
  · rfl

theorem partRound_map (hk : ∀ x, key (f x) = key x) (fuel : Nat) (a : Arr T) (k l r : Int) :
    partRound key fuel (a.map f) k l r = Res.mp (fun x => (x.1.map f, x.2)) (partRound key fuel a k l r) := by
  simp only [partRound, get_map, Res.bind_mp, Res.mp_bind, hk, swap_map, condSwap_map hk, partLoop_map hk]
  apply Res.bind_congr; intro x
  apply Res.bind_congr; intro b
  apply Res.bind_congr; intro c
  apply Res.bind_congr; rintro ⟨d, i, j⟩
  apply Res.bind_congr; intro y
  split_ifs
  · rw [Res.mp_bind]; rfl
  · rw [Res.mp_bind]; rfl

theorem sample_map (big l r : Int) (a : Arr T) (x : Res (Arr T)) : sample big l r (a.map f) (Res.mp (Arr.map f) x) = Res.mp (Arr.map f) (sample big l r a x) := by
  unfold sample; split_ifs <;> rfl

theorem selLoop_map (hk : ∀ x, key (f x) = key x) (big : Int) (win : Int → Int → Int → Int × Int) (k : Int) : ∀ (fuel : Nat) (l0 r0 : Int) (a : Arr T) (l r : Int),
    selLoop big win key k fuel l0 r0 (a.map f) l r = Res.mp (Arr.map f) (selLoop big win key k fuel l0 r0 a l r) := by
  intro fuel
  induction fuel with
  | zero => intro l0 r0 a l r; rfl
  | succ fuel ih =>
    intro l0 r0 a l r
    simp only [selLoop]
    split_ifs
    · rw [ih, sample_map, Res.bind_mp, Res.mp_bind]
      apply Res.bind_congr; intro b
      rw [partRound_map hk, Res.bind_mp, Res.mp_bind]
      apply Res.bind_congr; rintro ⟨c, j⟩
      exact ih _ _ _ _ _
    · rfl

theorem multiLoop_map (hk : ∀ x, key (f x) = key x) (big : Int) (win : Int → Int → Int → Int × Int) (n : Int) : ∀ (fuel : Nat) (a : Arr T) (st : List (Int × Int)),
    multiLoop big win key n fuel (a.map f) st = Res.mp (Arr.map f) (multiLoop big win key n fuel a st) := by
  intro fuel
  induction fuel with
  | zero => intro a st; rfl
  | succ fuel ih =>
    intro a st
    cases st with
    | nil => rfl
    | cons x st =>
      obtain ⟨l, r⟩ := x
      simp only [multiLoop]
      split_ifs
      · exact ih a st
      · rw [selectBox, selLoop_map hk, Res.bind_mp, Res.mp_bind]
        apply Res.bind_congr; intro b
        exact ih _ _

theorem multiSelect_map (hk : ∀ x, key (f x) = key x) (big : Int) (win : Int → Int → Int → Int × Int) (fuel : Nat) (a : Arr T) (l r n : Int) :
    multiSelect big win key fuel (a.map f) l r n = Res.mp (Arr.map f) (multiSelect big win key fuel a l r n) := multiLoop_map hk big win n fuel a _

end Sel

namespace Hdb

variable {T B K : Type} [LinearOrder B] [BoundedOrder B] [LinearOrder K]

theorem toArr_map (f : T → T) (t : T) (ts : List T) : toArr (f t) (ts.map f) = (toArr t ts).map f := by
  unfold toArr Sel.Arr.map
  dsimp only
  congr 1
  · simp
  · funext i
    rw [← List.map_cons, List.getElem?_map]
    cases (t :: ts)[i.toNat]? <;> rfl

theorem ofArr_map (f : T → T) (a : Sel.Arr T) : ofArr (a.map f) = (ofArr a).map f := by
  unfold ofArr Sel.Arr.map
  dsimp only
  rw [List.map_map]; rfl

/-- hdb/select.go:11-92: the selection reads the boxes only -/
theorem selectCode_map (ops : ItemOps T B) (N : Num T B K) {f : T → T} (hf : ∀ a, ops.mbr (f a) = ops.mbr a) (byY : Bool) (n : Nat) (l : List T) :
    selectCode ops N byY n (l.map f) = (selectCode ops N byY n l).map f := by
  cases l with
  | nil => rfl
  | cons t ts =>
    have hk : ∀ x, (fun x => if byY then (ops.mbr x).minY else (ops.mbr x).minX) (f x) = (fun x => if byY then (ops.mbr x).minY else (ops.mbr x).minX) x := by
      intro x; simp only [hf]
    have e : ∀ fuel, Sel.multiSelect Sel.bigRange N.win (fun x => if byY then (ops.mbr x).minY else (ops.mbr x).minX) fuel (toArr (f t) (ts.map f)) 0
        ((ts.map f).length : Int) (n : Int) = Res.mp (Sel.Arr.map f) (Sel.multiSelect Sel.bigRange N.win
          (fun x => if byY then (ops.mbr x).minY else (ops.mbr x).minX) fuel (toArr t ts) 0 (ts.length : Int) (n : Int)) := by
      intro fuel
      rw [toArr_map, List.length_map]
      exact Sel.multiSelect_map hk _ _ _ _ _ _ _
    simp only [List.map_cons, selectCode]
    by_cases h : ∃ a, Yields (fun fuel => Sel.multiSelect Sel.bigRange N.win (fun x => if byY then (ops.mbr x).minY else (ops.mbr x).minX) fuel (toArr t ts) 0
        (ts.length : Int) (n : Int)) a
    · have y : Yields (fun fuel => Sel.multiSelect Sel.bigRange N.win (fun x => if byY then (ops.mbr x).minY else (ops.mbr x).minX) fuel (toArr (f t) (ts.map f)) 0
          ((ts.map f).length : Int) (n : Int)) (h.choose.map f) := by
        obtain ⟨M, hM⟩ := h.choose_spec
        refine ⟨M, fun fuel hfu => ?_⟩
        have := hM fuel hfu
        simp only [] at this
        simp only [e, this, Res.mp_ok]
      have h' : ∃ a, Yields (fun fuel => Sel.multiSelect Sel.bigRange N.win (fun x => if byY then (ops.mbr x).minY else (ops.mbr x).minX) fuel
          (toArr (f t) (ts.map f)) 0 ((ts.map f).length : Int) (n : Int)) a := ⟨_, y⟩
      rw [dif_pos h, dif_pos h', h'.choose_spec.unique y, ofArr_map]
    · have h' : ¬ ∃ a, Yields (fun fuel => Sel.multiSelect Sel.bigRange N.win (fun x => if byY then (ops.mbr x).minY else (ops.mbr x).minX) fuel
          (toArr (f t) (ts.map f)) 0 ((ts.map f).length : Int) (n : Int)) a := by
        rintro ⟨a, M, hM⟩
        apply h
        have h0 := hM M (Nat.le_refl _)
        simp only [e] at h0
        obtain ⟨b, hb, rfl⟩ := Res.mp_eq_ok h0
        exact ⟨b, (Sel.multiSelect_le _ _ _ _ _ _ _).yields hb⟩
      rw [dif_neg h, dif_neg h']; rfl

/-- the library sort moves the nodes around by their boxes, and by nothing else -/
structure Num.Blind (N : Num T B K) (f : T → T) : Prop where
  sortX : ∀ l, N.sortX (l.map (DbNode.rename f)) = (N.sortX l).map (DbNode.rename f)
  sortY : ∀ l, N.sortY (l.map (DbNode.rename f)) = (N.sortY l).map (DbNode.rename f)

theorem allDistMargin_rename (N : Num T B K) (f : T → T) (m : Nat) (cs : List (DbNode T B)) :
    allDistMargin N m (cs.map (DbNode.rename f)) = allDistMargin N m cs := by
  simp only [allDistMargin, bboxes_rename]

/-- hdb/split.go:73-82, hdb/mbr.go:24-48: the choice of the axis reads the boxes only -/
theorem chooseSplitAxis_rename {N : Num T B K} {f : T → T} (h : N.Blind f) (m : Nat) (cs : List (DbNode T B)) :
    chooseSplitAxis N m (cs.map (DbNode.rename f)) = (chooseSplitAxis N m cs).map (DbNode.rename f) := by
  simp only [chooseSplitAxis, h.sortX, h.sortY, allDistMargin_rename]
  split_ifs <;> rfl

theorem popMin_rename (f : T → T) : ∀ q : List (KObj T B K), popMin (q.map (KObj.rename f)) =
    (popMin q).map (fun x => (x.1.rename f, x.2.map (KObj.rename f))) := by
  intro q
  induction q with
  | nil => rfl
  | cons a l ih =>
    rw [List.map_cons, popMin, popMin, ih]
    cases popMin l with
    | none => rfl
    | some x =>
      obtain ⟨m, r⟩ := x
      simp only [Option.map_some]
      show (if a.dist.le m.dist = true then _ else _) = _
      split_ifs <;> rfl

end Hdb

section
variable {P C B K K' : Type} [LinearOrder B] [BoundedOrder B] [LinearOrder K] [LinearOrder K']

/-- the heuristics of the code, with any queue that reads distances only -/
theorem codeHeur_blind {N : Hdb.Num (Node P C B) B K'} (hN : ∀ φ : Int → Int, N.Blind (Node.named φ)) (M : Nat) {Q : Hdb.Heap (Hdb.KObj (Node P C B) B K)}
    (hQ : ∀ φ : Int → Int, Hdb.HeapRenames Q (Node.named φ)) : Blind (Hdb.codeHeur nodeOps N M) Q where
  arrange φ l := Hdb.chooseSplitAxis_rename (hN φ) _ l
  select φ b n l := Hdb.selectCode_map nodeOps N (f := Node.named φ) (fun _ => rfl) b n l
  push φ := (hQ φ).push
  pop φ := (hQ φ).pop

theorem demo_blind : Blind (Demo.heur : Heur (Node P C B) B) (Hdb.listHeap : Hdb.Heap (Hdb.KObj (Node P C B) B K)) where
  arrange _ _ := rfl
  select _ _ _ _ := rfl
  push _ _ _ := rfl
  pop _ q := Hdb.popMin_rename _ q

end

namespace Axis

theorem takeFirst_map {O : Type} (g : O → O) (f f' : O → Bool) (h : ∀ x, f' (g x) = f x) : ∀ l : List O, takeFirst f' (l.map g) =
    (takeFirst f l).map (fun x => (g x.1, x.2.map g)) := by
  intro l
  induction l with
  | nil => rfl
  | cons a l ih =>
    rw [List.map_cons, takeFirst, takeFirst, h, ih]
    split_ifs
    · rfl
    · cases takeFirst f l <;> rfl

/-- the queue with a tolerance reads distances only -/
theorem tolHeap_renames {T B : Type} [LinearOrder B] [BoundedOrder B] (f : T → T) : Hdb.HeapRenames (tolHeap : Hdb.Heap (Hdb.KObj T B Int)) f where
  push q o := by simp only [tolHeap, List.map_append, List.map_cons, List.map_nil]
  pop q := by
    have e := takeFirst_map (Hdb.KObj.rename f) (fun x => q.all (fun y => !tolLess y.dist x.dist))
      (fun x => (q.map (Hdb.KObj.rename f)).all (fun y => !tolLess y.dist x.dist)) (fun x => by rw [List.all_map]; rfl) q
    simp only [tolHeap]
    rw [e]
    cases takeFirst (fun x => q.all (fun y => !tolLess y.dist x.dist)) q with
    | some x => rfl
    | none => cases q <;> rfl

theorem tol_blind : Blind (Demo.heur : Heur (Node Int Int Bx) Bx) tolHeap where
  arrange _ _ := rfl
  select _ _ _ _ := rfl
  push _ := (tolHeap_renames _).push
  pop _ := (tolHeap_renames _).pop

end Axis

end Verif
