import Verif.Model.Io
import Verif.Props.C40_Text
import Mathlib.Data.List.Perm.Basic
import Mathlib.Data.List.Nodup
import Mathlib.Data.List.Dedup
import Mathlib.Data.Nat.Find

/-!
C41 grouping of the output, C42 dimension of the coordinates, C59 properties of the features of a collection.
-/

namespace Verif.Io

open Verif.Text

variable {F P Props : Type}

/-! ### C42 -/

/-- the coordinates that should be written for the points `pts`: three ordinates if one of the points has a third ordinate, else two -/
def coordsSpec (lib : EncLib F P Props) (pts : List P) : List (List F) :=
  let threeD := pts.any (fun p => !lib.isZero (lib.ords p).2.2)
  pts.map (fun p => if threeD then [(lib.ords p).1, (lib.ords p).2.1, (lib.ords p).2.2] else [(lib.ords p).1, (lib.ords p).2.1])

theorem isCoords3D_eq (isZero : F → Bool) (pts : List (F × F × F)) : isCoords3D isZero pts = pts.any (fun p => !isZero p.2.2) := by
  induction pts with
  | nil => rfl
  | cons p pts ih =>
    rw [isCoords3D, List.any_cons, ← ih]
    cases isZero p.2.2 <;> rfl

theorem extractLoop_eq (b : Bool) (pts : List (F × F × F)) :
    extractLoop b pts = pts.map (fun p => if b then [p.1, p.2.1, p.2.2] else [p.1, p.2.1]) := by
  induction pts with
  | nil => rfl
  | cons p pts ih => rw [extractLoop, List.map_cons, ← ih]; cases b <;> rfl

/-- **C42**: the written coordinates are those of the kept points, in order; all have three ordinates if one kept point has a third ordinate
that is not zero, otherwise all have two. -/
theorem C42_coords (lib : EncLib F P Props) (pts : List P) : extractCoords lib.isZero (pts.map lib.ords) = coordsSpec lib pts := by
  simp only [extractCoords, extractLoop_eq, isCoords3D_eq, coordsSpec, List.map_map, List.any_map]
  rfl

/-- **C42** in terms of single coordinates: same number, same first two ordinates, one dimension -/
theorem C42_dimension (isZero : F → Bool) (pts : List (F × F × F)) :
    (extractCoords isZero pts).length = pts.length ∧
    (∀ i (h : i < pts.length) (h' : i < (extractCoords isZero pts).length),
      (extractCoords isZero pts)[i].take 2 = [pts[i].1, pts[i].2.1] ∧
      ((∃ p ∈ pts, isZero p.2.2 = false) → (extractCoords isZero pts)[i] = [pts[i].1, pts[i].2.1, pts[i].2.2]) ∧
      ((∀ p ∈ pts, isZero p.2.2 = true) → (extractCoords isZero pts)[i].length = 2)) := by
  have hl : (extractCoords isZero pts).length = pts.length := by simp [extractCoords, extractLoop_eq]
  refine ⟨hl, fun i h h' => ?_⟩
  have he : (extractCoords isZero pts)[i] = if isCoords3D isZero pts then [pts[i].1, pts[i].2.1, pts[i].2.2] else [pts[i].1, pts[i].2.1] := by
    simp [extractCoords, extractLoop_eq]
  rw [he]
  refine ⟨by split <;> rfl, fun ⟨p, hp, hz⟩ => ?_, fun hz => ?_⟩
  · rw [if_pos]; rw [isCoords3D_eq, List.any_eq_true]; exact ⟨p, hp, by rw [hz]; rfl⟩
  · rw [if_neg]; · rfl
    rw [isCoords3D_eq, List.any_eq_true]
    rintro ⟨p, hp, hh⟩
    rw [hz p hp] at hh; cases hh

/-- case: one point of two has a third ordinate -/
example : extractCoords (fun v : Int => v = 0) [(1, 2, 0), (3, 4, 5)] = [[1, 2, 0], [3, 4, 5]] ∧
    extractCoords (fun v : Int => v = 0) [(1, 2, 0), (3, 4, 0)] = [[1, 2], [3, 4]] := by decide

/-! ### grouping -/

theorem get_push (d : Dict P) (k k' : Nat) (g : PolyGeom P) : (d.push k g).get k' = if k' = k then d.get k' ++ [g] else d.get k' := by
  induction d with
  | nil => simp only [Dict.push, Dict.get]; split <;> simp_all [eq_comm]
  | cons x d ih =>
    obtain ⟨a, v⟩ := x
    by_cases h : a = k
    · subst h; simp only [Dict.push, Dict.get, if_true]
      by_cases h2 : a = k'
      · subst h2; simp
      · simp [h2, Ne.symm h2]
    · simp only [Dict.push, h, if_false, Dict.get, ih]
      by_cases h2 : a = k'
      · subst h2; simp [h]
      · simp [h2]

theorem keys_push (d : Dict P) (k : Nat) (g : PolyGeom P) :
    (d.push k g).map Prod.fst = if k ∈ d.map Prod.fst then d.map Prod.fst else d.map Prod.fst ++ [k] := by
  induction d with
  | nil => simp [Dict.push]
  | cons x d ih =>
    obtain ⟨a, v⟩ := x
    by_cases h : a = k
    · subst h; simp [Dict.push]
    · simp only [Dict.push, h, if_false, List.map_cons, ih, List.mem_cons]
      have h2 : ¬ k = a := fun e => h e.symm
      simp only [h2, false_or]
      split <;> simp

/-- the dictionary of `groupById`: values and keys -/
theorem groupById_spec (dec : OutLine P → Nat × Nat) (plns : List (OutLine P)) (hd : ∀ p ∈ plns, indexPos p.id = .ok (dec p)) :
    ∀ d : Dict P, (d.map Prod.fst).Nodup → ∃ d', groupById plns d = .ok d' ∧ (d'.map Prod.fst).Nodup ∧
      (∀ k, d'.get k = d.get k ++ (plns.filter (fun p => (dec p).1 = k)).map (fun p => ⟨(dec p).1, (dec p).2, p⟩)) ∧
      (∀ k, k ∈ d'.map Prod.fst ↔ k ∈ d.map Prod.fst ∨ ∃ p ∈ plns, (dec p).1 = k) := by
  induction plns with
  | nil => intro d hn; exact ⟨d, rfl, hn, by simp, by simp⟩
  | cons p plns ih =>
    intro d hn
    have hp := hd p (List.mem_cons_self ..)
    have hn2 : ((d.push (dec p).1 ⟨(dec p).1, (dec p).2, p⟩).map Prod.fst).Nodup := by
      rw [keys_push]; split
      · exact hn
      · next h => exact List.nodup_append.2 ⟨hn, List.nodup_singleton _, by
          intro a ha b hb; simp only [List.mem_singleton] at hb; subst hb; exact fun e => h (e ▸ ha)⟩
    obtain ⟨d', h1, h2, h3, h4⟩ := ih (fun q hq => hd q (List.mem_cons_of_mem _ hq)) _ hn2
    refine ⟨d', ?_, h2, ?_, ?_⟩
    · rw [groupById, hp]; exact h1
    · intro k
      rw [h3 k, get_push, List.filter_cons]
      by_cases h : (dec p).1 = k
      · simp [h]
      · simp [h, Ne.symm h, eq_comm]
    · intro k
      rw [h4 k, keys_push]
      split
      · next h =>
        constructor
        · rintro (h5 | ⟨q, hq, h6⟩)
          · exact .inl h5
          · exact .inr ⟨q, List.mem_cons_of_mem _ hq, h6⟩
        · rintro (h5 | ⟨q, hq, h6⟩)
          · exact .inl h5
          · rcases List.mem_cons.1 hq with rfl | hq
            · exact .inl (h6 ▸ h)
            · exact .inr ⟨q, hq, h6⟩
      · rw [List.mem_append, List.mem_singleton]
        constructor
        · rintro ((h5 | h5) | ⟨q, hq, h6⟩)
          · exact .inl h5
          · exact .inr ⟨p, List.mem_cons_self .., h5.symm⟩
          · exact .inr ⟨q, List.mem_cons_of_mem _ hq, h6⟩
        · rintro (h5 | ⟨q, hq, h6⟩)
          · exact .inl (.inl h5)
          · rcases List.mem_cons.1 hq with rfl | hq
            · exact .inl (.inr h6.symm)
            · exact .inr ⟨q, hq, h6⟩

theorem length_indices (lib : EncLib F P Props) (hord : ∀ l, (lib.ord l).Perm l) (d : Dict P) : (indices lib.ord d).length = d.length := by
  rw [indices, List.length_mergeSort, (hord _).length_eq, List.length_map]

theorem groupLoop_ok (lib : EncLib F P Props) (d : Dict P) (f : Nat → LineFeature F Props) (ks : List Nat) :
    ∀ idx, (∀ j < ks.length, createGeoJSON lib (sortByPos (d.get (idx + j))) = .ok (f (idx + j))) →
      groupLoop lib d idx ks = .ok ((List.range ks.length).map (fun j => f (idx + j))) := by
  induction ks with
  | nil => intro idx _; rfl
  | cons k ks ih =>
    intro idx h
    have h0 := h 0 (by simp)
    rw [Nat.add_zero] at h0
    rw [groupLoop, h0, Res.ok_bind, ih (idx + 1) (fun j hj => by
      have := h (j + 1) (by simpa using hj)
      rwa [show idx + (j + 1) = idx + 1 + j by omega] at this)]
    rw [Res.ok_bind, List.length_cons, List.range_succ_eq_map, List.map_cons, List.map_map, Nat.add_zero]
    simp only [Res.pure_eq, Res.ok.injEq, List.cons.injEq]
    refine ⟨rfl, List.map_congr_left ?_⟩
    intro j _
    simp only [Function.comp]
    rw [show idx + 1 + j = idx + (j + 1) by omega]

theorem createGeoJSON_no_timeout (lib : EncLib F P Props) (gs : List (PolyGeom P)) : createGeoJSON lib gs ≠ .timeout := by
  have hm : ∀ s, getMeta lib.unmarshal lib.empty s ≠ .timeout := by
    intro s; unfold getMeta; split
    · exact fun h => by cases h
    · cases lib.unmarshal s <;> exact fun h => by cases h
  unfold createGeoJSON
  split
  · cases h : getMeta lib.unmarshal lib.empty _ with
    | ok a => exact fun h => by cases h
    | panic => exact fun h => by cases h
    | timeout => exact absurd h (hm _)
  · exact fun h => by cases h
  · cases h : getMeta lib.unmarshal lib.empty _ with
    | ok a => exact fun h => by cases h
    | panic => exact fun h => by cases h
    | timeout => exact absurd h (hm _)

theorem groupLoop_panic (lib : EncLib F P Props) (d : Dict P) (ks : List Nat) :
    ∀ idx, (∃ j < ks.length, createGeoJSON lib (sortByPos (d.get (idx + j))) = .panic) → groupLoop lib d idx ks = .panic := by
  induction ks with
  | nil => rintro idx ⟨j, hj, _⟩; simp at hj
  | cons k ks ih =>
    rintro idx ⟨j, hj, h⟩
    rw [groupLoop]
    cases h0 : createGeoJSON lib (sortByPos (d.get idx)) with
    | panic => rfl
    | timeout => exact absurd h0 (createGeoJSON_no_timeout _ _)
    | ok s =>
      rw [Res.ok_bind]
      cases j with
      | zero => rw [Nat.add_zero, h0] at h; cases h
      | succ j =>
        rw [ih (idx + 1) ⟨j, by simpa using hj, by rwa [show idx + 1 + j = idx + (j + 1) by omega]⟩]; rfl

/-! ### C41 -/

/-- one part of the geometry of an input line, after simplification -/
structure Part (P : Type) where
  pos : Nat
  props : Str
  simple : List P

/-- the polylines of input lines `k`, `k+1`, … with the given parts, in file order -/
def outLinesFrom (k : Nat) : List (List (Part P)) → List (OutLine P)
  | [] => []
  | b :: bs => b.map (fun p => ⟨composeId k p.pos, p.props, p.simple⟩) ++ outLinesFrom (k + 1) bs

/-- the properties of a part as written to the output -/
def propsOf (lib : EncLib F P Props) (p : Part P) : Props := if p.props = ['n', 'u', 'l', 'l'] then lib.empty else (lib.unmarshal p.props).getD lib.empty

/-- the properties text can be read back -/
def Readable (lib : EncLib F P Props) (p : Part P) : Prop := p.props = ['n', 'u', 'l', 'l'] ∨ (lib.unmarshal p.props).isSome

/-- the feature `f` holds exactly the parts `qs`, in this order, with the properties of the first: a line string for one part, else a multi line string -/
inductive Holds (lib : EncLib F P Props) : List (Part P) → LineFeature F Props → Prop where
  | one (q : Part P) : Holds lib [q] (.lineString (propsOf lib q) (coordsSpec lib q.simple))
  | many (q r : Part P) (qs : List (Part P)) :
      Holds lib (q :: r :: qs) (.multiLineString (propsOf lib q) ((q :: r :: qs).map (fun p => coordsSpec lib p.simple)))

theorem outLinesFrom_filter (bs : List (List (Part P))) (dec : OutLine P → Nat × Nat) : ∀ (i : Nat),
    (∀ j < bs.length, ∀ p : Part P, p ∈ (bs[j]?).getD [] → (dec ⟨composeId (i + j) p.pos, p.props, p.simple⟩).1 = i + j) →
    ∀ k, (outLinesFrom i bs).filter (fun p => (dec p).1 = k) =
      if i ≤ k then ((bs[k - i]?).getD []).map (fun p => ⟨composeId k p.pos, p.props, p.simple⟩) else [] := by
  induction bs with
  | nil => intro i _ k; simp [outLinesFrom]
  | cons b bs ih =>
    intro i h k
    have h0 : ∀ p ∈ b, (dec ⟨composeId i p.pos, p.props, p.simple⟩).1 = i := fun p hp => h 0 (by simp) p (by simpa using hp)
    have ih := ih (i + 1) (fun j hj p hp => by
      have := h (j + 1) (by simpa using hj) p (by simpa using hp)
      rwa [show i + (j + 1) = i + 1 + j by omega] at this) k
    rw [outLinesFrom, List.filter_append, ih]
    rcases Nat.lt_trichotomy k i with hk | hk | hk
    · rw [if_neg (by omega), if_neg (by omega), List.append_nil, List.filter_eq_nil_iff]
      intro x hx
      obtain ⟨p, hp, rfl⟩ := List.mem_map.1 hx
      simp only [decide_eq_true_eq]
      exact fun e => by rw [h0 p hp] at e; omega
    · subst hk
      rw [if_neg (by omega), if_pos (Nat.le_refl _), List.append_nil, Nat.sub_self, List.getElem?_cons_zero, Option.getD_some, List.filter_eq_self]
      intro x hx
      obtain ⟨p, hp, rfl⟩ := List.mem_map.1 hx
      simp only [decide_eq_true_eq]
      exact h0 p hp
    · rw [if_pos (by omega), if_pos (by omega), show k - i = (k - (i + 1)) + 1 by omega, List.getElem?_cons_succ,
        List.filter_eq_nil_iff.2, List.nil_append]
      intro x hx
      obtain ⟨p, hp, rfl⟩ := List.mem_map.1 hx
      simp only [decide_eq_true_eq]
      exact fun e => by rw [h0 p hp] at e; omega

theorem mem_outLinesFrom (bs : List (List (Part P))) : ∀ (i : Nat) (x : OutLine P), x ∈ outLinesFrom i bs ↔
    ∃ j, j < bs.length ∧ ∃ p ∈ (bs[j]?).getD [], x = ⟨composeId (i + j) p.pos, p.props, p.simple⟩ := by
  induction bs with
  | nil => intro i x; simp [outLinesFrom]
  | cons b bs ih =>
    intro i x
    rw [outLinesFrom, List.mem_append, ih, List.mem_map]
    constructor
    · rintro (⟨p, hp, rfl⟩ | ⟨j, hj, p, hp, rfl⟩)
      · exact ⟨0, by simp, p, by simpa using hp, rfl⟩
      · exact ⟨j + 1, by simpa using hj, p, by simpa using hp, by rw [show i + (j + 1) = i + 1 + j by omega]⟩
    · rintro ⟨j, hj, p, hp, rfl⟩
      cases j with
      | zero => exact .inl ⟨p, by simpa using hp, rfl⟩
      | succ j => exact .inr ⟨j, by simpa using hj, p, by simpa using hp, by rw [show i + (j + 1) = i + 1 + j by omega]⟩

/-- the decoder of identifiers as a total function -/
def decId (o : OutLine P) : Nat × Nat := match indexPos o.id with | .ok r => r | _ => (0, 0)

theorem decId_mk (k pos : Nat) (s : Str) (ps : List P) (hk : k ≤ maxInt) (hp : pos ≤ maxInt) :
    decId (⟨composeId k pos, s, ps⟩ : OutLine P) = (k, pos) := by
  simp only [decId, C40_round_trip k pos hk hp]

theorem getMeta_readable (lib : EncLib F P Props) (p : Part P) (h : Readable lib p) :
    getMeta lib.unmarshal lib.empty p.props = .ok (propsOf lib p) := by
  unfold getMeta propsOf
  rcases h with h | h
  · rw [if_pos h, if_pos h]
  · by_cases hn : p.props = ['n', 'u', 'l', 'l']
    · rw [if_pos hn, if_pos hn]
    · rw [if_neg hn, if_neg hn]
      obtain ⟨v, hv⟩ := Option.isSome_iff_exists.1 h
      rw [hv]; rfl

/-- what the dictionary holds for input line `k` -/
def pgOf (k : Nat) (p : Part P) : PolyGeom P := ⟨k, p.pos, ⟨composeId k p.pos, p.props, p.simple⟩⟩

theorem sortByPos_pgOf (k : Nat) (b : List (Part P)) :
    sortByPos (b.map (pgOf k)) = (b.mergeSort (fun a b => a.pos ≤ b.pos)).map (pgOf k) := by
  unfold sortByPos
  exact (List.map_mergeSort (r := fun a b : Part P => decide (a.pos ≤ b.pos)) (s := fun a b : PolyGeom P => decide (a.pos ≤ b.pos))
    (f := pgOf k) (fun a _ b _ => rfl)).symm

theorem createGeoJSON_holds (lib : EncLib F P Props) (k : Nat) (qs : List (Part P)) (hne : qs ≠ []) (hr : ∀ q ∈ qs, Readable lib q) :
    ∃ f, createGeoJSON lib (qs.map (pgOf k)) = .ok f ∧ Holds lib qs f := by
  match qs, hne with
  | [q], _ =>
    refine ⟨_, ?_, .one q⟩
    simp only [List.map_cons, List.map_nil, createGeoJSON, pgOf, getMeta_readable lib q (hr q (by simp)), Res.ok_bind, Res.pure_eq, C42_coords]
  | q :: r :: qs, _ =>
    refine ⟨_, ?_, .many q r qs⟩
    simp only [List.map_cons, createGeoJSON, pgOf, getMeta_readable lib q (hr q (by simp)), Res.ok_bind, Res.pure_eq, C42_coords, List.map_map]
    rfl

/-- the condition of the partial theorem: file positions fit a Go `int`, every input line gave at least one part, the properties can be read back -/
structure Good (lib : EncLib F P Props) (bs : List (List (Part P))) : Prop where
  ord : ∀ l, (lib.ord l).Perm l
  len : bs.length ≤ maxInt
  pos : ∀ b ∈ bs, ∀ p ∈ b, p.pos ≤ maxInt
  ne : ∀ b ∈ bs, b ≠ []
  props : ∀ b ∈ bs, ∀ p ∈ b, Readable lib p

theorem group_outLines (lib : EncLib F P Props) (bs : List (List (Part P))) (h : Good lib bs) :
    ∃ out, groupPlnsAsGeoJSONS lib (outLinesFrom 0 bs) = .ok out ∧
      List.Forall₂ (fun b f => Holds lib (b.mergeSort (fun a b => a.pos ≤ b.pos)) f) bs out := by
  have hmem : ∀ j < bs.length, ∀ p : Part P, p ∈ (bs[j]?).getD [] → decId (⟨composeId (0 + j) p.pos, p.props, p.simple⟩ : OutLine P) = (0 + j, p.pos) := by
    intro j hj p hp
    have hb : (bs[j]?).getD [] = bs[j] := by rw [List.getElem?_eq_getElem hj]; rfl
    rw [hb] at hp
    exact decId_mk _ _ _ _ (by have := h.len; omega) (h.pos _ (List.getElem_mem hj) p hp)
  have hdec : ∀ p ∈ outLinesFrom 0 bs, indexPos p.id = .ok (decId p) := by
    intro x hx
    obtain ⟨j, hj, p, hp, rfl⟩ := (mem_outLinesFrom bs 0 x).1 hx
    rw [hmem j hj p hp]
    have hb : (bs[j]?).getD [] = bs[j] := by rw [List.getElem?_eq_getElem hj]; rfl
    rw [hb] at hp
    exact C40_round_trip _ _ (by have := h.len; omega) (h.pos _ (List.getElem_mem hj) p hp)
  obtain ⟨d, h1, h2, h3, h4⟩ := groupById_spec decId _ hdec [] List.nodup_nil
  -- keys are the numbers of the input lines
  have hlen : d.length = bs.length := by
    have hp : (d.map Prod.fst).Perm (List.range bs.length) := by
      rw [List.perm_ext_iff_of_nodup h2 List.nodup_range]
      intro k
      rw [h4 k, List.mem_range]
      constructor
      · rintro (hk | ⟨x, hx, hk⟩)
        · simp at hk
        · obtain ⟨j, hj, p, hp, rfl⟩ := (mem_outLinesFrom bs 0 x).1 hx
          rw [hmem j hj p hp] at hk
          simp only at hk
          omega
      · intro hk
        have hne := h.ne _ (List.getElem_mem hk)
        obtain ⟨p, hp⟩ := List.exists_mem_of_ne_nil _ hne
        have hp' : p ∈ (bs[k]?).getD [] := by rw [List.getElem?_eq_getElem hk]; exact hp
        refine .inr ⟨_, (mem_outLinesFrom bs 0 _).2 ⟨k, hk, p, hp', rfl⟩, ?_⟩
        rw [hmem k hk p hp']; simp
    have := hp.length_eq
    rwa [List.length_map, List.length_range] at this
  -- contents of each entry
  have hget : ∀ k (hk : k < bs.length), d.get k = bs[k].map (pgOf k) := by
    intro k hk
    rw [h3 k]
    have hf := outLinesFrom_filter bs decId 0 (fun j hj p hp => by rw [hmem j hj p hp]) k
    rw [hf, if_pos (Nat.zero_le _), Nat.sub_zero, List.getElem?_eq_getElem hk, Option.getD_some, List.map_map]
    simp only [Dict.get, List.nil_append]
    apply List.map_congr_left
    intro p hp
    have := hmem k hk p (by rw [List.getElem?_eq_getElem hk]; exact hp)
    rw [Nat.zero_add] at this
    simp only [Function.comp, this, pgOf]
  have hf : ∀ k (hk : k < bs.length), ∃ f, createGeoJSON lib (sortByPos (d.get k)) = .ok f ∧ Holds lib (bs[k].mergeSort (fun a b => a.pos ≤ b.pos)) f := by
    intro k hk
    rw [hget k hk, sortByPos_pgOf]
    apply createGeoJSON_holds
    · intro e
      have := congrArg List.length e
      rw [List.length_mergeSort] at this
      exact h.ne _ (List.getElem_mem hk) (List.length_eq_zero_iff.1 this)
    · intro q hq
      exact h.props _ (List.getElem_mem hk) q (List.mem_mergeSort.1 hq)
  -- choose
  by_cases hb : bs = []
  · subst hb
    refine ⟨[], ?_, .nil⟩
    simp only [outLinesFrom, groupPlnsAsGeoJSONS]
    simp only [outLinesFrom] at h1
    rw [h1, Res.ok_bind]
    have : (indices lib.ord d).length = 0 := by rw [length_indices lib h.ord, hlen]; rfl
    rw [List.length_eq_zero_iff.1 this]; rfl
  · have hdflt : ∃ f0 : LineFeature F Props, True := by
      obtain ⟨f, _⟩ := hf 0 (List.length_pos_iff.2 hb)
      exact ⟨f, trivial⟩
    obtain ⟨f0, _⟩ := hdflt
    let f : Nat → LineFeature F Props := fun k => if hk : k < bs.length then (hf k hk).choose else f0
    have hfs : ∀ k (hk : k < bs.length), createGeoJSON lib (sortByPos (d.get k)) = .ok (f k) ∧ Holds lib (bs[k].mergeSort (fun a b => a.pos ≤ b.pos)) (f k) := by
      intro k hk
      simp only [f, dif_pos hk]
      exact (hf k hk).choose_spec
    have hL : (indices lib.ord d).length = bs.length := by rw [length_indices lib h.ord, hlen]
    have hg := groupLoop_ok lib d f (indices lib.ord d) 0 (fun j hj => by
      rw [Nat.zero_add]; exact (hfs j (by omega)).1)
    refine ⟨_, by rw [groupPlnsAsGeoJSONS, h1, Res.ok_bind]; exact hg, ?_⟩
    rw [hL, List.forall₂_iff_get]
    refine ⟨by simp, fun i hi hi' => ?_⟩
    simp only [List.get_eq_getElem, List.getElem_map, List.getElem_range, Nat.zero_add]
    exact (hfs i hi).2

/-- **C41, partial** (missing: input lines without line geometry): when every input line gave at least one part, writing does not crash and gives one
feature per input line, in input order, which holds all parts of that line sorted by part number; parts with the same number (features of a
collection) stay in file order. -/
theorem C41_features_partial (lib : EncLib F P Props) (bs : List (List (Part P))) (h : Good lib bs) :
    ∃ out, groupPlnsAsGeoJSONS lib (outLinesFrom 0 bs) = .ok out ∧
      List.Forall₂ (fun b f => ∃ qs : List (Part P), qs.Perm b ∧ qs.Pairwise (fun a b => a.pos ≤ b.pos) ∧
        (∀ n, qs.filter (fun p => p.pos = n) = b.filter (fun p => p.pos = n)) ∧ Holds lib qs f) bs out := by
  obtain ⟨out, h1, h2⟩ := group_outLines lib bs h
  refine ⟨out, h1, List.Forall₂.imp (fun b f hh => ?_) h2⟩
  refine ⟨b.mergeSort (fun a b => a.pos ≤ b.pos), List.mergeSort_perm _ _, ?_, fun n => ?_, hh⟩
  · have := List.pairwise_mergeSort (le := fun a b : Part P => decide (a.pos ≤ b.pos)) (by intro a b c; simp only [decide_eq_true_eq]; omega)
      (by intro a b; simp only [Bool.or_eq_true, decide_eq_true_eq]; omega) b
    exact this.imp (by simp)
  · have hs : (b.filter (fun p => p.pos = n)).Sublist (b.mergeSort (fun a b => a.pos ≤ b.pos)) := by
      apply List.sublist_mergeSort
      · intro a b c; simp only [decide_eq_true_eq]; omega
      · intro a b; simp only [Bool.or_eq_true, decide_eq_true_eq]; omega
      · rw [List.pairwise_filter]
        rw [List.pairwise_iff_forall_sublist]
        intro a b _ ha hb
        simp only [decide_eq_true_eq] at ha hb ⊢
        omega
      · exact List.filter_sublist
    have hs2 := hs.filter (fun p => decide (p.pos = n))
    rw [List.filter_filter] at hs2
    simp only [Bool.and_self] at hs2
    refine (hs2.eq_of_length ?_).symm
    exact ((List.mergeSort_perm b (fun a b => decide (a.pos ≤ b.pos))).filter _).length_eq.symm

/-- **C41, partial**, for input lines that are geometries or single features (part numbers count up): each feature holds exactly the parts of its input
line, in their order. -/
theorem C41_ordered_partial (lib : EncLib F P Props) (bs : List (List (Part P))) (h : Good lib bs)
    (hpos : ∀ b ∈ bs, b.map Part.pos = List.range b.length) :
    ∃ out, groupPlnsAsGeoJSONS lib (outLinesFrom 0 bs) = .ok out ∧ List.Forall₂ (Holds lib) bs out := by
  obtain ⟨out, h1, h2⟩ := group_outLines lib bs h
  refine ⟨out, h1, ?_⟩
  rw [List.forall₂_iff_get] at h2 ⊢
  refine ⟨h2.1, fun i hi hi' => ?_⟩
  have h3 := h2.2 i hi hi'
  rw [List.mergeSort_of_pairwise] at h3
  · exact h3
  · have h4 := hpos _ (List.get_mem bs ⟨i, hi⟩)
    have h5 : ((bs.get ⟨i, hi⟩).map Part.pos).Pairwise (· ≤ ·) := by rw [h4]; exact List.pairwise_le_range
    rw [List.pairwise_map] at h5
    exact h5.imp (by simp)

/-- **C41, when it crashes**: if the distinct line numbers in the identifiers are not `0 … n-1`, i.e. some number below their count is missing, the
program panics while writing and the result of the whole run is lost. -/
theorem C41_crash (lib : EncLib F P Props) (hord : ∀ l, (lib.ord l).Perm l) (plns : List (OutLine P))
    (dec : OutLine P → Nat × Nat) (hdec : ∀ p ∈ plns, indexPos p.id = .ok (dec p))
    (k : Nat) (hk : k < ((plns.map (fun p => (dec p).1)).dedup).length) (hmiss : ∀ p ∈ plns, (dec p).1 ≠ k) :
    groupPlnsAsGeoJSONS lib plns = .panic := by
  obtain ⟨d, h1, h2, h3, h4⟩ := groupById_spec dec _ hdec [] List.nodup_nil
  have hp : (d.map Prod.fst).Perm ((plns.map (fun p => (dec p).1)).dedup) := by
    rw [List.perm_ext_iff_of_nodup h2 (List.nodup_dedup _)]
    intro k
    rw [h4 k, List.mem_dedup, List.mem_map]
    simp
  have hlen := hp.length_eq
  rw [List.length_map] at hlen
  rw [groupPlnsAsGeoJSONS, h1, Res.ok_bind]
  refine groupLoop_panic lib d _ 0 ⟨k, by rw [length_indices lib hord, hlen]; exact hk, ?_⟩
  have : d.get (0 + k) = [] := by
    rw [Nat.zero_add, h3 k, List.filter_eq_nil_iff.2 (fun p hp => by simpa using hmiss p hp)]
    rfl
  rw [this, sortByPos, List.mergeSort_nil]; rfl

/-- **C41, when it crashes**, in terms of the input: an input line without line geometry that is followed by an input line with line geometry -/
theorem C41_gap_crash (lib : EncLib F P Props) (hord : ∀ l, (lib.ord l).Perm l) (bs : List (List (Part P))) (hlen : bs.length ≤ maxInt)
    (hpos : ∀ b ∈ bs, ∀ p ∈ b, p.pos ≤ maxInt) (k m : Nat) (hk : k < m) (hm : m < bs.length) (hbk : bs[k]? = some []) (hbm : bs[m] ≠ []) :
    groupPlnsAsGeoJSONS lib (outLinesFrom 0 bs) = .panic := by
  classical
  -- the first input line without line geometry
  have hex : ∃ k, bs[k]? = some [] := ⟨k, hbk⟩
  have hmin : ∀ j < Nat.find hex, bs[j]? ≠ some [] := fun j hj => Nat.find_min hex hj
  have hk0 := Nat.find_spec hex
  have hlt : Nat.find hex < m := Nat.lt_of_le_of_lt (Nat.find_min' hex hbk) hk
  generalize Nat.find hex = k0 at hmin hk0 hlt
  have hmem : ∀ j < bs.length, ∀ p : Part P, p ∈ (bs[j]?).getD [] → indexPos (composeId (0 + j) p.pos) = .ok (0 + j, p.pos) := by
    intro j hj p hp
    have hb : (bs[j]?).getD [] = bs[j] := by rw [List.getElem?_eq_getElem hj]; rfl
    rw [hb] at hp
    exact C40_round_trip _ _ (by omega) (hpos _ (List.getElem_mem hj) p hp)
  have hdec : ∀ p ∈ outLinesFrom 0 bs, indexPos p.id = .ok (decId p) := by
    intro x hx
    obtain ⟨j, hj, p, hp, rfl⟩ := (mem_outLinesFrom bs 0 x).1 hx
    simp only [decId, hmem j hj p hp]
  have hin : ∀ j, j < bs.length → bs[j]? ≠ some [] → j ∈ ((outLinesFrom 0 bs).map (fun p => (decId p).1)).dedup := by
    intro j hj hne
    rw [List.mem_dedup, List.mem_map]
    rw [List.getElem?_eq_getElem hj] at hne
    obtain ⟨p, hp⟩ := List.exists_mem_of_ne_nil _ (fun e => hne (congrArg some e))
    have hp' : p ∈ (bs[j]?).getD [] := by rw [List.getElem?_eq_getElem hj]; exact hp
    refine ⟨_, (mem_outLinesFrom bs 0 _).2 ⟨j, hj, p, hp', rfl⟩, ?_⟩
    simp only [decId, hmem j hj p hp']
    omega
  refine C41_crash lib hord _ decId hdec k0 ?_ ?_
  · have hn : (List.range k0 ++ [m]).Nodup := by
      rw [List.nodup_append]
      refine ⟨List.nodup_range, List.nodup_singleton _, ?_⟩
      intro a ha b hb
      rw [List.mem_range] at ha
      simp only [List.mem_singleton] at hb
      omega
    have hs : (List.range k0 ++ [m]) ⊆ ((outLinesFrom 0 bs).map (fun p => (decId p).1)).dedup := by
      intro a ha
      rcases List.mem_append.1 ha with ha | ha
      · rw [List.mem_range] at ha
        exact hin a (by omega) (hmin a ha)
      · simp only [List.mem_singleton] at ha
        subst ha
        exact hin a hm (by rw [List.getElem?_eq_getElem hm]; exact fun e => hbm (Option.some.inj e))
    have := (List.subperm_of_subset hn hs).length_le
    rw [List.length_append, List.length_range, List.length_singleton] at this
    omega
  · intro x hx
    obtain ⟨j, hj, p, hp, rfl⟩ := (mem_outLinesFrom bs 0 x).1 hx
    simp only [decId, hmem j hj p hp]
    intro e
    have : j = k0 := by omega
    subst this
    rw [hk0] at hp
    simp at hp

/-! ### the parts of an input file -/

/-- the parts (number, properties, coordinates) of a geometry -/
def geomParts (s : Str) : GGeom F → List (Nat × Str × List (List F))
  | .line c => [(0, s, c)]
  | .multiLine cs => cs.zipIdx.map (fun x => (x.2, s, x.1))
  | .other => []

/-- the parts of a feature -/
def featParts (f : GFeature F) : List (Nat × Str × List (List F)) := match f.geometry with | some g => geomParts f.props g | none => []

/-- the parts of an input line -/
def docParts : Doc F → List (Nat × Str × List (List F))
  | .geometry g => geomParts ['n', 'u', 'l', 'l'] g
  | .feature f => featParts f
  | .collection fs => fs.flatMap featParts
  | .unknown => []

/-- no feature of the input line lacks its geometry -/
def HasGeometry : Doc F → Prop
  | .feature f => f.geometry ≠ none
  | .collection fs => ∀ f ∈ fs, f.geometry ≠ none
  | _ => True

theorem partsFrom_eq (k : Nat) (s : Str) (cs : List (List (List F))) : ∀ pos,
    partsFrom k s pos cs = (cs.zipIdx pos).map (fun x => (⟨composeId k x.2, x.1, s⟩ : JsonLine F)) := by
  induction cs with
  | nil => intro pos; rfl
  | cons c cs ih => intro pos; rw [partsFrom, ih, List.zipIdx_cons, List.map_cons]

theorem geoJsonLineString_eq (k : Nat) (s : Str) (g : GGeom F) :
    geoJsonLineString k g s = (geomParts s g).map (fun x => ⟨composeId k x.1, x.2.2, x.2.1⟩) := by
  cases g with
  | line c => rfl
  | multiLine cs => simp [geoJsonLineString, geomParts, partsFrom_eq]
  | other => rfl

theorem createPolylineGeoms_eq (k : Nat) (f : GFeature F) (h : f.geometry ≠ none) :
    createPolylineGeoms k f = .ok ((featParts f).map (fun x => ⟨composeId k x.1, x.2.2, x.2.1⟩)) := by
  unfold createPolylineGeoms featParts
  cases hg : f.geometry with
  | none => exact absurd hg h
  | some g => simp only [geoJsonLineString_eq]

theorem docLines_eq (k : Nat) (d : Doc F) (h : HasGeometry d) :
    docLines k d = .ok ((docParts d).map (fun x => ⟨composeId k x.1, x.2.2, x.2.1⟩)) := by
  cases d with
  | geometry g => simp only [docLines, docParts, geoJsonLineString_eq]
  | feature f => exact createPolylineGeoms_eq k f h
  | unknown => rfl
  | collection fs =>
    simp only [docLines, docParts]
    induction fs with
    | nil => rfl
    | cons f fs ih =>
      rw [collectionLines, createPolylineGeoms_eq k f (h f (List.mem_cons_self ..)), Res.ok_bind,
        ih (fun g hg => h g (List.mem_cons_of_mem _ hg)), Res.ok_bind, List.flatMap_cons, List.map_append]
      rfl

/-- **C41, reading**: the polylines read from the input are the parts of the input lines, in file order; the identifier holds the number of the input
line and the number of the part. -/
theorem C41_parse (ds : List (Doc F)) (h : ∀ d ∈ ds, HasGeometry d) :
    parseInputLinearFeatures ds = .ok ((ds.zipIdx.map (fun d => (docParts d.1).map (fun x => ⟨composeId d.2 x.1, x.2.2, x.2.1⟩))).flatten) := by
  have key : ∀ (ds : List (Doc F)), (∀ d ∈ ds, HasGeometry d) → ∀ i,
      parseInputFrom i ds = .ok (((ds.zipIdx i).map (fun d => (docParts d.1).map (fun x => ⟨composeId d.2 x.1, x.2.2, x.2.1⟩))).flatten) := by
    intro ds
    induction ds with
    | nil => intro _ i; rfl
    | cons d ds ih =>
      intro h i
      rw [parseInputFrom, docLines_eq i d (h d (List.mem_cons_self ..)), Res.ok_bind, ih (fun x hx => h x (List.mem_cons_of_mem _ hx)), Res.ok_bind,
        List.zipIdx_cons, List.map_cons, List.flatten_cons]
      rfl
  exact key ds h 0

/-- **C41 is violated while reading**: a feature whose geometry is null (allowed by GeoJSON) makes the program panic -/
theorem C41_null_geometry (ds1 ds2 : List (Doc F)) (h1 : ∀ d ∈ ds1, HasGeometry d) (s : Str) :
    parseInputLinearFeatures (ds1 ++ .feature ⟨none, s⟩ :: ds2) = .panic := by
  have key : ∀ (ds1 : List (Doc F)), (∀ d ∈ ds1, HasGeometry d) → ∀ i, parseInputFrom i (ds1 ++ .feature ⟨none, s⟩ :: ds2) = .panic := by
    intro ds1
    induction ds1 with
    | nil => intro _ i; rfl
    | cons d ds1 ih =>
      intro h i
      rw [List.cons_append, parseInputFrom, docLines_eq i d (h d (List.mem_cons_self ..)), Res.ok_bind,
        ih (fun x hx => h x (List.mem_cons_of_mem _ hx))]
      rfl
  exact key ds1 h1 0

/-- the polylines after simplification: same order, identifiers and properties, some simplified points -/
def Simplified (lines : List (JsonLine F)) (outs : List (OutLine P)) : Prop :=
  List.Forall₂ (fun l o => o.id = l.id ∧ o.props = l.props) lines outs

theorem forall₂_split {A B : Type} {R : A → B → Prop} (a b : List A) : ∀ c, List.Forall₂ R (a ++ b) c →
    ∃ c1 c2, List.Forall₂ R a c1 ∧ List.Forall₂ R b c2 ∧ c = c1 ++ c2 := by
  induction a with
  | nil => intro c h; exact ⟨[], c, .nil, h, rfl⟩
  | cons x a ih =>
    intro c h
    cases h with
    | cons hx ht =>
      obtain ⟨c1, c2, h1, h2, rfl⟩ := ih _ ht
      exact ⟨_ :: c1, c2, .cons hx h1, h2, rfl⟩

/-- as `simplified_blocks`, with a relation between the coordinates before and after -/
theorem simplified_blocksR (R : List (List F) → List P → Prop) (ds : List (Doc F)) : ∀ (i : Nat) (outs : List (OutLine P)),
    List.Forall₂ (fun l o => o.id = l.id ∧ o.props = l.props ∧ R l.coords o.simple)
      (((ds.zipIdx i).map (fun d => (docParts d.1).map (fun x => (⟨composeId d.2 x.1, x.2.2, x.2.1⟩ : JsonLine F)))).flatten) outs →
    ∃ bs : List (List (Part P)), outs = outLinesFrom i bs ∧
      List.Forall₂ (fun d b => List.Forall₂ (fun x p => p.pos = x.1 ∧ p.props = x.2.1 ∧ R x.2.2 p.simple) (docParts d) b) ds bs := by
  induction ds with
  | nil => intro i outs h; cases h; exact ⟨[], rfl, .nil⟩
  | cons d ds ih =>
    intro i outs h
    rw [List.zipIdx_cons, List.map_cons, List.flatten_cons] at h
    obtain ⟨o1, o2, h1, h2, rfl⟩ : ∃ o1 o2, List.Forall₂ (fun (l : JsonLine F) (o : OutLine P) => o.id = l.id ∧ o.props = l.props ∧ R l.coords o.simple)
        ((docParts d).map (fun x => (⟨composeId i x.1, x.2.2, x.2.1⟩ : JsonLine F))) o1 ∧
        List.Forall₂ (fun (l : JsonLine F) (o : OutLine P) => o.id = l.id ∧ o.props = l.props ∧ R l.coords o.simple) _ o2 ∧ outs = o1 ++ o2 :=
      forall₂_split _ _ _ h
    obtain ⟨bs, rfl, hb⟩ := ih (i + 1) o2 h2
    have h3 : ∀ (ps : List (Nat × Str × List (List F))) (o1 : List (OutLine P)),
        List.Forall₂ (fun (l : JsonLine F) (o : OutLine P) => o.id = l.id ∧ o.props = l.props ∧ R l.coords o.simple)
          (ps.map (fun x => (⟨composeId i x.1, x.2.2, x.2.1⟩ : JsonLine F))) o1 →
        ∃ b : List (Part P), o1 = b.map (fun p => ⟨composeId i p.pos, p.props, p.simple⟩) ∧
          List.Forall₂ (fun x p => p.pos = x.1 ∧ p.props = x.2.1 ∧ R x.2.2 p.simple) ps b := by
      intro ps
      induction ps with
      | nil => intro o1 h; cases h; exact ⟨[], rfl, .nil⟩
      | cons x ps ihp =>
        intro o1 h
        rw [List.map_cons] at h
        cases h with
        | cons hx ht =>
          next o os =>
          obtain ⟨b, rfl, hb⟩ := ihp os ht
          obtain ⟨oid, op, osm⟩ := o
          obtain ⟨e1, e2, e3⟩ := hx
          simp only at e1 e2 e3
          subst e1; subst e2
          exact ⟨⟨x.1, x.2.1, osm⟩ :: b, rfl, .cons ⟨rfl, rfl, e3⟩ hb⟩
    obtain ⟨b, rfl, hb2⟩ := h3 _ _ h1
    exact ⟨b :: bs, rfl, .cons hb2 hb⟩

/-- after simplification the polylines have the shape of the grouping theorems -/
theorem simplified_blocks (ds : List (Doc F)) (i : Nat) (outs : List (OutLine P))
    (h : Simplified (((ds.zipIdx i).map (fun d => (docParts d.1).map (fun x => (⟨composeId d.2 x.1, x.2.2, x.2.1⟩ : JsonLine F)))).flatten) outs) :
    ∃ bs : List (List (Part P)), outs = outLinesFrom i bs ∧
      List.Forall₂ (fun d b => List.Forall₂ (fun x p => p.pos = x.1 ∧ p.props = x.2.1) (docParts d) b) ds bs := by
  obtain ⟨bs, h1, h2⟩ := simplified_blocksR (fun _ _ => True) ds i outs (List.Forall₂.imp (fun _ _ h => ⟨h.1, h.2, trivial⟩) h)
  exact ⟨bs, h1, List.Forall₂.imp (fun _ _ h => List.Forall₂.imp (fun _ _ h => ⟨h.1, h.2.1⟩) h) h2⟩

/-- **C41 is violated**: whatever the simplification does with the points, an input file whose first line carries no line geometry (for example a point)
while another does makes the program panic before anything is written. -/
theorem C41_refuted (lib : EncLib F P Props) (hord : ∀ l, (lib.ord l).Perm l) (s1 s2 : Str) (c : List (List F)) :
    ∃ (ds : List (Doc F)) (lines : List (JsonLine F)), parseInputLinearFeatures ds = .ok lines ∧ lines ≠ [] ∧
      ∀ outs : List (OutLine P), Simplified lines outs → groupPlnsAsGeoJSONS lib outs = .panic := by
  refine ⟨[.feature ⟨some .other, s1⟩, .feature ⟨some (.line c), s2⟩], [⟨composeId 1 0, c, s2⟩], rfl, by simp, ?_⟩
  intro outs h
  have h' : Simplified ((([.feature ⟨some .other, s1⟩, .feature ⟨some (.line c), s2⟩] : List (Doc F)).zipIdx 0).map
      (fun d => (docParts d.1).map (fun x => (⟨composeId d.2 x.1, x.2.2, x.2.1⟩ : JsonLine F)))).flatten outs := h
  obtain ⟨bs, rfl, hb⟩ := simplified_blocks _ 0 outs h'
  cases hb with
  | cons h1 hb =>
    cases hb with
    | cons h2 hb =>
      cases hb
      cases h1
      cases h2 with
      | cons hx ht =>
        cases ht
        next q =>
        refine C41_gap_crash lib hord [[], [q]] (by simp [maxInt]) ?_ 0 1 (by decide) (by simp) rfl (by simp)
        intro b hb p hp
        simp only [List.mem_cons, List.not_mem_nil, or_false] at hb
        rcases hb with rfl | rfl
        · simp at hp
        · simp only [List.mem_singleton] at hp
          subst hp
          rw [hx.1]; exact Nat.zero_le _

/-- case for the partial theorems: two input lines, the second with two parts -/
example : Good (F := Int) (P := Int × Int × Int) (Props := Str) ⟨id, fun v => v = 0, some, [], id⟩
    [[⟨0, ['a'], [(1, 2, 0), (3, 4, 0)]⟩], [⟨0, ['b'], [(1, 1, 1)]⟩, ⟨1, ['b'], []⟩]] where
  ord := fun l => .refl l
  len := by decide
  pos := by decide +kernel
  ne := by decide
  props := fun b _ p _ => .inr rfl

/-! ### C59 -/

/-- **C59 is violated**: the features of a collection become one feature with the properties of the first; the properties of the others do not reach the
output. -/
theorem C59_refuted : ∃ (lib : EncLib Int (Int × Int × Int) Str) (ds : List (Doc Int)) (lines : List (JsonLine Int)),
    (∀ l, (lib.ord l).Perm l) ∧ parseInputLinearFeatures ds = .ok lines ∧ (∃ l ∈ lines, l.props = ['b']) ∧
    ∀ outs, Simplified lines outs → ∃ out, groupPlnsAsGeoJSONS lib outs = .ok out ∧ ∀ f ∈ out, ∃ cs, f = .multiLineString ['a'] cs := by
  let lib : EncLib Int (Int × Int × Int) Str := ⟨id, fun v => v = 0, some, [], id⟩
  refine ⟨lib, [.collection [⟨some (.line [[0, 0], [1, 1]]), ['a']⟩, ⟨some (.line [[5, 5], [6, 6]]), ['b']⟩]],
    [⟨composeId 0 0, [[0, 0], [1, 1]], ['a']⟩, ⟨composeId 0 0, [[5, 5], [6, 6]], ['b']⟩], fun l => .refl l, rfl,
    ⟨⟨composeId 0 0, [[5, 5], [6, 6]], ['b']⟩, by simp, rfl⟩, ?_⟩
  intro outs h
  have h' : Simplified ((([.collection [⟨some (.line [[0, 0], [1, 1]]), ['a']⟩, ⟨some (.line [[5, 5], [6, 6]]), ['b']⟩]] : List (Doc Int)).zipIdx 0).map
      (fun d => (docParts d.1).map (fun x => (⟨composeId d.2 x.1, x.2.2, x.2.1⟩ : JsonLine Int)))).flatten outs := h
  obtain ⟨bs, rfl, hb⟩ := simplified_blocks _ 0 outs h'
  cases hb with
  | cons h1 hb =>
    cases hb
    cases h1 with
    | cons hx h1 =>
      cases h1 with
      | cons hy h1 =>
        cases h1
        next q r =>
        have hg : Good lib [[q, r]] := by
          refine ⟨fun l => .refl l, by simp [maxInt], ?_, by simp, fun b _ p _ => .inr rfl⟩
          intro b hb p hp
          simp only [List.mem_singleton] at hb
          subst hb
          simp only [List.mem_cons, List.not_mem_nil, or_false] at hp
          rcases hp with rfl | rfl
          · rw [hx.1]; exact Nat.zero_le _
          · rw [hy.1]; exact Nat.zero_le _
        obtain ⟨out, ho, hf⟩ := group_outLines lib _ hg
        refine ⟨out, ho, ?_⟩
        cases hf with
        | cons hf ht =>
          cases ht
          rw [List.mergeSort_of_pairwise (by
            refine List.pairwise_pair.2 ?_
            simp only [decide_eq_true_eq, hx.1, hy.1]; exact Nat.le_refl _)] at hf
          intro f hm
          simp only [List.mem_singleton] at hm
          subst hm
          cases hf
          have hp : propsOf lib q = ['a'] := by unfold propsOf; rw [hx.2]; rfl
          exact ⟨_, by rw [hp]⟩

end Verif.Io
