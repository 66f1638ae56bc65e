import Verif.Model.Cfg
import Verif.Props.C98_Ends
import Verif.Demo.RealProgram

/-! C119: which member of the configuration text sets what. -/

set_option linter.unusedSectionVars false

namespace Verif.Io

open Verif.Text

/-! ### specification -/

/-- the keys of the readme, with the setting each of them stands for -/
def keyTable : List (String × Field) :=
  [("input", .input), ("output", .output), ("constraints", .constraints), ("simplification_type", .simplificationType), ("threshold", .threshold),
   ("minimum_distance", .minDist), ("non_planar_displacement", .nonPlanarDisplacement), ("is_feature_class", .isFeatureClass), ("planar_self", .planarSelf),
   ("non_planar_self", .nonPlanarSelf), ("avoid_new_self_intersects", .avoidNewSelfIntersects), ("geometric_relation", .geomRelation),
   ("distance_relation", .distRelation), ("homotopy_relation", .sideRelation)]

/-- `c` is the letter `t` or its capital, or the long s for `s` or the Kelvin sign for `k` -/
def SameLetter (c t : Char) : Prop := c = t ∨ ('a' ≤ t ∧ t ≤ 'z' ∧ c.toNat + 32 = t.toNat) ∨ (c = 'ſ' ∧ t = 's') ∨ (c = 'K' ∧ t = 'k')

/-- the key stands for the setting, up to the case of its letters -/
def Names (key : Str) (f : Field) : Prop := ∃ k, (k, f) ∈ keyTable ∧ List.Forall₂ SameLetter key k.toList

variable {F : Type}

/-- four settings are texts, three are numbers, the others are yes or no -/
def Fits (f : Field) (v : Js F) : Prop :=
  (f ∈ [Field.input, .output, .constraints, .simplificationType] ∧ ∃ s, v = .str s) ∨
  (f ∈ [Field.threshold, .minDist, .nonPlanarDisplacement] ∧ ∃ x, v = .num (some x)) ∨
  (f ∈ [Field.isFeatureClass, .planarSelf, .nonPlanarSelf, .avoidNewSelfIntersects, .geomRelation, .distRelation, .sideRelation] ∧ ∃ b, v = .bool b)

/-- what is set when nothing is said -/
def unset (zero : F) (f : Field) : Js F :=
  if f ∈ [Field.input, .output, .constraints, .simplificationType] then .str []
  else if f ∈ [Field.threshold, .minDist, .nonPlanarDisplacement] then .num (some zero) else .bool false

/-- the value of a setting -/
def ArgObj.get (o : ArgObj F) : Field → Js F
  | .input => .str o.input
  | .output => .str o.output
  | .constraints => .str o.constraints
  | .simplificationType => .str o.simplificationType
  | .threshold => .num (some o.threshold)
  | .minDist => .num (some o.minDist)
  | .nonPlanarDisplacement => .num (some o.nonPlanarDisplacement)
  | .isFeatureClass => .bool o.isFeatureClass
  | .planarSelf => .bool o.planarSelf
  | .nonPlanarSelf => .bool o.nonPlanarSelf
  | .avoidNewSelfIntersects => .bool o.avoidNewSelfIntersects
  | .geomRelation => .bool o.geomRelation
  | .distRelation => .bool o.distRelation
  | .sideRelation => .bool o.sideRelation

/-- the last member for `f` that is not null has the value `v` -/
def LastSays (ms : List (Str × Js F)) (f : Field) (v : Js F) : Prop :=
  ∃ u key w, ms = u ++ (key, v) :: w ∧ Names key f ∧ v ≠ .null ∧ ∀ m ∈ w, Names m.1 f → m.2 = .null

/-- no member says anything about `f` -/
def Silent (ms : List (Str × Js F)) (f : Field) : Prop := ∀ m ∈ ms, Names m.1 f → m.2 = .null

/-- all members for settings have values of their type, or null -/
def AllFit (ms : List (Str × Js F)) : Prop := ∀ m ∈ ms, ∀ f, Names m.1 f → m.2 = .null ∨ Fits f m.2

/-- Specification: the configuration `o` is what the members `ms` say -/
def Says (zero : F) (ms : List (Str × Js F)) (o : ArgObj F) : Prop := ∀ f, LastSays ms f (o.get f) ∨ (Silent ms f ∧ o.get f = unset zero f)

/-! ### proof -/

theorem ArgObj.get_inj {a b : ArgObj F} (h : ∀ f, a.get f = b.get f) : a = b := by
  cases a; cases b
  have h1 := h .input; have h2 := h .output; have h3 := h .constraints; have h4 := h .simplificationType; have h5 := h .threshold; have h6 := h .minDist
  have h7 := h .nonPlanarDisplacement; have h8 := h .isFeatureClass; have h9 := h .planarSelf; have h10 := h .nonPlanarSelf; have h11 := h .avoidNewSelfIntersects
  have h12 := h .geomRelation; have h13 := h .distRelation; have h14 := h .sideRelation
  simp only [ArgObj.get, Js.str.injEq, Js.num.injEq, Option.some.injEq, Js.bool.injEq] at *
  simp [*]

theorem get_empty (zero : F) (f : Field) : (emptyArg zero).get f = unset zero f := by cases f <;> rfl

theorem get_ne_null (o : ArgObj F) (f : Field) : o.get f ≠ .null := by cases f <;> simp [ArgObj.get]

theorem setField_some {o o' : ArgObj F} {f : Field} {v : Js F} (h : setField o f v = some o') (hv : v ≠ .null) :
    Fits f v ∧ o'.get f = v ∧ ∀ g, g ≠ f → o'.get g = o.get g := by
  cases f <;> cases v <;> simp only [setField, reduceCtorEq, ne_eq, not_true_eq_false] at h hv <;>
    (try (rename_i x; cases x <;> simp only [reduceCtorEq] at h)) <;> cases h <;>
    refine ⟨by simp [Fits], rfl, fun g hg => ?_⟩ <;> cases g <;> first | rfl | exact absurd rfl hg

theorem setField_fits {o : ArgObj F} {f : Field} {v : Js F} (h : Fits f v) : ∃ o', setField o f v = some o' := by
  rcases h with ⟨h, s, rfl⟩ | ⟨h, s, rfl⟩ | ⟨h, s, rfl⟩ <;> cases f <;> simp at h <;> exact ⟨_, rfl⟩

theorem setField_null (o : ArgObj F) (f : Field) : setField o f .null = some o := by cases f <;> rfl

/-- the tags are the keys of the readme -/
theorem mem_keyTable (k : String) (f : Field) : (k, f) ∈ keyTable ↔ k.toList = tag f := by
  cases f <;> simp only [keyTable, List.mem_cons, Prod.mk.injEq, reduceCtorEq, and_false, and_true, false_or, or_false, List.not_mem_nil] <;>
    exact String.toList_inj.symm

theorem toNat_ofNat {n : Nat} (h : n < 55296) : (Char.ofNat n).toNat = n := by
  have hv : n.isValidChar := .inl h
  simp only [Char.ofNat, hv, dif_pos]
  show (Char.ofNatAux n hv).toNat = n
  simp only [Char.ofNatAux, Char.toNat, UInt32.toNat]
  rfl

theorem foldChar_eq (c t : Char) (ht : foldChar t = t) : foldChar c = t ↔ SameLetter c t := by
  have inj : ∀ {a b : Char}, a.toNat = b.toNat → a = b := fun {a b} h => Char.ext (UInt32.toNat_inj.1 h)
  constructor
  · intro h
    unfold foldChar at h
    split_ifs at h with h1 h2 h3
    · right; left
      have h5 := congrArg Char.toNat h
      rw [toNat_ofNat (by omega)] at h5
      refine ⟨?_, ?_, h5⟩
      · show 'a'.toNat ≤ t.toNat
        rw [show 'a'.toNat = 97 from rfl]; omega
      · show t.toNat ≤ 'z'.toNat
        rw [show 'z'.toNat = 122 from rfl]; omega
    · exact .inr (.inr (.inl ⟨h2, h.symm⟩))
    · exact .inr (.inr (.inr ⟨h3, h.symm⟩))
    · exact .inl h
  · rintro (rfl | ⟨h1, h2, h3⟩ | ⟨rfl, rfl⟩ | ⟨rfl, rfl⟩)
    · exact ht
    · have h1 : 97 ≤ t.toNat := h1
      have h2 : t.toNat ≤ 122 := h2
      rw [foldChar, if_pos ⟨by omega, by omega⟩]
      apply inj
      rw [toNat_ofNat (by omega), h3]
    · decide +kernel
    · decide +kernel

theorem fold_tag (f : Field) : (tag f).map foldChar = tag f := by cases f <;> decide +kernel

theorem tag_inj {f g : Field} (h : tag f = tag g) : f = g := by
  revert h; cases f <;> cases g <;> decide +kernel

theorem forall₂_sameLetter (key l : Str) (hl : l.map foldChar = l) : List.Forall₂ SameLetter key l ↔ key.map foldChar = l := by
  induction key generalizing l with
  | nil => cases l <;> simp
  | cons c key ih =>
    cases l with
    | nil => simp
    | cons t l =>
      simp only [List.map_cons, List.cons.injEq] at hl
      simp only [List.forall₂_cons, List.map_cons, List.cons.injEq, ih l hl.2, foldChar_eq c t hl.1]

theorem names_iff (key : Str) (f : Field) : Names key f ↔ key.map foldChar = tag f := by
  constructor
  · rintro ⟨k, hk, h⟩
    rw [mem_keyTable] at hk
    rw [hk] at h
    exact (forall₂_sameLetter _ _ (fold_tag f)).1 h
  · intro h
    exact ⟨String.ofList (tag f), by rw [mem_keyTable, String.toList_ofList], by rw [String.toList_ofList]; exact (forall₂_sameLetter _ _ (fold_tag f)).2 h⟩

theorem find_tag (k : Str) (f : Field) : fields.find? (fun f => tag f == k) = some f ↔ tag f = k := by
  constructor
  · intro h
    simpa using List.find?_some h
  · rintro rfl
    have hm : f ∈ fields := by cases f <;> decide
    cases h : fields.find? (fun g => tag g == tag f) with
    | none => rw [List.find?_eq_none] at h; simpa using h f hm
    | some g => rw [tag_inj (show tag g = tag f by simpa using List.find?_some h)]

theorem fieldOf_iff (key : Str) (f : Field) : fieldOf key = some f ↔ Names key f := by
  rw [names_iff, fieldOf]
  split
  · rename_i g hg
    rw [find_tag] at hg
    subst hg
    rw [fold_tag, Option.some.injEq]
    exact ⟨fun h => by rw [h], fun h => tag_inj h⟩
  · rw [find_tag]
    exact eq_comm

theorem names_unique {key : Str} {f g : Field} (hf : Names key f) (hg : Names key g) : f = g := by
  rw [names_iff] at hf hg
  exact tag_inj (hf.symm.trans hg)

theorem lastSays_snoc {ms : List (Str × Js F)} {m : Str × Js F} {f : Field} {v : Js F} :
    LastSays (ms ++ [m]) f v ↔ (Names m.1 f ∧ m.2 = v ∧ v ≠ .null) ∨ ((Names m.1 f → m.2 = .null) ∧ LastSays ms f v) := by
  constructor
  · rintro ⟨u, key, w, h, hn, hv, hw⟩
    rcases List.eq_nil_or_concat w with rfl | ⟨w', m', rfl⟩
    · left
      have := List.append_inj' h rfl
      simp only [List.cons.injEq, and_true] at this
      rw [this.2]
      exact ⟨hn, rfl, hv⟩
    · right
      rw [List.concat_eq_append, ← List.cons_append, ← List.append_assoc] at h
      have := List.append_inj' h rfl
      simp only [List.cons.injEq, and_true] at this
      obtain ⟨e1, rfl⟩ := this
      exact ⟨hw m (by simp), u, key, w', e1, hn, hv, fun x hx => hw x (by simp [hx])⟩
  · rintro (⟨h1, rfl, h2⟩ | ⟨h1, u, key, w, rfl, hn, hv, hw⟩)
    · exact ⟨ms, m.1, [], rfl, h1, h2, by simp⟩
    · refine ⟨u, key, w ++ [m], by simp, hn, hv, fun x hx => ?_⟩
      rcases List.mem_append.1 hx with hx | hx
      · exact hw x hx
      · rw [List.mem_singleton.1 hx]; exact h1

theorem silent_snoc {ms : List (Str × Js F)} {m : Str × Js F} {f : Field} : Silent (ms ++ [m]) f ↔ Silent ms f ∧ (Names m.1 f → m.2 = .null) := by
  simp only [Silent, List.mem_append, List.mem_singleton]
  exact ⟨fun h => ⟨fun x hx => h x (.inl hx), h m (.inr rfl)⟩, fun h x hx => hx.elim (h.1 x) (fun e => e ▸ h.2)⟩

theorem foldl_store (zero : F) (ms : List (Str × Js F)) : ((ms.foldl store (emptyArg zero, true)).2 = true ↔ AllFit ms) ∧
    (AllFit ms → Says zero ms (ms.foldl store (emptyArg zero, true)).1) := by
  induction ms using List.reverseRecOn with
  | nil => exact ⟨by simp [AllFit], fun _ f => .inr ⟨by simp [Silent], get_empty zero f⟩⟩
  | append_singleton ms m ih =>
    rw [List.foldl_append, List.foldl_cons, List.foldl_nil]
    generalize ms.foldl store (emptyArg zero, true) = st at ih ⊢
    have split : AllFit (ms ++ [m]) ↔ AllFit ms ∧ ∀ f, Names m.1 f → m.2 = .null ∨ Fits f m.2 := by
      simp only [AllFit, List.mem_append, List.mem_singleton]
      exact ⟨fun h => ⟨fun x hx => h x (.inl hx), h m (.inr rfl)⟩, fun h x hx => hx.elim (h.1 x) (fun e => e ▸ h.2)⟩
    cases hf : fieldOf m.1 with
    | none =>
      have hno : ∀ f, ¬ Names m.1 f := fun f h => by rw [← fieldOf_iff, hf] at h; cases h
      have hs : store st m = st := by simp only [store, hf]
      rw [hs, split]
      refine ⟨⟨fun h => ⟨ih.1.1 h, fun f h => absurd h (hno f)⟩, fun h => ih.1.2 h.1⟩, fun h f => ?_⟩
      rw [lastSays_snoc, silent_snoc]
      rcases ih.2 h.1 f with h1 | ⟨h1, h2⟩
      · exact .inl (.inr ⟨fun h => absurd h (hno f), h1⟩)
      · exact .inr ⟨⟨h1, fun h => absurd h (hno f)⟩, h2⟩
    | some g =>
      have hn := (fieldOf_iff _ _).1 hf
      by_cases hv : m.2 = .null
      · have hs : store st m = st := by simp only [store, hf, hv, setField_null]
        rw [hs, split]
        refine ⟨⟨fun h => ⟨ih.1.1 h, fun _ _ => .inl hv⟩, fun h => ih.1.2 h.1⟩, fun h f => ?_⟩
        rw [lastSays_snoc, silent_snoc]
        rcases ih.2 h.1 f with h1 | ⟨h1, h2⟩
        · exact .inl (.inr ⟨fun _ => hv, h1⟩)
        · exact .inr ⟨⟨h1, fun _ => hv⟩, h2⟩
      · cases hset : setField st.1 g m.2 with
        | none =>
          have hs : store st m = (st.1, false) := by simp only [store, hf, hset]
          have hnf : ¬ AllFit (ms ++ [m]) := by
            rw [split]
            rintro ⟨-, h⟩
            rcases h g hn with h | h
            · exact hv h
            · obtain ⟨o', ho⟩ := setField_fits (o := st.1) h
              rw [hset] at ho
              cases ho
          rw [hs]
          exact ⟨⟨fun h => (by cases h), fun h => absurd h hnf⟩, fun h => absurd h hnf⟩
        | some o =>
          have hs : store st m = (o, st.2) := by simp only [store, hf, hset]
          obtain ⟨k1, k2, k3⟩ := setField_some hset hv
          rw [hs, split]
          refine ⟨⟨fun h => ⟨ih.1.1 h, fun f hf' => .inr (by rw [names_unique hf' hn]; exact k1)⟩, fun h => ih.1.2 h.1⟩, fun h f => ?_⟩
          rw [lastSays_snoc, silent_snoc]
          by_cases hfg : f = g
          · subst hfg
            exact .inl (.inl ⟨hn, k2.symm, by rw [k2]; exact hv⟩)
          · have hno : ¬ Names m.1 f := fun h => hfg (names_unique h hn)
            simp only [k3 f hfg]
            rcases ih.2 h.1 f with h1 | ⟨h1, h2⟩
            · exact .inl (.inr ⟨fun h => absurd h hno, h1⟩)
            · exact .inr ⟨⟨h1, fun h => absurd h hno⟩, h2⟩

theorem lastSays_unique {ms : List (Str × Js F)} {f : Field} {v v' : Js F} (h : LastSays ms f v) (h' : LastSays ms f v') : v = v' := by
  induction ms using List.reverseRecOn with
  | nil => obtain ⟨u, key, w, h, -⟩ := h; simp at h
  | append_singleton ms m ih =>
    rw [lastSays_snoc] at h h'
    rcases h with ⟨h1, h2, h3⟩ | ⟨h1, h2⟩ <;> rcases h' with ⟨k1, k2, k3⟩ | ⟨k1, k2⟩
    · rw [← h2, ← k2]
    · exact absurd (h2.symm.trans (k1 h1)) h3
    · exact absurd (k2.symm.trans (h1 k1)) k3
    · exact ih h2 k2

theorem silent_lastSays {ms : List (Str × Js F)} {f : Field} {v : Js F} (h : Silent ms f) (h' : LastSays ms f v) : False := by
  obtain ⟨u, key, w, rfl, hn, hv, -⟩ := h'
  exact hv (h (key, v) (by simp) hn)

/-- **C119**: the configuration read from the members `ms` is `o` exactly if all values fit and every setting of `o` is the last value given for it under its key of the
readme, in upper or lower case, or the empty text, zero or no if none is given. -/
theorem C119_settings (zero : F) (ms : List (Str × Js F)) (o : ArgObj F) : unmarshalCfg zero (.obj ms) = some o ↔ AllFit ms ∧ Says zero ms o := by
  obtain ⟨h1, h2⟩ := foldl_store zero ms
  simp only [unmarshalCfg]
  by_cases hf : AllFit ms
  · rw [if_pos (h1.2 hf), Option.some.injEq]
    refine ⟨fun h => ⟨hf, h ▸ h2 hf⟩, fun ⟨_, h⟩ => ArgObj.get_inj (fun f => ?_)⟩
    rcases h2 hf f with a | ⟨a, a'⟩ <;> rcases h f with b | ⟨b, b'⟩
    · exact lastSays_unique a b
    · exact (silent_lastSays b a).elim
    · exact (silent_lastSays a b).elim
    · rw [a', b']
  · rw [if_neg (fun h => hf (h1.1 h))]
    exact ⟨fun h => (by cases h), fun h => absurd h.1 hf⟩

/-- **C119, rejection**: a text is rejected exactly if it is neither null nor an object with fitting values. -/
theorem C119_rejected (zero : F) (d : CfgDoc F) : unmarshalCfg zero d = none ↔ (∀ ms, d = .obj ms → ¬ AllFit ms) ∧ d ≠ .null := by
  cases d with
  | null => simp [unmarshalCfg]
  | other => simp [unmarshalCfg]
  | obj ms =>
    simp only [CfgDoc.obj.injEq, forall_eq', ne_eq, reduceCtorEq, not_false_eq_true, and_true]
    have h1 := (foldl_store zero ms).1
    simp only [unmarshalCfg]
    by_cases hf : AllFit ms
    · rw [if_pos (h1.2 hf)]
      exact ⟨fun h => (by cases h), fun h => absurd hf h⟩
    · rw [if_neg (fun h => hf (h1.1 h))]
      exact ⟨fun _ => hf, fun _ => rfl⟩

/-- members for settings, each setting at most once -/
def EachOnce (ms : List (Str × Js F)) : Prop := ms.Pairwise (fun a b => ∀ f, Names a.1 f → ¬ Names b.1 f)

/-- **C119, order**: if no setting is given twice, the order of the members does not matter. -/
theorem C119_order (zero : F) {ms ms' : List (Str × Js F)} (hp : ms.Perm ms') (h : EachOnce ms) : unmarshalCfg zero (.obj ms) = unmarshalCfg zero (.obj ms') := by
  have key : ∀ {ms : List (Str × Js F)}, EachOnce ms → ∀ f v, LastSays ms f v ↔ ∃ k, (k, v) ∈ ms ∧ Names k f ∧ v ≠ .null := by
    intro ms h f v
    constructor
    · rintro ⟨u, k, w, rfl, hn, hv, -⟩
      exact ⟨k, by simp, hn, hv⟩
    · rintro ⟨k, hm, hn, hv⟩
      obtain ⟨u, w, rfl⟩ := List.append_of_mem hm
      refine ⟨u, k, w, rfl, hn, hv, fun x hx hxf => ?_⟩
      have := (List.pairwise_cons.1 (List.pairwise_append.1 h).2.1).1 x hx f hn
      exact absurd hxf this
  have h' : EachOnce ms' := hp.pairwise h (fun h f hb ha => h f ha hb)
  refine Option.ext (fun o => ?_)
  rw [C119_settings, C119_settings]
  have e1 : AllFit ms ↔ AllFit ms' := by simp only [AllFit, hp.mem_iff]
  have e2 : Says zero ms o ↔ Says zero ms' o := by simp only [Says, key h, key h', Silent, hp.mem_iff]
  rw [e1, e2]

/-- **C119, other members**: members under other keys do not matter. -/
theorem C119_others (zero : F) (ms : List (Str × Js F)) (keep : Str × Js F → Bool) (hk : ∀ m ∈ ms, keep m = false → ∀ f, ¬ Names m.1 f) :
    unmarshalCfg zero (.obj (ms.filter keep)) = unmarshalCfg zero (.obj ms) := by
  have : ∀ (ms : List (Str × Js F)) (st : ArgObj F × Bool), (∀ m ∈ ms, keep m = false → ∀ f, ¬ Names m.1 f) → (ms.filter keep).foldl store st = ms.foldl store st := by
    intro ms
    induction ms with
    | nil => intros; rfl
    | cons m ms ih =>
      intro st h
      have ih := fun st => ih st (fun x hx => h x (List.mem_cons_of_mem _ hx))
      cases hkm : keep m with
      | true => rw [List.filter_cons_of_pos hkm, List.foldl_cons, List.foldl_cons, ih]
      | false =>
        have hno : fieldOf m.1 = none := by
          cases hf : fieldOf m.1 with
          | none => rfl
          | some g => exact absurd ((fieldOf_iff _ _).1 hf) (h m (by simp) hkm g)
        rw [List.filter_cons_of_neg (by simp [hkm]), List.foldl_cons, ih]
        simp only [store, hno]
  simp only [unmarshalCfg, this ms _ hk]

/-- **C119, round trip**: what `String` prints is read back as the same configuration; it panics exactly if one of the numbers is not finite. -/
theorem C119_round_trip (zero : F) (finite : F → Bool) (o : ArgObj F) :
    (∀ d, marshalCfg finite o = .ok d → unmarshalCfg zero d = some o) ∧
    ((∃ d, marshalCfg finite o = .ok d) ↔ finite o.threshold = true ∧ finite o.minDist = true ∧ finite o.nonPlanarDisplacement = true) := by
  have hf : ∀ f, fieldOf (tag f) = some f := fun f => (fieldOf_iff _ _).2 ((names_iff _ _).2 (fold_tag f))
  refine ⟨fun d hd => ?_, ?_⟩
  · unfold marshalCfg at hd
    split at hd
    · cases hd
      simp only [unmarshalCfg, List.foldl_cons, List.foldl_nil, store, hf, setField]
      rfl
    · cases hd
  · unfold marshalCfg
    split
    · rename_i h
      simp only [Bool.and_eq_true] at h
      exact ⟨fun _ => ⟨h.1.1, h.1.2, h.2⟩, fun _ => ⟨_, rfl⟩⟩
    · rename_i h
      refine ⟨fun ⟨d, hd⟩ => (by cases hd), fun ⟨a, b, c⟩ => absurd (by simp [a, b, c]) h⟩

/-! ### the program -/

section
variable {P Props G : Type}

/-- the members `ms` are what the arguments of the program hold -/
def Given (w : World F P Props G) (parse : Str → Option (CfgDoc F)) (b f : Str) (ms : List (Str × Js F)) : Prop :=
  ∃ text bytes, Source w b f text ∧ decode64 (trim text) = .ok bytes ∧ parse (w.fromUtf8 bytes) = some (.obj ms)

/-- **C119 for the program, reading**: the configuration of the program theorems is the one the members say. -/
theorem C119_reads (w : World F P Props G) (parse : Str → Option (CfgDoc F)) (zero : F) (hw : ∀ s, w.config s = (parse s).bind (unmarshalCfg zero)) {b f : Str}
    {ms : List (Str × Js F)} (hg : Given w parse b f ms) (o : ArgObj F) :
    (∃ t, argText w b f = .ok t ∧ parseInput w (trim t) = .ok o) ↔ AllFit ms ∧ Says zero ms o := by
  obtain ⟨text, bytes, h1, h2, h3⟩ := hg
  have ha := (argText_iff w b f text).2 h1
  have hp : parseInput w (trim text) = ofOpt (.exit 1) (unmarshalCfg zero (.obj ms)) := by
    rw [parseInput, h2]
    show ofOpt _ (w.config (w.fromUtf8 bytes)) = _
    rw [hw, h3]; rfl
  rw [← C119_settings]
  constructor
  · rintro ⟨t, ht, hr⟩
    rw [ha] at ht
    cases ht
    rw [hp] at hr
    cases hu : unmarshalCfg zero (.obj ms) with
    | none => rw [hu] at hr; cases hr
    | some o' => rw [hu] at hr; cases hr; rfl
  · intro h
    exact ⟨text, ha, by rw [hp, h]; rfl⟩

/-- **C119 for the program, ends**: values that do not fit end it with code 1; without a type of simplification it ends with code 13; with one but without an input file it
panics (when the empty path names no file); two texts whose members say the same give the same end and the same output. -/
theorem C119_program (w : World F P Props G) (parse : Str → Option (CfgDoc F)) (zero : F) (hw : ∀ s, w.config s = (parse s).bind (unmarshalCfg zero)) {b f : Str}
    {ms : List (Str × Js F)} (hg : Given w parse b f ms) :
    (¬ AllFit ms → main w b f = .exit 1) ∧
    (AllFit ms → Silent ms .simplificationType → main w b f = .exit 13) ∧
    (AllFit ms → ∀ s, LastSays ms .simplificationType (.str s) → (offsetDictionary ((trim s).map (lowerChar w.uni))).isSome = true → Silent ms .input →
      w.file [] = none → main w b f = .panic) ∧
    (∀ b' f' ms', Given w parse b' f' ms' → (AllFit ms ↔ AllFit ms') → (∀ x v, LastSays ms x v ↔ LastSays ms' x v) → main w b f = main w b' f') := by
  have start : ∀ {b f : Str} {ms : List (Str × Js F)}, Given w parse b f ms → ∃ text, argText w b f = .ok text ∧
      parseInput w (trim text) = ofOpt (.exit 1) (unmarshalCfg zero (.obj ms)) := by
    rintro b f ms ⟨text, bytes, h1, h2, h3⟩
    exact ⟨text, (argText_iff w b f text).2 h1, by
      rw [parseInput, h2]
      show ofOpt _ (w.config (w.fromUtf8 bytes)) = _
      rw [hw, h3]; rfl⟩
  obtain ⟨text, ha, hp⟩ := start hg
  have hsay : AllFit ms → ∃ o, unmarshalCfg zero (.obj ms) = some o ∧ Says zero ms o := by
    intro hf
    cases hu : unmarshalCfg zero (.obj ms) with
    | none => exact absurd hf (((C119_rejected zero _).1 hu).1 ms rfl)
    | some o => exact ⟨o, rfl, ((C119_settings zero ms o).1 hu).2⟩
  have hmain : main w b f = outcome (mainFrom w text) := by rw [main, ha]; rfl
  refine ⟨fun hf => ?_, fun hf hs => ?_, fun hf s hs hk hin hfile => ?_, ?_⟩
  · have hu : unmarshalCfg zero (.obj ms) = none := (C119_rejected zero _).2 ⟨fun ms' h => by cases h; exact hf, by simp⟩
    rw [hmain, mainFrom, hp, hu]
    rfl
  · obtain ⟨o, hu, ho⟩ := hsay hf
    have : o.simplificationType = [] := by
      rcases ho .simplificationType with h | ⟨-, h⟩
      · exact (silent_lastSays hs h).elim
      · simpa [ArgObj.get, unset] using h
    rw [hmain, mainFrom, hp, hu]
    show outcome ((offsetFn w o).bind _) = _
    rw [offsetFn, this]
    rfl
  · obtain ⟨o, hu, ho⟩ := hsay hf
    have e1 : o.simplificationType = s := by
      rcases ho .simplificationType with h | ⟨h, -⟩
      · simpa [ArgObj.get] using lastSays_unique h hs
      · exact (silent_lastSays h hs).elim
    have e2 : o.input = [] := by
      rcases ho .input with h | ⟨-, h⟩
      · exact (silent_lastSays hin h).elim
      · simpa [ArgObj.get, unset] using h
    obtain ⟨kind, hkind⟩ := Option.isSome_iff_exists.1 hk
    rw [hmain, mainFrom, hp, hu]
    show outcome ((offsetFn w o).bind _) = _
    rw [offsetFn, e1, hkind]
    show outcome ((readPolylines w (trim o.input)).bind _) = _
    rw [readPolylines, e2, show trim ([] : Str) = [] from rfl, hfile]
    rfl
  · intro b' f' ms' hg' hfit hsame
    obtain ⟨text', ha', hp'⟩ := start hg'
    have hsil : ∀ x, Silent ms x ↔ Silent ms' x := by
      have key : ∀ (ms : List (Str × Js F)) x, Silent ms x ↔ ∀ v, ¬ LastSays ms x v := by
        intro ms x
        refine ⟨fun h v hv => silent_lastSays h hv, fun h => ?_⟩
        induction ms using List.reverseRecOn with
        | nil => simp [Silent]
        | append_singleton ms m ih =>
          rw [silent_snoc]
          have hm : Names m.1 x → m.2 = .null := fun hn => by
            by_contra hv
            exact h m.2 (lastSays_snoc.2 (.inl ⟨hn, rfl, hv⟩))
          exact ⟨ih (fun v hv => h v (lastSays_snoc.2 (.inr ⟨hm, hv⟩))), hm⟩
      intro x
      rw [key, key]
      simp only [hsame]
    have hu : unmarshalCfg zero (.obj ms) = unmarshalCfg zero (.obj ms') := by
      refine Option.ext (fun o => ?_)
      rw [C119_settings, C119_settings]
      simp only [Says, hfit, hsame, hsil]
    rw [hmain, main, ha']
    show _ = outcome (mainFrom w text')
    simp only [mainFrom, hp, hp', hu]

end

/-! ### concrete cases -/

/-- keys in capitals, a key given twice, an unknown key, null -/
def sampleMembers : List (Str × Js Int) :=
  [("INPUT".toList, .str ['a']), ("threshold".toList, .num (some 5)), ("comment".toList, .nested), ("Threshold".toList, .num (some 7)), ("threshold".toList, .null),
   ("planar_ſelf".toList, .bool true), ("output".toList, .str ['b']), ("simplification_type".toList, .str ['D', 'P'])]

theorem sample_config : unmarshalCfg 0 (.obj sampleMembers) = some { emptyArg 0 with input := ['a'], output := ['b'], threshold := 7, planarSelf := true, simplificationType := ['D', 'P'] } := by
  decide +kernel

example : AllFit sampleMembers ∧ LastSays sampleMembers .threshold (.num (some 7)) := by
  have h := (C119_settings 0 _ _).1 sample_config
  refine ⟨h.1, ?_⟩
  rcases h.2 .threshold with h | ⟨h, -⟩
  · exact h
  · exact absurd (h ("threshold".toList, .num (some 5)) (by simp [sampleMembers]) ((names_iff _ _).2 (by decide +kernel))) (by simp)

/-- a text where a number belongs -/
example : unmarshalCfg (0 : Int) (.obj (sampleMembers ++ [("minimum_distance".toList, .str ['2', '0'])])) = none := by decide +kernel
example : marshalCfg (fun _ => true) (emptyArg (0 : Int)) ≠ .panic := by decide +kernel

/-- an arrangement with each setting once, and a different order -/
example : EachOnce ([("input".toList, .str ['a']), ("threshold".toList, .num (some 5))] : List (Str × Js Int)) := by
  simp only [EachOnce, List.pairwise_cons, List.mem_singleton, forall_eq, List.not_mem_nil, false_imp_iff, implies_true, List.Pairwise.nil, and_true]
  intro f h1 h2
  rw [names_iff] at h1 h2
  exact absurd (h1.trans h2.symm) (by decide +kernel)

/-- a world in which the configuration text holds the given members -/
noncomputable def memberWorld (ms : List (Str × Js (Fl ℝ))) : World (Fl ℝ) ℂ Str Planar.Region :=
  { Real.world Real.ordsC (Real.config ['d', 'p'] false) (.geometry (.line [])) (.geometry (.line [])) [] with config := fun _ => unmarshalCfg (.fin 0) (.obj ms) }

theorem memberWorld_given (ms : List (Str × Js (Fl ℝ))) : Given (memberWorld ms) (fun _ => some (.obj ms)) "e30=".toList ['-'] ms :=
  ⟨"e30=".toList, [123, 125], (argText_iff _ _ _ _).1 rfl, by decide +kernel, rfl⟩

/-- an empty configuration ends the program with code 13, one that names the type only with a panic, and a text for a number with code 1 -/
example : main (memberWorld []) "e30=".toList ['-'] = .exit 13 :=
  (C119_program _ _ (.fin 0) (fun _ => rfl) (memberWorld_given [])).2.1 (by simp [AllFit]) (by simp [Silent])

example : main (memberWorld [("Simplification_Type".toList, .str ['D', 'P'])]) "e30=".toList ['-'] = .panic := by
  have hn : Names "Simplification_Type".toList .simplificationType := (names_iff _ _).2 (by decide +kernel)
  refine (C119_program _ _ (.fin 0) (fun _ => rfl) (memberWorld_given _)).2.2.1 ?_ ['D', 'P'] ⟨[], _, [], rfl, hn, by simp, by simp⟩ ?_ ?_ rfl
  · intro m hm f hf
    rw [List.mem_singleton.1 hm] at hf ⊢
    rw [names_unique hf hn]
    exact .inr (.inl ⟨by simp, _, rfl⟩)
  · show (offsetDictionary ((trim ['D', 'P']).map (lowerChar id))).isSome = true
    decide +kernel
  · intro m hm hf
    rw [List.mem_singleton.1 hm] at hf
    exact absurd (names_unique hf hn) (by decide)

example : main (memberWorld [("threshold".toList, .str ['5'])]) "e30=".toList ['-'] = .exit 1 := by
  refine (C119_program _ _ (.fin 0) (fun _ => rfl) (memberWorld_given _)).1 (fun h => ?_)
  rcases h _ (List.mem_singleton.2 rfl) .threshold ((names_iff _ _).2 (by decide +kernel)) with h | h
  · cases h
  · simp [Fits] at h

end Verif.Io
