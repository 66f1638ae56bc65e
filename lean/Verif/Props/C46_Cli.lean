import Verif.Model.Io
import Verif.Props.C40_Text
import Mathlib.Data.List.Forall2

/-!
C46 command line, C52 coordinate arrays, C53 options, C54 configuration by file or base64.
-/

namespace Verif.Io

open Verif.Text

variable {F P Props G : Type}

/-! ### C53 -/

/-- **C53**: two configurations give the same simplifier options exactly when they agree on the nine simplifier settings. -/
theorem C53_options (a b : ArgObj F) : optsFromCfg a = optsFromCfg b ↔
    a.threshold = b.threshold ∧ a.minDist = b.minDist ∧ a.nonPlanarDisplacement = b.nonPlanarDisplacement ∧ a.planarSelf = b.planarSelf ∧
    a.nonPlanarSelf = b.nonPlanarSelf ∧ a.avoidNewSelfIntersects = b.avoidNewSelfIntersects ∧ a.geomRelation = b.geomRelation ∧
    a.distRelation = b.distRelation ∧ a.sideRelation = b.sideRelation := by
  unfold optsFromCfg
  rw [Options.mk.injEq]

/-- **C53**: changing one setting of the configuration changes the option of the same meaning and no other. -/
theorem C53_meaning (a : ArgObj F) (v : F) (t : Bool) :
    optsFromCfg { a with threshold := v } = { optsFromCfg a with threshold := v } ∧
    optsFromCfg { a with minDist := v } = { optsFromCfg a with minDist := v } ∧
    optsFromCfg { a with nonPlanarDisplacement := v } = { optsFromCfg a with nonPlanarDisplacement := v } ∧
    optsFromCfg { a with planarSelf := t } = { optsFromCfg a with planarSelf := t } ∧
    optsFromCfg { a with nonPlanarSelf := t } = { optsFromCfg a with nonPlanarSelf := t } ∧
    optsFromCfg { a with avoidNewSelfIntersects := t } = { optsFromCfg a with avoidNewSelfIntersects := t } ∧
    optsFromCfg { a with geomRelation := t } = { optsFromCfg a with geomRelation := t } ∧
    optsFromCfg { a with distRelation := t } = { optsFromCfg a with distRelation := t } ∧
    optsFromCfg { a with sideRelation := t } = { optsFromCfg a with dirRelation := t } :=
  ⟨rfl, rfl, rfl, rfl, rfl, rfl, rfl, rfl, rfl⟩

/-- case: two configurations that differ only in the paths -/
example : optsFromCfg (⟨['a'], ['b'], [], ['d', 'p'], (1 : Int), 2, 3, true, true, false, true, true, true, false⟩ : ArgObj Int) =
    optsFromCfg ⟨['c'], ['d'], [], ['s', 'e', 'd'], 1, 2, 3, false, true, false, true, true, true, false⟩ := rfl

/-! ### C52 -/

/-- the value is a number and denotes `x` -/
inductive Num {F32 : Type} (up : F32 → F) (ofInt : Int → F) : Val F F32 → F → Prop where
  | f64 (v : F) : Num up ofInt (.f64 v) v
  | f32 (v : F32) : Num up ofInt (.f32 v) (up v)
  | i64 (v : Int) : Num up ofInt (.i64 v) (ofInt v)
  | i32 (v : Int) : Num up ofInt (.i32 v) (ofInt v)

/-- the value is an array of numbers that denotes `l` -/
def NumArr {F32 : Type} (up : F32 → F) (ofInt : Int → F) (v : Val F F32) (l : List F) : Prop :=
  ∃ es, v = .arr es ∧ List.Forall₂ (Num up ofInt) es l

/-- the value is an array of arrays of numbers that denotes `ls` -/
def NumArr2 {F32 : Type} (up : F32 → F) (ofInt : Int → F) (v : Val F F32) (ls : List (List F)) : Prop :=
  ∃ rows, v = .arr rows ∧ List.Forall₂ (NumArr up ofInt) rows ls

variable {F32 : Type} (up : F32 → F) (ofInt : Int → F)

theorem parseFloat_iff (v : Val F F32) (x : F) : parseFloat up ofInt v = .ok x ↔ Num up ofInt v x := by
  constructor
  · intro h; cases v <;> simp only [parseFloat, Res.ok.injEq, reduceCtorEq] at h <;> subst h <;> constructor
  · intro h; cases h <;> rfl

theorem parseFloat_no_timeout (v : Val F F32) : parseFloat up ofInt v ≠ .timeout := by cases v <;> simp [parseFloat]

theorem loop_iff {A B : Type} (f : A → Res B) (loop : List A → Res (List B)) (h0 : loop [] = .ok [])
    (h1 : ∀ o os, loop (o :: os) = (do let v ← f o; let vs ← loop os; return v :: vs)) (os : List A) (l : List B) :
    loop os = .ok l ↔ List.Forall₂ (fun o x => f o = .ok x) os l := by
  induction os generalizing l with
  | nil => rw [h0]; constructor
           · intro h; injection h with h; subst h; exact .nil
           · intro h; cases h; rfl
  | cons o os ih =>
    rw [h1]
    constructor
    · intro h
      obtain ⟨v, hv, h⟩ := Res.bind_eq_ok.1 h
      obtain ⟨vs, hvs, h⟩ := Res.bind_eq_ok.1 h
      injection h with h; subst h
      exact .cons hv ((ih vs).1 hvs)
    · intro h
      cases h with
      | cons hx ht => rw [hx, Res.ok_bind, (ih _).2 ht]; rfl

theorem loop_no_timeout {A B : Type} (f : A → Res B) (hf : ∀ a, f a ≠ .timeout) (loop : List A → Res (List B)) (h0 : loop [] = .ok [])
    (h1 : ∀ o os, loop (o :: os) = (do let v ← f o; let vs ← loop os; return v :: vs)) (os : List A) : loop os ≠ .timeout := by
  induction os with
  | nil => rw [h0]; exact fun h => by cases h
  | cons o os ih =>
    rw [h1]
    cases h : f o with
    | timeout => exact absurd h (hf o)
    | panic => exact fun h => by cases h
    | ok v =>
      rw [Res.ok_bind]
      cases h2 : loop os with
      | timeout => exact absurd h2 ih
      | panic => exact fun h => by cases h
      | ok vs => exact fun h => by cases h

theorem parsePointArray_iff (v : Val F F32) (l : List F) : parsePointArray up ofInt v = .ok l ↔ NumArr up ofInt v l := by
  have key := loop_iff (parseFloat up ofInt) (parsePointLoop up ofInt) rfl (fun _ _ => rfl)
  unfold NumArr
  cases v with
  | arr es =>
    simp only [parsePointArray, Val.arr.injEq, exists_eq_left', key]
    constructor
    · exact List.Forall₂.imp (fun a b h => (parseFloat_iff up ofInt a b).1 h)
    · exact List.Forall₂.imp (fun a b h => (parseFloat_iff up ofInt a b).2 h)
  | _ => simp [parsePointArray]

theorem parsePointArray_no_timeout (v : Val F F32) : parsePointArray up ofInt v ≠ .timeout := by
  cases v with
  | arr es => exact loop_no_timeout (parseFloat up ofInt) (parseFloat_no_timeout up ofInt) (parsePointLoop up ofInt) rfl (fun _ _ => rfl) es
  | _ => simp [parsePointArray]

/-- **C52**: an array of arrays of numbers is parsed completely and in order. -/
theorem C52_parsed (v : Val F F32) (ls : List (List F)) : parseLinearArray up ofInt v = .ok ls ↔ NumArr2 up ofInt v ls := by
  have key := loop_iff (parsePointArray up ofInt) (parseLinearLoop up ofInt) rfl (fun _ _ => rfl)
  unfold NumArr2
  cases v with
  | arr es =>
    simp only [parseLinearArray, Val.arr.injEq, exists_eq_left', key]
    constructor
    · exact List.Forall₂.imp (fun a b h => (parsePointArray_iff up ofInt a b).1 h)
    · exact List.Forall₂.imp (fun a b h => (parsePointArray_iff up ofInt a b).2 h)
  | _ => simp [parseLinearArray]

/-- **C52**: anything else makes the parser panic. -/
theorem C52_rejected (v : Val F F32) (h : ∀ ls, ¬ NumArr2 up ofInt v ls) : parseLinearArray up ofInt v = .panic := by
  have hn : parseLinearArray up ofInt v ≠ .timeout := by
    cases v with
    | arr es => exact loop_no_timeout (parsePointArray up ofInt) (parsePointArray_no_timeout up ofInt) (parseLinearLoop up ofInt) rfl (fun _ _ => rfl) es
    | _ => simp [parseLinearArray]
  cases hp : parseLinearArray up ofInt v with
  | ok ls => exact absurd ((C52_parsed up ofInt v ls).1 hp) (h ls)
  | panic => rfl
  | timeout => exact absurd hp hn

/-- **C52**: one entry that is not a number anywhere in the array is enough -/
theorem C52_bad_entry (rows : List (Val F F32)) (es : List (Val F F32)) (h : .arr es ∈ rows) (hb : .other ∈ es) :
    parseLinearArray up ofInt (.arr rows) = .panic := by
  have key : ∀ {A B : Type} {R : A → B → Prop} {as : List A} {bs : List B}, List.Forall₂ R as bs → ∀ a ∈ as, ∃ b, R a b := by
    intro A B R as bs h
    induction h with
    | nil => simp
    | cons hx _ ih =>
      intro a ha
      rcases List.mem_cons.1 ha with rfl | ha
      · exact ⟨_, hx⟩
      · exact ih a ha
  refine C52_rejected up ofInt _ ?_
  rintro ls ⟨rows', he, hf⟩
  cases he
  obtain ⟨l, es', he, hf2⟩ := key hf _ h
  cases he
  obtain ⟨x, hx⟩ := key hf2 _ hb
  cases hx

/-- case -/
example : NumArr2 (F := Int) (F32 := Int) id id (.arr [.arr [.f64 1, .i64 2], .arr []]) [[1, 2], []] :=
  ⟨_, rfl, .cons ⟨_, rfl, .cons (.f64 1) (.cons (.i64 2) .nil)⟩ (.cons ⟨_, rfl, .nil⟩ .nil)⟩

/-! ### C54 -/

theorem encode64_ne_dash (bs : List UInt8) : encode64 bs ≠ ['-'] := by
  intro h
  fun_cases encode64 bs <;> simp [encode64] at h

/-- **C54**: passing a configuration by file and passing the base64 form of the (trimmed) file contents on the command line are the same, for all
contents. -/
theorem C54_file_or_base64 (w : World F P Props G) (f t : Str) (hf : f ≠ ['-']) (ht : w.file f = some t) :
    main w ['-'] f = main w (encode64 (w.utf8 (trim t))) ['-'] := by
  have h1 : argText w ['-'] f = .ok (encode64 (w.utf8 (trim t))) := by
    unfold argText
    rw [if_neg (fun h => hf h.2), if_neg (fun h => h.1 rfl), if_pos hf, ht]
    rfl
  have h2 : argText w (encode64 (w.utf8 (trim t))) ['-'] = .ok (encode64 (w.utf8 (trim t))) := by
    unfold argText
    rw [if_neg (fun h => encode64_ne_dash _ h.1), if_neg (fun h => h.2 rfl), if_neg (fun h => h rfl)]
  unfold main
  rw [h1, h2]

/-- **C54**: the text that the configuration is read from is the text that was encoded, whatever blanks surround the base64 text. -/
theorem C54_text (w : World F P Props G) (hw : ∀ s, w.fromUtf8 (w.utf8 s) = s) (t a b : Str) (ha : ∀ c ∈ a, isSpace c = true)
    (hb : ∀ c ∈ b, isSpace c = true) : parseInput w (trim (a ++ encode64 (w.utf8 t) ++ b)) = ofOpt (.exit 1) (w.config t) := by
  rw [trim_append_spaces _ _ hb, trim_spaces_append _ _ ha]
  unfold parseInput
  rw [(C54_round_trip _).2]
  show ofOpt (.exit 1) (w.config (w.fromUtf8 (w.utf8 t))) = _
  rw [hw]

/-! ### C46 -/

/-- the configuration text that the flags select, if exactly one is given (a flag with the value `-` counts as not given) -/
inductive Source (w : World F P Props G) : (b f : Str) → Str → Prop where
  | base64 (b : Str) (h : b ≠ ['-']) : Source w b ['-'] b
  | file (f t : Str) (h : f ≠ ['-']) (ht : w.file f = some t) : Source w ['-'] f (encode64 (w.utf8 (trim t)))

/-- the simplification types in any letter case -/
def typeNames : List Str := ["dp".toList, "dP".toList, "Dp".toList, "DP".toList, "sed".toList, "seD".toList, "sEd".toList, "sED".toList,
  "Sed".toList, "SeD".toList, "SEd".toList, "SED".toList]

theorem lowerChar_eq (uni : Char → Char) (hu : ∀ c, 128 ≤ c.toNat → uni c ∉ ['d', 'p', 's', 'e']) (c x : Char) (X : Char)
    (hx : x ∈ ['d', 'p', 's', 'e']) (hX : X.toNat + 32 = x.toNat) : lowerChar uni c = x ↔ c = x ∨ c = X := by
  have hxx : 97 ≤ x.toNat ∧ x.toNat ≤ 122 := by
    simp only [List.mem_cons, List.not_mem_nil, or_false] at hx
    rcases hx with rfl | rfl | rfl | rfl <;> decide
  constructor
  · intro h
    unfold lowerChar at h
    split at h
    · next hc =>
      right
      have key : ∀ n < 91, 65 ≤ n → (Char.ofNat (n + 32)).toNat = n + 32 := by decide
      have h2 := key c.toNat (by omega) hc.1
      rw [h] at h2
      apply Char.toNat_inj.1
      omega
    · split at h
      · exact .inl h
      · next hc => exact absurd (h ▸ hx) (hu c (by omega))
  · rintro (rfl | rfl)
    · unfold lowerChar
      rw [if_neg (by omega), if_pos (by omega)]
    · unfold lowerChar
      rw [if_pos (by omega), hX]
      exact Char.ofNat_toNat x

theorem offsetDictionary_isSome (uni : Char → Char) (hu : ∀ c, 128 ≤ c.toNat → uni c ∉ ['d', 'p', 's', 'e']) (t : Str) :
    (offsetDictionary (t.map (lowerChar uni))).isSome ↔ t ∈ typeNames := by
  have hd := fun c => lowerChar_eq uni hu c 'd' 'D' (by decide) (by decide)
  have hp := fun c => lowerChar_eq uni hu c 'p' 'P' (by decide) (by decide)
  have hs := fun c => lowerChar_eq uni hu c 's' 'S' (by decide) (by decide)
  have he := fun c => lowerChar_eq uni hu c 'e' 'E' (by decide) (by decide)
  have h1 : t.map (lowerChar uni) = ['d', 'p'] ↔ t ∈ ["dp".toList, "dP".toList, "Dp".toList, "DP".toList] := by
    match t with
    | [] => simp
    | [a] => simp
    | [a, b] =>
      simp only [List.map_cons, List.map_nil, List.cons.injEq, and_true, hd, hp, List.mem_cons, List.not_mem_nil, or_false]
      simp
      grind
    | a :: b :: c :: l => simp
  have h2 : t.map (lowerChar uni) = ['s', 'e', 'd'] ↔ t ∈ ["sed".toList, "seD".toList, "sEd".toList, "sED".toList,
      "Sed".toList, "SeD".toList, "SEd".toList, "SED".toList] := by
    match t with
    | [] => simp
    | [a] => simp
    | [a, b] => simp
    | [a, b, c] =>
      simp only [List.map_cons, List.map_nil, List.cons.injEq, and_true, hd, hs, he, List.mem_cons, List.not_mem_nil, or_false]
      simp
      grind
    | a :: b :: c :: d :: l => simp
  have h3 : (offsetDictionary (t.map (lowerChar uni))).isSome ↔ t.map (lowerChar uni) = ['d', 'p'] ∨ t.map (lowerChar uni) = ['s', 'e', 'd'] := by
    unfold offsetDictionary
    split
    · next h => simp only [h, Option.isSome_some, true_or]
    · next h => split
                · next h' => simp only [h', Option.isSome_some, or_true]
                · next h' => simp only [h, h', Option.isSome_none, Bool.false_eq_true, or_self]
  rw [h3, h1, h2, ← List.mem_append]
  rfl

theorem ofRes_ne_exit {A : Type} (r : Res A) (n : Nat) : ofRes r ≠ .error (.exit n) := by cases r <;> exact fun h => by cases h

theorem ofOpt_panic_ne_exit {A : Type} (r : Option A) (n : Nat) : ofOpt .panic r ≠ .error (.exit n) := by cases r <;> exact fun h => by cases h

theorem bind_ne_exit {A B : Type} {x : Proc A} {f : A → Proc B} {o : Outcome} (h1 : x ≠ .error o) (h2 : ∀ a, f a ≠ .error o) :
    (x >>= f) ≠ .error o := by
  cases x with
  | ok a => exact h2 a
  | error e => intro h; exact h1 (by injection h with h; rw [h])

theorem parseDocs_ne_exit (w : World F P Props G) (ls : List Str) (n : Nat) : parseDocs w ls ≠ .error (.exit n) := by
  induction ls with
  | nil => exact fun h => by cases h
  | cons l ls ih =>
    rw [parseDocs]
    exact bind_ne_exit (ofOpt_panic_ne_exit _ _) (fun d => bind_ne_exit ih (fun ds => fun h => by cases h))

/-- everything behind the type check ends without exit code -/
theorem mainTail (w : World F P Props G) (arg : Str) (obj : ArgObj F) (k : OffsetKind) (h1 : parseInput w (trim arg) = .ok obj)
    (h2 : offsetFn w obj = .ok k) (n : Nat) : mainFrom w arg ≠ .error (.exit n) ∧ mainFrom w arg ≠ .ok (.exit n) := by
  have e1 : ∀ {A B : Type} (x : A) (f : A → Proc B), ((Except.ok x : Proc A) >>= f) = f x := fun _ _ => rfl
  unfold mainFrom
  rw [h1, e1, h2, e1]
  have hr : readPolylines w (trim obj.input) ≠ .error (.exit n) := by
    unfold readPolylines
    exact bind_ne_exit (ofOpt_panic_ne_exit _ _) (fun d => bind_ne_exit (parseDocs_ne_exit _ _ _) (fun ds => ofRes_ne_exit _ _))
  have hc : readConstraints w (trim obj.constraints) ≠ .error (.exit n) := by
    unfold readConstraints
    split
    · exact ofRes_ne_exit _ _
    · split <;> exact fun h => by cases h
  constructor
  · refine bind_ne_exit hr (fun ls => ?_)
    split
    · exact fun h => by cases h
    · refine bind_ne_exit hc (fun cs => bind_ne_exit (ofRes_ne_exit _ _) (fun ps => bind_ne_exit (ofRes_ne_exit _ _) (fun out => ?_)))
      split <;> exact fun h => by cases h
  · cases readPolylines w (trim obj.input) with
    | error e => exact fun h => by cases h
    | ok ls =>
      rw [e1]
      split
      · exact fun h => by cases h
      · cases readConstraints w (trim obj.constraints) with
        | error e => exact fun h => by cases h
        | ok cs =>
          rw [e1]
          cases ofRes (w.simplify obj.isFeatureClass ls (optsFromCfg obj) cs k) with
          | error e => exact fun h => by cases h
          | ok ps =>
            rw [e1]
            cases ofRes (groupPlnsAsGeoJSONS w.enc ps) with
            | error e => exact fun h => by cases h
            | ok out =>
              rw [e1]
              split <;> exact fun h => by cases h

/-- **C46**: the program ends with code 13 (and hence writes nothing) exactly when not exactly one of the two flags is given, or the configuration
could be read and its simplification type, trimmed, is not `dp` or `sed` in any letter case. -/
theorem C46_exit13 (w : World F P Props G) (hu : ∀ c, 128 ≤ c.toNat → w.uni c ∉ ['d', 'p', 's', 'e']) (b f : Str) :
    main w b f = .exit 13 ↔ (b = ['-'] ↔ f = ['-']) ∨
      ∃ text obj, Source w b f text ∧ parseInput w (trim text) = .ok obj ∧ trim obj.simplificationType ∉ typeNames := by
  have hd := offsetDictionary_isSome w.uni hu
  have e1 : ∀ {A B : Type} (x : A) (f : A → Proc B), ((Except.ok x : Proc A) >>= f) = f x := fun _ _ => rfl
  have e2 : ∀ {A B : Type} (x : Outcome) (f : A → Proc B), ((Except.error x : Proc A) >>= f) = .error x := fun _ _ => rfl
  -- the part behind the flags
  have tail : ∀ text, outcome (mainFrom w text) = .exit 13 ↔
      ∃ obj, parseInput w (trim text) = .ok obj ∧ trim obj.simplificationType ∉ typeNames := by
    intro text
    cases hp : parseInput w (trim text) with
    | error o =>
      have ho : o ≠ .exit 13 := by
        rintro rfl
        unfold parseInput at hp
        cases h3 : decode64 (trim text) with
        | panic => rw [h3] at hp; cases hp
        | timeout => rw [h3] at hp; cases hp
        | ok bs =>
          rw [h3] at hp
          simp only [ofRes] at hp
          cases h4 : w.config (w.fromUtf8 bs) with
          | none => rw [show ((Except.ok bs : Proc _) >>= fun j => ofOpt (.exit 1) (w.config (w.fromUtf8 j))) = ofOpt (.exit 1) (w.config (w.fromUtf8 bs)) from rfl, h4] at hp; cases hp
          | some a => rw [show ((Except.ok bs : Proc _) >>= fun j => ofOpt (.exit 1) (w.config (w.fromUtf8 j))) = ofOpt (.exit 1) (w.config (w.fromUtf8 bs)) from rfl, h4] at hp; cases hp
      have : mainFrom w text = .error o := by unfold mainFrom; rw [hp]; rfl
      rw [this]
      constructor
      · intro h; exact absurd h ho
      · rintro ⟨obj, h, _⟩; cases h
    | ok obj =>
      cases hk : offsetDictionary ((trim obj.simplificationType).map (lowerChar w.uni)) with
      | none =>
        have : mainFrom w text = .error (.exit 13) := by
          unfold mainFrom offsetFn; rw [hp, e1, hk]; rfl
        rw [this]
        have hn : trim obj.simplificationType ∉ typeNames := by rw [← hd, hk]; simp
        exact ⟨fun _ => ⟨obj, rfl, hn⟩, fun _ => rfl⟩
      | some k =>
        have hy : trim obj.simplificationType ∈ typeNames := by rw [← hd, hk]; rfl
        have ht := mainTail w text obj k hp (by unfold offsetFn; rw [hk]; rfl) 13
        constructor
        · intro h
          cases hm : mainFrom w text with
          | ok o => rw [hm] at h; exact absurd (by rw [hm]; exact congrArg _ h) ht.2
          | error o => rw [hm] at h; exact absurd (by rw [hm]; exact congrArg _ h) ht.1
        · rintro ⟨obj', h, hn⟩
          injection h with h; subst h
          exact absurd hy hn
  by_cases hb : b = ['-'] <;> by_cases hf : f = ['-']
  · subst hb; subst hf
    exact ⟨fun _ => .inl Iff.rfl, fun _ => rfl⟩
  · subst hb
    cases hfile : w.file f with
    | none =>
      have : argText w ['-'] f = .error .panic := by
        unfold argText
        rw [if_neg (fun h => hf h.2), if_neg (fun h => h.1 rfl), if_pos hf, hfile]; rfl
      simp only [main, this, e2, hf, iff_false, not_true, false_or]
      constructor
      · intro h; cases h
      · rintro ⟨text, obj, hs, _⟩
        cases hs with
        | base64 _ h => exact absurd rfl h
        | file _ t h ht => rw [hfile] at ht; cases ht
    | some t =>
      have : argText w ['-'] f = .ok (encode64 (w.utf8 (trim t))) := by
        unfold argText
        rw [if_neg (fun h => hf h.2), if_neg (fun h => h.1 rfl), if_pos hf, hfile]; rfl
      simp only [main, this, e1, hf, iff_false, not_true, false_or]
      rw [tail]
      constructor
      · rintro ⟨obj, h⟩; exact ⟨_, obj, .file f t hf hfile, h⟩
      · rintro ⟨text, obj, hs, h⟩
        cases hs with
        | base64 _ h' => exact absurd rfl h'
        | file _ t' h' ht => rw [hfile] at ht; injection ht with ht; subst ht; exact ⟨obj, h⟩
  · subst hf
    have : argText w b ['-'] = .ok b := by
      unfold argText
      rw [if_neg (fun h => hb h.1), if_neg (fun h => h.2 rfl), if_neg (fun h => h rfl)]
    simp only [main, this, e1, hb, false_iff, not_true, false_or]
    rw [tail]
    constructor
    · rintro ⟨obj, h⟩; exact ⟨_, obj, .base64 b hb, h⟩
    · rintro ⟨text, obj, hs, h⟩
      cases hs with
      | base64 _ h' => exact ⟨obj, h⟩
      | file _ t h' ht => exact absurd rfl h'
  · have : argText w b f = .error (.exit 13) := by
      unfold argText; rw [if_neg (fun h => hb h.1), if_pos ⟨hb, hf⟩]
    refine ⟨fun _ => .inl ⟨fun h => absurd h hb, fun h => absurd h hf⟩, fun _ => ?_⟩
    simp only [main, this, e2]
    rfl

/-- **C46**: what the program writes, if it writes: exactly one flag is given, the type is supported, the output path is the trimmed configured one. -/
theorem C46_saved (w : World F P Props G) (hu : ∀ c, 128 ≤ c.toNat → w.uni c ∉ ['d', 'p', 's', 'e']) (b f path : Str) (out : List Str)
    (h : main w b f = .saved path out) : ∃ text obj, Source w b f text ∧ parseInput w (trim text) = .ok obj ∧
      trim obj.simplificationType ∈ typeNames ∧ path = trim obj.output ∧ path ≠ [] := by
  have e1 : ∀ {A B : Type} (x : A) (f : A → Proc B), ((Except.ok x : Proc A) >>= f) = f x := fun _ _ => rfl
  have hne : ¬ main w b f = .exit 13 := by rw [h]; exact fun h => by cases h
  rw [C46_exit13 w hu] at hne
  obtain ⟨text, hs, hm⟩ : ∃ text, Source w b f text ∧ mainFrom w text = .ok (.saved path out) := by
    unfold main at h
    cases ha : argText w b f with
    | error o =>
      rw [ha] at h
      exfalso
      have h' : o = .saved path out := h
      subst h'
      unfold argText at ha
      split at ha
      · cases ha
      · split at ha
        · cases ha
        · split at ha
          · cases hf : w.file f with
            | none => rw [hf] at ha; cases ha
            | some t => rw [hf] at ha; cases ha
          · cases ha
    | ok text =>
      rw [ha, e1] at h
      refine ⟨text, ?_, ?_⟩
      · unfold argText at ha
        split at ha
        · cases ha
        · split at ha
          · cases ha
          · next h1 h2 =>
            split at ha
            · next hf =>
              have hb : b = ['-'] := Decidable.byContradiction (fun hb => h2 ⟨hb, hf⟩)
              subst hb
              cases hfile : w.file f with
              | none => rw [hfile] at ha; cases ha
              | some t => rw [hfile] at ha; cases ha; exact .file f t hf hfile
            · next hf =>
              have hf : f = ['-'] := Decidable.byContradiction (fun e => hf e)
              subst hf
              cases ha
              exact .base64 _ (fun hb => h1 ⟨hb, rfl⟩)
      · cases hm : mainFrom w text with
        | ok o => rw [hm] at h; exact congrArg _ h
        | error o =>
          rw [hm] at h
          have h' : o = .saved path out := h
          subst h'
          exfalso
          -- an error never is `saved`
          have hr : ∀ {A : Type} (r : Res A), ofRes r ≠ .error (.saved path out) := by intro A r; cases r <;> exact fun h => by cases h
          have hop : ∀ {A : Type} (o : Outcome) (r : Option A), o ≠ .saved path out → ofOpt o r ≠ .error (.saved path out) := by
            intro A o r ho; cases r
            · exact fun h => ho (by injection h)
            · exact fun h => by cases h
          have hpd : ∀ ls, parseDocs w ls ≠ .error (.saved path out) := by
            intro ls
            induction ls with
            | nil => exact fun h => by cases h
            | cons l ls ih => rw [parseDocs]; exact bind_ne_exit (hop _ _ (by simp)) (fun d => bind_ne_exit ih (fun ds => fun h => by cases h))
          refine absurd hm ?_
          unfold mainFrom
          refine bind_ne_exit ?_ (fun obj => bind_ne_exit (hop _ _ (by simp)) (fun k => bind_ne_exit ?_ (fun ls => ?_)))
          · unfold parseInput; exact bind_ne_exit (hr _) (fun _ => hop _ _ (by simp))
          · unfold readPolylines; exact bind_ne_exit (hop _ _ (by simp)) (fun d => bind_ne_exit (hpd _) (fun ds => hr _))
          · split
            · exact fun h => by cases h
            · refine bind_ne_exit ?_ (fun cs => bind_ne_exit (hr _) (fun ps => bind_ne_exit (hr _) (fun o => ?_)))
              · unfold readConstraints
                split
                · exact hr _
                · split <;> exact fun h => by cases h
              · split <;> exact fun h => by cases h
  unfold mainFrom at hm
  cases hp : parseInput w (trim text) with
  | error o => rw [hp] at hm; cases hm
  | ok obj =>
    refine ⟨text, obj, hs, hp, ?_, ?_⟩
    · exact Decidable.byContradiction (fun hn => hne (.inr ⟨text, obj, hs, hp, hn⟩))
    · rw [hp, e1] at hm
      cases hk : offsetFn w obj with
      | error o => rw [hk] at hm; cases hm
      | ok k =>
        rw [hk, e1] at hm
        cases hl : readPolylines w (trim obj.input) with
        | error o => rw [hl] at hm; cases hm
        | ok ls =>
          rw [hl, e1] at hm
          by_cases ho : trim obj.output = []
          · rw [if_pos ho] at hm; cases hm
          · rw [if_neg ho] at hm
            cases hc : readConstraints w (trim obj.constraints) with
            | error o => rw [hc] at hm; cases hm
            | ok cs =>
              rw [hc, e1] at hm
              cases hsim : ofRes (w.simplify obj.isFeatureClass ls (optsFromCfg obj) cs k) with
              | error o => rw [hsim] at hm; cases hm
              | ok ps =>
                rw [hsim, e1] at hm
                cases hg : ofRes (groupPlnsAsGeoJSONS w.enc ps) with
                | error o => rw [hg] at hm; cases hm
                | ok o =>
                  rw [hg, e1] at hm
                  split at hm
                  · injection hm with hm; injection hm with h1 h2
                    exact ⟨h1.symm, by rw [← h1]; exact ho⟩
                  · cases hm

/-- case: a world in which the configuration names type `Sed `, the input is empty and nothing is simplified: text is saved -/
def demoWorld : World Int (Int × Int × Int) Str Unit where
  file := fun p => if p = ['i'] then some [] else none
  canSave := fun _ => true
  utf8 := fun s => s.map (fun c => UInt8.ofNat c.toNat)
  fromUtf8 := fun bs => bs.map (fun b => Char.ofNat b.toNat)
  uni := id
  config := fun _ => some ⟨['i'], ['o', ' '], [], "Sed ".toList, 1, 1, 1, false, false, false, false, false, false, false⟩
  doc := fun _ => none
  constraints := fun _ => .ok []
  enc := ⟨id, fun v => v = 0, some, [], id⟩
  marshal := fun _ => []
  simplify := fun _ ls _ _ _ => .ok (ls.map (fun l => ⟨l.id, l.props, []⟩))

example : main demoWorld ['-'] ['-'] = .exit 13 ∧ main demoWorld ['-', '-'] ['x'] = .exit 13 ∧ main demoWorld "e30=".toList ['-'] = .saved ['o'] [] := by
  refine ⟨by decide +kernel, by decide +kernel, by decide +kernel⟩

end Verif.Io
