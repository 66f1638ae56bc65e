import Verif.Lemmas.Text
import Mathlib.Data.List.Forall2

/-!
C40 identifiers, C43 reading the input file, C44 the line reader, C54 base64.
-/

namespace Verif.Text

/-! ### C40 -/

theorem digitRuns_digits (d : Str) (hd : ∀ c ∈ d, c.isDigit = true) : ∀ (cur s : Str), digitRuns cur (d ++ s) = digitRuns (cur ++ d) s := by
  induction d with
  | nil => intro cur s; simp
  | cons c d ih =>
    intro cur s
    rw [List.cons_append, digitRuns, if_pos (hd c (List.mem_cons_self ..)), ih (fun c hc => hd c (List.mem_cons_of_mem _ hc))]
    simp

/-- **C40**: encoding the number of the input line and of the part into an identifier and decoding it gives the two numbers back, for all
numbers that fit a Go `int`. -/
theorem C40_round_trip (index pos : Nat) (hi : index ≤ maxInt) (hp : pos ≤ maxInt) : indexPos (composeId index pos) = .ok (index, pos) := by
  have d1 : ∀ c ∈ Nat.toDigits 10 index, c.isDigit = true := fun c hc => Nat.isDigit_of_mem_toDigits (by decide) (by decide) hc
  have d2 : ∀ c ∈ Nat.toDigits 10 pos, c.isDigit = true := fun c hc => Nat.isDigit_of_mem_toDigits (by decide) (by decide) hc
  have n1 : Nat.toDigits 10 index ≠ [] := Nat.toDigits_ne_nil
  have n2 : Nat.toDigits 10 pos ≠ [] := Nat.toDigits_ne_nil
  have h : digitRuns [] (composeId index pos) = [Nat.toDigits 10 index, Nat.toDigits 10 pos] := by
    unfold composeId
    rw [List.append_assoc, List.append_assoc]
    rw [show digitRuns [] (['i', 'd', 'x', ':'] ++ (Nat.toDigits 10 index ++ (['-', 'p', 'o', 's', ':'] ++ Nat.toDigits 10 pos)))
      = digitRuns [] (Nat.toDigits 10 index ++ (['-', 'p', 'o', 's', ':'] ++ Nat.toDigits 10 pos)) from rfl]
    rw [digitRuns_digits _ d1, List.nil_append]
    rw [show digitRuns (Nat.toDigits 10 index) (['-', 'p', 'o', 's', ':'] ++ Nat.toDigits 10 pos)
      = if Nat.toDigits 10 index = [] then digitRuns [] (['p', 'o', 's', ':'] ++ Nat.toDigits 10 pos)
        else Nat.toDigits 10 index :: digitRuns [] (['p', 'o', 's', ':'] ++ Nat.toDigits 10 pos) from rfl, if_neg n1]
    rw [show digitRuns [] (['p', 'o', 's', ':'] ++ Nat.toDigits 10 pos) = digitRuns [] (Nat.toDigits 10 pos ++ []) from by rw [List.append_nil]; rfl]
    rw [digitRuns_digits _ d2, List.nil_append, digitRuns, if_neg n2]
  simp only [indexPos, h, List.getElem?_cons_zero, List.getElem?_cons_succ, Res.ofOption_some, Res.ok_bind, Res.pure_eq, atoi,
    Nat.ofDigitChars_ten_toDigits, Nat.min_eq_left hi, Nat.min_eq_left hp]

/-- the identifiers of different parts differ -/
theorem C40_injective (i p i' p' : Nat) (hi : i ≤ maxInt) (hp : p ≤ maxInt) (hi' : i' ≤ maxInt) (hp' : p' ≤ maxInt)
    (h : composeId i p = composeId i' p') : i = i' ∧ p = p' := by
  have h1 := C40_round_trip i p hi hp
  rw [h, C40_round_trip i' p' hi' hp'] at h1
  injection h1 with h1
  exact ⟨(Prod.mk.inj h1).1.symm, (Prod.mk.inj h1).2.symm⟩

/-- case: line 12, part 305 -/
example : composeId 12 305 = "idx:12-pos:305".toList ∧ indexPos "idx:12-pos:305".toList = .ok (12, 305) := by decide +kernel

/-! ### C43 -/

/-- `ls` are the lines of `content` -/
def Lines (content : Str) (ls : List Str) : Prop := ls ≠ [] ∧ content = ['\n'].intercalate ls ∧ ∀ l ∈ ls, '\n' ∉ l

/-- `t` is `s` without the white space at both ends -/
def Trimmed (s t : Str) : Prop :=
  ∃ a b, s = a ++ t ++ b ∧ (∀ c ∈ a, isSpace c = true) ∧ (∀ c ∈ b, isSpace c = true) ∧
    (∀ h : t ≠ [], isSpace (t.head h) = false ∧ isSpace (t.getLast h) = false)

/-- the line holds something besides white space -/
def nonBlank (l : Str) : Bool := l.any (fun c => !isSpace c)

theorem trimmed_trim (s : Str) : Trimmed s (trim s) := by
  obtain ⟨a, b, h, ha, hb⟩ := trim_decomp s
  exact ⟨a, b, h, ha, hb, fun hn => ⟨trim_head s hn, trim_getLast s hn⟩⟩

theorem nonBlank_iff (l : Str) : nonBlank l = true ↔ trim l ≠ [] := by
  rw [Ne, trim_eq_nil_iff, nonBlank, List.any_eq_true]
  constructor
  · rintro ⟨c, hc, h⟩ hh
    rw [hh c hc] at h; cases h
  · intro h
    by_contra hn
    exact h (fun c hc => by
      cases hs : isSpace c with
      | true => rfl
      | false => exact absurd ⟨c, hc, by rw [hs]; rfl⟩ hn)

theorem intercalate_cons_cons (sep l l2 : Str) (ls : List Str) : sep.intercalate (l :: l2 :: ls) = l ++ (sep ++ sep.intercalate (l2 :: ls)) := by
  simp [List.intercalate, List.intersperse]

theorem splitNl_intercalate (ls : List Str) (hne : ls ≠ []) (h : ∀ l ∈ ls, '\n' ∉ l) : splitNl (['\n'].intercalate ls) = ls := by
  induction ls with
  | nil => exact absurd rfl hne
  | cons l ls ih =>
    cases ls with
    | nil =>
      rw [show ['\n'].intercalate [l] = l by simp [List.intercalate]]
      exact splitNl_line l (h l (List.mem_cons_self ..))
    | cons l2 ls =>
      rw [intercalate_cons_cons, List.singleton_append, splitNl_cons _ _ (h l (List.mem_cons_self ..)),
        ih (by simp) (fun x hx => h x (List.mem_cons_of_mem _ hx))]

theorem keepLines_forall₂ (ls : List Str) : List.Forall₂ Trimmed (ls.filter nonBlank) (keepLines ls) := by
  induction ls with
  | nil => exact .nil
  | cons l ls ih =>
    rw [keepLines, List.filter_cons]
    by_cases h : trim l = []
    · have : nonBlank l = false := by
        cases hb : nonBlank l with
        | false => rfl
        | true => exact absurd h ((nonBlank_iff l).1 hb)
      simp only [h, if_true, this, Bool.false_eq_true, if_false]
      exact ih
    · have : nonBlank l = true := (nonBlank_iff l).2 h
      simp only [h, if_false, this, if_true]
      exact .cons (trimmed_trim l) ih

/-- every text has lines -/
theorem lines_exist (content : Str) : ∃ ls, Lines content ls := by
  induction content with
  | nil => exact ⟨[[]], by simp, rfl, by simp⟩
  | cons c cs ih =>
    obtain ⟨ls, hne, hc, hl⟩ := ih
    by_cases h : c = '\n'
    · refine ⟨[] :: ls, by simp, ?_, ?_⟩
      · cases ls with
        | nil => exact absurd rfl hne
        | cons l ls => rw [intercalate_cons_cons, ← hc, h]; rfl
      · intro l hm
        rcases List.mem_cons.1 hm with rfl | hm
        · simp
        · exact hl l hm
    · cases ls with
      | nil => exact absurd rfl hne
      | cons l ls =>
        refine ⟨(c :: l) :: ls, by simp, ?_, ?_⟩
        · cases ls with
          | nil => rw [hc]; simp [List.intercalate]
          | cons l2 ls => rw [intercalate_cons_cons] at hc ⊢; rw [hc]; rfl
        · intro x hm
          rcases List.mem_cons.1 hm with rfl | hm
          · intro hx
            rcases List.mem_cons.1 hx with hx | hx
            · exact h hx.symm
            · exact hl l (List.mem_cons_self ..) hx
          · exact hl x (List.mem_cons_of_mem _ hm)

/-- **C43**: for every file contents, the lines that are read are exactly the non-blank lines, trimmed, in order. -/
theorem C43_lines (content : Str) (ls : List Str) (h : Lines content ls) : List.Forall₂ Trimmed (ls.filter nonBlank) (readJsonFile content) := by
  rw [readJsonFile_eq, h.2.1, splitNl_intercalate ls h.1 h.2.2]
  exact keepLines_forall₂ ls

/-- **C43**: a newline at the end of the file makes no difference. -/
theorem C43_last_newline (content : Str) : readJsonFile (content ++ ['\n']) = readJsonFile content := by
  rw [readJsonFile_eq, readJsonFile_eq, keepLines_trail]
  intro c hc; simp only [List.mem_singleton] at hc; subst hc; rfl

/-- case: blank lines in front, between and behind; the last line is not terminated -/
example : Lines "\n {1} \n\t\n{2}".toList ["".toList, " {1} ".toList, "\t".toList, "{2}".toList] ∧
    readJsonFile "\n {1} \n\t\n{2}".toList = ["{1}".toList, "{2}".toList] := by
  refine ⟨⟨by decide, by decide +kernel, by decide +kernel⟩, by decide +kernel⟩

/-! ### C44 -/

/-- **C44, exactly what is delivered**: the line reader calls its callback for the non-blank lines among all lines but the last, trimmed, in
order; the last line (the part behind the last newline) is never delivered. -/
theorem C44_delivered {Err : Type} (e : Err) (content : Str) (ls : List Str) (h : Lines content ls) :
    List.Forall₂ Trimmed (ls.dropLast.filter nonBlank) (readlinesFromReader content e).1 := by
  obtain ⟨hne, rfl, hl⟩ := h
  have key : ∀ ls : List Str, ls ≠ [] → (∀ l ∈ ls, '\n' ∉ l) → (readlines e [] (['\n'].intercalate ls)).1 = keepLines ls.dropLast := by
    intro ls
    induction ls with
    | nil => intro h; exact absurd rfl h
    | cons l ls ih =>
      intro _ hl
      cases ls with
      | nil =>
        have h1 := readlines_append e l (hl l (List.mem_cons_self ..)) [] []
        rw [List.append_nil] at h1
        rw [show ['\n'].intercalate [l] = l by simp [List.intercalate], h1]
        rfl
      | cons l2 ls =>
        have ih := ih (by simp) (fun x hx => hl x (List.mem_cons_of_mem _ hx))
        rw [intercalate_cons_cons, readlines_append e l (hl l (List.mem_cons_self ..)), List.nil_append, List.singleton_append, readlines, if_pos rfl,
          List.dropLast_cons_of_ne_nil (by simp), keepLines]
        have h2 : trim (l ++ ['\n']) = trim l := trim_append_spaces l ['\n'] (by
          intro c hc; simp only [List.mem_singleton] at hc; subst hc; rfl)
        simp only [h2]
        by_cases h3 : trim l = []
        · rw [if_neg (by rw [h3]; decide), if_pos h3]; exact ih
        · rw [if_pos (List.length_pos_iff.2 h3), if_neg h3]; exact congrArg _ ih
  unfold readlinesFromReader
  rw [key ls hne hl]
  exact keepLines_forall₂ _

/-- **C44 is violated**: some non-blank line is not delivered when the file does not end with a newline. -/
theorem C44_refuted : ∃ (content : Str) (ls : List Str), Lines content ls ∧ (ls.filter nonBlank).length ≠ (readlinesFromReader content ()).1.length :=
  ⟨"POINT (1 1)\nPOINT (2 2)".toList, ["POINT (1 1)".toList, "POINT (2 2)".toList], ⟨by decide, by decide +kernel, by decide +kernel⟩, by decide +kernel⟩

/-- **C44 is violated**: success is never reported, the returned error is never nil. -/
theorem C44_never_success {Err : Type} (e : Err) (content : Str) : (readlinesFromReader content e).2 ≠ none := by
  unfold readlinesFromReader; rw [readlines_err]; exact fun h => by cases h

/-- **C44, partial**: when the file ends with a newline every non-blank line is delivered (missing: an unterminated last line, and the
report of success). -/
theorem C44_terminated_partial {Err : Type} (e : Err) (content : Str) (ls : List Str) (h : Lines content ls) :
    List.Forall₂ Trimmed (ls.filter nonBlank) (readlinesFromReader (content ++ ['\n']) e).1 := by
  have h2 : Lines (content ++ ['\n']) (ls ++ [[]]) := by
    obtain ⟨hne, rfl, hl⟩ := h
    refine ⟨by simp, ?_, ?_⟩
    · have key : ∀ ls : List Str, ls ≠ [] → ['\n'].intercalate ls ++ ['\n'] = ['\n'].intercalate (ls ++ [[]]) := by
        intro ls
        induction ls with
        | nil => intro h; exact absurd rfl h
        | cons l ls ih =>
          intro _
          cases ls with
          | nil => simp [List.intercalate, List.intersperse]
          | cons l2 ls =>
            rw [List.cons_append, List.cons_append, intercalate_cons_cons, intercalate_cons_cons, ← List.cons_append, ← ih (by simp)]
            simp
      exact key ls hne
    · intro l hm
      rcases List.mem_append.1 hm with hm | hm
      · exact hl l hm
      · simp only [List.mem_singleton] at hm; subst hm; simp
  have h3 := C44_delivered e _ _ h2
  rwa [List.dropLast_concat] at h3

/-- what the two readers of geometry files return: the geometries of the delivered lines, always with an error -/
theorem C44_readWKT {Err G : Type} (accept : Str → Bool) (read : Str → List G) (content : Str) (e : Err) :
    (readWKT accept read content e).2 ≠ none := C44_never_success e content

/-- what the two readers of geometry files return: for every terminated non-blank line whose type is accepted its geometries, in order, nothing for the
other lines -/
theorem C44_geometries {Err G : Type} (accept : Str → Bool) (read : Str → List G) (content : Str) (e : Err) (ls : List Str) (h : Lines content ls) :
    ∃ ts : List Str, List.Forall₂ Trimmed (ls.dropLast.filter nonBlank) ts ∧ (readWKT accept read content e).1 = (ts.filter accept).flatMap read := by
  refine ⟨_, C44_delivered e content ls h, ?_⟩
  unfold readWKT
  simp only []
  generalize (readlinesFromReader content e).1 = ts
  induction ts with
  | nil => rfl
  | cons t ts ih =>
    rw [List.flatMap_cons, ih, List.filter_cons]
    split
    · rw [List.flatMap_cons]
    · rw [List.nil_append]

/-- case: a line of another type between two accepted ones -/
example : (readWKT (G := Str) (fun l => l.head? = some 'L') (fun l => [l]) "L1\nP2\n\n L3\n".toList ()).1 = ["L1".toList, "L3".toList] := by decide +kernel

/-- **C44 is violated in the readers of geometry files**: a file with one geometry and no newline gives no geometry -/
theorem C44_readWKT_refuted : ∃ (content : Str), (readWKT (G := Str) (fun _ => true) (fun l => [l]) content ()).1 = [] ∧
    nonBlank content = true := ⟨"LINESTRING (0 0, 1 1)".toList, by decide +kernel, by decide +kernel⟩

/-- case: the hypothesis of the partial theorem -/
example : (readlinesFromReader "a\n\n b\n".toList ()).1 = ["a".toList, "b".toList] := by decide +kernel

/-! ### C54 -/

theorem b64Val_b64Char : ∀ n < 64, b64Val (b64Char n) = some n := by decide +kernel
theorem b64Char_ne_eq : ∀ n < 64, b64Char n ≠ '=' := by decide +kernel
theorem b64Char_plain : ∀ n < 64, isSpace (b64Char n) = false ∧ b64Char n ≠ '\r' ∧ b64Char n ≠ '\n' := by decide +kernel

theorem quad_bytes (a b c : UInt8) :
    quad (a.toNat / 4) (a.toNat % 4 * 16 + b.toNat / 16) (b.toNat % 16 * 4 + c.toNat / 64) (c.toNat % 64) = [a, b, c] := by
  have ha := a.toNat_lt
  have hb := b.toNat_lt
  have hc := c.toNat_lt
  unfold quad
  rw [show a.toNat / 4 * 4 + (a.toNat % 4 * 16 + b.toNat / 16) / 16 = a.toNat by omega,
    show (a.toNat % 4 * 16 + b.toNat / 16) % 16 * 16 + (b.toNat % 16 * 4 + c.toNat / 64) / 4 = b.toNat by omega,
    show (b.toNat % 16 * 4 + c.toNat / 64) % 4 * 64 + c.toNat % 64 = c.toNat by omega]
  simp

theorem decodeQuads_encode64 (bs : List UInt8) : decodeQuads (encode64 bs) = some bs := by
  fun_induction encode64 bs with
  | case1 => rfl
  | case2 a =>
    have ha := a.toNat_lt
    rw [decodeQuads, b64Val_b64Char _ (by omega), b64Val_b64Char _ (by omega)]
    simp only [if_true, and_self]
    have := quad_bytes a 0 0
    simp only [UInt8.toNat_zero, Nat.zero_div, Nat.add_zero, Nat.zero_mod, Nat.zero_mul] at this
    rw [this]; rfl
  | case3 a b =>
    have ha := a.toNat_lt
    have hb := b.toNat_lt
    rw [decodeQuads, b64Val_b64Char _ (by omega), b64Val_b64Char _ (by omega)]
    simp only [if_neg (b64Char_ne_eq _ (show b.toNat % 16 * 4 < 64 by omega)), b64Val_b64Char _ (show b.toNat % 16 * 4 < 64 by omega), if_true]
    have := quad_bytes a b 0
    simp only [UInt8.toNat_zero, Nat.zero_div, Nat.add_zero, Nat.zero_mod] at this
    rw [this]; rfl
  | case4 a b c rest ih =>
    have ha := a.toNat_lt
    have hb := b.toNat_lt
    have hc := c.toNat_lt
    rw [decodeQuads, b64Val_b64Char _ (by omega), b64Val_b64Char _ (by omega)]
    simp only [if_neg (b64Char_ne_eq _ (show b.toNat % 16 * 4 + c.toNat / 64 < 64 by omega)),
      b64Val_b64Char _ (show b.toNat % 16 * 4 + c.toNat / 64 < 64 by omega), if_neg (b64Char_ne_eq _ (show c.toNat % 64 < 64 by omega)),
      b64Val_b64Char _ (show c.toNat % 64 < 64 by omega), ih, Option.map_some, quad_bytes]
    rfl

theorem encode64_plain (bs : List UInt8) : ∀ c ∈ encode64 bs, isSpace c = false ∧ c ≠ '\r' ∧ c ≠ '\n' := by
  fun_induction encode64 bs with
  | case1 => simp
  | case2 a =>
    have ha := a.toNat_lt
    intro c hc
    simp only [List.mem_cons, List.not_mem_nil, or_false] at hc
    rcases hc with rfl | rfl | rfl | rfl
    · exact b64Char_plain _ (by omega)
    · exact b64Char_plain _ (by omega)
    · decide
    · decide
  | case3 a b =>
    have ha := a.toNat_lt
    have hb := b.toNat_lt
    intro c hc
    simp only [List.mem_cons, List.not_mem_nil, or_false] at hc
    rcases hc with rfl | rfl | rfl | rfl
    · exact b64Char_plain _ (by omega)
    · exact b64Char_plain _ (by omega)
    · exact b64Char_plain _ (by omega)
    · decide
  | case4 a b d rest ih =>
    have ha := a.toNat_lt
    have hb := b.toNat_lt
    have hd := d.toNat_lt
    intro c hc
    simp only [List.mem_cons] at hc
    rcases hc with rfl | rfl | rfl | rfl | hc
    · exact b64Char_plain _ (by omega)
    · exact b64Char_plain _ (by omega)
    · exact b64Char_plain _ (by omega)
    · exact b64Char_plain _ (by omega)
    · exact ih c hc

/-- **C54**: decoding the encoding gives the bytes back, for all byte strings, also when the encoding was trimmed on the way. -/
theorem C54_round_trip (bs : List UInt8) : decode64 (encode64 bs) = .ok bs ∧ decode64 (trim (encode64 bs)) = .ok bs := by
  have h1 : trim (encode64 bs) = encode64 bs := trim_id _ (fun c hc => (encode64_plain bs c hc).1)
  have h2 : decode64 (encode64 bs) = .ok bs := by
    unfold decode64
    rw [List.filter_eq_self.2 (fun c hc => by simpa using (encode64_plain bs c hc).2), decodeQuads_encode64]
    rfl
  exact ⟨h2, by rw [h1]; exact h2⟩

theorem b64Char_b64Val {c : Char} {n : Nat} (h : b64Val c = some n) : n < 64 ∧ b64Char n = c := by
  have hc := Char.ofNat_toNat c
  unfold b64Val at h
  unfold b64Char
  split at h
  · simp only [Option.some.injEq] at h
    refine ⟨by omega, ?_⟩
    rw [if_pos (by omega), ← hc]; congr 1; omega
  · split at h
    · simp only [Option.some.injEq] at h
      refine ⟨by omega, ?_⟩
      rw [if_neg (by omega), if_pos (by omega), ← hc]; congr 1; omega
    · split at h
      · simp only [Option.some.injEq] at h
        refine ⟨by omega, ?_⟩
        rw [if_neg (by omega), if_neg (by omega), if_pos (by omega), ← hc]; congr 1; omega
      · split at h
        · rename_i e; simp only [Option.some.injEq] at h; subst h; exact ⟨by omega, by rw [e]; decide⟩
        · split at h
          · rename_i e; simp only [Option.some.injEq] at h; subst h; exact ⟨by omega, by rw [e]; decide⟩
          · cases h

/-- two texts that are equal, or differ only in the last digit before the padding -/
def SameDigits (t enc : Str) : Prop :=
  t = enc ∨ ∃ (pre : Str) (x y : Char) (pad : Nat), 1 ≤ pad ∧ pad ≤ 2 ∧ t = pre ++ x :: List.replicate pad '=' ∧ enc = pre ++ y :: List.replicate pad '='

theorem decodeQuads_sound (t : Str) : ∀ bs, decodeQuads t = some bs → SameDigits t (encode64 bs) := by
  fun_induction decodeQuads t with
  | case1 => intro bs h; simp only [Option.some.injEq] at h; subst h; exact .inl rfl
  | case2 p q s rest v w hw hv hs =>
    intro bs h
    simp only [Option.some.injEq, quad, List.take_succ_cons, List.take_zero] at h
    subst h
    obtain ⟨v1, v2⟩ := b64Char_b64Val hv
    obtain ⟨w1, w2⟩ := b64Char_b64Val hw
    obtain ⟨rfl, rfl⟩ := hs
    have e : (UInt8.ofNat (v * 4 + w / 16)).toNat = v * 4 + w / 16 := by rw [UInt8.toNat_ofNat']; omega
    refine .inr ⟨[p], q, b64Char (w / 16 * 16), 2, by omega, by omega, rfl, ?_⟩
    rw [encode64, e, show (v * 4 + w / 16) / 4 = v by omega, show (v * 4 + w / 16) % 4 * 16 = w / 16 * 16 by omega, v2]; rfl
  | case3 => intro bs h; cases h
  | case4 => intro bs h; cases h
  | case5 p q r v w hw hv hr x hx =>
    intro bs h
    simp only [Option.some.injEq, quad, List.take_succ_cons, List.take_zero] at h
    subst h
    obtain ⟨v1, v2⟩ := b64Char_b64Val hv
    obtain ⟨w1, w2⟩ := b64Char_b64Val hw
    obtain ⟨x1, x2⟩ := b64Char_b64Val hx
    have e1 : (UInt8.ofNat (v * 4 + w / 16)).toNat = v * 4 + w / 16 := by rw [UInt8.toNat_ofNat']; omega
    have e2 : (UInt8.ofNat (w % 16 * 16 + x / 4)).toNat = w % 16 * 16 + x / 4 := by rw [UInt8.toNat_ofNat']; omega
    refine .inr ⟨[p, q], r, b64Char (x / 4 * 4), 1, by omega, by omega, rfl, ?_⟩
    rw [encode64, e1, e2, show (v * 4 + w / 16) / 4 = v by omega, show (v * 4 + w / 16) % 4 * 16 + (w % 16 * 16 + x / 4) / 16 = w by omega,
      show (w % 16 * 16 + x / 4) % 16 * 4 = x / 4 * 4 by omega, v2, w2]; rfl
  | case6 => intro bs h; cases h
  | case7 => intro bs h; cases h
  | case8 p q r s rest v w hw hv hr x hx hs y hy ih =>
    intro bs h
    obtain ⟨b, hb, hb'⟩ := Option.map_eq_some_iff.1 h
    subst hb'
    obtain ⟨v1, v2⟩ := b64Char_b64Val hv
    obtain ⟨w1, w2⟩ := b64Char_b64Val hw
    obtain ⟨x1, x2⟩ := b64Char_b64Val hx
    obtain ⟨y1, y2⟩ := b64Char_b64Val hy
    have e1 : (UInt8.ofNat (v * 4 + w / 16)).toNat = v * 4 + w / 16 := by rw [UInt8.toNat_ofNat']; omega
    have e2 : (UInt8.ofNat (w % 16 * 16 + x / 4)).toNat = w % 16 * 16 + x / 4 := by rw [UInt8.toNat_ofNat']; omega
    have e3 : (UInt8.ofNat (x % 4 * 64 + y)).toNat = x % 4 * 64 + y := by rw [UInt8.toNat_ofNat']; omega
    have e : encode64 (quad v w x y ++ b) = p :: q :: r :: s :: encode64 b := by
      rw [quad, List.cons_append, List.cons_append, List.cons_append, List.nil_append, encode64, e1, e2, e3, show (v * 4 + w / 16) / 4 = v by omega,
        show (v * 4 + w / 16) % 4 * 16 + (w % 16 * 16 + x / 4) / 16 = w by omega,
        show (w % 16 * 16 + x / 4) % 16 * 4 + (x % 4 * 64 + y) / 64 = x by omega, show (x % 4 * 64 + y) % 64 = y by omega, v2, w2, x2, y2]
    rw [e]
    rcases ih b hb with h' | ⟨pre, c, d, pad, p1, p2, h1, h2⟩
    · exact .inl (by rw [← h'])
    · exact .inr ⟨p :: q :: r :: s :: pre, c, d, pad, p1, p2, by rw [h1]; rfl, by rw [h2]; rfl⟩
  | case9 => intro bs h; cases h
  | case10 => intro bs h; cases h

/-- **C54**: text that is accepted is, apart from line ends, the encoding of the bytes it decodes to; at most the last digit before the padding differs (in
bits that stand for no byte).  So no text behind the padding, no foreign character and no truncated group is accepted. -/
theorem C54_accepted (s : Str) (bs : List UInt8) (h : decode64 s = .ok bs) :
    SameDigits (s.filter (fun c => c ≠ '\r' ∧ c ≠ '\n')) (encode64 bs) := by
  unfold decode64 at h
  cases hd : decodeQuads (s.filter (fun c => c ≠ '\r' ∧ c ≠ '\n')) with
  | none => rw [hd] at h; cases h
  | some b =>
    rw [hd] at h
    cases h
    exact decodeQuads_sound _ _ hd

/-- cases: surplus bits are accepted; text behind the padding, a missing digit and a foreign character are not -/
example : decode64 "aGVsbG9=".toList = .ok [104, 101, 108, 108, 111] ∧ decode64 "aA==aA==".toList = .panic ∧ decode64 "aGVsbG8".toList = .panic ∧
    decode64 "aGV_bG8=".toList = .panic := by decide +kernel

/-- case -/
example : encode64 [104, 101, 108, 108, 111] = "aGVsbG8=".toList ∧ decode64 "aGVs\nbG8=".toList = .ok [104, 101, 108, 108, 111] := by
  decide +kernel

end Verif.Text
