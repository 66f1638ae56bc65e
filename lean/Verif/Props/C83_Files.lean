import Verif.Model.Toml
import Verif.Props.C40_Text
import Verif.Props.C46_Cli

/-! C83: geometry files written and read back, also after a failed write.  C84: constraints and lines from TOML documents. -/

namespace Verif.Io

open Verif.Text

/-! ### C83 -/

/-- The texts of lines: each is one line that is not blank, and its reader gives the line back, white space at the ends ignored. -/
structure Codec {L : Type} (writer : L → Str) (accept : Str → Bool) (read : Str → List L) : Prop where
  oneLine : ∀ o, '\n' ∉ writer o
  text : ∀ o, nonBlank (writer o) = true
  back : ∀ o t, Trimmed (writer o) t → accept t = true ∧ read t = [o]

section
variable {L Err Err' : Type} {writer : L → Str} {accept : Str → Bool} {read : Str → List L}

/-- the text of the whole file -/
def fileText (writer : L → Str) (coords : List L) : Str := coords.flatMap (fun o => writer o ++ ['\n'])

theorem writeLoop_eq (fail : Nat → Option (Nat × Err)) : ∀ (coords : List L) (k : Nat),
    (∃ n, (writeLoop writer fail k coords).1 = (fileText writer coords).take n) ∧
    ((writeLoop writer fail k coords).2 = none → (writeLoop writer fail k coords).1 = fileText writer coords) ∧
    ((writeLoop writer fail k coords).2 = none ↔ ∀ i < coords.length, fail (k + i) = none)
  | [], k => ⟨⟨0, rfl⟩, fun _ => rfl, by simp [writeLoop]⟩
  | o :: os, k => by
    obtain ⟨⟨n, h1⟩, h2, h3⟩ := writeLoop_eq fail os (k + 1)
    unfold writeLoop
    cases hf : fail k with
    | some q =>
      obtain ⟨m, e⟩ := q
      refine ⟨⟨min m (writer o ++ ['\n']).length, ?_⟩, by simp, ?_⟩
      · simp only [fileText, List.flatMap_cons]
        rw [List.take_append_of_le_length (Nat.min_le_right _ _), List.take_eq_take_min]
      · simp only [reduceCtorEq, false_iff, not_forall]
        exact ⟨0, by simp, by simp [hf]⟩
    | none =>
      refine ⟨⟨(writer o ++ ['\n']).length + n, ?_⟩, fun h => ?_, ?_⟩
      · simp only [fileText, List.flatMap_cons, h1]
        rw [List.take_length_add_append]
      · simp only [fileText, List.flatMap_cons, h2 h]
      · rw [h3]
        constructor
        · intro h i hi
          cases i with
          | zero => exact hf
          | succ i => have := h i (by simpa using hi); rwa [show k + (i + 1) = k + 1 + i by omega]
        · intro h i hi
          have := h (i + 1) (by simpa using hi)
          rwa [show k + (i + 1) = k + 1 + i by omega] at this

theorem readWKT_line (hc : Codec writer accept read) (e : Err') (o : L) (s : Str) :
    (readWKT accept read (writer o ++ ['\n'] ++ s) e).1 = o :: (readWKT accept read s e).1 := by
  have ht : trim (writer o ++ ['\n']) = trim (writer o) := trim_append_spaces _ _ (by
    intro c hc; simp only [List.mem_singleton] at hc; subst hc; rfl)
  have hne : trim (writer o) ≠ [] := (nonBlank_iff _).1 (hc.text o)
  obtain ⟨h1, h2⟩ := hc.back o _ (trimmed_trim _)
  unfold readWKT readlinesFromReader
  rw [List.append_assoc, readlines_append e (writer o) (hc.oneLine o), List.nil_append, List.singleton_append, readlines, if_pos rfl]
  simp only [ht]
  rw [if_pos (List.length_pos_iff.2 hne)]
  simp only [List.flatMap_cons, h1, if_true, h2, List.singleton_append]

theorem readWKT_part (e : Err') (s : Str) (h : '\n' ∉ s) : (readWKT accept read s e).1 = [] := by
  unfold readWKT readlinesFromReader
  have h1 := readlines_append e s h [] []
  rw [List.append_nil] at h1
  rw [h1]
  rfl

/-- **C83, a file cut off anywhere**: reading back the first `n` characters of the file gives the first `k` lines, unchanged and in order, where `k` is the
number of lines that are completely within these characters, their newline included.  A line that is cut off is never read as a shorter one. -/
theorem C83_cut (hc : Codec writer accept read) (e : Err') : ∀ (coords : List L) (n : Nat), ∃ k ≤ coords.length,
    (readWKT accept read ((fileText writer coords).take n) e).1 = coords.take k ∧
    (fileText writer (coords.take k)).length ≤ n ∧ (k < coords.length → n < (fileText writer (coords.take (k + 1))).length)
  | [], n => ⟨0, Nat.le_refl _, by simp [fileText, readWKT_part], by simp [fileText], by simp⟩
  | o :: os, n => by
    by_cases hn : n < (writer o ++ ['\n']).length
    · refine ⟨0, Nat.zero_le _, ?_, by simp [fileText], fun _ => by simpa [fileText] using hn⟩
      have hn' : n ≤ (writer o).length := by simp only [List.length_append, List.length_singleton] at hn; omega
      simp only [fileText, List.flatMap_cons, List.take_zero]
      rw [List.append_assoc, List.take_append_of_le_length hn']
      exact readWKT_part e _ (fun hm => hc.oneLine o (List.mem_of_mem_take hm))
    · obtain ⟨k, hk, h1, h2, h3⟩ := C83_cut hc e os (n - (writer o ++ ['\n']).length)
      have hn := Nat.le_of_not_lt hn
      refine ⟨k + 1, by simpa using hk, ?_, ?_, ?_⟩
      · simp only [fileText, List.flatMap_cons]
        rw [List.take_append, List.take_of_length_le hn, readWKT_line hc, List.take_succ_cons]
        exact congrArg _ h1
      · rw [List.take_succ_cons, fileText, List.flatMap_cons, List.length_append]
        simp only [fileText] at h2
        omega
      · intro hl
        have h3 := h3 (by simpa using hl)
        rw [List.take_succ_cons, fileText, List.flatMap_cons, List.length_append]
        simp only [fileText] at h3
        omega

/-- **C83, written without error**: reading the file back gives the lines that were written, all of them and in order; no write failed. -/
theorem C83_round_trip (hc : Codec writer accept read) (fail : Nat → Option (Nat × Err)) (e : Err') (coords : List L)
    (h : (writeCoords writer fail coords).2 = none) :
    (readWKT accept read (writeCoords writer fail coords).1 e).1 = coords ∧ ∀ i < coords.length, fail i = none := by
  have ⟨h2, h3⟩ := (writeLoop_eq (writer := writer) fail coords 0).2
  refine ⟨?_, fun i hi => by simpa using h3.1 h i hi⟩
  unfold writeCoords at h ⊢
  rw [h2 h]
  clear h h2 h3
  induction coords with
  | nil => exact readWKT_part e _ (by simp [fileText])
  | cons o os ih => rw [fileText, List.flatMap_cons, readWKT_line hc]; exact congrArg _ ih

/-- **C83, after a failed write**: an error is reported exactly when a write failed that was tried, and whatever is in the file is read back as a first part of the
lines that were written: nothing altered, nothing invented, nothing out of order. -/
theorem C83_failed (hc : Codec writer accept read) (fail : Nat → Option (Nat × Err)) (e : Err') (coords : List L) :
    ((writeCoords writer fail coords).2 ≠ none ↔ ∃ i < coords.length, fail i ≠ none) ∧
    (readWKT accept read (writeCoords writer fail coords).1 e).1 <+: coords := by
  obtain ⟨⟨n, h1⟩, _, h3⟩ := writeLoop_eq (writer := writer) fail coords 0
  unfold writeCoords
  refine ⟨?_, ?_⟩
  · rw [Ne, h3]
    simp [Nat.zero_add]
  · obtain ⟨k, _, h, _⟩ := C83_cut hc e coords n
    rw [h1, h]
    exact List.take_prefix _ _

/-- **C83, how much survives**: when the first write that fails is number `m`, the `m` lines before it are read back, and the line whose write failed at most if all of its
text was written. -/
theorem C83_survives (hc : Codec writer accept read) (fail : Nat → Option (Nat × Err)) (e : Err') (coords : List L) (m : Nat) (hm : m < coords.length)
    (n : Nat) (er : Err) (hf : fail m = some (n, er)) (hb : ∀ i < m, fail i = none) :
    (writeCoords writer fail coords).2 = some er ∧
    (readWKT accept read (writeCoords writer fail coords).1 e).1 = coords.take (if (writer coords[m]).length < n then m + 1 else m) := by
  have key : ∀ (m k : Nat) (coords : List L) (hm : m < coords.length), fail (k + m) = some (n, er) → (∀ i < m, fail (k + i) = none) →
      (writeLoop writer fail k coords).2 = some er ∧
      (readWKT accept read (writeLoop writer fail k coords).1 e).1 = coords.take (if (writer coords[m]).length < n then m + 1 else m) := by
    intro m
    induction m with
    | zero =>
      intro k coords hm hf _
      cases coords with
      | nil => exact absurd hm (Nat.lt_irrefl _)
      | cons o os =>
        rw [Nat.add_zero] at hf
        unfold writeLoop
        simp only [hf, true_and, List.getElem_cons_zero]
        split
        · rename_i hlt
          rw [List.take_of_length_le (by simp only [List.length_append, List.length_singleton]; omega)]
          have := readWKT_line hc e o []
          rw [List.append_nil] at this
          rw [this, readWKT_part e [] (by simp)]
          simp
        · rename_i hlt
          rw [List.take_append_of_le_length (by omega)]
          exact readWKT_part e _ (fun hm => hc.oneLine o (List.mem_of_mem_take hm))
    | succ m ih =>
      intro k coords hm hf hb
      cases coords with
      | nil => exact absurd hm (by simp)
      | cons o os =>
        have h0 : fail k = none := hb 0 (Nat.succ_pos _)
        obtain ⟨h1, h2⟩ := ih (k + 1) os (by simpa using hm) (by rw [← hf]; congr 1; omega) (fun i hi => by
          have := hb (i + 1) (by omega)
          rwa [show k + (i + 1) = k + 1 + i by omega] at this)
        unfold writeLoop
        simp only [h0]
        refine ⟨h1, ?_⟩
        rw [readWKT_line hc, h2]
        simp only [List.getElem_cons_succ]
        split <;> simp
  unfold writeCoords
  exact key m 0 coords hm (by simpa using hf) (fun i hi => by simpa using hb i hi)

/-- digits between brackets: a text with the properties asked for -/
def demoWriter (n : Nat) : Str := '(' :: List.replicate n '1' ++ [')']

theorem demo_codec : Codec demoWriter (fun t => t.head? = some '(') (fun t => [t.length - 2]) where
  oneLine o := by simp [demoWriter, List.mem_replicate]
  text o := by simp [demoWriter, nonBlank]; left; decide
  back o t h := by
    have : t = demoWriter o := by
      have h1 : trim (demoWriter o) = demoWriter o := trim_id _ (by
        intro c hc
        simp only [demoWriter, List.cons_append, List.mem_cons, List.mem_append, List.mem_replicate, List.not_mem_nil, or_false] at hc
        rcases hc with rfl | ⟨_, rfl⟩ | rfl <;> decide)
      obtain ⟨a, b, h2, ha, hb, ht⟩ := h
      have hne : t ≠ [] := by
        rintro rfl
        have hx : ('(' : Char) ∈ a ++ [] ++ b := by rw [← h2]; simp [demoWriter]
        have : isSpace '(' = true := by
          simp only [List.append_nil, List.mem_append] at hx
          rcases hx with hx | hx
          · exact ha _ hx
          · exact hb _ hx
        exact absurd this (by decide)
      have h3 := trim_unique a t b ha hb hne (ht hne).1 (ht hne).2
      rw [← h2, h1] at h3
      exact h3.symm
    subst this
    exact ⟨rfl, by simp [demoWriter]⟩

/-- case: the third of four writes fails after two characters; two lines are read back -/
example : writeCoords demoWriter (fun k => if k = 2 then some (2, ()) else none) [3, 0, 5, 1] = ("(111)\n()\n(1".toList, some ()) ∧
    (readWKT (fun t => t.head? = some '(') (fun t => [t.length - 2]) "(111)\n()\n(1".toList ()).1 = [3, 0] := by
  constructor <;> decide +kernel

end

/-! ### C84 -/

section
variable {F F32 Crd G : Type} (up : F32 → F) (ofInt : Int → F) (mk : Make F Crd G)

/-- the entry is an array of numbers, and `g` is the point made of them -/
def PointEntry (v : Val F F32) (g : G) : Prop := ∃ l, NumArr up ofInt v l ∧ mk.point l = .ok g

/-- the entry is an array of arrays of numbers, and `g` is the line made of them -/
def LineEntry (v : Val F F32) (g : G) : Prop := ∃ ls, NumArr2 up ofInt v ls ∧ mk.line ls = .ok g

/-- the value is an array of arrays of numbers, and `c` are the coordinates made of them -/
def RingEntry (v : Val F F32) (c : Crd) : Prop := ∃ ls, NumArr2 up ofInt v ls ∧ mk.coords ls = .ok c

/-- the entry is an array of rings, and `g` is the polygon made of them -/
def PolyEntry (v : Val F F32) (g : G) : Prop := ∃ es cs, v = .arr es ∧ List.Forall₂ (RingEntry up ofInt mk) es cs ∧ mk.polygon cs = .ok g

theorem bind_iff {A B : Type} (a : Res A) (f : A → Res B) (b : B) : (a >>= f) = .ok b ↔ ∃ x, a = .ok x ∧ f x = .ok b := by
  constructor
  · exact Res.bind_eq_ok.1
  · exact Res.bind_eq_ok.2

theorem forall₂_iff {A B : Type} {R S : A → B → Prop} (h : ∀ a b, R a b ↔ S a b) (as : List A) (bs : List B) : List.Forall₂ R as bs ↔ List.Forall₂ S as bs :=
  ⟨List.Forall₂.imp (fun a b => (h a b).1), List.Forall₂.imp (fun a b => (h a b).2)⟩

theorem parsePoints_iff (vs : List (Val F F32)) (gs : List G) : parsePoints up ofInt mk vs = .ok gs ↔ List.Forall₂ (PointEntry up ofInt mk) vs gs := by
  rw [loop_iff (fun v => do let p ← parsePointArray up ofInt v; mk.point p) (parsePoints up ofInt mk) rfl (fun _ _ => rfl)]
  exact forall₂_iff (fun v g => by simp only [bind_iff, parsePointArray_iff, PointEntry]) _ _

theorem parsePolylines_iff (vs : List (Val F F32)) (gs : List G) : parsePolylines up ofInt mk vs = .ok gs ↔ List.Forall₂ (LineEntry up ofInt mk) vs gs := by
  rw [loop_iff (fun v => do let p ← parseLinearArray up ofInt v; mk.line p) (parsePolylines up ofInt mk) rfl (fun _ _ => rfl)]
  exact forall₂_iff (fun v g => by simp only [bind_iff, C52_parsed, LineEntry]) _ _

theorem parseRings_iff (vs : List (Val F F32)) (cs : List Crd) : parseRings up ofInt mk vs = .ok cs ↔ List.Forall₂ (RingEntry up ofInt mk) vs cs := by
  rw [loop_iff (fun v => do let p ← parseLinearArray up ofInt v; mk.coords p) (parseRings up ofInt mk) rfl (fun _ _ => rfl)]
  exact forall₂_iff (fun v g => by simp only [bind_iff, C52_parsed, RingEntry]) _ _

theorem parsePolygon_iff (v : Val F F32) (g : G) : parsePolygon up ofInt mk v = .ok g ↔ PolyEntry up ofInt mk v g := by
  cases v with
  | arr es => simp only [parsePolygon, bind_iff, parseRings_iff, PolyEntry, Val.arr.injEq]; exact ⟨fun ⟨cs, h⟩ => ⟨es, cs, rfl, h⟩, fun ⟨_, cs, h, h2⟩ => ⟨cs, h ▸ h2⟩⟩
  | _ => simp [parsePolygon, PolyEntry]

theorem parsePolygons_iff (vs : List (Val F F32)) (gs : List G) : parsePolygons up ofInt mk vs = .ok gs ↔ List.Forall₂ (PolyEntry up ofInt mk) vs gs := by
  rw [loop_iff (parsePolygon up ofInt mk) (parsePolygons up ofInt mk) rfl (fun _ _ => rfl)]
  exact forall₂_iff (parsePolygon_iff up ofInt mk) _ _

/-- **C84, what the constraints are**: the reader succeeds exactly when every entry has the shape its table asks for, and then there is one geometry for each entry:
first the points, then the lines, then the polygons, each group in the order of the iteration. -/
theorem C84_geometries (c : ConstToml F F32) (gs : List G) : c.geometries up ofInt mk = .ok gs ↔
    ∃ ps ls qs, gs = ps ++ ls ++ qs ∧ List.Forall₂ (PointEntry up ofInt mk) c.points ps ∧ List.Forall₂ (LineEntry up ofInt mk) c.polylines ls ∧
      List.Forall₂ (PolyEntry up ofInt mk) c.polygons qs := by
  simp only [ConstToml.geometries, bind_iff, parsePoints_iff, parsePolylines_iff, parsePolygons_iff, Res.pure_eq, Res.ok.injEq]
  constructor
  · rintro ⟨ps, h1, ls, h2, qs, h3, rfl⟩; exact ⟨ps, ls, qs, rfl, h1, h2, h3⟩
  · rintro ⟨ps, ls, qs, rfl, h1, h2, h3⟩; exact ⟨ps, h1, ls, h2, qs, h3, rfl⟩

/-- the constructors of the library return or panic -/
structure Make.Ends {F Crd G : Type} (mk : Make F Crd G) : Prop where
  point : ∀ l, mk.point l ≠ .timeout
  line : ∀ l, mk.line l ≠ .timeout
  coords : ∀ l, mk.coords l ≠ .timeout
  polygon : ∀ l, mk.polygon l ≠ .timeout

theorem bind_no_timeout {A B : Type} {a : Res A} {f : A → Res B} (ha : a ≠ .timeout) (hf : ∀ x, f x ≠ .timeout) : (a >>= f) ≠ .timeout := by
  cases a with
  | ok x => exact hf x
  | panic => exact fun h => by cases h
  | timeout => exact absurd rfl ha

theorem parseLinearArray_no_timeout (v : Val F F32) : parseLinearArray up ofInt v ≠ .timeout := by
  cases v with
  | arr es => exact loop_no_timeout (parsePointArray up ofInt) (parsePointArray_no_timeout up ofInt) (parseLinearLoop up ofInt) rfl (fun _ _ => rfl) es
  | _ => simp [parseLinearArray]

theorem geometries_no_timeout (hm : mk.Ends) (c : ConstToml F F32) : c.geometries up ofInt mk ≠ .timeout := by
  refine bind_no_timeout ?_ fun _ => bind_no_timeout ?_ fun _ => bind_no_timeout ?_ fun _ => fun h => by cases h
  · exact loop_no_timeout _ (fun v => bind_no_timeout (parsePointArray_no_timeout up ofInt v) hm.point) _ rfl (fun _ _ => rfl) _
  · exact loop_no_timeout _ (fun v => bind_no_timeout (parseLinearArray_no_timeout up ofInt v) hm.line) _ rfl (fun _ _ => rfl) _
  · refine loop_no_timeout (parsePolygon up ofInt mk) (fun v => ?_) _ rfl (fun _ _ => rfl) _
    cases v with
    | arr es =>
      exact bind_no_timeout (loop_no_timeout _ (fun v => bind_no_timeout (parseLinearArray_no_timeout up ofInt v) hm.coords) (parseRings up ofInt mk) rfl
        (fun _ _ => rfl) _) hm.polygon
    | _ => simp [parsePolygon]

/-- **C84, rejected documents**: one entry of a wrong shape in any of the tables makes the whole reading panic. -/
theorem C84_rejected (hm : mk.Ends) (c : ConstToml F F32)
    (h : (∃ v ∈ c.points, ∀ g, ¬ PointEntry up ofInt mk v g) ∨ (∃ v ∈ c.polylines, ∀ g, ¬ LineEntry up ofInt mk v g) ∨
      (∃ v ∈ c.polygons, ∀ g, ¬ PolyEntry up ofInt mk v g)) : c.geometries up ofInt mk = .panic := by
  have key : ∀ {A B : Type} {R : A → B → Prop} {as : List A} {bs : List B}, List.Forall₂ R as bs → ∀ a ∈ as, ∃ b, R a b := by
    intro A B R as bs h
    induction h with
    | nil => simp
    | cons hx _ ih =>
      intro a ha
      rcases List.mem_cons.1 ha with rfl | ha
      · exact ⟨_, hx⟩
      · exact ih a ha
  cases hp : c.geometries up ofInt mk with
  | panic => rfl
  | timeout => exact absurd hp (geometries_no_timeout up ofInt mk hm c)
  | ok gs =>
    obtain ⟨ps, ls, qs, -, h1, h2, h3⟩ := (C84_geometries up ofInt mk c gs).1 hp
    rcases h with ⟨v, hv, hn⟩ | ⟨v, hv, hn⟩ | ⟨v, hv, hn⟩
    · exact absurd (key h1 v hv) (fun ⟨g, hg⟩ => hn g hg)
    · exact absurd (key h2 v hv) (fun ⟨g, hg⟩ => hn g hg)
    · exact absurd (key h3 v hv) (fun ⟨g, hg⟩ => hn g hg)

theorem forall₂_perm {A B : Type} {R : A → B → Prop} {as as' : List A} (hp : as.Perm as') : ∀ {bs : List B}, List.Forall₂ R as bs → ∃ bs', bs.Perm bs' ∧ List.Forall₂ R as' bs' := by
  induction hp with
  | nil => intro bs h; exact ⟨bs, .refl _, h⟩
  | cons a _ ih =>
    intro bs h
    cases h with
    | cons h1 h2 => obtain ⟨bs', hp, hf⟩ := ih h2; exact ⟨_, hp.cons _, .cons h1 hf⟩
  | swap a b l =>
    intro bs h
    cases h with
    | cons h1 h2 => cases h2 with
      | cons h2 h3 => exact ⟨_, .swap _ _ _, .cons h2 (.cons h1 h3)⟩
  | trans _ _ ih1 ih2 =>
    intro bs h
    obtain ⟨bs1, hp1, hf1⟩ := ih1 h
    obtain ⟨bs2, hp2, hf2⟩ := ih2 hf1
    exact ⟨bs2, hp1.trans hp2, hf2⟩

/-- **C84, order of the maps**: whatever the order in which the three maps are iterated, the same geometries come out, and they differ at most in their order. -/
theorem C84_order (c c' : ConstToml F F32) (h1 : c.points.Perm c'.points) (h2 : c.polylines.Perm c'.polylines) (h3 : c.polygons.Perm c'.polygons) (gs : List G)
    (h : c.geometries up ofInt mk = .ok gs) : ∃ gs', c'.geometries up ofInt mk = .ok gs' ∧ gs.Perm gs' := by
  obtain ⟨ps, ls, qs, rfl, f1, f2, f3⟩ := (C84_geometries up ofInt mk c gs).1 h
  obtain ⟨ps', p1, f1⟩ := forall₂_perm h1 f1
  obtain ⟨ls', p2, f2⟩ := forall₂_perm h2 f2
  obtain ⟨qs', p3, f3⟩ := forall₂_perm h3 f3
  exact ⟨ps' ++ ls' ++ qs', (C84_geometries up ofInt mk c' _).2 ⟨_, _, _, rfl, f1, f2, f3⟩, (p1.append p2).append p3⟩

/-- **C84, lines**: the table of lines is read exactly when every value is an array of arrays of numbers, and then every key has the coordinates of its own value. -/
theorem C84_input {Key : Type} (es : List (Key × Val F F32)) (out : List (Key × Crd)) : readTomlInput up ofInt mk es = .ok out ↔
    List.Forall₂ (fun e o => o.1 = e.1 ∧ RingEntry up ofInt mk e.2 o.2) es out := by
  rw [loop_iff (fun e : Key × Val F F32 => do let p ← parseLinearArray up ofInt e.2; let c ← mk.coords p; return (e.1, c)) (readTomlInput up ofInt mk) rfl (fun _ _ => rfl)]
  refine forall₂_iff (fun e o => ?_) _ _
  simp only [bind_iff, C52_parsed, RingEntry, Res.pure_eq, Res.ok.injEq]
  constructor
  · rintro ⟨ls, h1, c, h2, rfl⟩; exact ⟨rfl, ls, h1, h2⟩
  · rintro ⟨h0, ls, h1, h2⟩; exact ⟨ls, h1, o.2, h2, by rw [← h0]⟩

/-- **C84, lines, order of the map**: the keys and coordinates do not depend on the order of the iteration. -/
theorem C84_input_order {Key : Type} (es es' : List (Key × Val F F32)) (hp : es.Perm es') (out : List (Key × Crd)) (h : readTomlInput up ofInt mk es = .ok out) :
    ∃ out', readTomlInput up ofInt mk es' = .ok out' ∧ out.Perm out' := by
  obtain ⟨out', h1, h2⟩ := forall₂_perm hp ((C84_input up ofInt mk es out).1 h)
  exact ⟨out', (C84_input up ofInt mk es' out').2 h2, h1⟩

/-- constructors that keep the numbers -/
def demoMake : Make Int (List (List Int)) (Nat × List (List (List Int))) where
  point l := if l.length < 2 then .panic else .ok (0, [[l]])
  line ls := .ok (1, [ls])
  coords ls := .ok ls
  polygon cs := .ok (2, cs)

/-- case: two points, a line and a polygon of two rings; the same document with a number in place of a ring panics -/
example : (ConstToml.mk (F32 := Int) [.arr [.arr [.i64 0, .f64 1], .arr [.i64 2, .i32 3]]] [.arr [.arr [.arr [.i64 4, .i64 4]], .arr []]] [.arr [.i64 7, .f32 8], .arr [.i64 9, .i64 9]]).geometries id id demoMake
      = .ok [(0, [[[7, 8]]]), (0, [[[9, 9]]]), (1, [[[0, 1], [2, 3]]]), (2, [[[4, 4]], []])] ∧
    (ConstToml.mk (F32 := Int) [] [.arr [.i64 4]] []).geometries id id demoMake = .panic := ⟨rfl, rfl⟩

/-- case: the constructors of the example end -/
example : demoMake.Ends := ⟨fun l => by simp only [demoMake]; split <;> simp, fun _ => by simp [demoMake], fun _ => by simp [demoMake], fun _ => by simp [demoMake]⟩

end

end Verif.Io
