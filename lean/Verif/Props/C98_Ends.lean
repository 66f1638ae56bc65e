import Verif.Props.C46_Cli
import Verif.Props.C47_Pipeline


/-! C98: how a run of the program ends, exactly. -/

set_option linter.unusedSectionVars false

namespace Verif

variable {P C B K : Type} [LinearOrder B] [BoundedOrder B] [LinearOrder K] [Zero K]

namespace Io

open Verif.Text

section
variable {F Props : Type}

/-! ### the writer -/

/-- the first part of an input line in the order of the output: with several features, the part number decides, then the order in the file -/
def firstPart (b : List (Part P)) : Option (Part P) := (b.mergeSort (fun a b => a.pos ≤ b.pos)).head?

theorem outLinesFrom_append_empty (bs cs : List (List (Part P))) (hc : ∀ c ∈ cs, c = []) : ∀ i, outLinesFrom i (bs ++ cs) = outLinesFrom i bs := by
  induction bs with
  | nil =>
    induction cs with
    | nil => intro i; rfl
    | cons c cs ih =>
      intro i
      have h1 := ih (fun x hx => hc x (List.mem_cons_of_mem _ hx)) (i + 1)
      simp only [List.nil_append] at h1 ⊢
      simp only [outLinesFrom, hc c (List.mem_cons_self ..), List.map_nil, List.nil_append] at h1 ⊢
      exact h1
  | cons b bs ih => intro i; rw [List.cons_append, outLinesFrom, outLinesFrom, ih]

/-- as `Good`, with readable properties of the first part only -/
structure Good1 (lib : EncLib F P Props) (bs : List (List (Part P))) : Prop where
  ord : ∀ l, (lib.ord l).Perm l
  len : bs.length ≤ maxInt
  pos : ∀ b ∈ bs, ∀ p ∈ b, p.pos ≤ maxInt
  ne : ∀ b ∈ bs, b ≠ []

theorem dict_of (lib : EncLib F P Props) (bs : List (List (Part P))) (h : Good1 lib bs) : ∃ d, groupById (outLinesFrom 0 bs) [] = .ok d ∧
    (indices lib.ord d).length = bs.length ∧ ∀ k (hk : k < bs.length), d.get k = bs[k].map (pgOf k) := by
  have hmem : ∀ j < bs.length, ∀ p : Part P, p ∈ (bs[j]?).getD [] → decId (⟨composeId (0 + j) p.pos, p.props, p.simple⟩ : OutLine P) = (0 + j, p.pos) := by
    intro j hj p hp
    have hb : (bs[j]?).getD [] = bs[j] := by rw [List.getElem?_eq_getElem hj]; rfl
    rw [hb] at hp
    exact decId_mk _ _ _ _ (by have := h.len; omega) (h.pos _ (List.getElem_mem hj) p hp)
  have hdec : ∀ p ∈ outLinesFrom 0 bs, indexPos p.id = .ok (decId p) := by
    intro x hx
    obtain ⟨j, hj, p, hp, rfl⟩ := (mem_outLinesFrom bs 0 x).1 hx
    rw [hmem j hj p hp]
    have hb : (bs[j]?).getD [] = bs[j] := by rw [List.getElem?_eq_getElem hj]; rfl
    rw [hb] at hp
    exact C40_round_trip _ _ (by have := h.len; omega) (h.pos _ (List.getElem_mem hj) p hp)
  obtain ⟨d, h1, h2, h3, h4⟩ := groupById_spec decId _ hdec [] List.nodup_nil
  have hlen : d.length = bs.length := by
    have hp : (d.map Prod.fst).Perm (List.range bs.length) := by
      rw [List.perm_ext_iff_of_nodup h2 List.nodup_range]
      intro k
      rw [h4 k, List.mem_range]
      constructor
      · rintro (hk | ⟨x, hx, hk⟩)
        · simp at hk
        · obtain ⟨j, hj, p, hp, rfl⟩ := (mem_outLinesFrom bs 0 x).1 hx
          rw [hmem j hj p hp] at hk
          simp only at hk
          omega
      · intro hk
        have hne := h.ne _ (List.getElem_mem hk)
        obtain ⟨p, hp⟩ := List.exists_mem_of_ne_nil _ hne
        have hp' : p ∈ (bs[k]?).getD [] := by rw [List.getElem?_eq_getElem hk]; exact hp
        refine .inr ⟨_, (mem_outLinesFrom bs 0 _).2 ⟨k, hk, p, hp', rfl⟩, ?_⟩
        rw [hmem k hk p hp']; simp
    have := hp.length_eq
    rwa [List.length_map, List.length_range] at this
  refine ⟨d, h1, by rw [length_indices lib h.ord, hlen], fun k hk => ?_⟩
  rw [h3 k]
  have hf := outLinesFrom_filter bs decId 0 (fun j hj p hp => by rw [hmem j hj p hp]) k
  rw [hf, if_pos (Nat.zero_le _), Nat.sub_zero, List.getElem?_eq_getElem hk, Option.getD_some, List.map_map]
  simp only [Dict.get, List.nil_append]
  apply List.map_congr_left
  intro p hp
  have := hmem k hk p (by rw [List.getElem?_eq_getElem hk]; exact hp)
  rw [Nat.zero_add] at this
  simp only [Function.comp, this, pgOf]

theorem createGeoJSON_head (lib : EncLib F P Props) (k : Nat) (q : Part P) (qs : List (Part P)) :
    (Readable lib q → ∃ f, createGeoJSON lib ((q :: qs).map (pgOf k)) = .ok f) ∧
    (¬ Readable lib q → createGeoJSON lib ((q :: qs).map (pgOf k)) = .panic) := by
  constructor
  · intro h
    have hm := getMeta_readable lib q h
    cases qs with
    | nil => exact ⟨_, by simp only [List.map_cons, List.map_nil, createGeoJSON, pgOf, hm, Res.ok_bind, Res.pure_eq]; rfl⟩
    | cons r qs => exact ⟨_, by simp only [List.map_cons, createGeoJSON, pgOf, hm, Res.ok_bind, Res.pure_eq]; rfl⟩
  · intro h
    have hm : getMeta lib.unmarshal lib.empty q.props = .panic := by
      simp only [Readable, not_or, Bool.not_eq_true, Option.isSome_eq_false_iff, Option.isNone_iff_eq_none] at h
      rw [getMeta, if_neg h.1, h.2]; rfl
    cases qs with
    | nil => simp only [List.map_cons, List.map_nil, createGeoJSON, pgOf, hm, Res.panic_bind]
    | cons r qs => simp only [List.map_cons, createGeoJSON, pgOf, hm, Res.panic_bind]

/-- the writer returns exactly when the input lines with line geometry come first and the properties of their first parts can be read back; else it panics -/
theorem group_iff (lib : EncLib F P Props) (hord : ∀ l, (lib.ord l).Perm l) (bs : List (List (Part P))) (hlen : bs.length ≤ maxInt)
    (hpos : ∀ b ∈ bs, ∀ p ∈ b, p.pos ≤ maxInt) :
    ((∃ as cs, bs = as ++ cs ∧ (∀ b ∈ as, b ≠ []) ∧ ∀ b ∈ cs, b = []) ∧ (∀ b ∈ bs, ∀ p, firstPart b = some p → Readable lib p) →
      ∃ out, groupPlnsAsGeoJSONS lib (outLinesFrom 0 bs) = .ok out) ∧
    (¬ ((∃ as cs, bs = as ++ cs ∧ (∀ b ∈ as, b ≠ []) ∧ ∀ b ∈ cs, b = []) ∧ (∀ b ∈ bs, ∀ p, firstPart b = some p → Readable lib p)) →
      groupPlnsAsGeoJSONS lib (outLinesFrom 0 bs) = .panic) := by
  -- what one entry gives
  have entry : ∀ (as : List (List (Part P))), Good1 lib as → ∀ d : Dict P, (∀ k (hk : k < as.length), d.get k = as[k].map (pgOf k)) → ∀ k (hk : k < as.length),
      ∃ q, firstPart as[k] = some q ∧ (Readable lib q → ∃ f, createGeoJSON lib (sortByPos (d.get k)) = .ok f) ∧
        (¬ Readable lib q → createGeoJSON lib (sortByPos (d.get k)) = .panic) := by
    intro as ha d hd k hk
    rw [hd k hk, sortByPos_pgOf]
    cases hs : as[k].mergeSort (fun a b => a.pos ≤ b.pos) with
    | nil =>
      have := congrArg List.length hs
      rw [List.length_mergeSort] at this
      exact absurd (List.length_eq_zero_iff.1 this) (ha.ne _ (List.getElem_mem hk))
    | cons q qs => exact ⟨q, by rw [firstPart, hs]; rfl, createGeoJSON_head lib k q qs⟩
  have split : ∀ as cs : List (List (Part P)), bs = as ++ cs → (∀ b ∈ as, b ≠ []) → Good1 lib as := fun as cs e ha =>
    ⟨hord, by rw [e, List.length_append] at hlen; omega, fun b hb => hpos b (by rw [e]; exact List.mem_append_left _ hb), ha⟩
  constructor
  · rintro ⟨⟨as, cs, e, ha, hc⟩, hp⟩
    have hg := split as cs e ha
    rw [e, outLinesFrom_append_empty as cs hc]
    obtain ⟨d, h1, h2, h3⟩ := dict_of lib as hg
    have hf : ∀ k (hk : k < as.length), ∃ f, createGeoJSON lib (sortByPos (d.get k)) = .ok f := by
      intro k hk
      obtain ⟨q, e1, e2, -⟩ := entry as hg d h3 k hk
      exact e2 (hp _ (by rw [e]; exact List.mem_append_left _ (List.getElem_mem hk)) q e1)
    rw [groupPlnsAsGeoJSONS, h1, Res.ok_bind]
    have : ∀ (ks : List Nat) idx, idx + ks.length ≤ as.length → ∃ out, groupLoop lib d idx ks = .ok out := by
      intro ks
      induction ks with
      | nil => intro idx _; exact ⟨[], rfl⟩
      | cons k ks ih =>
        intro idx hi
        rw [List.length_cons] at hi
        obtain ⟨f, hf⟩ := hf idx (by omega)
        obtain ⟨out, ho⟩ := ih (idx + 1) (by omega)
        exact ⟨f :: out, by rw [groupLoop, hf, Res.ok_bind, ho]; rfl⟩
    exact this _ 0 (by omega)
  · intro hn
    by_cases hsp : ∃ as cs, bs = as ++ cs ∧ (∀ b ∈ as, b ≠ []) ∧ ∀ b ∈ cs, b = []
    · obtain ⟨as, cs, e, ha, hc⟩ := hsp
      have hg := split as cs e ha
      have hex : ∃ b ∈ bs, ∃ p, firstPart b = some p ∧ ¬ Readable lib p := by
        by_contra hall
        exact hn ⟨⟨as, cs, e, ha, hc⟩, fun b hb p hp => by_contra fun hr => hall ⟨b, hb, p, hp, hr⟩⟩
      obtain ⟨b, hb, p, hp, hr⟩ := hex
      have hb : b ∈ as := by
        rw [e] at hb
        rcases List.mem_append.1 hb with hb | hb
        · exact hb
        · rw [hc b hb] at hp; simp [firstPart] at hp
      obtain ⟨k, hk, rfl⟩ := List.getElem_of_mem hb
      rw [e, outLinesFrom_append_empty as cs hc]
      obtain ⟨d, h1, h2, h3⟩ := dict_of lib as hg
      rw [groupPlnsAsGeoJSONS, h1, Res.ok_bind]
      obtain ⟨q, e1, -, e2⟩ := entry as hg d h3 k hk
      rw [e1] at hp
      injection hp with hp
      refine groupLoop_panic lib d _ 0 ⟨k, by omega, ?_⟩
      rw [Nat.zero_add]
      exact e2 (by rw [hp]; exact hr)
    · -- a gap
      have hgap : ∃ k m, k < m ∧ ∃ hm : m < bs.length, bs[k]? = some [] ∧ bs[m] ≠ [] := by
        clear entry split hn hlen hpos
        induction bs with
        | nil => exact absurd ⟨[], [], rfl, by simp, by simp⟩ hsp
        | cons b bs ih =>
          by_cases hb : b = []
          · subst hb
            by_cases hall : ∀ c ∈ bs, c = []
            · exact absurd ⟨[], [] :: bs, rfl, by simp, by simpa using hall⟩ hsp
            · push Not at hall
              obtain ⟨c, hc, hne⟩ := hall
              obtain ⟨m, hm, rfl⟩ := List.getElem_of_mem hc
              exact ⟨0, m + 1, by omega, by simp only [List.length_cons]; omega, rfl, by simpa using hne⟩
          · obtain ⟨k, m, hk, hm, h1, h2⟩ := ih (by
              rintro ⟨as, cs, e, ha, hc⟩
              exact hsp ⟨b :: as, cs, by rw [e]; rfl, by
                intro x hx
                rcases List.mem_cons.1 hx with rfl | hx
                · exact hb
                · exact ha x hx, hc⟩)
            exact ⟨k + 1, m + 1, by omega, by simp only [List.length_cons]; omega, by simpa using h1, by simpa using h2⟩
      obtain ⟨k, m, hk, hm, h1, h2⟩ := hgap
      exact C41_gap_crash lib hord bs hlen hpos k m hk hm h1 h2

/-- a part whose number is least, and which comes first in the file, is the first in the output -/
theorem firstPart_cons (p : Part P) (b : List (Part P)) (h : ∀ q ∈ b, p.pos ≤ q.pos) : firstPart (p :: b) = some p := by
  have tr : ∀ a b c : Part P, (decide (a.pos ≤ b.pos) = true) → decide (b.pos ≤ c.pos) = true → decide (a.pos ≤ c.pos) = true := by
    intro a b c; simp only [decide_eq_true_eq]; omega
  have tot : ∀ a b : Part P, (decide (a.pos ≤ b.pos) || decide (b.pos ≤ a.pos)) = true := by
    intro a b; simp only [Bool.or_eq_true, decide_eq_true_eq]; omega
  obtain ⟨l1, l2, e1, e2, e3⟩ := List.mergeSort_cons tr tot p b
  have : l1 = [] := by
    cases l1 with
    | nil => rfl
    | cons x l1 =>
      have := e3 x (List.mem_cons_self ..)
      have hx : x ∈ b := by
        have : x ∈ b.mergeSort (fun a b => decide (a.pos ≤ b.pos)) := by rw [e2]; simp
        exact List.mem_mergeSort.1 this
      simp only [Bool.not_eq_true', decide_eq_false_iff_not] at this
      exact absurd (h x hx) this
  rw [firstPart, e1, this]; rfl

theorem geomParts_head (s : Str) (g : GGeom F) (x : Nat × Str × List (List F)) (h : (geomParts s g).head? = some x) : x.1 = 0 := by
  cases g with
  | line c => simp only [geomParts, List.head?_cons, Option.some.injEq] at h; rw [← h]
  | multiLine cs =>
    cases cs with
    | nil => simp [geomParts] at h
    | cons c cs => simp only [geomParts, List.zipIdx_cons, List.map_cons, List.head?_cons, Option.some.injEq] at h; rw [← h]
  | other => simp [geomParts] at h

theorem featParts_head (f : GFeature F) (x : Nat × Str × List (List F)) (h : (featParts f).head? = some x) : x.1 = 0 := by
  unfold featParts at h
  split at h
  · exact geomParts_head _ _ x h
  · simp at h

/-- the first part of an input line carries the number 0 -/
theorem docParts_head (d : Doc F) (x : Nat × Str × List (List F)) (h : (docParts d).head? = some x) : x.1 = 0 := by
  cases d with
  | geometry g => exact geomParts_head _ _ x h
  | feature f => exact featParts_head f x h
  | collection fs =>
    simp only [docParts] at h
    induction fs with
    | nil => simp at h
    | cons f fs ih =>
      rw [List.flatMap_cons, List.head?_append] at h
      cases hf : (featParts f).head? with
      | some y => rw [hf] at h; simp only [Option.some_or, Option.some.injEq] at h; rw [← h]; exact featParts_head f y hf
      | none => rw [hf] at h; exact ih (by simpa using h)
  | unknown => simp [docParts] at h

end

section
variable {F Props : Type}

/-- Specification: the input lines with line geometry come before those without -/
def Front (docs : List (Doc F)) : Prop := ∃ as cs, docs = as ++ cs ∧ (∀ d ∈ as, docParts d ≠ []) ∧ ∀ d ∈ cs, docParts d = []

/-- Specification: the properties of the first part of every input line can be read back -/
def FirstReadable (lib : EncLib F P Props) (docs : List (Doc F)) : Prop :=
  ∀ d ∈ docs, ∀ x, (docParts d).head? = some x → x.2.1 = ['n', 'u', 'l', 'l'] ∨ (lib.unmarshal x.2.1).isSome

theorem forall₂_nil_iff {A B : Type} {R : A → B → Prop} {a : List A} {b : List B} (h : List.Forall₂ R a b) : a = [] ↔ b = [] := by
  cases h <;> simp

theorem forall₂_mem_left {A B : Type} {R : A → B → Prop} {a : List A} {b : List B} (h : List.Forall₂ R a b) : ∀ x ∈ a, ∃ y ∈ b, R x y := by
  induction h with
  | nil => intro x hx; cases hx
  | cons h1 _ ih =>
    intro x hx
    rcases List.mem_cons.1 hx with rfl | hx
    · exact ⟨_, List.mem_cons_self .., h1⟩
    · obtain ⟨y, hy, hr⟩ := ih x hx
      exact ⟨y, List.mem_cons_of_mem _ hy, hr⟩

theorem firstPart_block (d : Doc F) (b : List (Part P)) (h : List.Forall₂ (fun x p => p.pos = x.1 ∧ p.props = x.2.1) (docParts d) b) :
    (∀ x, (docParts d).head? = some x → ∃ p, firstPart b = some p ∧ p.props = x.2.1) ∧
    (∀ p, firstPart b = some p → ∃ x, (docParts d).head? = some x ∧ p.props = x.2.1) := by
  have hh := docParts_head d
  generalize docParts d = xs at h hh ⊢
  cases h with
  | nil => exact ⟨fun x hx => by simp at hx, fun p hp => by simp [firstPart] at hp⟩
  | cons h1 h2 =>
    next x p xs ps =>
    have h0 : p.pos = 0 := by rw [h1.1]; exact hh x rfl
    have hf : firstPart (p :: ps) = some p := firstPart_cons p ps (fun q _ => by omega)
    refine ⟨fun y hy => ⟨p, hf, ?_⟩, fun q hq => ⟨x, rfl, ?_⟩⟩
    · simp only [List.head?_cons, Option.some.injEq] at hy; rw [← hy]; exact h1.2
    · rw [hf] at hq; injection hq with hq; rw [← hq]; exact h1.2

/-- the condition of the writer in terms of the documents -/
theorem ready_iff (lib : EncLib F P Props) (docs : List (Doc F)) (bs : List (List (Part P)))
    (h : List.Forall₂ (fun d b => List.Forall₂ (fun x p => p.pos = x.1 ∧ p.props = x.2.1) (docParts d) b) docs bs) :
    ((∃ as cs, bs = as ++ cs ∧ (∀ b ∈ as, b ≠ []) ∧ ∀ b ∈ cs, b = []) ∧ (∀ b ∈ bs, ∀ p, firstPart b = some p → Readable lib p)) ↔
      Front docs ∧ FirstReadable lib docs := by
  have hflip := h.flip
  refine and_congr ⟨?_, ?_⟩ ⟨fun hr d hd x hx => ?_, fun hr b hb p hp => ?_⟩
  · rintro ⟨as, cs, rfl, ha, hc⟩
    obtain ⟨c1, c2, h1, h2, rfl⟩ := forall₂_split as cs _ hflip
    refine ⟨c1, c2, rfl, fun d hd => ?_, fun d hd => ?_⟩
    · obtain ⟨b, hb, hr⟩ := forall₂_mem_left h1.flip d hd
      exact fun e => ha b hb ((forall₂_nil_iff hr).1 e)
    · obtain ⟨b, hb, hr⟩ := forall₂_mem_left h2.flip d hd
      exact (forall₂_nil_iff hr).2 (hc b hb)
  · rintro ⟨as, cs, rfl, ha, hc⟩
    obtain ⟨c1, c2, h1, h2, rfl⟩ := forall₂_split as cs _ h
    refine ⟨c1, c2, rfl, fun d hd => ?_, fun d hd => ?_⟩
    · obtain ⟨b, hb, hr⟩ := forall₂_mem_left h1.flip d hd
      exact fun e => ha b hb ((forall₂_nil_iff hr).2 e)
    · obtain ⟨b, hb, hr⟩ := forall₂_mem_left h2.flip d hd
      exact (forall₂_nil_iff hr).1 (hc b hb)
  · obtain ⟨b, hb, hdb⟩ := forall₂_mem_left h d hd
    obtain ⟨p, hp, e⟩ := (firstPart_block d b hdb).1 x hx
    rw [← e]; exact hr b hb p hp
  · obtain ⟨d, hd, hdb⟩ := forall₂_mem_left hflip b hb
    obtain ⟨x, hx, e⟩ := (firstPart_block d b hdb).2 p hp
    rw [Readable, e]; exact hr d hd x hx

/-! ### the reader -/

theorem createPolylineGeoms_some (k : Nat) (f : GFeature F) (ls : List (JsonLine F)) (h : createPolylineGeoms k f = .ok ls) : f.geometry ≠ none := by
  intro e
  unfold createPolylineGeoms at h
  rw [e] at h
  cases h

theorem collectionLines_some (k : Nat) (fs : List (GFeature F)) : ∀ ls, collectionLines k fs = .ok ls → ∀ f ∈ fs, f.geometry ≠ none := by
  induction fs with
  | nil => intro ls _ f hf; cases hf
  | cons g fs ih =>
    intro ls h f hf
    rw [collectionLines] at h
    obtain ⟨a, ha, h⟩ := Res.bind_eq_ok.1 h
    obtain ⟨c, hc, h⟩ := Res.bind_eq_ok.1 h
    rcases List.mem_cons.1 hf with rfl | hf
    · exact createPolylineGeoms_some k _ a ha
    · exact ih c hc f hf

theorem parseInput_geometry (ds : List (Doc F)) : ∀ i ls, parseInputFrom i ds = .ok ls → ∀ d ∈ ds, HasGeometry d := by
  induction ds with
  | nil => intro i ls _ d hd; cases hd
  | cons e ds ih =>
    intro i ls h d hd
    rw [parseInputFrom] at h
    obtain ⟨a, ha, h⟩ := Res.bind_eq_ok.1 h
    obtain ⟨c, hc, h⟩ := Res.bind_eq_ok.1 h
    rcases List.mem_cons.1 hd with rfl | hd
    · cases d with
      | geometry g => trivial
      | unknown => trivial
      | feature f => exact createPolylineGeoms_some i f a ha
      | collection fs => exact collectionLines_some i fs a ha
    · exact ih _ c hc d hd

end

end Io

/-! ### the simplification -/

namespace Engine

/-- Assumptions about the libraries and the points, not about the options and the lengths of the lines. -/
structure Sane (E : Engine P C B K) (kind : Io.OffsetKind) (lines : List (List P)) : Prop where
  heur : Hdb.Legal E.heur (maxEntries Hdb.defaultCap)
  heap : ∃ near : Fl K → Fl K → Prop, E.heap.Legal near ∧ ∀ a b c, near a b → b.le c = true → near a c
  ord : ∀ g l, (E.ord g l).Perm l
  ordRm : ∀ g l, (E.ordRm g l).Perm l
  point : ∀ p g, (E.lib.intersection (.point p) g).length ≤ 1 ∧ (E.lib.intersection g (.point p)).length ≤ 1
  lnr : LnrOK E.lnr
  instId : Function.Injective E.instId
  streams : Streams E.ids E.idsOf (handles lines.length)
  hull : ∀ l ∈ lines, HullOk E.lib l
  box : ∀ l ∈ lines, ∀ i j : Int, 0 ≤ i → i < j → j < l.length → ∀ g : Geo P C, hullGeometry (E.lib.convexHull (Coords.sub l i j)) = .ok g →
    (E.lib.bounds g).Valid
  /-- both score functions are of the form of offset/dp.go:27-45; usable distances -/
  score : ∃ dist : P → P → P → Fl K, E.score kind = maxOffset dist ∧
    ∀ l ∈ lines, ∀ i j : Int, 0 ≤ i → i + 1 < j → j < l.length → ∃ k v, maxOffset dist (Coords.sub l i j) = .ok (k, v) ∧ 0 < k ∧ k < j - i

theorem Sane.ok {E : Engine P C B K} {kind : Io.OffsetKind} {lines : List (List P)} (h : E.Sane kind lines) (two : ∀ l ∈ lines, 2 ≤ l.length)
    {o : Opts K} (ho : (Fl.fin 0).le o.threshold = true) : E.OK o kind lines := by
  obtain ⟨dist, e, hs⟩ := h.score
  exact ⟨h.heur, h.heap, h.ord, h.ordRm, h.point, h.lnr, h.instId, h.streams, two, h.hull, h.box,
    fun l _ => by rw [e]; exact maxOffset_splitsInside _ _ ho _, fun l hl => by rw [e]; exact hs l hl⟩

/-- without lines the options do not matter -/
theorem Sane.ok_nil {E : Engine P C B K} {kind : Io.OffsetKind} (h : E.Sane kind []) (o : Opts K) : E.OK o kind [] :=
  ⟨h.heur, h.heap, h.ord, h.ordRm, h.point, h.lnr, h.instId, h.streams, (fun _ h => by cases h), h.hull, h.box, (fun _ h => by cases h), (fun _ h => by cases h)⟩

theorem forest_inst {E : Engine P C B K} {o : Opts K} {kind : Io.OffsetKind} {ctx : List C} {lines : List (List P)} {fuel : Nat} {fs : List (Inst P C B K)}
    (h : E.forest o kind ctx lines fuel = .ok fs) : ∀ (k : Nat) (l : List P), lines[k]? = some l →
      ((E.env o kind fs).inst (k : Int)).pln = createPolyline (coordsOf l) ∧ ((E.env o kind fs).inst (k : Int)).opts = o ∧
      ((E.env o kind fs).inst (k : Int)).score = E.score kind ∧ ((E.env o kind fs).inst (k : Int)).square = none := by
  intro k l hl
  have hf := mapRes_ok h
  obtain ⟨hk, rfl⟩ := List.getElem?_eq_some_iff.1 hl
  have hlen : fs.length = lines.length := by rw [← hf.length_eq, List.length_zipIdx]
  have hg := (List.forall₂_iff_get.1 hf).2 k (by rw [List.length_zipIdx]; exact hk) (by omega)
  simp only [List.get_eq_getElem, List.getElem_zipIdx, Nat.zero_add, newInst] at hg
  obtain ⟨db, -, hg⟩ := Res.bind_eq_ok.1 hg
  have e : (E.env o kind fs).inst (k : Int) = fs[k] := by
    simp only [env, Int.toNat_natCast, List.getElem?_eq_getElem (show k < fs.length by omega), Option.getD_some]
  rw [e]
  injection hg with hg
  rw [← hg]
  exact ⟨rfl, rfl, rfl, rfl⟩

theorem mem_handles {n k : Nat} (h : k < n) : (k : Int) ∈ handles n := List.mem_map.2 ⟨k, List.mem_range.2 h, rfl⟩

theorem mapRes_length {A A' : Type} {f : A → Res A'} {l : List A} {r : List A'} (h : Hdb.mapRes f l = .ok r) : r.length = l.length :=
  (mapRes_ok h).length_eq.symm

/-- a polyline of at least two points is never decomposed with a threshold that does not accept zero -/
theorem simplify_never {E : Engine P C B K} {o : Opts K} {kind : Io.OffsetKind} {ctx : List C} {lines : List (List P)} {fuel : Nat} {fs : List (Inst P C B K)}
    (h : E.forest o kind ctx lines fuel = .ok fs) {dist : P → P → P → Fl K} (hs : E.score kind = maxOffset dist) (ho : (Fl.fin 0).le o.threshold = false)
    {k : Nat} {l : List P} (hl : lines[k]? = some l) (h2 : 2 ≤ l.length) (ids : Nat → Int) (cv : List Int) (dirty : Int → Bool) (fuel' : Nat) :
    Verif.simplify (E.env o kind fs) ids k cv dirty fuel' = .timeout := by
  obtain ⟨h1, h3, h4, h5⟩ := forest_inst h k l hl
  have hp : createPolyline (coordsOf l) = ⟨some (coordsOf l)⟩ := by
    have : ¬ (coordsOf l).len < 2 := by rw [coordsOf_len]; omega
    simp only [createPolyline, this, if_false]
  have e1 : ((E.env o kind fs).inst (k : Int)).scoreFn = maxOffset dist := by
    simp only [Inst.scoreFn, scoreOf, h5, h4, Option.getD_none, hs]
  have e2 : ((E.env o kind fs).inst (k : Int)).rel = scoreRelation o.threshold := by simp only [Inst.rel, relationOf, h5, h3]
  have := C06_negative_threshold_diverges (E.env o kind fs).lib ids 0 l dist o.threshold (k : Int) h2 ho fuel'
  simp only [Verif.simplify, e1, e2, h1, hp, this, Res.timeout_bind]

/-- what is known of the lines when the simplification returns -/
theorem run_ok {E : Engine P C B K} {kind : Io.OffsetKind} {lines : List (List P)} {o : Opts K} {ctx : List C} {fc : Bool} {fuel : Nat} {qs : List (List P)}
    {dist : P → P → P → Fl K} (hs : E.score kind = maxOffset dist) (h : E.run fc lines o ctx kind fuel = .ok qs) :
    qs.length = lines.length ∧ (∀ l ∈ lines, 2 ≤ l.length) ∧ (lines = [] ∨ (Fl.fin 0).le o.threshold = true) := by
  rw [run] at h
  obtain ⟨fs, hf, h⟩ := Res.bind_eq_ok.1 h
  obtain ⟨cs, hc, h⟩ : ∃ cs, (if fc = true then runFeatureClass (E.env o kind fs) E.ids E.idsOf (handles lines.length) o (fun _ => false) fuel
      else runInstances (E.env o kind fs) E.idsOf (handles lines.length) (fun _ => false) fuel) = .ok cs ∧ Hdb.mapRes coordsPoints cs = .ok qs := by
    cases fc
    · exact Res.bind_eq_ok.1 h
    · exact Res.bind_eq_ok.1 h
  have hq := mapRes_length h
  have hn : (handles lines.length).length = lines.length := by simp [handles]
  have two : ∀ l ∈ lines, 2 ≤ l.length := by
    intro l hl
    by_contra hlt
    obtain ⟨k, hk, rfl⟩ := List.getElem_of_mem hl
    have := C47_never_completes (E.env o kind fs) E.ids E.idsOf (handles lines.length) o (fun _ => false) lines[k] (by omega) (k : Int) (mem_handles hk)
      (forest_inst hf k _ (List.getElem?_eq_getElem hk)).1 fuel
    split at hc
    · exact this.2 cs hc
    · exact this.1 cs hc
  have fst : ∃ js outs d, simplifyInstances (E.env o kind fs) E.idsOf js fuel (handles lines.length) (fun _ => false) = .ok (outs, d) ∧
      cs.length = lines.length := by
    split at hc
    · rw [runFeatureClass] at hc
      obtain ⟨a, ha, hc⟩ := Res.bind_eq_ok.1 hc
      have hl := simplifyFeatureClass_fst _ _ _ _ _ _ _ _ ha
      simp only [simplifyFeatureClass] at ha
      obtain ⟨js, -, ha⟩ := Res.bind_eq_ok.1 ha
      obtain ⟨b, hb, ha⟩ := Res.bind_eq_ok.1 ha
      refine ⟨js, b.1, b.2, hb, ?_⟩
      rw [mapRes_length hc, ← hn, ← hl, List.length_map]
    · rw [runInstances] at hc
      obtain ⟨a, ha, hc⟩ := Res.bind_eq_ok.1 hc
      have hl := simplifyInstances_fst _ _ _ _ _ _ _ ha
      refine ⟨[], a.1, a.2, ha, ?_⟩
      rw [mapRes_length hc, ← hn, ← hl, List.length_map]
  obtain ⟨js, outs, d, hi, hcs⟩ := fst
  refine ⟨by omega, two, ?_⟩
  by_contra hno
  push Not at hno
  obtain ⟨hne, ho⟩ := hno
  have ho : (Fl.fin 0).le o.threshold = false := by simpa using ho
  cases lines with
  | nil => exact hne rfl
  | cons l lines =>
    have e : handles (l :: lines).length = (0 : Int) :: (handles (l :: lines).length).tail := by
      simp only [handles, List.length_cons, List.range_succ_eq_map, List.map_cons, List.tail_cons]; rfl
    rw [e, simplifyInstances] at hi
    have := simplify_never hf hs ho (k := 0) (l := l) rfl (two l (by simp)) (E.idsOf 0) (junctionsOf js ((E.env o kind fs).inst 0).id) (fun _ => false) fuel
    rw [Nat.cast_zero] at this
    rw [this] at hi
    cases hi

theorem forest_yields' {E : Engine P C B K} {o : Opts K} {kind : Io.OffsetKind} {lines : List (List P)} (h : Hdb.Legal E.heur (maxEntries Hdb.defaultCap)) (ctx : List C) :
    ∃ fs, Yields (E.forest o kind ctx lines) fs := by
  obtain ⟨fs, h1, -⟩ := mapRes_yields (fun fuel => E.newInst o kind ctx fuel) (fun _ _ => True) lines.zipIdx (fun x _ => by
    obtain ⟨t, ⟨N, hN⟩, w, -, -, p⟩ := Hdb.load_yields (ops := nodeOps) (H := E.heur) (Hdb.newHdb_wf nodeOps Hdb.defaultCap) h
      (ctx.map (ctxNode E.lib x.2))
    refine ⟨{ id := E.instId x.2, pln := createPolyline (coordsOf x.1), opts := o, score := E.score kind, square := none, ctxdb := t },
      ⟨N, fun fuel hf => ?_⟩, trivial⟩
    have := hN fuel hf
    simp only [] at this
    simp only [newInst, buildContextDB, this, Res.ok_bind, Res.pure_eq])
  exact ⟨fs, h1⟩

/-- with a threshold that does not accept zero the simplification of usable lines does not end -/
theorem run_hangs {E : Engine P C B K} {kind : Io.OffsetKind} {lines : List (List P)} {o : Opts K} (ctx : List C) (fc : Bool)
    (h : E.Sane kind lines) (two : ∀ l ∈ lines, 2 ≤ l.length) (hne : lines ≠ []) (ho : (Fl.fin 0).le o.threshold = false) :
    ∃ N, ∀ fuel ≥ N, E.run fc lines o ctx kind fuel = .timeout := by
  obtain ⟨fs, N, hN⟩ := forest_yields' (E := E) (o := o) (kind := kind) (lines := lines) h.heur ctx
  obtain ⟨dist, hs, -⟩ := h.score
  refine ⟨N, fun fuel hf => ?_⟩
  have hf := hN fuel hf
  have key : ∀ js dirty, simplifyInstances (E.env o kind fs) E.idsOf js fuel (handles lines.length) dirty = .timeout := by
    intro js dirty
    cases lines with
    | nil => exact absurd rfl hne
    | cons l lines =>
      have e : handles (l :: lines).length = (0 : Int) :: (handles (l :: lines).length).tail := by
        simp only [handles, List.length_cons, List.range_succ_eq_map, List.map_cons, List.tail_cons]; rfl
      have := simplify_never hf hs ho (k := 0) (l := l) rfl (two l (by simp)) (E.idsOf 0) (junctionsOf js ((E.env o kind fs).inst 0).id) dirty fuel
      rw [Nat.cast_zero] at this
      rw [e, simplifyInstances, this]; rfl
  rw [run, hf, Res.ok_bind]
  cases fc with
  | false => simp only [Bool.false_eq_true, if_false, runInstances, key, Res.timeout_bind]
  | true =>
    have hj : ∃ js, fcJunctions (E.env o kind fs) (handles lines.length) o.planarSelf = .ok js := by
      cases o.planarSelf with
      | false => exact ⟨[], rfl⟩
      | true =>
        have h1 : ∀ hs : List Int, (∀ x ∈ hs, x ∈ handles lines.length) →
            Hdb.mapRes (fun x => do let c ← ((E.env o kind fs).inst x).pln.coordinates; Res.ok (c, ((E.env o kind fs).inst x).id)) hs =
              .ok ((hs.map (fun x => (lines[x.toNat]?.getD [], ((E.env o kind fs).inst x).id))).map (fun f => (coordsOf f.1, f.2))) := by
          intro hs
          induction hs with
          | nil => intro _; rfl
          | cons a hs ih =>
            intro hm
            obtain ⟨k, hk, rfl⟩ := List.mem_map.1 (hm a (by simp))
            have hk := List.mem_range.1 hk
            have hc := polyline_coordinates (two lines[k] (List.getElem_mem hk))
            rw [← (forest_inst hf k _ (List.getElem?_eq_getElem hk)).1] at hc
            simp only [Hdb.mapRes, hc, Res.ok_bind, Res.pure_eq, ih (fun h hh => hm h (List.mem_cons_of_mem _ hh)), List.map_cons, Int.toNat_natCast,
              List.getElem?_eq_getElem hk, Option.getD_some]
        have h2 := fcVertices_eq ((handles lines.length).map (fun x => (lines[x.toNat]?.getD [], ((E.env o kind fs).inst x).id)))
        exact ⟨_, by simp only [fcJunctions, if_true, Res.pure_eq, h1 _ (fun _ h => h), Res.ok_bind, fcPlanarSelfIntersection, h2]; rfl⟩
    obtain ⟨js, hj⟩ := hj
    simp only [if_true, runFeatureClass, simplifyFeatureClass, hj, Res.ok_bind, key, Res.timeout_bind]

end Engine

/-! ### the program -/

namespace Io

open Verif.Text

section
variable {F Props G : Type}

theorem bind_ok_iff {A A' : Type} {x : Proc A} {f : A → Proc A'} {y : A'} : (x >>= f) = .ok y ↔ ∃ a, x = .ok a ∧ f a = .ok y := by
  cases x with
  | ok a => exact ⟨fun h => ⟨a, rfl, h⟩, fun ⟨a', h1, h2⟩ => by injection h1 with h1; subst h1; exact h2⟩
  | error e => exact ⟨(fun h => by cases h), (fun ⟨a', h1, _⟩ => by cases h1)⟩

theorem ofRes_ok_iff {A : Type} {r : Res A} {a : A} : ofRes r = .ok a ↔ r = .ok a := by
  cases r with
  | ok b => exact ⟨fun h => by injection h with h; rw [h], fun h => by injection h with h; rw [h]; rfl⟩
  | panic => exact ⟨(fun h => by cases h), (fun h => by cases h)⟩
  | timeout => exact ⟨(fun h => by cases h), (fun h => by cases h)⟩

theorem ofOpt_ok_iff {A : Type} {o : Outcome} {r : Option A} {a : A} : ofOpt o r = .ok a ↔ r = some a := by
  cases r with
  | some b => exact ⟨fun h => by injection h with h; rw [h], fun h => by injection h with h; rw [h]; rfl⟩
  | none => exact ⟨(fun h => by cases h), (fun h => by cases h)⟩

theorem ofRes_ne_saved {A : Type} (r : Res A) (p : Str) (l : List Str) : ofRes r ≠ .error (.saved p l) := by cases r <;> exact fun h => by cases h

theorem ofOpt_ne_saved {A : Type} {o : Outcome} (r : Option A) (p : Str) (l : List Str) (ho : o ≠ .saved p l) : ofOpt o r ≠ .error (.saved p l) := by
  cases r with
  | some a => exact fun h => by cases h
  | none => intro h; injection h with h; exact ho h

theorem parseDocs_ne_saved (w : World F P Props G) (ls : List Str) (p : Str) (l : List Str) : parseDocs w ls ≠ .error (.saved p l) := by
  induction ls with
  | nil => exact fun h => by cases h
  | cons x ls ih =>
    rw [parseDocs]
    exact bind_ne_exit (ofOpt_ne_saved _ _ _ (fun h => by cases h)) (fun d => bind_ne_exit ih (fun ds => fun h => by cases h))

theorem mainFrom_ne_saved (w : World F P Props G) (arg p : Str) (l : List Str) : mainFrom w arg ≠ .error (.saved p l) := by
  have hp : (Outcome.panic) ≠ .saved p l := fun h => by cases h
  have hx : ∀ n, (Outcome.exit n) ≠ .saved p l := fun n h => by cases h
  unfold mainFrom parseInput offsetFn readPolylines readConstraints
  refine bind_ne_exit (bind_ne_exit (ofRes_ne_saved _ _ _) (fun _ => ofOpt_ne_saved _ _ _ (hx 1))) (fun obj => ?_)
  refine bind_ne_exit (ofOpt_ne_saved _ _ _ (hx 13)) (fun k => ?_)
  refine bind_ne_exit (bind_ne_exit (ofOpt_ne_saved _ _ _ hp) (fun data => bind_ne_exit (parseDocs_ne_saved _ _ _ _) (fun ds => ofRes_ne_saved _ _ _))) (fun lines => ?_)
  split
  · exact fun h => by cases h
  · refine bind_ne_exit ?_ (fun cs => bind_ne_exit (ofRes_ne_saved _ _ _) (fun ps => bind_ne_exit (ofRes_ne_saved _ _ _) (fun out => ?_)))
    · split
      · exact ofRes_ne_saved _ _ _
      · split <;> exact fun h => by cases h
    · split <;> exact fun h => by cases h

theorem argText_ne_saved (w : World F P Props G) (b f p : Str) (l : List Str) : argText w b f ≠ .error (.saved p l) := by
  unfold argText
  split
  · exact fun h => by cases h
  · split
    · exact fun h => by cases h
    · split
      · exact bind_ne_exit (ofOpt_ne_saved _ _ _ (fun h => by cases h)) (fun _ h => by cases h)
      · exact fun h => by cases h

end

section
variable {F Props G : Type}

theorem argText_iff (w : World F P Props G) (b f text : Str) : argText w b f = .ok text ↔ Source w b f text := by
  constructor
  · intro ha
    unfold argText at ha
    split at ha
    · cases ha
    · split at ha
      · cases ha
      · next h1 h2 =>
        split at ha
        · next hf =>
          have hb : b = ['-'] := Decidable.byContradiction (fun hb => h2 ⟨hb, hf⟩)
          subst hb
          cases hfile : w.file f with
          | none => rw [hfile] at ha; cases ha
          | some t => rw [hfile] at ha; cases ha; exact .file f t hf hfile
        · next hf =>
          have hf : f = ['-'] := Decidable.byContradiction (fun e => hf e)
          subst hf
          cases ha
          exact .base64 _ (fun hb => h1 ⟨hb, rfl⟩)
  · intro h
    cases h with
    | base64 _ hb =>
      unfold argText
      rw [if_neg (fun h => hb h.1), if_neg (fun h => h.2 rfl), if_neg (fun h => h rfl)]
    | file _ t hf ht =>
      unfold argText
      rw [if_neg (fun h => hf h.2), if_neg (fun h => h.1 rfl), if_pos hf, ht]; rfl

/-- **C98, exit code 1**: exactly when the configuration text can be decoded but is no configuration. -/
theorem C98_exit1 (w : World F P Props G) (b f : Str) :
    main w b f = .exit 1 ↔ ∃ text bytes, Source w b f text ∧ decode64 (trim text) = .ok bytes ∧ w.config (w.fromUtf8 bytes) = none := by
  have e1 : ∀ {A B : Type} (x : A) (f : A → Proc B), ((Except.ok x : Proc A) >>= f) = f x := fun _ _ => rfl
  have e2 : ∀ {A B : Type} (x : Outcome) (f : A → Proc B), ((Except.error x : Proc A) >>= f) = .error x := fun _ _ => rfl
  constructor
  · intro h
    unfold main at h
    cases ha : argText w b f with
    | error o =>
      rw [ha, e2] at h
      have h' : o = .exit 1 := h
      subst h'
      exfalso
      unfold argText at ha
      split at ha
      · cases ha
      · split at ha
        · cases ha
        · split at ha
          · cases hf : w.file f with
            | none => rw [hf] at ha; cases ha
            | some t => rw [hf] at ha; cases ha
          · cases ha
    | ok text =>
      rw [ha, e1] at h
      refine ⟨text, ?_⟩
      cases hd : decode64 (trim text) with
      | panic =>
        simp only [mainFrom, parseInput, hd, ofRes, e2, outcome] at h
        cases h
      | timeout =>
        simp only [mainFrom, parseInput, hd, ofRes, e2, outcome] at h
        cases h
      | ok bytes =>
        refine ⟨bytes, (argText_iff w b f text).1 ha, rfl, ?_⟩
        cases hc : w.config (w.fromUtf8 bytes) with
        | none => rfl
        | some obj =>
          exfalso
          have hp : parseInput w (trim text) = .ok obj := by simp only [parseInput, hd, ofRes, e1, hc, ofOpt]
          cases hk : offsetDictionary ((trim obj.simplificationType).map (lowerChar w.uni)) with
          | none =>
            simp only [mainFrom, hp, e1, offsetFn, hk, ofOpt, e2, outcome] at h
            cases h
          | some k =>
            have ht := mainTail w text obj k hp (by unfold offsetFn; rw [hk]; rfl) 1
            cases hm : mainFrom w text with
            | ok o => rw [hm] at h; exact absurd (by rw [hm]; exact congrArg _ h) ht.2
            | error o => rw [hm] at h; exact absurd (by rw [hm]; exact congrArg _ h) ht.1
  · rintro ⟨text, bytes, hs, hd, hc⟩
    have ha := (argText_iff w b f text).2 hs
    simp only [main, ha, e1, mainFrom, parseInput, hd, ofRes, hc, ofOpt, e2, outcome]

end

section
variable {Props : Type}

/-- the points of all parts, in file order -/
abbrev allLines (E : Engine P C B K) (docs : List (Doc (Fl K))) : List (List P) := docs.flatMap (fun d => (docParts d).map (fun x => x.2.2.map E.toPoint))

/-- the polylines read, in file order -/
abbrev readLines {F : Type} (docs : List (Doc F)) : List (JsonLine F) :=
  (docs.zipIdx.map (fun d => (docParts d.1).map (fun x => (⟨composeId d.2 x.1, x.2.2, x.2.1⟩ : JsonLine F)))).flatten

theorem readLines_points (E : Engine P C B K) (docs : List (Doc (Fl K))) : (readLines docs).map (fun l => l.coords.map E.toPoint) = allLines E docs := by
  have : ∀ (ds : List (Doc (Fl K))) (i : Nat), (((ds.zipIdx i).map (fun d => (docParts d.1).map (fun x => (⟨composeId d.2 x.1, x.2.2, x.2.1⟩ : JsonLine (Fl K))))).flatten).map
      (fun l => l.coords.map E.toPoint) = ds.flatMap (fun d => (docParts d).map (fun x => x.2.2.map E.toPoint)) := by
    intro ds
    induction ds with
    | nil => intro i; rfl
    | cons d ds ih =>
      intro i
      rw [List.zipIdx_cons, List.map_cons, List.flatten_cons, List.map_append, ih, List.flatMap_cons, List.map_map]
      rfl
  exact this docs 0

theorem allLines_two (E : Engine P C B K) (docs : List (Doc (Fl K))) :
    (∀ l ∈ allLines E docs, 2 ≤ l.length) ↔ ∀ d ∈ docs, ∀ x ∈ docParts d, 2 ≤ x.2.2.length := by
  simp only [allLines, List.mem_flatMap, List.mem_map]
  constructor
  · intro h d hd x hx
    have := h _ ⟨d, hd, x, hx, rfl⟩
    rwa [List.length_map] at this
  · rintro h l ⟨d, hd, x, hx, rfl⟩
    rw [List.length_map]; exact h d hd x hx

theorem allLines_nil (E : Engine P C B K) (docs : List (Doc (Fl K))) : allLines E docs = [] ↔ ∀ d ∈ docs, docParts d = [] := by
  simp only [allLines, List.flatMap_eq_nil_iff, List.map_eq_nil_iff]

/-- the run from the point where everything has been read -/
theorem main_reads (w : World (Fl K) P Props C) (E : Engine P C B K) (b f : Str) {obj : ArgObj (Fl K)} {kind : OffsetKind} {docs : List (Doc (Fl K))}
    {ctx : List C} (hr : Reads w b f obj kind docs ctx) (hg : ∀ d ∈ docs, HasGeometry d) (fuel : Nat) :
    main (program w E fuel) b f = outcome (ofRes (E.simplify fuel obj.isFeatureClass (readLines docs) (optsFromCfg obj) ctx kind) >>= fun plns =>
      ofRes (groupPlnsAsGeoJSONS w.enc plns) >>= fun out => .ok (.saved (trim obj.output) (out.map w.marshal))) := by
  obtain ⟨t, ht, hobj⟩ := hr.config
  obtain ⟨data, hdata, hdocs⟩ := hr.docs
  have e1 : ∀ {A B : Type} (x : A) (f : A → Proc B), ((Except.ok x : Proc A) >>= f) = f x := fun _ _ => rfl
  have a1 : argText (program w E fuel) b f = .ok t := ht
  have a2 : parseInput (program w E fuel) (trim t) = .ok obj := hobj
  have a3 : offsetFn (program w E fuel) obj = .ok kind := hr.kind
  have a4 : readPolylines (program w E fuel) (trim obj.input) = .ok (readLines docs) := by
    have b1 : (program w E fuel).file (trim obj.input) = some data := hdata
    have b2 := (parseDocs_program w E fuel (readJsonFile data)).trans hdocs
    simp only [readPolylines, b1, ofOpt, e1, b2, C41_parse docs hg, ofRes]
  have a5 : readConstraints (program w E fuel) (trim obj.constraints) = .ok ctx := hr.ctx
  have a8 : (program w E fuel).canSave (trim obj.output) = true := hr.save
  simp only [main, a1, e1, mainFrom, a2, a3, a4, hr.out, if_false, a5, a8, if_true]
  rfl

/-- Specification: what the program needs of the configuration and of the documents to write its output -/
structure Fine (lib : EncLib (Fl K) P Props) (obj : ArgObj (Fl K)) (docs : List (Doc (Fl K))) : Prop where
  geometry : ∀ d ∈ docs, HasGeometry d
  two : ∀ d ∈ docs, ∀ x ∈ docParts d, 2 ≤ x.2.2.length
  threshold : (∀ d ∈ docs, docParts d = []) ∨ (Fl.fin 0).le obj.threshold = true
  front : Front docs
  props : FirstReadable lib docs

/-- the assumptions on the libraries and on the size of the input -/
structure Setting (w : World (Fl K) P Props C) (E : Engine P C B K) (kind : OffsetKind) (docs : List (Doc (Fl K))) : Prop where
  ord : ∀ l, (w.enc.ord l).Perm l
  sane : E.Sane kind (allLines E docs)
  len : docs.length ≤ maxInt
  pos : ∀ d ∈ docs, ∀ x ∈ docParts d, x.1 ≤ maxInt

/-- the writer, behind any simplification that keeps the order of the lines -/
theorem group_docs (w : World (Fl K) P Props C) (E : Engine P C B K) {kind : OffsetKind} {docs : List (Doc (Fl K))} (hs : Setting w E kind docs)
    (qs : List (List P)) (hq : qs.length = (readLines docs).length) :
    (Front docs ∧ FirstReadable w.enc docs → ∃ out, groupPlnsAsGeoJSONS w.enc (List.zipWith (fun l ps => (⟨l.id, l.props, ps⟩ : OutLine P)) (readLines docs) qs) = .ok out) ∧
    (¬ (Front docs ∧ FirstReadable w.enc docs) →
      groupPlnsAsGeoJSONS w.enc (List.zipWith (fun l ps => (⟨l.id, l.props, ps⟩ : OutLine P)) (readLines docs) qs) = .panic) := by
  have hout : Simplified (readLines docs) (List.zipWith (fun l ps => (⟨l.id, l.props, ps⟩ : OutLine P)) (readLines docs) qs) := by
    generalize readLines docs = ls at hq
    induction ls generalizing qs with
    | nil => exact .nil
    | cons l ls ih =>
      cases qs with
      | nil => simp at hq
      | cons q qs => exact .cons ⟨rfl, rfl⟩ (ih qs (by simpa using hq))
  obtain ⟨bs, e, hb⟩ := simplified_blocks docs 0 _ hout
  rw [e, ← ready_iff w.enc docs bs hb]
  refine group_iff w.enc hs.ord bs (by rw [← hb.length_eq]; exact hs.len) (fun b hbm p hp => ?_)
  obtain ⟨d, hd, hdb⟩ := forall₂_mem_left hb.flip b hbm
  obtain ⟨x, hx, h1, -⟩ := forall₂_mem_left hdb.flip p hp
  rw [h1]; exact hs.pos d hd x hx

/-- **C98, saved**: when everything can be read, the program writes its output if and only if every feature has a geometry, every line at least two points,
the threshold accepts zero (or there is no line), the input lines with line geometry come first, and the properties of the first part of each can be
read back.  Enough time given, it does so always; otherwise it never does. -/
theorem C98_saves (w : World (Fl K) P Props C) (E : Engine P C B K) (b f : Str)
    (hE : ∀ obj kind docs ctx, Reads w b f obj kind docs ctx → Setting w E kind docs) :
    ((∃ fuel path out, main (program w E fuel) b f = .saved path out) ↔ ∃ obj kind docs ctx, Reads w b f obj kind docs ctx ∧ Fine w.enc obj docs) ∧
    ((∃ fuel path out, main (program w E fuel) b f = .saved path out) → ∃ path out N, ∀ fuel ≥ N, main (program w E fuel) b f = .saved path out) := by
  have dir1 : (∃ fuel path out, main (program w E fuel) b f = .saved path out) → ∃ obj kind docs ctx, Reads w b f obj kind docs ctx ∧ Fine w.enc obj docs := by
    rintro ⟨fuel, path, out, h⟩
    have h1 : (argText (program w E fuel) b f >>= fun t => mainFrom (program w E fuel) t) = .ok (.saved path out) := by
      unfold main at h
      cases hm : (argText (program w E fuel) b f >>= fun t => mainFrom (program w E fuel) t) with
      | ok o => rw [hm] at h; exact congrArg _ h
      | error o =>
        rw [hm] at h
        have h' : o = .saved path out := h
        rw [h'] at hm
        exact absurd hm (bind_ne_exit (argText_ne_saved _ _ _ _ _) (fun t => mainFrom_ne_saved _ _ _ _))
    obtain ⟨t, ht, h1⟩ := bind_ok_iff.1 h1
    unfold mainFrom at h1
    obtain ⟨obj, hobj, h1⟩ := bind_ok_iff.1 h1
    obtain ⟨kind, hkind, h1⟩ := bind_ok_iff.1 h1
    obtain ⟨lines, hlines, h1⟩ := bind_ok_iff.1 h1
    split at h1
    · cases h1
    · next hne =>
      obtain ⟨ctx, hctx, h1⟩ := bind_ok_iff.1 h1
      obtain ⟨plns, hplns, h1⟩ := bind_ok_iff.1 h1
      obtain ⟨feats, hfeats, h1⟩ := bind_ok_iff.1 h1
      have hsave : w.canSave (trim obj.output) = true := by
        by_contra hno
        have hno : ¬ ((program w E fuel).canSave (trim obj.output) = true) := hno
        rw [if_neg hno] at h1
        cases h1
      unfold readPolylines at hlines
      obtain ⟨data, hdata, hlines⟩ := bind_ok_iff.1 hlines
      obtain ⟨docs, hdocs, hlines⟩ := bind_ok_iff.1 hlines
      have hr : Reads w b f obj kind docs ctx :=
        ⟨⟨t, ht, hobj⟩, hkind, ⟨data, ofOpt_ok_iff.1 hdata, (parseDocs_program w E fuel _).symm.trans hdocs⟩, hne, hctx, hsave⟩
      have hs := hE obj kind docs ctx hr
      have hlines := ofRes_ok_iff.1 hlines
      have hg := parseInput_geometry docs 0 lines hlines
      have hl := C41_parse docs hg
      rw [hlines] at hl
      injection hl with hl
      have hplns : E.simplify fuel obj.isFeatureClass lines (optsFromCfg obj) ctx kind = .ok plns := ofRes_ok_iff.1 hplns
      have hfeats : groupPlnsAsGeoJSONS w.enc plns = .ok feats := ofRes_ok_iff.1 hfeats
      subst hl
      rw [Engine.simplify] at hplns
      obtain ⟨qs, hqs, hplns⟩ := Res.bind_eq_ok.1 hplns
      rw [readLines_points] at hqs
      obtain ⟨dist, hd, -⟩ := hs.sane.score
      obtain ⟨r1, r2, r3⟩ := Engine.run_ok hd hqs
      injection hplns with hplns
      have hlen : qs.length = (readLines docs).length := by rw [r1, ← readLines_points, List.length_map]
      have hgrp := group_docs w E hs qs hlen
      rw [hplns] at hgrp
      have hfr : Front docs ∧ FirstReadable w.enc docs := by
        by_contra hno
        rw [hgrp.2 hno] at hfeats
        cases hfeats
      refine ⟨obj, kind, docs, ctx, hr, hg, (allLines_two E docs).1 r2, ?_, hfr.1, hfr.2⟩
      rw [← allLines_nil E docs]; exact r3
  have dir2 : (∃ obj kind docs ctx, Reads w b f obj kind docs ctx ∧ Fine w.enc obj docs) → ∃ path out N, ∀ fuel ≥ N, main (program w E fuel) b f = .saved path out := by
    rintro ⟨obj, kind, docs, ctx, hr, hf⟩
    have hs := hE obj kind docs ctx hr
    have hok : E.OK (E.opts (optsFromCfg obj)) kind (allLines E docs) := by
      rcases hf.threshold with h0 | h0
      · have := hs.sane
        rw [(allLines_nil E docs).2 h0] at this ⊢
        exact this.ok_nil _
      · exact hs.sane.ok ((allLines_two E docs).2 hf.two) h0
    obtain ⟨qs, ⟨N, hN⟩, hsub⟩ := Engine.run_yields hok ctx obj.isFeatureClass (R := fun _ _ => True)
      (fun _ _ _ _ _ => ⟨fun _ _ _ _ _ _ _ _ => trivial, fun _ _ _ _ _ _ _ _ _ => trivial⟩)
    have hlen : qs.length = (readLines docs).length := by rw [← hsub.length_eq, ← readLines_points, List.length_map]
    obtain ⟨out, hout⟩ := (group_docs w E hs qs hlen).1 ⟨hf.front, hf.props⟩
    refine ⟨trim obj.output, out.map w.marshal, N, fun fuel hfu => ?_⟩
    rw [main_reads w E b f hr hf.geometry fuel, Engine.simplify, readLines_points, hN fuel hfu, Res.ok_bind, Res.pure_eq]
    have e1 : ∀ {A B : Type} (x : A) (f : A → Proc B), ((Except.ok x : Proc A) >>= f) = f x := fun _ _ => rfl
    simp only [ofRes, e1, hout, outcome]
  exact ⟨⟨dir1, fun h => by obtain ⟨p, o, N, hN⟩ := dir2 h; exact ⟨N, p, o, hN N (Nat.le_refl _)⟩⟩, fun h => dir2 (dir1 h)⟩

/-- **C98, crash**: when everything can be read and simplified, but an input line without line geometry precedes one with, or the properties of a first
part cannot be read back, the program ends with a panic. -/
theorem C98_panics (w : World (Fl K) P Props C) (E : Engine P C B K) (b f : Str) {obj : ArgObj (Fl K)} {kind : OffsetKind} {docs : List (Doc (Fl K))}
    {ctx : List C} (hr : Reads w b f obj kind docs ctx) (hs : Setting w E kind docs) (hg : ∀ d ∈ docs, HasGeometry d)
    (two : ∀ d ∈ docs, ∀ x ∈ docParts d, 2 ≤ x.2.2.length) (ht : (Fl.fin 0).le obj.threshold = true) (hn : ¬ (Front docs ∧ FirstReadable w.enc docs)) :
    ∃ N, ∀ fuel ≥ N, main (program w E fuel) b f = .panic := by
  have hok : E.OK (E.opts (optsFromCfg obj)) kind (allLines E docs) := hs.sane.ok ((allLines_two E docs).2 two) ht
  obtain ⟨qs, ⟨N, hN⟩, hsub⟩ := Engine.run_yields hok ctx obj.isFeatureClass (R := fun _ _ => True)
    (fun _ _ _ _ _ => ⟨fun _ _ _ _ _ _ _ _ => trivial, fun _ _ _ _ _ _ _ _ _ => trivial⟩)
  have hlen : qs.length = (readLines docs).length := by rw [← hsub.length_eq, ← readLines_points, List.length_map]
  have hout := (group_docs w E hs qs hlen).2 hn
  refine ⟨N, fun fuel hfu => ?_⟩
  rw [main_reads w E b f hr hg fuel, Engine.simplify, readLines_points, hN fuel hfu, Res.ok_bind, Res.pure_eq]
  have e1 : ∀ {A B : Type} (x : A) (f : A → Proc B), ((Except.ok x : Proc A) >>= f) = f x := fun _ _ => rfl
  simp only [ofRes, e1, hout]
  rfl

/-- **C98, loop**: when everything can be read but the threshold does not accept zero (negative or NaN) and there is a line, the program never ends. -/
theorem C98_hangs (w : World (Fl K) P Props C) (E : Engine P C B K) (b f : Str) {obj : ArgObj (Fl K)} {kind : OffsetKind} {docs : List (Doc (Fl K))}
    {ctx : List C} (hr : Reads w b f obj kind docs ctx) (hs : E.Sane kind (allLines E docs)) (hg : ∀ d ∈ docs, HasGeometry d)
    (two : ∀ d ∈ docs, ∀ x ∈ docParts d, 2 ≤ x.2.2.length) (hne : ∃ d ∈ docs, docParts d ≠ []) (ht : (Fl.fin 0).le obj.threshold = false) :
    ∃ N, ∀ fuel ≥ N, main (program w E fuel) b f = .hang := by
  obtain ⟨N, hN⟩ := Engine.run_hangs (o := E.opts (optsFromCfg obj)) ctx obj.isFeatureClass hs ((allLines_two E docs).2 two) (fun h => by
    obtain ⟨d, hd, hne⟩ := hne
    exact hne ((allLines_nil E docs).1 h d hd)) ht
  refine ⟨N, fun fuel hfu => ?_⟩
  rw [main_reads w E b f hr hg fuel, Engine.simplify, readLines_points, hN fuel hfu, Res.timeout_bind]
  rfl

end

end Io

end Verif
