import Verif.Props.C107_FullSpec

/-! Reading a line backwards: the recursive procedures on the mirrored judgements give the mirrored segments. -/

set_option linter.unusedSectionVars false

namespace Verif

/-- the segment of the vertices `0 .. n` read backwards -/
def Rng.mirror (n : Int) (r : Rng) : Rng := ⟨n - r.J, n - r.I⟩

/-- a list of segments of the vertices `0 .. n` read backwards -/
def mirror (n : Int) (rs : List Rng) : List Rng := (rs.map (Rng.mirror n)).reverse

theorem mirror_append (n : Int) (xs ys : List Rng) : mirror n (xs ++ ys) = mirror n ys ++ mirror n xs := by
  simp [mirror]

theorem mirror_singleton (n : Int) (r : Rng) : mirror n [r] = [r.mirror n] := rfl

theorem mirror_cons (n : Int) (r : Rng) (rs : List Rng) : mirror n (r :: rs) = mirror n rs ++ [r.mirror n] := by
  simp [mirror]

theorem Rng.mirror_mirror (n : Int) (r : Rng) : (r.mirror n).mirror n = r := by
  cases r; simp only [Rng.mirror, Rng.mk.injEq]; omega

theorem mem_mirror {n : Int} {rs : List Rng} {r : Rng} : r ∈ mirror n rs ↔ r.mirror n ∈ rs := by
  simp only [mirror, List.mem_reverse, List.mem_map]
  constructor
  · rintro ⟨q, hq, rfl⟩; rwa [Rng.mirror_mirror]
  · intro h; exact ⟨_, h, Rng.mirror_mirror n r⟩

theorem endOf_mirror {n : Int} {rs : List Rng} {v : Int} : EndOf (mirror n rs) v ↔ EndOf rs (n - v) := by
  constructor
  · rintro ⟨r, hr, hv⟩
    refine ⟨_, mem_mirror.1 hr, ?_⟩
    simp only [Rng.mirror]; omega
  · rintro ⟨r, hr, hv⟩
    refine ⟨r.mirror n, mem_mirror.2 (by rwa [Rng.mirror_mirror]), ?_⟩
    simp only [Rng.mirror]; omega

theorem Chain.mirror {n : Int} : ∀ {rs : List Rng} {a b : Int}, Chain a b rs → Chain (n - b) (n - a) (Verif.mirror n rs) := by
  intro rs
  induction rs with
  | nil => intro a b h; have : a = b := h; rw [this]; exact rfl
  | cons r rs ih =>
    intro a b h
    obtain ⟨h1, h2, h3⟩ := h
    rw [mirror_cons]
    refine (ih h3).append ⟨rfl, by simp only [Rng.mirror]; omega, ?_⟩
    show n - r.I = n - a
    omega

section
variable {P K P' K' : Type}

/-- Two lines that are judged alike when one of them is read backwards: they have as many vertices; the scores of a sub-line and of its mirror image are both accepted
or both not, and name the same vertex whenever the sub-line is cut; the verdicts are the same; the same vertices are fixed. -/
structure Mirrored (score : ScoreFn P K) (rel : Fl K → Bool) (fixed : Int → Prop) (bad : Int → Int → Prop) (ps : List P)
    (score' : ScoreFn P' K') (rel' : Fl K' → Bool) (fixed' : Int → Prop) (bad' : Int → Int → Prop) (ps' : List P') : Prop where
  len : ps.length = ps'.length
  score : ∀ i j : Int, 0 ≤ i → i < j → j < ps.length → ∀ k v, score (Coords.sub ps i j) = .ok (k, v) →
    ∃ k' v', score' (Coords.sub ps' (ps.length - 1 - j) (ps.length - 1 - i)) = .ok (k', v') ∧ rel v = rel' v' ∧ (rel v = false ∨ bad i j → k' = j - i - k)
  fixed : ∀ v : Int, fixed v ↔ fixed' (ps.length - 1 - v)
  bad : ∀ i j : Int, 0 ≤ i → i < j → j < ps.length → (bad i j ↔ bad' (ps.length - 1 - j) (ps.length - 1 - i))

variable {score : ScoreFn P K} {rel : Fl K → Bool} {fixed : Int → Prop} {bad : Int → Int → Prop} {ps : List P}
variable {score' : ScoreFn P' K'} {rel' : Fl K' → Bool} {fixed' : Int → Prop} {bad' : Int → Int → Prop} {ps' : List P'}

theorem RecDP.mirror (hm : Mirrored score rel fixed bad ps score' rel' fixed' bad' ps') (hin : SplitsInside score rel ps) {i j : Int} {rs : List Rng}
    (h : RecDP score rel ps i j rs) : 0 ≤ i → i < j → j < ps.length →
    RecDP score' rel' ps' (ps.length - 1 - j) (ps.length - 1 - i) (Verif.mirror (ps.length - 1) rs) := by
  induction h with
  | keep i j k v hs hv =>
    intro h0 h1 h2
    obtain ⟨k', v', hs', hr, -⟩ := hm.score i j h0 h1 h2 k v hs
    exact .keep _ _ k' v' hs' (by rw [← hr]; exact hv)
  | cut i j k v xs ys hs hv hx hy ihx ihy =>
    intro h0 h1 h2
    obtain ⟨k', v', hs', hr, hk⟩ := hm.score i j h0 h1 h2 k v hs
    obtain ⟨k0, v0, hs0, hk0⟩ := hin i j h0 h1 h2
    rw [hs] at hs0
    cases hs0
    have := hk0 hv
    have e := hk (.inl hv)
    rw [mirror_append]
    have ee : (ps.length : Int) - 1 - j + k' = ps.length - 1 - (i + k) := by omega
    exact .cut _ _ k' v' _ _ hs' (by rw [← hr]; exact hv) (by rw [ee]; exact ihy (by omega) (by omega) h2) (by rw [ee]; exact ihx h0 (by omega) (by omega))

theorem RecCut.mirror (hm : Mirrored score rel fixed bad ps score' rel' fixed' bad' ps')
    (hin : ∀ i j : Int, 0 ≤ i → i < j → j < ps.length → bad i j → ∃ k v, score (Coords.sub ps i j) = .ok (k, v) ∧ 0 < k ∧ k < j - i) {i j : Int} {rs : List Rng}
    (h : RecCut score bad ps i j rs) : 0 ≤ i → i < j → j < ps.length →
    RecCut score' bad' ps' (ps.length - 1 - j) (ps.length - 1 - i) (Verif.mirror (ps.length - 1) rs) := by
  induction h with
  | keep i j h => intro h0 h1 h2; exact .keep _ _ (fun h' => h ((hm.bad i j h0 h1 h2).2 h'))
  | cut i j k v xs ys hb hs hx hy ihx ihy =>
    intro h0 h1 h2
    obtain ⟨k', v', hs', hr, hk⟩ := hm.score i j h0 h1 h2 k v hs
    obtain ⟨k0, v0, hs0, hk0, hk1⟩ := hin i j h0 h1 h2 hb
    rw [hs] at hs0
    cases hs0
    have e := hk (.inr hb)
    rw [mirror_append]
    have ee : (ps.length : Int) - 1 - j + k' = ps.length - 1 - (i + k) := by omega
    exact .cut _ _ k' v' _ _ ((hm.bad i j h0 h1 h2).1 hb) hs' (by rw [ee]; exact ihy (by omega) (by omega) h2) (by rw [ee]; exact ihx h0 (by omega) (by omega))

theorem Each.append_each {α β : Type} {R : α → List β → Prop} {l m : List α} {xs ys : List β} (h : Each R l xs) (h' : Each R m ys) : Each R (l ++ m) (xs ++ ys) := by
  induction h with
  | nil => simpa using h'
  | cons h t ih => rw [List.append_assoc]; exact .cons h ih

theorem Each.mirror {R R' : Rng → List Rng → Prop} {n : Int} {l : List Rng} {xs : List Rng} (h : Each R l xs) :
    (∀ r ∈ l, ∀ ys, R r ys → R' (r.mirror n) (Verif.mirror n ys)) → Each R' (Verif.mirror n l) (Verif.mirror n xs) := by
  induction h with
  | nil => intro _; exact .nil
  | @cons a l xs ys h t ih =>
    intro hR
    rw [mirror_cons, mirror_append]
    have h1 : Each R' [a.mirror n] (Verif.mirror n xs) := by
      have := Each.cons (R := R') (hR a (by simp) _ h) .nil
      simpa using this
    exact (ih (fun r hr => hR r (List.mem_cons_of_mem _ hr))).append_each h1

/-- read backwards, the procedure of C103 gives the mirrored segments -/
theorem ConstrainedDP.mirror (hm : Mirrored score rel fixed bad ps score' rel' fixed' bad' ps') (h2 : 2 ≤ ps.length) (hin : SplitsInside score rel ps)
    (hbad : ∀ i j : Int, 0 ≤ i → i < j → j < ps.length → bad i j → ∃ k v, score (Coords.sub ps i j) = .ok (k, v) ∧ 0 < k ∧ k < j - i) {ls : List Rng}
    (h : ConstrainedDP score rel fixed bad ps ls) : ConstrainedDP score' rel' fixed' bad' ps' (Verif.mirror (ps.length - 1) ls) := by
  obtain ⟨rs, ms, a1, b1, c1, d1⟩ := h
  refine ⟨Verif.mirror (ps.length - 1) rs, Verif.mirror (ps.length - 1) ms, ?_, ?_, fun v => ?_, d1.mirror fun r hr l hl => ?_⟩
  · have := a1.mirror hm hin (by omega) (by omega) (by omega)
    rw [← hm.len]
    have e : (ps.length : Int) - 1 - (ps.length - 1) = 0 := by omega
    have e' : (ps.length : Int) - 1 - 0 = ps.length - 1 := by omega
    rwa [e, e'] at this
  · have := b1.mirror (n := ps.length - 1)
    rw [← hm.len]
    have e : (ps.length : Int) - 1 - (ps.length - 1) = 0 := by omega
    have e' : (ps.length : Int) - 1 - 0 = ps.length - 1 := by omega
    rwa [e, e'] at this
  · rw [endOf_mirror, endOf_mirror, c1, hm.fixed]
    have e : (ps.length : Int) - 1 - (ps.length - 1 - v) = v := by omega
    rw [e]
  · have := b1.mem hr
    exact hl.mirror hm hbad (by omega) (by omega) (by omega)

end

end Verif
