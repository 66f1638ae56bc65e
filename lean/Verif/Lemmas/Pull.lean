import Verif.Spec.Pull
import Verif.Props.C26_Relate

/-! The sidedness test pulls the line tight (`PullOnce`, `Pull`). -/

set_option linter.unusedSectionVars false

namespace Verif

section
variable {P Q : Type} {free : P → P → P → Prop}

theorem PullOnce.sublist {a : P} {w r : List P} (h : PullOnce free a w r) : r.Sublist w := by
  induction h with
  | nil => exact .refl _
  | last => exact .refl _
  | drop _ _ ih => exact ih.cons _
  | keep _ _ ih => exact ih.cons_cons _

theorem PullOnce.unique {a : P} {w r r' : List P} (h : PullOnce free a w r) (h' : PullOnce free a w r') : r = r' := by
  induction h generalizing r' with
  | nil => cases h'; rfl
  | last => cases h'; rfl
  | drop hf _ ih =>
    cases h' with
    | drop _ t => exact ih t
    | keep hn _ => exact absurd hf hn
  | keep hf _ ih =>
    cases h' with
    | drop hn _ => exact absurd hn hf
    | keep _ t => rw [ih t]

theorem Pull.unique {l r r' : List P} (h : Pull free l r) (h' : Pull free l r') : r = r' := by
  induction h generalizing r' with
  | short h =>
    cases h' with
    | short => rfl
    | stuck => rfl
    | go h1 => omega
  | stuck h hw =>
    cases h' with
    | short => rfl
    | stuck => rfl
    | go _ hw' hl => rw [hw.unique hw'] at hl; omega
  | go h hw hl t ih =>
    cases h' with
    | short h1 => omega
    | stuck _ hw' => rw [hw.unique hw'] at hl; omega
    | go _ hw' _ t' =>
      obtain rfl := hw.unique hw'
      exact ih t'

theorem PullOnce.map_of {g : Q → Q → Q → Prop} (f : Q → P) (S : List Q) (hf : ∀ x ∈ S, ∀ y ∈ S, ∀ z ∈ S, (g x y z ↔ free (f x) (f y) (f z))) {a : Q} {w r : List Q}
    (h : PullOnce g a w r) (ha : a ∈ S) (hw : w ⊆ S) : PullOnce free (f a) (w.map f) (r.map f) := by
  induction h with
  | nil => exact .nil _
  | last => exact .last _ _
  | drop hg _ ih =>
    exact .drop ((hf _ ha _ (hw List.mem_cons_self) _ (hw (List.mem_cons_of_mem _ List.mem_cons_self))).1 hg) (ih ha (fun x hx => hw (List.mem_cons_of_mem _ hx)))
  | keep hg _ ih =>
    exact .keep (fun hn => hg ((hf _ ha _ (hw List.mem_cons_self) _ (hw (List.mem_cons_of_mem _ List.mem_cons_self))).2 hn))
      (ih (hw List.mem_cons_self) (fun x hx => hw (List.mem_cons_of_mem _ hx)))

theorem Pull.map_of {g : Q → Q → Q → Prop} (f : Q → P) (S : List Q) (hf : ∀ x ∈ S, ∀ y ∈ S, ∀ z ∈ S, (g x y z ↔ free (f x) (f y) (f z))) {l r : List Q} (h : Pull g l r)
    (hl : l ⊆ S) : Pull free (l.map f) (r.map f) := by
  induction h with
  | short h => exact .short (by simpa using h)
  | stuck h hw => exact .stuck (by simpa using h) (hw.map_of f S hf (hl List.mem_cons_self) (fun x hx => hl (List.mem_cons_of_mem _ hx)))
  | go h hw hlt t ih =>
    refine .go (by simpa using h) (hw.map_of f S hf (hl List.mem_cons_self) (fun x hx => hl (List.mem_cons_of_mem _ hx))) (by simpa using hlt) (ih ?_)
    exact fun x hx => hl ((hw.sublist.cons_cons _).subset hx)

theorem Pull.map {g : Q → Q → Q → Prop} (f : Q → P) {l r : List Q} (h : Pull g l r)
    (hf : ∀ x ∈ l, ∀ y ∈ l, ∀ z ∈ l, (g x y z ↔ free (f x) (f y) (f z))) : Pull free (l.map f) (r.map f) := h.map_of f l hf (fun _ hx => hx)

theorem Pull.congr {g : P → P → P → Prop} {l r : List P} (h : Pull g l r) (hf : ∀ x ∈ l, ∀ y ∈ l, ∀ z ∈ l, (g x y z ↔ free x y z)) : Pull free l r := by
  have := h.map id hf
  simpa using this

theorem PullOnce.exists (free : P → P → P → Prop) : ∀ (w : List P) (a : P), ∃ r, PullOnce free a w r
  | [], a => ⟨_, .nil a⟩
  | [b], a => ⟨_, .last a b⟩
  | b :: c :: w, a => by
    by_cases h : free a b c
    · obtain ⟨r, hr⟩ := PullOnce.exists free (c :: w) a
      exact ⟨r, .drop h hr⟩
    · obtain ⟨r, hr⟩ := PullOnce.exists free (c :: w) b
      exact ⟨_, .keep h hr⟩

theorem Pull.exists (free : P → P → P → Prop) (l : List P) : ∃ r, Pull free l r := by
  induction hn : l.length using Nat.strong_induction_on generalizing l with
  | _ n ih =>
    by_cases h : l.length ≤ 2
    · exact ⟨l, .short h⟩
    · cases l with
      | nil => simp at h
      | cons a w =>
        obtain ⟨w', hw⟩ := PullOnce.exists free w a
        by_cases hl : w'.length < w.length
        · obtain ⟨r, hr⟩ := ih (a :: w').length (by rw [← hn]; simpa using hl) (a :: w') rfl
          exact ⟨r, .go (by omega) hw hl hr⟩
        · obtain rfl : w' = w := hw.sublist.eq_of_length_le (by omega)
          exact ⟨_, .stuck (by omega) hw⟩

theorem PullOnce.all (h : ∀ a b c, free a b c) : ∀ (w : List P) (a z : P), PullOnce free a (w ++ [z]) [z]
  | [], a, z => .last a z
  | b :: w, a, z => by
    have := PullOnce.all h w a z
    cases w with
    | nil => exact .drop (h _ _ _) this
    | cons c w => exact .drop (h _ _ _) this

theorem Pull.all (h : ∀ a b c, free a b c) (w : List P) (a z : P) : Pull free (a :: (w ++ [z])) [a, z] := by
  cases w with
  | nil => exact .short (by simp)
  | cons b w => exact .go (by simp) (PullOnce.all h (b :: w) a z) (by simp) (.short (by simp))

end

namespace Homotopy

variable {P C B K : Type} [LinearOrder B]

/-- one pass of the code is one walk -/
theorem pass_walk (lib : Lib P C B K) (pt : Nat → P) (db : List (Geo P C)) : ∀ (w : List Nat) (u : List Nat) (a : Nat) (ch : Chain) (d : Bool),
    Linked ch (u ++ a :: w) → (u ++ a :: w).Nodup → ch.size = (u ++ a :: w).length →
    ∃ ch' w', (∀ fuel, w.length ≤ fuel → pass lib pt db fuel w.head? ch d = .ok (ch', d || decide (w'.length < w.length))) ∧ Linked ch' (u ++ a :: w') ∧
      (u ++ a :: w').Nodup ∧ ch'.size = (u ++ a :: w').length ∧ PullOnce (Free lib pt db) a w w'
  | [], u, a, ch, d, hl, hn, hs => ⟨ch, [], by intro fuel _; cases fuel <;> simp [pass], hl, hn, hs, .nil a⟩
  | [b], u, a, ch, d, hl, hn, hs => by
    obtain ⟨hp, hx⟩ := hl (u ++ [a]) b [] (by simp)
    have hc : ¬ collapseVertex lib pt db ch b = true := by
      rw [collapseVertex_iff, hx]; simp
    refine ⟨ch, [b], ?_, hl, hn, hs, .last a b⟩
    intro fuel hf
    obtain ⟨fuel, rfl⟩ : ∃ k, fuel = k + 1 := ⟨fuel - 1, by simp at hf; omega⟩
    simp only [List.head?_cons, pass, if_neg hc, hx]
    cases fuel <;> simp [pass]
  | b :: c :: w, u, a, ch, d, hl, hn, hs => by
    obtain ⟨hp, hx⟩ := hl (u ++ [a]) b (c :: w) (by simp)
    simp only [List.getLast?_append, List.getLast?_singleton, Option.some_or, List.head?_cons] at hp hx
    have hiff : collapseVertex lib pt db ch b = true ↔ Free lib pt db a b c := by
      rw [collapseVertex_iff, hp, hx]; simp
    by_cases hf : Free lib pt db a b c
    · obtain ⟨l1, l2, l3⟩ := remove_linked hl hn
      have hnodup : (u ++ a :: c :: w).Nodup := hn.sublist (List.Sublist.append_left ((List.sublist_cons_self b (c :: w)).cons_cons a) u)
      have hL : Linked { remove ch b with size := (remove ch b).size - 1 } (u ++ a :: c :: w) := l1
      obtain ⟨ch', w', e, i1, i2, i3, i4⟩ := pass_walk lib pt db (c :: w) u a _ true hL hnodup (by simp [l3, hs])
      refine ⟨ch', w', ?_, i1, i2, i3, .drop hf i4⟩
      intro fuel hfu
      obtain ⟨fuel, rfl⟩ : ∃ k, fuel = k + 1 := ⟨fuel - 1, by simp at hfu; omega⟩
      have hlt : w'.length < (b :: c :: w).length := by
        have := i4.sublist.length_le
        simp at this ⊢; omega
      simp only [List.head?_cons, pass, if_pos (hiff.2 hf), l2]
      rw [decide_eq_true hlt]
      have := e fuel (by simp at hfu ⊢; omega)
      simpa using this
    · obtain ⟨ch', w', e, i1, i2, i3, i4⟩ := pass_walk lib pt db (c :: w) (u ++ [a]) b ch d (by simpa using hl) (by simpa using hn) (by simpa using hs)
      refine ⟨ch', b :: w', ?_, by simpa using i1, by simpa using i2, by simpa using i3, .keep hf i4⟩
      intro fuel hfu
      obtain ⟨fuel, rfl⟩ : ∃ k, fuel = k + 1 := ⟨fuel - 1, by simp at hfu; omega⟩
      simp only [List.head?_cons, pass, if_neg (fun h => hf (hiff.1 h)), hx]
      have := e fuel (by simp at hfu ⊢; omega)
      simpa using this

/-- the loop of the code pulls the line tight -/
theorem deformLoop_pull (lib : Lib P C B K) (pt : Nat → P) (db : List (Geo P C)) : ∀ (m : Nat) (l : List Nat) (ch : Chain),
    l.length ≤ m → Linked ch l → l.Nodup → ch.size = l.length → l.head? = some 0 →
    ∃ ch' l', (∀ fuel, 2 * m + 1 ≤ fuel → deformLoop lib pt db fuel ch = .ok ch') ∧ Linked ch' l' ∧ ch'.size = l'.length ∧ Pull (Free lib pt db) l l' ∧ l'.head? = some 0 := by
  intro m
  induction m with
  | zero =>
    intro l ch h0 _ _ _ hh
    obtain rfl : l = [] := List.eq_nil_of_length_eq_zero (by omega)
    cases hh
  | succ m ih =>
    intro l ch hm hl hn hs hh
    obtain ⟨w, rfl⟩ : ∃ w, l = 0 :: w := List.head?_eq_some_iff.1 hh
    by_cases hsz : ch.size > 2
    · have hsz' : 2 < (0 :: w).length := by omega
      have hc0 : ¬ collapseVertex lib pt db ch 0 = true := by
        obtain ⟨hp, -⟩ := hl [] 0 w rfl
        rw [collapseVertex_iff, hp]; simp
      obtain ⟨-, hx⟩ := hl [] 0 w rfl
      obtain ⟨ch', w', e, i1, i2, i3, i4⟩ := pass_walk lib pt db w [] 0 ch false hl hn hs
      have e1 : ∀ fuel, 2 * m + 2 ≤ fuel → pass lib pt db fuel (some 0) ch false = .ok (ch', decide (w'.length < w.length)) := by
        intro fuel hf
        obtain ⟨fuel, rfl⟩ : ∃ k, fuel = k + 1 := ⟨fuel - 1, by omega⟩
        have := e fuel (by simp at hm; omega)
        simpa only [pass, if_neg hc0, hx, Bool.false_or] using this
      by_cases hlt : w'.length < w.length
      · obtain ⟨ch2, l2, e2, k1, k2, k3, k4⟩ := ih (0 :: w') ch' (by simp at hm ⊢; omega) i1 i2 i3 rfl
        refine ⟨ch2, l2, ?_, k1, k2, .go hsz' i4 hlt k3, k4⟩
        intro fuel hf
        obtain ⟨fuel, rfl⟩ : ∃ k, fuel = k + 1 := ⟨fuel - 1, by omega⟩
        simp only [deformLoop, if_pos hsz, e1 fuel (by omega), Res.ok_bind, decide_eq_true hlt, if_true]
        exact e2 fuel (by omega)
      · obtain rfl : w' = w := i4.sublist.eq_of_length_le (by omega)
        refine ⟨ch', 0 :: w', ?_, i1, i3, .stuck hsz' i4, rfl⟩
        intro fuel hf
        obtain ⟨fuel, rfl⟩ : ∃ k, fuel = k + 1 := ⟨fuel - 1, by omega⟩
        simp [deformLoop, if_pos hsz, e1 fuel (by omega)]
    · refine ⟨ch, 0 :: w, ?_, hl, hs, .short (by omega), rfl⟩
      intro fuel hf
      obtain ⟨fuel, rfl⟩ : ∃ k, fuel = k + 1 := ⟨fuel - 1, by omega⟩
      simp [deformLoop, if_neg hsz]

theorem Pull.ends {Q : Type} {free : Q → Q → Q → Prop} {l r : List Q} (h : Pull free l r) : r.head? = l.head? ∧ r.getLast? = l.getLast? := by
  have hw : ∀ {a : Q} {w r : List Q}, PullOnce free a w r → r.getLast? = w.getLast? := by
    intro a w r h
    induction h with
    | nil => rfl
    | last => rfl
    | drop _ _ ih => rw [ih]; simp
    | keep _ t ih =>
      rename_i a b c w r h
      cases r with
      | nil => cases w <;> simp [List.getLast?_cons] at ih
      | cons x r => simp only [List.getLast?_cons_cons]; exact ih
  induction h with
  | short => exact ⟨rfl, rfl⟩
  | stuck => exact ⟨rfl, rfl⟩
  | go h hw' hl t ih =>
    refine ⟨ih.1, ih.2.trans ?_⟩
    rename_i a w w' r
    have := hw hw'
    cases w with
    | nil => simp at h
    | cons b w =>
      cases w' with
      | nil => cases w <;> simp [List.getLast?_cons] at this
      | cons x w' => simp only [List.getLast?_cons_cons]; exact this

/-- the sidedness test accepts exactly if the same geometries are met by chord and sub-line and pulling the sub-line tight, sweeping over no geometry disjoint from both,
leaves only its two ends -/
theorem homotopy_pull {lib : Lib P C B K} (hb : BoxSound lib) (hrefl : ∀ p, lib.equals2D p p = true) {c : Coords P} {ps : List P}
    (hlen : c.len = ps.length) (hne : 2 ≤ ps.length) (hpt : ∀ k (hk : k < ps.length), c.pt k = .ok ps[k]) (ctx : List (Geo P C)) :
    Yields (homotopy lib c ctx) true ↔ (∀ g ∈ ctx, lib.intersects (.seg c) g = lib.intersects (.line c) g) ∧ ∃ x y, Pull (SweepsNothing lib c ctx) ps [x, y] := by
  obtain ⟨f1, f2⟩ := filterLoop_spec lib (.seg c) (.line c) ctx
  by_cases hx : (filterLoop lib (.seg c) (.line c) ctx).2.2.length > 0
  · have h0 : ∀ fuel, homotopy lib c ctx fuel = .ok false := by intro fuel; simp only [homotopy, if_pos hx]
    constructor
    · rintro ⟨N, h⟩
      have := h N le_rfl
      rw [h0] at this; cases this
    · rintro ⟨h, -⟩
      rw [f1.2 h] at hx; simp at hx
  · have hx0 : (filterLoop lib (.seg c) (.line c) ctx).2.2 = [] := List.eq_nil_of_length_eq_zero (by omega)
    have hsame := f1.1 hx0
    rw [and_iff_right hsame]
    by_cases hd : (filterLoop lib (.seg c) (.line c) ctx).1.length = 0
    · refine ⟨fun _ => ?_, fun _ => ⟨0, fun fuel _ => by simp only [homotopy, if_neg hx, if_pos hd]⟩⟩
      have hfree : ∀ x y z, SweepsNothing lib c ctx x y z := by
        intro x y z g hg a b
        have := (f2 g).2 ⟨hg, a, b⟩
        rw [List.eq_nil_of_length_eq_zero hd] at this
        cases this
      match ps, hne with
      | a :: b :: l, _ =>
        have := Pull.all hfree (b :: l).dropLast a ((b :: l).getLast (by simp))
        rw [List.dropLast_append_getLast] at this
        exact ⟨_, _, this⟩
    · obtain ⟨p0, ps', rfl⟩ : ∃ p0 ps', ps = p0 :: ps' := by
        cases ps with
        | nil => simp at hne
        | cons a l => exact ⟨a, l, rfl⟩
      have ha : allPts c c.len.toNat = .ok (p0 :: ps') := by
        rw [hlen, Int.toNat_natCast, allPts_spec hpt _ (Nat.le_refl _), List.take_length]
      obtain ⟨ch0, l0, e0, i1, i2, i3, i4⟩ := deformLoop_pull lib (fun i => (p0 :: ps').getD i p0) (filterLoop lib (.seg c) (.line c) ctx).1
        (p0 :: ps').length (List.range (p0 :: ps').length) (newChain (p0 :: ps').length) (by simp) (newChain_linked _) List.nodup_range (by simp [newChain])
        (by simp [List.range_succ_eq_map])
      have hp : Pull (SweepsNothing lib c ctx) (p0 :: ps') (l0.map (fun i => (p0 :: ps').getD i p0)) := by
        have := i3.map (free := SweepsNothing lib c ctx) (fun i => (p0 :: ps').getD i p0) (fun x _ y _ z _ => ?_)
        · rwa [range_map_getD] at this
        constructor
        · intro h g hg h1 h2
          cases hi : lib.intersects (triangle (C := C) _ _ _) g with
          | false => rfl
          | true =>
            have := h g ((f2 g).2 ⟨hg, h1, h2⟩) (hb _ _ hi)
            rw [hi] at this; cases this
        · intro h g hg _
          obtain ⟨g1, g2, g3⟩ := (f2 g).1 hg
          exact h g g1 g2 g3
      have hlast : l0.getLast? = some ps'.length := by rw [(Pull.ends i3).2]; simp [List.range_succ]
      have hge : 2 ≤ l0.length := by
        match l0, i4, hlast with
        | [x], h1, h2 => simp at h1 h2; simp at hne; omega
        | x :: y :: t, _, _ => simp
      by_cases h2 : l0.length = 2
      · have hl0 : l0 = [0, ps'.length] := by
          match l0, h2, i4, hlast with
          | [x, y], _, h1, h2 => simp at h1 h2; rw [h1, h2]
        refine ⟨fun _ => ?_, fun _ => ⟨2 * (p0 :: ps').length + 1, fun fuel hf => ?_⟩⟩
        · rw [hl0] at hp; exact ⟨_, _, hp⟩
        · have hn0 : ch0.next 0 = some ps'.length := by
            have := (i1 [] 0 [ps'.length] (by rw [hl0]; rfl)).2
            simpa using this
          simp only [homotopy, if_neg hx, if_neg hd, ha, Res.ok_bind, chainDeformation, e0 fuel hf]
          simp only [i2, h2, if_true, hn0, List.length_cons, Nat.add_sub_cancel, List.getD_cons_zero, hrefl, Bool.and_self]
      · constructor
        · rintro ⟨N, h⟩
          have := h (max N (2 * (p0 :: ps').length + 1)) (le_max_left _ _)
          simp only [homotopy, if_neg hx, if_neg hd, ha, Res.ok_bind, chainDeformation, e0 _ (le_max_right N _), i2, h2, if_false] at this
          cases this
        · rintro ⟨x, y, h⟩
          have := congrArg List.length (h.unique hp)
          simp at this; omega

end Homotopy
end Verif
