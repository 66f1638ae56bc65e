import Verif.Lemmas.HdbInsert
import Verif.Model.Yields
import Mathlib.Tactic.Linarith
import Mathlib.Tactic.Ring

/-! The bulk loader builds a balanced well-formed tree with exactly the given items. -/

namespace Verif
namespace Hdb

variable {T B : Type} [LinearOrder B] [BoundedOrder B]

/-- group sizes: all groups have size `n`, except that the last may be smaller (not empty) -/
def Sizes (n : Nat) : List Nat → Prop
  | [] => True
  | [c] => 0 < c ∧ c ≤ n
  | c :: c' :: cs => c = n ∧ Sizes n (c' :: cs)

theorem Sizes.cons_full {n : Nat} {cs : List Nat} (hn : 0 < n) (h : Sizes n cs) : Sizes n (n :: cs) := by
  cases cs with
  | nil => exact ⟨hn, Nat.le_refl n⟩
  | cons c cs => exact ⟨rfl, h⟩

theorem Sizes.replicate_append {n : Nat} {cs : List Nat} (hn : 0 < n) (h : Sizes n cs) (s : Nat) :
    Sizes n (List.replicate s n ++ cs) := by
  induction s with
  | zero => simpa using h
  | succ s ih => rw [List.replicate_succ, List.cons_append]; exact ih.cons_full hn

theorem Sizes.mem {n : Nat} (hn : 0 < n) : ∀ {cs : List Nat}, Sizes n cs → ∀ c ∈ cs, 0 < c ∧ c ≤ n ∧
    (c = n ∨ cs.sum = (cs.length - 1) * n + c) := by
  intro cs
  induction cs with
  | nil => simp
  | cons x cs ih =>
    intro h c hc
    cases cs with
    | nil =>
      simp only [List.mem_singleton] at hc; subst hc
      exact ⟨h.1, h.2, Or.inr (by simp)⟩
    | cons y cs =>
      obtain ⟨rfl, h⟩ := h
      rcases List.mem_cons.1 hc with rfl | hc
      · exact ⟨hn, Nat.le_refl _, Or.inl rfl⟩
      · obtain ⟨h1, h2, h3⟩ := ih h c hc
        refine ⟨h1, h2, ?_⟩
        rcases h3 with h3 | h3
        · exact Or.inl h3
        · right
          rw [List.sum_cons, h3]
          simp only [List.length_cons, Nat.add_sub_cancel]
          ring

theorem Sizes.length_bound {n : Nat} (hn : 0 < n) : ∀ {cs : List Nat}, cs ≠ [] → Sizes n cs → (cs.length - 1) * n < cs.sum := by
  intro cs
  induction cs with
  | nil => simp
  | cons x cs ih =>
    intro _ h
    cases cs with
    | nil => simpa using h.1
    | cons y cs =>
      obtain ⟨rfl, h⟩ := h
      have := ih (by simp) h
      simp only [List.length_cons, Nat.add_sub_cancel, List.sum_cons] at this ⊢
      rw [Nat.succ_mul]; omega

theorem chunks_flatten {α : Type} (n : Nat) (hn : 0 < n) : ∀ (fuel : Nat) (l : List α), l.length ≤ fuel →
    (chunks fuel n l).flatten = l := by
  intro fuel
  induction fuel with
  | zero => intro l h; simp at h; subst h; rfl
  | succ fuel ih =>
    intro l h
    by_cases hl : l = []
    · subst hl; simp [chunks]
    · simp only [chunks, hl, if_false, List.flatten_cons]
      have := List.length_pos_iff_ne_nil.2 hl
      rw [ih _ (by rw [List.length_drop]; omega), List.take_append_drop]

theorem chunks_sizes {α : Type} (n : Nat) (hn : 0 < n) : ∀ (fuel : Nat) (l : List α), l.length ≤ fuel →
    Sizes n ((chunks fuel n l).map List.length) := by
  intro fuel
  induction fuel with
  | zero => intro l h; simp [chunks, Sizes]
  | succ fuel ih =>
    intro l h
    by_cases hl : l = []
    · subst hl; simp [chunks, Sizes]
    · simp only [chunks, hl, if_false, List.map_cons]
      have hpos := List.length_pos_iff_ne_nil.2 hl
      have := ih (l.drop n) (by rw [List.length_drop]; omega)
      by_cases hd : l.drop n = []
      · have hc : chunks fuel n (l.drop n) = [] := by
          rw [hd]; cases fuel <;> simp [chunks]
        rw [hc]
        refine ⟨?_, ?_⟩ <;> rw [List.length_take] <;> omega
      · have hlen : n < l.length := by
          by_contra hc
          exact hd (List.drop_eq_nil_of_le (by omega))
        rw [show (l.take n).length = n by rw [List.length_take]; omega]
        exact this.cons_full hn

/-- chunks of a list whose length is a multiple of `n` are all full -/
theorem chunks_full {α : Type} (n : Nat) (hn : 0 < n) : ∀ (s fuel : Nat) (l : List α), l.length = n * s → l.length ≤ fuel →
    (chunks fuel n l).map List.length = List.replicate s n := by
  intro s
  induction s with
  | zero =>
    intro fuel l h _
    simp at h; subst h
    cases fuel <;> simp [chunks]
  | succ s ih =>
    intro fuel l h hf
    rw [Nat.mul_succ] at h
    obtain ⟨f, rfl⟩ : ∃ f, fuel = f + 1 := ⟨fuel - 1, by omega⟩
    have hl : l ≠ [] := by rintro rfl; simp at h; omega
    simp only [chunks, hl, if_false, List.map_cons, List.replicate_succ]
    rw [ih f (l.drop n) (by rw [List.length_drop]; omega) (by rw [List.length_drop]; omega), List.length_take]
    congr 1; omega

/-- the tiles of one level: sizes and contents -/
theorem tiles_sizes {α : Type} (n s F : Nat) (hn : 0 < n) (sel : List α → List α) (hsel : ∀ l, (sel l).Perm l) :
    ∀ (rows : List (List α)), Sizes (n * s) (rows.map List.length) → (∀ r ∈ rows, r.length ≤ F) →
      Sizes n ((rows.flatMap (fun row => chunks F n (sel row))).map List.length) := by
  intro rows
  induction rows with
  | nil => simp [Sizes]
  | cons r rows ih =>
    intro h hF
    simp only [List.flatMap_cons, List.map_append]
    have hr : (sel r).length = r.length := (hsel r).length_eq
    cases rows with
    | nil =>
      simp only [List.flatMap_nil, List.map_nil, List.append_nil]
      exact chunks_sizes n hn F _ (by rw [hr]; exact hF r (by simp))
    | cons r2 rows =>
      obtain ⟨h1, h2⟩ := h
      rw [chunks_full n hn s F (sel r) (by rw [hr, h1]) (by rw [hr]; exact hF r (by simp))]
      exact (ih h2 (fun x hx => hF x (by simp [hx]))).replicate_append hn s

theorem tiles_perm {α : Type} (n F : Nat) (hn : 0 < n) (sel : List α → List α) (hsel : ∀ l, (sel l).Perm l) :
    ∀ (rows : List (List α)), (∀ r ∈ rows, r.length ≤ F) →
      ((rows.flatMap (fun row => chunks F n (sel row))).flatten).Perm rows.flatten := by
  intro rows
  induction rows with
  | nil => simp
  | cons r rows ih =>
    intro hF
    simp only [List.flatMap_cons, List.flatten_append, List.flatten_cons]
    have hr : (sel r).length = r.length := (hsel r).length_eq
    rw [chunks_flatten n hn F _ (by rw [hr]; exact hF r (by simp))]
    exact (hsel r).append (ih (fun x hx => hF x (by simp [hx])))

theorem ceilDiv_spec {a b : Nat} (hb : 0 < b) (ha : 0 < a) : 0 < ceilDiv a b ∧ a ≤ ceilDiv a b * b ∧ (ceilDiv a b - 1) * b < a := by
  have h0 : (ceilDiv a b) * b + (a + b - 1) % b = a + b - 1 := by
    unfold ceilDiv; rw [Nat.mul_comm]; exact Nat.div_add_mod _ _
  have h1 : (a + b - 1) % b < b := Nat.mod_lt _ hb
  generalize ceilDiv a b = q at *
  generalize (a + b - 1) % b = r at *
  have hq : 0 < q := by
    rcases Nat.eq_zero_or_pos q with rfl | h
    · simp at h0; omega
    · exact h
  obtain ⟨q', rfl⟩ : ∃ q', q = q' + 1 := ⟨q - 1, by omega⟩
  rw [Nat.succ_mul] at h0
  refine ⟨hq, ?_, ?_⟩
  · rw [Nat.succ_mul]; omega
  · simp only [Nat.add_sub_cancel]; omega

theorem ceilSqrt_pos {n : Nat} (h : 0 < n) : 0 < ceilSqrt n := by
  unfold ceilSqrt
  split
  · exact Nat.sqrt_pos.2 h
  · omega

/-- sizes for which the loader, called with target height `h`, produces exactly height `h` -/
def Good (M h c : Nat) : Prop := 0 < c ∧ c ≤ M ^ h ∧ M ^ h + 2 ≤ 2 * c + 2 * M

/-- arithmetic core: splitting `N` items over at most `m <= M` children of height whose capacity is `X = M^h` -/
theorem good_arith {M m N N2 K c X : Nat} (hM : 4 ≤ M) (hm : 1 ≤ m) (hmM : m ≤ M) (hX : X = M ∨ M * M ≤ X)
    (hNX : N ≤ m * X) (hlow : (m = M ∧ M * X + 2 ≤ 2 * N + 2 * M) ∨ (2 ≤ m ∧ (m - 1) * X < N) ∨ (m = 1 ∧ N = X))
    (hN2 : 0 < N2) (hN2a : N ≤ N2 * m) (hN2b : (N2 - 1) * m < N) (hK : 0 < K)
    (hKb : (K - 1) * N2 < N) (hc0 : 0 < c) (hcn : c ≤ N2) (hc : c = N2 ∨ N = (K - 1) * N2 + c) :
    c ≤ X ∧ X + 2 ≤ 2 * c + 2 * M ∧ K ≤ m := by
  obtain ⟨k, rfl⟩ : ∃ k, K = k + 1 := ⟨K - 1, by omega⟩
  obtain ⟨p, rfl⟩ : ∃ p, N2 = p + 1 := ⟨N2 - 1, by omega⟩
  obtain ⟨u, rfl⟩ : ∃ u, m = u + 1 := ⟨m - 1, by omega⟩
  simp only [Nat.add_sub_cancel] at *
  have hKm : k + 1 ≤ u + 1 := by
    by_contra h
    have : u + 1 ≤ k := by omega
    have := Nat.mul_le_mul_right (p + 1) this
    nlinarith
  have hpX : p + 1 ≤ X := by
    by_contra h
    have : X ≤ p := by omega
    have := Nat.mul_le_mul_right (u + 1) this
    nlinarith
  refine ⟨by omega, ?_, hKm⟩
  rcases hX with hX | hX
  · omega
  -- the size of a full tile
  have hfull : X + 1 ≤ 2 * (p + 1) + 2 := by
    rcases hlow with ⟨h1, h2⟩ | ⟨h1, h2⟩ | ⟨h1, h2⟩
    · by_contra h
      have h3 : 2 * (p + 1) + 2 ≤ X := by omega
      have := Nat.mul_le_mul_left M h3
      nlinarith
    · by_contra h
      have h3 : 2 * (p + 1) + 2 ≤ X := by omega
      have h4 := Nat.mul_le_mul_left (u + 1) h3
      have h5 : 1 * X ≤ u * X := Nat.mul_le_mul_right X (by omega)
      nlinarith
    · have : u = 0 := by omega
      subst this; omega
  rcases hc with rfl | hc
  · omega
  have hMM : 4 * M ≤ M * M := Nat.mul_le_mul_right M hM
  by_cases hk : k = u
  · subst hk
    -- c = N2 - r with r <= m - 1
    rcases hlow with ⟨h1, h2⟩ | ⟨h1, h2⟩ | ⟨h1, h2⟩
    · have hu : k = M - 1 := by omega
      obtain ⟨w, rfl⟩ : ∃ w, M = w + 1 := ⟨M - 1, by omega⟩
      have : k = w := by omega
      subst this
      zify at *
      by_contra hcon
      push Not at hcon
      have e1 : (k : ℤ) * (p + 1) = N - c := by linarith
      have h3 : (p : ℤ) * (k + 1) + 1 ≤ N := by linarith
      nlinarith
    · zify at *
      by_contra hcon
      push Not at hcon
      have h3 : (p : ℤ) * (k + 1) + 1 ≤ N := by linarith
      have h5 : (1 : ℤ) * X ≤ k * X := mul_le_mul_of_nonneg_right (by omega) (by omega)
      have h6 : (k : ℤ) * k ≤ k * (M - 1) := mul_le_mul_of_nonneg_left (by linarith) (by omega)
      nlinarith
    · have : k = 0 := by omega
      subst this; omega
  · exfalso
    have hk' : k + 1 ≤ u := by omega
    have h1 := Nat.mul_le_mul_right (p + 1) hk'
    have h2 : (k + 1) * (p + 1) = k * (p + 1) + (p + 1) := by ring
    have h3 : p * (u + 1) < u * (p + 1) := by omega
    have h4 : p < u := by nlinarith
    omega

theorem mapRes_spec {α β : Type} (f : α → Res β) (R : α → β → Prop) : ∀ (l : List α), (∀ a ∈ l, ∃ b, f a = .ok b ∧ R a b) →
    ∃ bs, mapRes f l = .ok bs ∧ List.Forall₂ R l bs := by
  intro l
  induction l with
  | nil => intro _; exact ⟨[], rfl, List.Forall₂.nil⟩
  | cons a l ih =>
    intro h
    obtain ⟨b, e, hb⟩ := h a (by simp)
    obtain ⟨bs, e2, hbs⟩ := ih (fun x hx => h x (by simp [hx]))
    exact ⟨b :: bs, by simp [mapRes, e, e2], List.Forall₂.cons hb hbs⟩

theorem forall₂_wf {ops : ItemOps T B} {M h : Nat} {tiles : List (List T)} {cs : List (DbNode T B)}
    (hf : List.Forall₂ (fun tile c => WF ops M h c ∧ (flat h c).Perm tile) tiles cs) :
    (∀ c ∈ cs, WF ops M h c) ∧ (cs.flatMap (flat h)).Perm tiles.flatten ∧ cs.length = tiles.length := by
  induction hf with
  | nil => simp
  | cons h1 _ ih =>
    obtain ⟨i1, i2, i3⟩ := ih
    refine ⟨?_, ?_, by simp [i3]⟩
    · intro c hc
      rcases List.mem_cons.1 hc with rfl | hc
      · exact h1.1
      · exact i1 c hc
    · simp only [List.flatMap_cons, List.flatten_cons]
      exact h1.2.append i2

/-- one level of the loader, given the next level -/
theorem build_level {ops : ItemOps T B} {M : Nat} (hM : 4 ≤ M) {H : Heur T B} (hH : Legal H M) {h m : Nat} (hm : 1 ≤ m) (hmM : m ≤ M)
    (hh : 1 ≤ h) {items : List T} (hitems : M < items.length) (hNX : items.length ≤ m * M ^ h)
    (hlow : (m = M ∧ M * M ^ h + 2 ≤ 2 * items.length + 2 * M) ∨ (2 ≤ m ∧ (m - 1) * M ^ h < items.length) ∨
      (m = 1 ∧ items.length = M ^ h))
    (f : List T → Res (DbNode T B))
    (hrec : ∀ tile, Good M h tile.length → ∃ nd, f tile = .ok nd ∧ WF ops M h nd ∧ (flat h nd).Perm tile) :
    ∃ cs, mapRes f ((chunks items.length (ceilDiv items.length m * ceilSqrt m)
        (H.select false (ceilDiv items.length m * ceilSqrt m) items)).flatMap
          (fun row => chunks items.length (ceilDiv items.length m) (H.select true (ceilDiv items.length m) row))) = .ok cs ∧
      cs ≠ [] ∧ cs.length ≤ M ∧ (∀ c ∈ cs, WF ops M h c) ∧ (cs.flatMap (flat h)).Perm items := by
  obtain ⟨d1, d2, d3⟩ := ceilDiv_spec (a := items.length) (b := m) hm (by omega)
  generalize hN2 : ceilDiv items.length m = N2 at *
  have hs := ceilSqrt_pos (n := m) hm
  generalize ceilSqrt m = s at *
  have hN1 : 0 < N2 * s := Nat.mul_pos d1 hs
  have hsel := hH.select false (N2 * s) hN1 items
  have hrows := chunks_sizes (N2 * s) hN1 items.length (H.select false (N2 * s) items) (by rw [hsel.length_eq])
  have hflat := chunks_flatten (N2 * s) hN1 items.length (H.select false (N2 * s) items) (by rw [hsel.length_eq])
  generalize chunks items.length (N2 * s) (H.select false (N2 * s) items) = rows at *
  have hrl : ∀ r ∈ rows, r.length ≤ items.length := by
    intro r hr
    have h1 : r.length ≤ rows.flatten.length := (List.sublist_flatten_of_mem hr).length_le
    rw [hflat, hsel.length_eq] at h1
    exact h1
  have ht1 := tiles_sizes N2 s items.length d1 (H.select true N2) (hH.select true N2 d1) rows hrows hrl
  have ht2 := (tiles_perm N2 items.length d1 (H.select true N2) (hH.select true N2 d1) rows hrl)
  rw [hflat] at ht2
  replace ht2 := ht2.trans hsel
  generalize rows.flatMap (fun row => chunks items.length N2 (H.select true N2 row)) = tiles at *
  have hsum : (tiles.map List.length).sum = items.length := by
    rw [← List.length_flatten, ht2.length_eq]
  have hne : tiles ≠ [] := by
    rintro rfl
    simp at hsum; omega
  have hne' : tiles.map List.length ≠ [] := by simpa using hne
  have hKb := ht1.length_bound d1 hne'
  rw [hsum, List.length_map] at hKb
  have hX : M ^ h = M ∨ M * M ≤ M ^ h := by
    by_cases h1 : h = 1
    · left; simp [h1]
    · right
      calc M * M = M ^ 2 := by ring
        _ ≤ M ^ h := Nat.pow_le_pow_right (by omega) (by omega)
  have hK : 0 < tiles.length := List.length_pos_iff_ne_nil.2 hne
  have hgood : ∀ tile ∈ tiles, Good M h tile.length ∧ tiles.length ≤ m := by
    intro tile ht
    obtain ⟨g1, g2, g3⟩ := ht1.mem d1 tile.length (List.mem_map_of_mem ht)
    rw [hsum, List.length_map] at g3
    obtain ⟨a1, a2, a3⟩ := good_arith hM hm hmM hX hNX hlow d1 d2 d3 hK hKb g1 g2 g3
    exact ⟨⟨g1, a1, a2⟩, a3⟩
  obtain ⟨cs, e, hcs⟩ := mapRes_spec f (fun tile c => WF ops M h c ∧ (flat h c).Perm tile) tiles
    (fun tile ht => hrec tile (hgood tile ht).1)
  obtain ⟨c1, c2, c3⟩ := forall₂_wf hcs
  refine ⟨cs, e, ?_, ?_, c1, c2.trans ht2⟩
  · rintro rfl
    simp at c3; omega
  · obtain ⟨t, ts, hts⟩ := List.exists_cons_of_ne_nil hne
    have := (hgood t (by simp [hts])).2
    omega

theorem build_spec {ops : ItemOps T B} {M : Nat} (hM : 4 ≤ M) {H : Heur T B} (hH : Legal H M) :
    ∀ (h fuel : Nat) (items : List T), h + 1 ≤ fuel → Good M (h + 1) items.length →
      ∃ nd, buildTree ops H M fuel items (h + 1) = .ok nd ∧ WF ops M (h + 1) nd ∧ (flat (h + 1) nd).Perm items := by
  intro h
  induction h with
  | zero =>
    intro fuel items hf hg
    obtain ⟨f, rfl⟩ : ∃ f, fuel = f + 1 := ⟨fuel - 1, by omega⟩
    have hle : items.length ≤ M := by simpa using hg.2.1
    simp only [buildTree, hle, if_true]
    refine ⟨_, rfl, ⟨rfl, rfl, rfl, ?_, ?_, rfl, ?_⟩, ?_⟩
    · simpa using List.length_pos_iff_ne_nil.1 hg.1
    · simpa using hle
    · intro c hc
      simp only [DbNode.children_mk, List.mem_map] at hc
      obtain ⟨t, -, rfl⟩ := hc
      exact ⟨t, rfl⟩
    · simp [flat, List.flatMap_map, newLeafNode]
  | succ h ih =>
    intro fuel items hf hg
    obtain ⟨f, rfl⟩ : ∃ f, fuel = f + 1 := ⟨fuel - 1, by omega⟩
    obtain ⟨g1, g2, g3⟩ := hg
    have hpow : M * M ≤ M ^ (h + 1 + 1) := by
      calc M * M = M ^ 2 := by ring
        _ ≤ _ := Nat.pow_le_pow_right (by omega) (by omega)
    have hlt : M < items.length := by
      have hMM : 4 * M ≤ M * M := Nat.mul_le_mul_right M hM
      omega
    have hle : ¬ items.length ≤ M := by omega
    have hp : M ^ (h + 1 + 1) = M * M ^ (h + 1) := by rw [Nat.pow_succ, Nat.mul_comm]
    obtain ⟨cs, e, c1, c2, c3, c4⟩ := build_level (ops := ops) hM hH (h := h + 1) (m := M) (by omega) (Nat.le_refl M) (by omega) hlt
      (by rw [← hp]; exact g2) (Or.inl ⟨rfl, by rw [← hp]; exact g3⟩) (fun tile => buildTree ops H M f tile (h + 1))
      (fun tile hg => ih f tile (by omega) hg)
    have h0 : ¬ (h + 1 + 1 = 0) := by omega
    simp only [buildTree, hle, if_false, h0, Nat.add_sub_cancel, e, Res.ok_bind, Res.pure_eq]
    exact ⟨_, rfl, ⟨rfl, rfl, by simp, c1, c2, rfl, c3⟩, c4⟩

/-- the call from `Load`: any non-empty item list -/
theorem build_root_spec {ops : ItemOps T B} {M : Nat} (hM : 4 ≤ M) {H : Heur T B} (hH : Legal H M) (items : List T) (hne : items ≠ [])
    (fuel : Nat) (hf : H.height items.length + 1 ≤ fuel) :
    ∃ nd h, buildTree ops H M fuel items 0 = .ok nd ∧ WF ops M (h + 1) nd ∧ (flat (h + 1) nd).Perm items := by
  obtain ⟨f, rfl⟩ : ∃ f, fuel = f + 1 := ⟨fuel - 1, by omega⟩
  by_cases hle : items.length ≤ M
  · obtain ⟨nd, e, h1, h2⟩ := build_spec (ops := ops) hM hH 0 (f + 1) items (by omega)
      ⟨List.length_pos_iff_ne_nil.2 hne, by simpa using hle, by
        have := List.length_pos_iff_ne_nil.2 hne
        simp; omega⟩
    refine ⟨nd, 0, ?_, h1, h2⟩
    rw [← e]
    simp only [buildTree, hle, if_true]
  · have hlt : M < items.length := by omega
    obtain ⟨b1, b2⟩ := hH.height items.length hlt
    generalize hh : H.height items.length = ht at *
    have h2 : 2 ≤ ht := by
      by_contra hc
      have : ht = 0 ∨ ht = 1 := by omega
      rcases this with rfl | rfl
      · simp at b2; omega
      · simp at b2; omega
    obtain ⟨h, rfl⟩ : ∃ h, ht = h + 2 := ⟨ht - 2, by omega⟩
    have hXpos : 0 < M ^ (h + 1) := Nat.pow_pos (by omega)
    obtain ⟨d1, d2, d3⟩ := ceilDiv_spec (a := items.length) (b := M ^ (h + 1)) hXpos (by omega)
    have hm' : ceilDiv items.length (M ^ (h + 1)) ≤ M := by
      by_contra hc
      have h3 : M ≤ ceilDiv items.length (M ^ (h + 1)) - 1 := by omega
      have h4 := Nat.mul_le_mul_right (M ^ (h + 1)) h3
      have h5 : M ^ (h + 2) = M * M ^ (h + 1) := by rw [Nat.pow_succ, Nat.mul_comm]
      omega
    obtain ⟨cs, e, c1, c2, c3, c4⟩ := build_level (ops := ops) hM hH (h := h + 1) (m := ceilDiv items.length (M ^ (h + 1))) d1 hm' (by omega)
      hlt d2 (by
        by_cases hm1 : ceilDiv items.length (M ^ (h + 1)) = 1
        · right; right
          refine ⟨hm1, ?_⟩
          rw [hm1] at d2
          have : M ^ (h + 2 - 1) = M ^ (h + 1) := by congr 1
          rw [this] at b1
          omega
        · right; left
          exact ⟨by omega, d3⟩)
      (fun tile => buildTree ops H M f tile (h + 1)) (fun tile hg => build_spec hM hH h f tile (by omega) hg)
    have e1 : h + 2 - 1 = h + 1 := by omega
    simp only [buildTree, hle, if_false, if_true, hh, e1, e, Res.ok_bind, Res.pure_eq]
    exact ⟨_, h + 1, rfl, ⟨rfl, rfl, by simp, c1, c2, rfl, c3⟩, c4⟩

/-- fuel sufficient for loading `n` items -/
def loadFuel (H : Heur T B) (n : Nat) : Nat := H.height n + 1

/-- `Load` keeps the invariant and adds exactly the items -/
theorem load_spec {ops : ItemOps T B} {H : Heur T B} {t : Tree T B} (hw : TreeWF ops t) (hH : Legal H t.maxE) (items : List T)
    (fuel : Nat) (hf : loadFuel H items.length ≤ fuel) :
    ∃ t', load ops H t items fuel = .ok t' ∧ TreeWF ops t' ∧ t'.maxE = t.maxE ∧ t'.minE = t.minE ∧
      (contents t').Perm (contents t ++ items) := by
  obtain ⟨hcap, hfill, hroot⟩ := hw
  unfold load
  by_cases hn : items.length < t.minE
  · obtain ⟨r, e, r1, r2⟩ := insertItems_spec (by omega) hH items t.data hroot
    simp only [hn, if_true, e, Res.ok_bind, Res.pure_eq]
    exact ⟨_, rfl, ⟨hcap, hfill, r1⟩, rfl, rfl, r2⟩
  · have hne : items ≠ [] := by rintro rfl; simp at hn; omega
    obtain ⟨nd, h, e, n1, n2⟩ := build_root_spec (ops := ops) hcap hH items hne fuel hf
    have hh : nd.height = h + 1 := n1.2.1
    simp only [hn, if_false, e, Res.ok_bind]
    by_cases h0 : t.data.children.length = 0
    · simp only [h0, if_true, Res.pure_eq]
      refine ⟨_, rfl, ⟨hcap, hfill, Or.inr ⟨h, n1⟩⟩, rfl, rfl, ?_⟩
      have hc : contents t = [] := by
        rcases hroot with hr | ⟨k, hk⟩
        · simp [contents, hr, flat]
        · exact absurd (List.length_eq_zero_iff.1 h0) hk.ne_nil
      rw [hc, contents]
      simp only [hh, List.nil_append]
      exact n2
    · simp only [h0, if_false]
      obtain ⟨k, hk⟩ : ∃ k, WF ops t.maxE (k + 1) t.data := by
        rcases hroot with hr | hr
        · rw [hr] at h0; simp at h0
        · exact hr
      have hkh : t.data.height = k + 1 := hk.2.1
      have hct : contents t = flat (k + 1) t.data := by rw [contents, hkh]
      by_cases heq : t.data.height = nd.height
      · simp only [heq, if_true, Res.pure_eq]
        have : k = h := by omega
        subst this
        obtain ⟨s1, s2⟩ := splitRoot_spec (by omega) hk n1
        refine ⟨_, rfl, ⟨hcap, hfill, Or.inr ⟨_, s1⟩⟩, rfl, rfl, ?_⟩
        have hh2 : (splitRoot t.data nd).height = k + 2 := s1.2.1
        rw [contents]
        simp only [hh2, s2, hct]
        exact List.Perm.append_left _ n2
      · simp only [heq, if_false]
        by_cases hlt : t.data.height < nd.height
        · simp only [hlt, if_true]
          obtain ⟨l, hl⟩ : ∃ l, h = l + (k + 1) := ⟨h - (k + 1), by omega⟩
          subst hl
          have hlev : nd.height - t.data.height - 1 = l := by omega
          obtain ⟨r, h', e', r1, r2⟩ := insertNode_spec (by omega) hH (level := l) hk n1
          rw [hlev, e']
          simp only [Res.ok_bind, Res.pure_eq]
          refine ⟨_, rfl, ⟨hcap, hfill, Or.inr ⟨_, r1⟩⟩, rfl, rfl, ?_⟩
          have hh2 : r.height = h' + 1 := r1.2.1
          rw [contents]
          simp only [hh2, hct]
          exact r2.trans ((n2.append_right _).trans List.perm_append_comm)
        · simp only [hlt, if_false]
          obtain ⟨l, hl⟩ : ∃ l, k = l + (h + 1) := ⟨k - (h + 1), by omega⟩
          subst hl
          have hlev : t.data.height - nd.height - 1 = l := by omega
          obtain ⟨r, h', e', r1, r2⟩ := insertNode_spec (by omega) hH (level := l) n1 hk
          rw [hlev, e']
          simp only [Res.ok_bind, Res.pure_eq]
          refine ⟨_, rfl, ⟨hcap, hfill, Or.inr ⟨_, r1⟩⟩, rfl, rfl, ?_⟩
          have hh2 : r.height = h' + 1 := r1.2.1
          rw [contents]
          simp only [hh2, hct]
          exact r2.trans (List.Perm.append_left _ n2)

/-! ### more fuel changes nothing -/

theorem mapRes_mono {α β : Type} {f g : α → Res β} (h : ∀ a b, f a = .ok b → g a = .ok b) : ∀ {l : List α} {r : List β},
    mapRes f l = .ok r → mapRes g l = .ok r := by
  intro l
  induction l with
  | nil => intro r hr; exact hr
  | cons a l ih =>
    intro r hr
    simp only [mapRes, Res.bind_eq_ok, Res.pure_eq] at hr ⊢
    obtain ⟨b, hb, bs, hbs, e⟩ := hr
    exact ⟨b, h a b hb, bs, ih hbs, e⟩

theorem buildTree_mono (ops : ItemOps T B) (H : Heur T B) (M : Nat) : ∀ (fuel : Nat) (items : List T) (h : Nat) (r : DbNode T B),
    buildTree ops H M fuel items h = .ok r → buildTree ops H M (fuel + 1) items h = .ok r := by
  intro fuel
  induction fuel with
  | zero => intro items h r hr; simp [buildTree] at hr
  | succ fuel ih =>
    intro items h r hr
    rw [buildTree] at hr ⊢
    simp only at hr ⊢
    by_cases hle : items.length ≤ M
    · rw [if_pos hle] at hr ⊢; exact hr
    · rw [if_neg hle] at hr ⊢
      rw [Res.bind_eq_ok] at hr ⊢
      obtain ⟨cs, h1, h2⟩ := hr
      exact ⟨cs, mapRes_mono (fun a b => ih a _ b) h1, h2⟩

theorem load_mono (ops : ItemOps T B) (H : Heur T B) (t t' : Tree T B) (items : List T) (fuel : Nat)
    (h : load ops H t items fuel = .ok t') : load ops H t items (fuel + 1) = .ok t' := by
  unfold load at h ⊢
  simp only at h ⊢
  by_cases hn : items.length < t.minE
  · rw [if_pos hn] at h ⊢; exact h
  · rw [if_neg hn] at h ⊢
    rw [Res.bind_eq_ok] at h ⊢
    obtain ⟨nd, h1, h2⟩ := h
    exact ⟨nd, buildTree_mono ops H _ fuel items 0 nd h1, h2⟩

theorem load_yields {ops : ItemOps T B} {H : Heur T B} {t : Tree T B} (hw : TreeWF ops t) (hH : Legal H t.maxE) (items : List T) :
    ∃ t', Yields (fun fuel => load ops H t items fuel) t' ∧ TreeWF ops t' ∧ t'.maxE = t.maxE ∧ t'.minE = t.minE ∧
      (contents t').Perm (contents t ++ items) := by
  obtain ⟨t', e, rest⟩ := load_spec hw hH items _ (Nat.le_refl _)
  refine ⟨t', ⟨loadFuel H items.length, fun fuel hf => ?_⟩, rest⟩
  induction hf with
  | refl => exact e
  | step _ ih => exact load_mono _ _ _ _ _ _ ih

end Hdb
end Verif
