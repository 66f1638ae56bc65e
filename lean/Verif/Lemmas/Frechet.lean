import Verif.Spec.Frechet
import Mathlib.Analysis.Normed.Affine.Convex
import Mathlib.Analysis.Convex.Topology
import Mathlib.Tactic.Linarith
import Mathlib.Tactic.FieldSimp
import Mathlib.Tactic.Positivity

/-! Walks along lines: waiting, joining, going on along the same segment. -/

namespace Verif

open Set AffineMap

section
variable {c c' : ℝ → ℝ} {s t m u v w : ℝ}

theorem Clock.const (u s t : ℝ) : Clock (fun _ => u) s t u u := ⟨monotoneOn_const, continuousOn_const, rfl, rfl⟩

theorem Clock.glue (h : Clock c s m u v) (h' : Clock c' m t v w) (hs : s ≤ m) (ht : m ≤ t) :
    Clock (fun x => if x ≤ m then c x else c' x) s t u w where
  mono x hx y hy hxy := by
    by_cases h1 : y ≤ m
    · simp only [hxy.trans h1, h1, if_true]
      exact h.mono ⟨hx.1, hxy.trans h1⟩ ⟨hy.1, h1⟩ hxy
    · simp only [h1, if_false]
      by_cases h2 : x ≤ m
      · simp only [h2, if_true]
        refine (h.mono ⟨hx.1, h2⟩ ⟨hs, le_rfl⟩ h2).trans ?_
        rw [h.last, ← h'.first]
        exact h'.mono ⟨le_rfl, ht⟩ ⟨(not_le.1 h1).le, hy.2⟩ (not_le.1 h1).le
      · simp only [h2, if_false]
        exact h'.mono ⟨(not_le.1 h2).le, hx.2⟩ ⟨(not_le.1 h1).le, hy.2⟩ hxy
  cont := by
    rw [← Icc_union_Icc_eq_Icc hs ht]
    refine ContinuousOn.union_of_isClosed (h.cont.congr ?_) (h'.cont.congr ?_) isClosed_Icc isClosed_Icc
    · intro x hx; simp only [hx.2, if_true]
    · intro x hx
      by_cases h1 : x ≤ m
      · obtain rfl : x = m := le_antisymm h1 hx.1
        simp only [le_rfl, if_true, h.last, h'.first]
      · simp only [h1, if_false]
  first := by simp only [hs, if_true, h.first]
  last := by
    by_cases h1 : t ≤ m
    · obtain rfl : t = m := le_antisymm h1 ht
      simp only [le_rfl, if_true, h.last]
      rw [← h'.last, h'.first]
    · simp only [h1, if_false, h'.last]

theorem Clock.shift (h : Clock c s t u v) (d : ℝ) : Clock (fun x => c (x - d)) (s + d) (t + d) u v where
  mono x hx y hy hxy := h.mono ⟨by linarith [hx.1], by linarith [hx.2]⟩ ⟨by linarith [hy.1], by linarith [hy.2]⟩ (by linarith)
  cont := h.cont.comp (by fun_prop) (fun x hx => ⟨by linarith [hx.1], by linarith [hx.2]⟩)
  first := by simp [h.first]
  last := by simp [h.last]

theorem Clock.mem (h : Clock c s t u v) {x : ℝ} (hx : x ∈ Icc s t) : u ≤ c x ∧ c x ≤ v := by
  have hst := hx.1.trans hx.2
  exact ⟨h.first ▸ h.mono ⟨le_rfl, hst⟩ hx hx.1, h.last ▸ h.mono hx ⟨hst, le_rfl⟩ hx.2⟩

end

section
variable {E : Type} [NormedAddCommGroup E] [NormedSpace ℝ E] {f g : ℝ → E}

theorem Walk.le : ∀ {l : List E} {s t : ℝ}, Walk f s t l → s ≤ t
  | [], _, _, h => h.elim
  | [_], _, _, h => h.1
  | _ :: _ :: _, _, _, ⟨_, h1, h2, _, _⟩ => h1.trans h2

theorem Walk.congr : ∀ {l : List E} {s t : ℝ}, (∀ u ∈ Icc s t, f u = g u) → Walk f s t l → Walk g s t l
  | [], _, _, _, h => h.elim
  | [_], _, _, e, h => ⟨h.1, fun u hu => (e u hu).symm.trans (h.2 u hu)⟩
  | _ :: _ :: _, _, _, e, ⟨m, h1, h2, ⟨c, h3, h4⟩, h5⟩ =>
    ⟨m, h1, h2, ⟨c, h3, fun u hu => (e u ⟨hu.1, hu.2.trans h2⟩).symm.trans (h4 u hu)⟩, Walk.congr (fun u hu => e u ⟨h1.trans hu.1, hu.2⟩) h5⟩

theorem Walk.shift (d : ℝ) : ∀ {l : List E} {s t : ℝ}, Walk f s t l → Walk (fun x => f (x - d)) (s + d) (t + d) l
  | [], _, _, h => h.elim
  | [_], _, _, h => ⟨by linarith [h.1], fun u hu => h.2 _ ⟨by linarith [hu.1], by linarith [hu.2]⟩⟩
  | _ :: _ :: _, _, _, ⟨m, h1, h2, ⟨c, h3, h4⟩, h5⟩ =>
    ⟨m + d, by linarith, by linarith, ⟨_, h3.shift d, fun u hu => h4 _ ⟨by linarith [hu.1], by linarith [hu.2]⟩⟩, Walk.shift d h5⟩

theorem Walk.start : ∀ {l : List E} {a : E} {s t : ℝ}, Walk f s t (a :: l) → f s = a
  | [], _, _, _, h => h.2 _ ⟨le_rfl, h.1⟩
  | _ :: _, _, s, _, ⟨_, h1, _, ⟨_, h3, h4⟩, _⟩ => by
    rw [h4 s ⟨le_rfl, h1⟩, h3.first, lineMap_apply_zero]

theorem Walk.stop : ∀ (l : List E) {x : E} {s t : ℝ}, Walk f s t (l ++ [x]) → f t = x
  | [], _, _, _, h => h.2 _ ⟨h.1, le_rfl⟩
  | [_], _, _, _, ⟨_, _, _, _, h5⟩ => h5.2 _ ⟨h5.1, le_rfl⟩
  | _ :: b :: l, _, _, _, ⟨_, _, _, _, h5⟩ => Walk.stop (b :: l) h5

/-- waiting first -/
theorem Walk.wait : ∀ {l : List E} {x : E} {s m t : ℝ}, s ≤ m → (∀ u ∈ Icc s m, f u = x) → Walk f m t (x :: l) → Walk f s t (x :: l)
  | [], x, s, m, t, h, hc, h' => ⟨h.trans h'.1, fun u hu => by
      by_cases hm : u ≤ m
      · exact hc u ⟨hu.1, hm⟩
      · exact h'.2 u ⟨(not_le.1 hm).le, hu.2⟩⟩
  | b :: l, x, s, m, t, h, hc, ⟨m', h1, h2, ⟨c, h3, h4⟩, h5⟩ => by
    refine ⟨m', h.trans h1, h2, ⟨_, (Clock.const 0 s m).glue h3 h h1, fun u hu => ?_⟩, h5⟩
    by_cases hm : u ≤ m
    · simp only [hm, if_true, lineMap_apply_zero]
      exact hc u ⟨hu.1, hm⟩
    · simp only [hm, if_false]
      exact h4 u ⟨(not_le.1 hm).le, hu.2⟩

/-- one walk after the other -/
theorem Walk.append : ∀ (u : List E) {x : E} {w : List E} {s m t : ℝ}, Walk f s m (u ++ [x]) → Walk f m t (x :: w) → Walk f s t (u ++ x :: w)
  | [], _, _, _, _, _, h, h' => Walk.wait h.1 h.2 h'
  | [_], _, _, _, _, _, ⟨m1, h1, h2, h3, h5⟩, h' => ⟨m1, h1, h2.trans h'.le, h3, Walk.wait h5.1 h5.2 h'⟩
  | _ :: b :: u, _, _, _, _, _, ⟨m1, h1, h2, h3, h5⟩, h' => ⟨m1, h1, h2.trans h'.le, h3, Walk.append (b :: u) h5 h'⟩

/-- walking along points in order on a segment is walking along the segment -/
theorem Walk.merge {a b : E} : ∀ (τ : ℝ) (τs : List ℝ) {s t : ℝ}, (τ :: τs).Pairwise (· ≤ ·) → Walk f s t ((τ :: τs).map (lineMap a b)) →
    ∃ c, Clock c s t τ ((τ :: τs).getLast (by simp)) ∧ ∀ u ∈ Icc s t, f u = lineMap a b (c u)
  | τ, [], s, t, _, h => ⟨_, Clock.const τ s t, fun u hu => h.2 u hu⟩
  | τ, τ' :: τs, s, t, hp, ⟨m, h1, h2, ⟨c, h3, h4⟩, h5⟩ => by
    obtain ⟨c', k1, k2⟩ := Walk.merge τ' τs (List.Pairwise.of_cons hp) h5
    have hle : τ ≤ τ' := List.rel_of_pairwise_cons hp (by simp)
    have hc : Clock (fun x => lineMap τ τ' (c x)) s m τ τ' := by
      refine ⟨fun x hx y hy hxy => ?_, ?_, by simp [h3.first], by simp [h3.last]⟩
      · have := h3.mono hx hy hxy
        simp only [lineMap_apply, vsub_eq_sub, smul_eq_mul, vadd_eq_add]
        nlinarith
      · have := h3.cont
        simp only [lineMap_apply, vsub_eq_sub, smul_eq_mul, vadd_eq_add]
        fun_prop
    refine ⟨_, hc.glue k1 h1 h2, fun u hu => ?_⟩
    by_cases hm : u ≤ m
    · simp only [hm, if_true]
      rw [h4 u ⟨hu.1, hm⟩]
      simp only [lineMap_apply, vsub_eq_sub, vadd_eq_add, smul_eq_mul]
      module
    · simp only [hm, if_false]
      exact k2 u ⟨(not_le.1 hm).le, hu.2⟩

/-- walks along two lines, then along two others that go on where they end -/
theorem FrechetLe.append {ε : ℝ} {u v : List E} {x y : E} {w z : List E} (h : FrechetLe ε (u ++ [x]) (v ++ [y])) (h' : FrechetLe ε (x :: w) (y :: z)) :
    FrechetLe ε (u ++ x :: w) (v ++ y :: z) := by
  obtain ⟨f, g, s, m, h1, h2, h3⟩ := h
  obtain ⟨f', g', m', t', k1, k2, k3⟩ := h'
  have k1 := k1.shift (m - m')
  have k2 := k2.shift (m - m')
  simp only [add_sub_cancel] at k1 k2
  set t := t' + (m - m') with ht
  have hm : ∀ {p q : ℝ → E}, p m = q m → ∀ r ∈ Icc m t, q r = if r ≤ m then p r else q r := by
    intro p q e r hr
    by_cases hrm : r ≤ m
    · obtain rfl : r = m := le_antisymm hrm hr.1
      simp [e]
    · simp [hrm]
  have hs : ∀ {p q : ℝ → E}, ∀ r ∈ Icc s m, p r = if r ≤ m then p r else q r := by
    intro p q r hr; simp [hr.2]
  refine ⟨fun r => if r ≤ m then f r else f' (r - (m - m')), fun r => if r ≤ m then g r else g' (r - (m - m')), s, t,
    Walk.append u (h1.congr hs) (k1.congr (hm ?_)), Walk.append v (h2.congr hs) (k2.congr (hm ?_)), fun r hr => ?_⟩
  · rw [Walk.stop u h1, Walk.start k1]
  · rw [Walk.stop v h2, Walk.start k2]
  · by_cases hrm : r ≤ m
    · simp only [hrm, if_true]; exact h3 r ⟨hr.1, hrm⟩
    · simp only [hrm, if_false]
      exact k3 _ ⟨by linarith [not_le.1 hrm], by linarith [hr.2]⟩

theorem FrechetLe.single {ε : ℝ} {x y : E} (h : dist x y ≤ ε) : FrechetLe ε [x] [y] :=
  ⟨fun _ => x, fun _ => y, 0, 0, ⟨le_rfl, fun _ _ => rfl⟩, ⟨le_rfl, fun _ _ => rfl⟩, fun _ _ => h⟩

theorem walk_segment (a b : E) : Walk (fun u => lineMap a b u) (0 : ℝ) 1 [a, b] :=
  ⟨1, zero_le_one, le_rfl, ⟨id, ⟨monotoneOn_id, continuousOn_id, rfl, rfl⟩, fun _ _ => rfl⟩, le_rfl, fun u hu => by
    rw [show u = 1 from le_antisymm hu.2 hu.1]; exact lineMap_apply_one a b⟩

/-- two segments whose ends are within `ε` -/
theorem FrechetLe.segment {ε : ℝ} {a b a' b' : E} (h : dist a a' ≤ ε) (h' : dist b b' ≤ ε) : FrechetLe ε [a, b] [a', b'] := by
  refine ⟨_, _, 0, 1, walk_segment a b, walk_segment a' b', fun u hu => ?_⟩
  rw [dist_eq_norm] at *
  have : lineMap a b u - lineMap a' b' u = (1 - u) • (a - a') + u • (b - b') := by
    simp only [lineMap_apply, vsub_eq_sub, vadd_eq_add]
    module
  rw [this]
  refine (norm_add_le _ _).trans ?_
  rw [norm_smul, norm_smul, Real.norm_of_nonneg hu.1, Real.norm_of_nonneg (by linarith [hu.2])]
  nlinarith [hu.1, hu.2]

/-- vertices matched one by one -/
theorem FrechetLe.matched {ε : ℝ} : ∀ (x : E × E) (l : List (E × E)), (∀ y ∈ x :: l, dist y.1 y.2 ≤ ε) →
    FrechetLe ε ((x :: l).map Prod.fst) ((x :: l).map Prod.snd)
  | x, [], h => FrechetLe.single (h x (by simp))
  | x, y :: l, h =>
    FrechetLe.append (u := [x.1]) (v := [x.2]) (FrechetLe.segment (h x (by simp)) (h y (by simp))) (FrechetLe.matched y l (fun z hz => h z (by simp [hz])))

/-- a line whose vertices are within `ε` of points in order on a segment -/
theorem FrechetLe.ordered {ε : ℝ} {a b : E} {l : List E} {τ : ℝ} {τs : List ℝ} (h0 : τ = 0) (h1 : (τ :: τs).getLast (by simp) = 1)
    (hp : (τ :: τs).Pairwise (· ≤ ·)) (hl : List.Forall₂ (fun p x => dist p (lineMap a b x) ≤ ε) l (τ :: τs)) : FrechetLe ε l [a, b] := by
  have key : ∀ {l : List E} {ts : List ℝ}, List.Forall₂ (fun p x => dist p (lineMap a b x) ≤ ε) l ts →
      ∃ zs : List (E × E), zs.map Prod.fst = l ∧ zs.map Prod.snd = ts.map (lineMap a b) ∧ ∀ z ∈ zs, dist z.1 z.2 ≤ ε := by
    intro l ts h
    induction h with
    | nil => exact ⟨[], rfl, rfl, by simp⟩
    | @cons p x l ts hd _ ih =>
      obtain ⟨zs, e1, e2, e3⟩ := ih
      exact ⟨(p, lineMap a b x) :: zs, by simp [e1], by simp [e2], by simpa using ⟨hd, fun a b h => e3 _ h⟩⟩
  obtain ⟨zs, e1, e2, e3⟩ := key hl
  match zs, e2 with
  | z :: zs, e2 =>
    obtain ⟨f, g, s, t, w1, w2, w3⟩ := FrechetLe.matched z zs e3
    rw [e1] at w1
    rw [e2] at w2
    obtain ⟨c, k1, k2⟩ := Walk.merge τ τs hp w2
    rw [h1, h0] at k1
    exact ⟨f, g, s, t, w1, ⟨t, w2.le, le_rfl, ⟨c, k1, k2⟩, le_rfl, fun u hu => by
      obtain rfl : u = t := le_antisymm hu.2 hu.1
      rw [k2 u ⟨w2.le, le_rfl⟩, k1.last, lineMap_apply_one]⟩, w3⟩

/-- a line whose vertices have parameters in order -/
theorem FrechetLe.param {Q : Type} {ε : ℝ} {a b : E} {l : List Q} {pos : Q → E} {τ : Q → ℝ} {x y : Q} (hx : l.head? = some x) (hy : l.getLast? = some y)
    (h0 : τ x = 0) (h1 : τ y = 1) (hp : l.Pairwise (fun p q => τ p ≤ τ q)) (hl : ∀ p ∈ l, dist (pos p) (lineMap a b (τ p)) ≤ ε) :
    FrechetLe ε (l.map pos) [a, b] := by
  match l, hx with
  | x' :: l, hx =>
    cases hx
    have h2 := List.pairwise_map.2 hp
    rw [List.map_cons] at h2
    refine FrechetLe.ordered h0 ?_ h2 ?_
    · have e : ((x :: l).map τ).getLast? = some 1 := by rw [List.getLast?_map, hy, Option.map_some, h1]
      rw [List.map_cons, List.getLast?_eq_some_getLast (by simp)] at e
      exact Option.some.inj e
    · rw [← List.map_cons, List.forall₂_map_left_iff, List.forall₂_map_right_iff, List.forall₂_same]
      exact hl

end

end Verif
