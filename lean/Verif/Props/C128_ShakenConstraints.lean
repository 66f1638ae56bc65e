import Verif.Props.C127_Shaken

/-! C128: places of lines and of constraints that are known only up to an error. -/

set_option linter.unusedSectionVars false

namespace Verif
namespace Planar

/-! ### specification -/

/-- the constraints that are drawn from lists of vertices -/
def drawn (shape : List ℂ → Set ℂ) (cs : List (List ℂ)) : Set (Set ℂ) := {s | ∃ c ∈ cs, shape c = s}

/-- what is drawn moves no farther than the vertices -/
def Drawing (shape : List ℂ → Set ℂ) : Prop := ∀ (η : ℝ) (c c' : List ℂ), Shaken η c c' → ∀ z ∈ shape c, ∃ z' ∈ shape c', dist z z' ≤ η

/-- the segment is more than `2η` away from what is drawn, or meets it also after all vertices are moved by up to `η` -/
def FirmPair2 (η : ℝ) (shape : List ℂ → Set ℂ) (c : List ℂ) (x y : ℂ) : Prop :=
  2 * η < gap (segment ℝ x y) (shape c) ∨ ∀ x' y' c', dist x x' ≤ η → dist y y' ≤ η → Shaken η c c' → (segment ℝ x' y' ∩ shape c').Nonempty

/-- the same for a triangle -/
def FirmTriple2 (η : ℝ) (shape : List ℂ → Set ℂ) (c : List ℂ) (x y z : ℂ) : Prop :=
  2 * η < gap (convexHull ℝ {x, y, z}) (shape c) ∨
    ∀ x' y' z' c', dist x x' ≤ η → dist y y' ≤ η → dist z z' ≤ η → Shaken η c c' → (convexHull ℝ {x', y', z'} ∩ shape c').Nonempty

/-- Specification: all decisions on the line `zs` among the constraints `cs` are made with so much room to spare that they come out the same when every place of the line and every
vertex of the constraints is moved by up to `η` and every offset by up to `δ` (compare `Firm`). -/
structure FirmBoth (off : Int → Int → Int → ℝ) (δ η : ℝ) (R : Rules) (shape : List ℂ → Set ℂ) (cs : List (List ℂ)) (zs : List ℂ) : Prop where
  meets : R.geom = true ∨ R.side = true → ∀ c ∈ cs, ∀ i j : Int, 0 ≤ i → i < j → j < zs.length → FirmPair2 η shape c (vtx zs i) (vtx zs j)
  triangles : R.side = true → ∀ c ∈ cs, ∀ x ∈ zs, ∀ y ∈ zs, ∀ z ∈ zs, FirmTriple2 η shape c x y z
  distances : R.dist = true → ∀ c ∈ cs, ∀ i j : Int, 0 ≤ i → i < j → j < zs.length →
    (gap (chordSet (between zs i j)) (shape c) < R.minDist - 2 * η ∨ R.minDist + 2 * η ≤ gap (chordSet (between zs i j)) (shape c)) ∧
    (gap (lineSet (between zs i j)) (shape c) < R.minDist - 2 * η ∨ R.minDist + 2 * η ≤ gap (lineSet (between zs i j)) (shape c))
  bent : ∀ i j : Int, 0 ≤ i → i + 1 < j → j < zs.length → ¬ Allowed R (between zs i j) →
    ∀ a ∈ between zs i j, ∀ b ∈ between zs i j, ∃ z ∈ between zs i j, 2 * η < gap {z} (segment ℝ a b)
  tolerance : ∀ i j : Int, 0 ≤ i → i + 1 < j → j < zs.length → NearBy off (R.tolerance - δ) i j ∨ ¬ NearBy off (R.tolerance + δ) i j
  farthest : ∀ i j : Int, 0 ≤ i → i + 1 < j → j < zs.length → ¬ NearBy off R.tolerance i j ∨ ¬ Allowed R (between zs i j) →
    ∃ k, i < k ∧ k < j ∧ ∀ l, i < l → l < j → l ≠ k → off i j l + 2 * δ < off i j k

/-! ### lines and hulls as constraints -/

theorem drawing_line : Drawing lineSet := fun η c c' h => by
  obtain ⟨w, rfl, rfl, hw⟩ := h.pairs
  exact line_near hw

theorem drawing_hull : Drawing hullSet := fun η c c' h => by
  obtain ⟨w, rfl, rfl, hw⟩ := h.pairs
  refine hull_near (fun x hx => ?_)
  obtain ⟨p, hp, rfl⟩ := List.mem_map.1 hx
  exact ⟨p.2, List.mem_map_of_mem hp, hw p hp⟩

/-! ### other constraints for the same line -/

theorem Shaken.symm {η : ℝ} {zs zs' : List ℂ} (h : Shaken η zs zs') : Shaken η zs' zs := by
  unfold Shaken at h ⊢
  induction h with
  | nil => exact .nil
  | cons h _ ih => exact .cons (by rwa [dist_comm]) ih

theorem Shaken.refl {η : ℝ} (h0 : 0 ≤ η) : ∀ zs : List ℂ, Shaken η zs zs
  | [] => .nil
  | z :: zs => .cons (by simpa using h0) (Shaken.refl h0 zs)

/-- the two sets play the same part for the line `l` -/
structure SamePart (R : Rules) (l : List ℂ) (s s' : Set ℂ) : Prop where
  chord : R.geom = true ∨ R.side = true → ((chordSet l ∩ s).Nonempty ↔ (chordSet l ∩ s').Nonempty)
  line : R.geom = true ∨ R.side = true → ((lineSet l ∩ s).Nonempty ↔ (lineSet l ∩ s').Nonempty)
  triangles : R.side = true → ∀ x ∈ l, ∀ y ∈ l, ∀ z ∈ l, ((convexHull ℝ {x, y, z} ∩ s).Nonempty ↔ (convexHull ℝ {x, y, z} ∩ s').Nonempty)
  far : R.dist = true → (R.minDist ≤ gap (chordSet l) s ↔ R.minDist ≤ gap (chordSet l) s')
  close : R.dist = true → (gap (lineSet l) s < R.minDist ↔ gap (lineSet l) s' < R.minDist)

theorem forall_matched {O O' : Set (Set ℂ)} {T : Set ℂ → Set ℂ → Prop} {p q : Set ℂ → Prop} (h1 : ∀ s ∈ O, ∃ s' ∈ O', T s s') (h2 : ∀ s' ∈ O', ∃ s ∈ O, T s s')
    (h : ∀ s s', T s s' → (p s ↔ q s')) : (∀ s ∈ O, p s) ↔ ∀ s' ∈ O', q s' := by
  constructor
  · intro a s' hs'
    obtain ⟨s, hs, ht⟩ := h2 s' hs'
    exact (h s s' ht).1 (a s hs)
  · intro a s hs
    obtain ⟨s', hs', ht⟩ := h1 s hs
    exact (h s s' ht).2 (a s' hs')

theorem allowed_matched {R : Rules} {O : Set (Set ℂ)} {l : List ℂ} (h1 : ∀ s ∈ R.obstacles, ∃ s' ∈ O, SamePart R l s s') (h2 : ∀ s' ∈ O, ∃ s ∈ R.obstacles, SamePart R l s s') :
    Allowed R l ↔ Allowed { R with obstacles := O } l := by
  refine and_congr (imp_congr_right fun hG => forall_matched h1 h2 fun s s' h => ?_) (and_congr (imp_congr_right fun hD => forall_matched h1 h2 fun s s' h => ?_)
    (imp_congr_right fun hS => and_congr (forall_matched h1 h2 fun s s' h => ?_) ?_))
  · rw [h.chord (.inl hG), h.line (.inl hG)]
  · rw [h.far hD, h.close hD]
  · rw [h.chord (.inr hS), h.line (.inr hS)]
  · have hfree : ∀ x ∈ l, ∀ y ∈ l, ∀ z ∈ l, (FreeOf R.obstacles l x y z ↔ FreeOf O l x y z) := fun x hx y hy z hz =>
      forall_matched h1 h2 fun s s' h => by rw [h.line (.inr hS), h.triangles hS x hx y hy z hz]
    exact exists_congr fun a => exists_congr fun b =>
      ⟨fun h => h.congr hfree, fun h => h.congr (fun x hx y hy z hz => (hfree x hx y hy z hz).symm)⟩

/-! ### what is drawn from moved vertices -/

section
variable {η : ℝ} {s s' : Set ℂ}

theorem gap_moved {S : Set ℂ} (h : ∀ z ∈ s, ∃ z' ∈ s', dist z z' ≤ η) (h1 : S.Nonempty) (h2 : s.Nonempty) : gap S s' - η ≤ gap S s := by
  refine (le_gap_iff h1 h2).2 (fun x hx y hy => ?_)
  obtain ⟨z, hz, hd⟩ := h y hy
  have := gap_le hx hz
  have := dist_triangle x y z
  linarith

theorem line_meets_two : ∀ {l : List ℂ}, 2 ≤ l.length → (∀ u p q v, l = u ++ p :: q :: v → ((segment ℝ p q ∩ s).Nonempty ↔ (segment ℝ p q ∩ s').Nonempty)) →
    ((lineSet l ∩ s).Nonempty ↔ (lineSet l ∩ s').Nonempty)
  | [p, q], _, h => by
    have e : lineSet [p, q] = segment ℝ p q ∪ {q} := rfl
    have e' : lineSet [p, q] = segment ℝ p q := by
      rw [e, Set.union_eq_left]
      rintro _ rfl
      exact right_mem_segment ℝ _ _
    rw [e']
    exact h [] p q [] rfl
  | p :: q :: r :: l, _, h => by
    have h1 := h [] p q (r :: l) rfl
    have h2 := line_meets_two (l := q :: r :: l) (by simp) (fun u a b v e => h (p :: u) a b v (by rw [e]; rfl))
    have h3 : ∀ (a b t : Set ℂ), ((a ∪ b) ∩ t).Nonempty ↔ (a ∩ t).Nonempty ∨ (b ∩ t).Nonempty := fun a b t => by
      rw [Set.union_inter_distrib_right, Set.union_nonempty]
    have h4 : lineSet (p :: q :: r :: l) = segment ℝ p q ∪ lineSet (q :: r :: l) := rfl
    rw [h4, h3, h3, h1, h2]

end

section
variable {off : Int → Int → Int → ℝ} {δ η : ℝ} {R : Rules} {shape : List ℂ → Set ℂ} {cs cs' : List (List ℂ)} {w : List (ℂ × ℂ)}

theorem matched_left (h : List.Forall₂ (Shaken η) cs cs') : ∀ c ∈ cs, ∃ c' ∈ cs', Shaken η c c' := by
  induction h with
  | nil => simp
  | cons h _ ih =>
    rintro c (_ | ⟨_, hc⟩)
    · exact ⟨_, List.mem_cons_self, h⟩
    · obtain ⟨c', hc', hs⟩ := ih c hc
      exact ⟨c', List.mem_cons_of_mem _ hc', hs⟩

theorem matched_right (h : List.Forall₂ (Shaken η) cs cs') : ∀ c' ∈ cs', ∃ c ∈ cs, Shaken η c c' := by
  induction h with
  | nil => simp
  | cons h _ ih =>
    rintro c' (_ | ⟨_, hc⟩)
    · exact ⟨_, List.mem_cons_self, h⟩
    · obtain ⟨c, hc, hs⟩ := ih c' hc
      exact ⟨c, List.mem_cons_of_mem _ hc, hs⟩

/-- firm for both is firm for the line alone -/
theorem FirmBoth.firm {zs : List ℂ} (h0 : 0 ≤ η) (hO : R.obstacles = drawn shape cs) (hF : FirmBoth off δ η R shape cs zs) : Firm off δ η R zs := by
  refine ⟨fun hR s hs i j h1 h2 h3 => ?_, fun hR s hs x hx y hy z hz => ?_, fun hR s hs i j h1 h2 h3 => ?_, hF.bent, hF.tolerance, hF.farthest⟩
  all_goals rw [hO] at hs; obtain ⟨c, hc, rfl⟩ := hs
  · exact (hF.meets hR c hc i j h1 h2 h3).imp (fun h => by linarith) (fun h x' y' hx hy => h x' y' c hx hy (Shaken.refl h0 c))
  · exact (hF.triangles hR c hc x hx y hy z hz).imp (fun h => by linarith) (fun h x' y' z' a1 a2 a3 => h x' y' z' c a1 a2 a3 (Shaken.refl h0 c))
  · exact (hF.distances hR c hc i j h1 h2 h3).imp (fun h => h.imp (fun h => by linarith) (fun h => by linarith)) (fun h => h.imp (fun h => by linarith) (fun h => by linarith))

variable (h0 : 0 ≤ η) (hw : ∀ p ∈ w, dist p.1 p.2 ≤ η) (hF : FirmBoth off δ η R shape cs (w.map Prod.fst)) (hD : Drawing shape)
include h0 hD

/-- a set near one that is far from what is drawn meets neither that nor what is drawn from the moved vertices -/
theorem far_both {S T : Set ℂ} {c c' : List ℂ} (hT : ∀ z ∈ T, ∃ z' ∈ S, dist z z' ≤ η) (hc : Shaken η c c') (hg : 2 * η < gap S (shape c)) :
    ¬ (T ∩ shape c).Nonempty ∧ ¬ (T ∩ shape c').Nonempty := by
  refine ⟨off_near hT (by linarith), ?_⟩
  rintro ⟨z, hz, hs⟩
  obtain ⟨z1, hz1, d1⟩ := hT z hz
  obtain ⟨z2, hz2, d2⟩ := hD η c' c hc.symm z hs
  have := gap_le hz1 hz2
  have := dist_triangle z1 z z2
  rw [dist_comm z1 z] at this
  linarith

include hw hF

theorem FirmBoth.pair {c c' : List ℂ} (hR : R.geom = true ∨ R.side = true) (hc : c ∈ cs) (hcc : Shaken η c c') {m n : Nat} {p q : ℂ × ℂ} (hp : w[m]? = some p) (hq : w[n]? = some q)
    (hmn : m < n) : (segment ℝ p.2 q.2 ∩ shape c).Nonempty ↔ (segment ℝ p.2 q.2 ∩ shape c').Nonempty := by
  have hn := (List.getElem?_eq_some_iff.1 hq).1
  have := hF.meets hR c hc m n (by omega) (by omega) (by simpa using hn)
  simp only [vtx, Int.toNat_natCast, List.getElem?_map, hp, hq, Option.map_some, Option.getD_some] at this
  have dp := hw p (List.mem_of_getElem? hp)
  have dq := hw q (List.mem_of_getElem? hq)
  rcases this with h | h
  · obtain ⟨a, b⟩ := far_both h0 hD (segment_near (a := p.2) (b := q.2) (by rwa [dist_comm]) (by rwa [dist_comm])) hcc h
    exact iff_of_false a b
  · exact iff_of_true (h _ _ _ dp dq (Shaken.refl h0 c)) (h _ _ _ dp dq hcc)

theorem FirmBoth.samePart {c c' : List ℂ} (hc : c ∈ cs) (hcc : Shaken η c c') {i j : Int} (hi : 0 ≤ i) (hij : i < j) (hj : j < w.length) :
    SamePart R ((between w i j).map Prod.snd) (shape c) (shape c') := by
  have hmem : ∀ p ∈ between w i j, p ∈ w := fun p hp => List.mem_of_mem_drop (List.mem_of_mem_take hp)
  have hsub : ∀ p ∈ between w i j, dist p.1 p.2 ≤ η := fun p hp => hw p (hmem p hp)
  have hlen : (between w i j).length = (j + 1 - i).toNat := by rw [between, List.length_take, List.length_drop]; omega
  have hne : between w i j ≠ [] := fun h => by
    have := congrArg List.length h
    rw [hlen, List.length_nil] at this
    omega
  have gaps : R.dist = true → ∀ {S T : Set ℂ}, S.Nonempty → T.Nonempty → (∀ z ∈ S, ∃ z' ∈ T, dist z z' ≤ η) → (∀ z ∈ T, ∃ z' ∈ S, dist z z' ≤ η) →
      (gap S (shape c) < R.minDist - 2 * η ∨ R.minDist + 2 * η ≤ gap S (shape c)) → (R.minDist ≤ gap T (shape c) ↔ R.minDist ≤ gap T (shape c')) := by
    intro _ S T hS hT f g h
    rcases (shape c).eq_empty_or_nonempty with e | hs
    · have e' : shape c' = ∅ := by
        by_contra hx
        obtain ⟨z, hz⟩ := Set.nonempty_iff_ne_empty.2 hx
        obtain ⟨z', hz', -⟩ := hD η c' c hcc.symm z hz
        rw [e] at hz'
        exact hz'
      rw [e, e']
    obtain ⟨z, hz⟩ := hs
    obtain ⟨z', hz', -⟩ := hD η c c' hcc z hz
    have n1 := gap_near (s := shape c) f hS ⟨z, hz⟩
    have n2 := gap_near (s := shape c) g hT ⟨z, hz⟩
    have n3 := gap_moved (S := T) (hD η c c' hcc) hT ⟨z, hz⟩
    have n4 := gap_moved (S := T) (hD η c' c hcc.symm) hT ⟨z', hz'⟩
    rcases h with h | h
    · exact iff_of_false (by linarith) (by linarith)
    · exact iff_of_true (by linarith) (by linarith)
  have hd := fun hR => hF.distances hR c hc i j hi hij (by simpa using hj)
  rw [pairs_between] at hd
  refine ⟨fun hR => ?_, fun hR => ?_, fun hR x hx y hy z hz => ?_, fun hR => ?_, fun hR => ?_⟩
  · have e1 : (between w i j).head? = some w[i.toNat] := by
      rw [between, List.head?_take, if_neg (by omega), List.head?_drop, List.getElem?_eq_getElem (by omega)]
    have e2 : (between w i j).getLast? = some w[j.toNat] := by
      rw [between, List.getLast?_take, if_neg (by omega), List.getElem?_drop, show i.toNat + ((j + 1 - i).toNat - 1) = j.toNat by omega, List.getElem?_eq_getElem (by omega)]
      rfl
    have e3 : chordSet ((between w i j).map Prod.snd) = segment ℝ w[i.toNat].2 w[j.toNat].2 := by
      ext z
      simp [chordSet, e1, e2]
    rw [e3]
    exact FirmBoth.pair h0 hw hF hD hR hc hcc (List.getElem?_eq_getElem (by omega)) (List.getElem?_eq_getElem (by omega)) (by omega)
  · refine line_meets_two (by rw [List.length_map, hlen]; omega) (fun u p q v e => ?_)
    obtain ⟨u', r, e1, rfl, e2⟩ := List.map_eq_append_iff.1 e
    obtain ⟨p', r', rfl, rfl, e3⟩ := List.map_eq_cons_iff.1 e2
    obtain ⟨q', v', rfl, rfl, rfl⟩ := List.map_eq_cons_iff.1 e3
    have hsplit : w = w.take i.toNat ++ (between w i j ++ (w.drop i.toNat).drop (j + 1 - i).toNat) := by
      rw [between, List.take_append_drop, List.take_append_drop]
    rw [e1] at hsplit
    have ht : (w.take i.toNat).length = i.toNat := by rw [List.length_take]; omega
    refine FirmBoth.pair h0 hw hF hD hR hc hcc (m := i.toNat + u'.length) (n := i.toNat + u'.length + 1) ?_ ?_ (by omega)
    · rw [hsplit, List.getElem?_append_right (by omega), ht]
      simp
    · rw [hsplit, List.getElem?_append_right (by omega), ht]
      simp [show i.toNat + u'.length + 1 - i.toNat = u'.length + 1 by omega]
  · obtain ⟨p, hp, rfl⟩ := List.mem_map.1 hx
    obtain ⟨q, hq, rfl⟩ := List.mem_map.1 hy
    obtain ⟨r, hr, rfl⟩ := List.mem_map.1 hz
    have dp := hsub p hp
    have dq := hsub q hq
    have dr := hsub r hr
    rcases hF.triangles hR c hc _ (List.mem_map_of_mem (hmem p hp)) _ (List.mem_map_of_mem (hmem q hq)) _ (List.mem_map_of_mem (hmem r hr)) with h | h
    · obtain ⟨a, b⟩ := far_both h0 hD (triangle_near (a := p.2) (b := q.2) (c := r.2) (by rwa [dist_comm]) (by rwa [dist_comm]) (by rwa [dist_comm])) hcc h
      exact iff_of_false a b
    · exact iff_of_true (h _ _ _ _ dp dq dr (Shaken.refl h0 c)) (h _ _ _ _ dp dq dr hcc)
  · exact gaps hR (chordSet_nonempty (by simpa using hne)) (chordSet_nonempty (by simpa using hne)) (chord_near hsub) (chord_near' hsub) (hd hR).1
  · have := gaps hR (lineSet_nonempty (by simpa using hne)) (lineSet_nonempty (by simpa using hne)) (line_near hsub) (line_near' hsub) (hd hR).2
    rw [← not_le, ← not_le, this]

/-- the constraints may be replaced by what is known of them -/
theorem FirmBoth.sameCalls (hO : R.obstacles = drawn shape cs) (hcs : List.Forall₂ (Shaken η) cs cs') (off' : Int → Int → Int → ℝ) :
    SameCalls off' off' R { R with obstacles := drawn shape cs' } (w.map Prod.snd) (w.map Prod.snd) := by
  have ha : ∀ i j : Int, 0 ≤ i → i < j → j < (w.map Prod.snd).length →
      (Allowed R (between (w.map Prod.snd) i j) ↔ Allowed { R with obstacles := drawn shape cs' } (between (w.map Prod.snd) i j)) := fun i j hi hij hj => by
    rw [List.length_map] at hj
    rw [pairs_between]
    refine allowed_matched (fun s hs => ?_) (fun s' hs => ?_)
    · rw [hO] at hs
      obtain ⟨c, hc, rfl⟩ := hs
      obtain ⟨c', hc', h⟩ := matched_left hcs c hc
      exact ⟨_, ⟨c', hc', rfl⟩, FirmBoth.samePart h0 hw hF hD hc h hi hij hj⟩
    · obtain ⟨c', hc', rfl⟩ := hs
      obtain ⟨c, hc, h⟩ := matched_right hcs c' hc'
      exact ⟨_, by rw [hO]; exact ⟨c, hc, rfl⟩, FirmBoth.samePart h0 hw hF hD hc h hi hij hj⟩
  exact ⟨rfl, fun i j _ _ => Iff.rfl, fun i j hi hij hj => and_congr_right fun _ => not_congr (ha i j hi (by omega) hj), ha, fun i j k _ _ _ _ => Iff.rfl⟩

end

section
variable {η : ℝ} {R : Rules} {shape : List ℂ → Set ℂ} {cs cs' : List (List ℂ)}

/-- **C128, the procedure.**  Let every place of a line and every vertex of the constraints be known up to an error `η`, and let all decisions be made with room to spare.  If the
vertices that must be kept are the same, the procedure prescribes the same for the line among the constraints and for what is known of both. -/
theorem C128_procedure {zs zs' : List ℂ} (h0 : 0 ≤ η) (hD : Drawing shape) (hO : R.obstacles = drawn shape cs) (hcs : List.Forall₂ (Shaken η) cs cs') (hs : Shaken η zs zs')
    (hF : FirmBoth (offsetOf zs) (2 * η) η R shape cs zs) {j j' : Int → Prop} (hm : ∀ v, Must R j zs v ↔ Must R j' zs' v) {out : List Rng} :
    Procedure R j zs out ↔ Procedure { R with obstacles := drawn shape cs' } j' zs' out := by
  rw [C127_procedure h0 hs (hF.firm h0 hO) hm]
  obtain ⟨w, rfl, rfl, hw⟩ := hs.pairs
  rw [← procedureBy_offsetOf, ← procedureBy_offsetOf]
  exact (FirmBoth.sameCalls h0 hw hF hD hO hcs _).iff rfl (fun v => Iff.rfl)

/-- **C128, the procedure for motions.** -/
theorem C128_motionProcedure {ms ms' : List (ℂ × ℝ)} (h0 : 0 ≤ η) (hD : Drawing shape) (hO : R.obstacles = drawn shape cs) (hcs : List.Forall₂ (Shaken η) cs cs')
    (hs : ShakenMotion η ms ms') (ht : Timed ms) (hF : FirmBoth (syncOffset ms) (2 * η) η R shape cs (ms.map Prod.fst))
    {j j' : Int → Prop} (hm : ∀ v, Must R j (ms.map Prod.fst) v ↔ Must R j' (ms'.map Prod.fst) v) {out : List Rng} :
    MotionProcedure R j ms out ↔ MotionProcedure { R with obstacles := drawn shape cs' } j' ms' out := by
  rw [C127_motionProcedure h0 hs ht (hF.firm h0 hO) hm]
  obtain ⟨u, rfl, rfl, hu⟩ := hs.pairs
  unfold MotionProcedure
  have e1 : (u.map (fun q => (q.1.1, q.2))).map Prod.fst = (u.map Prod.fst).map Prod.fst := by simp [Function.comp_def]
  have e2 : (u.map (fun q => (q.1.2, q.2))).map Prod.fst = (u.map Prod.fst).map Prod.snd := by simp [Function.comp_def]
  rw [e1] at hF
  rw [e2]
  refine (FirmBoth.sameCalls h0 (w := u.map Prod.fst) (fun p hp => ?_) hF hD hO hcs _).iff rfl (fun v => Iff.rfl)
  obtain ⟨q, hq, rfl⟩ := List.mem_map.1 hp
  exact hu q hq

end

end Planar

namespace Io
open Verif.Text Verif.Planar

section
variable {η : ℝ} {R : Rules} {shape : List ℂ → Set ℂ} {cs cs' : List (List ℂ)}

/-- **C128, what is prescribed.** -/
theorem C128_prescribed {zs zs' : List ℂ} {zss zss' : List (List ℂ)} (h0 : 0 ≤ η) (hD : Drawing shape) (hO : R.obstacles = drawn shape cs) (hcs : List.Forall₂ (Shaken η) cs cs')
    (hs : Shaken η zs zs') (hF : FirmBoth (offsetOf zs) (2 * η) η R shape cs zs) (hm : ∀ v, Must R (Junction zss zs) zs v ↔ Must R (Junction zss' zs') zs' v) :
    prescribed R zss zs = prescribed { R with obstacles := drawn shape cs' } zss' zs' :=
  prescribed_congr fun _ => C128_procedure h0 hD hO hcs hs hF hm

theorem C128_prescribedStops {ms ms' : List (ℂ × ℝ)} {zss zss' : List (List ℂ)} (h0 : 0 ≤ η) (hD : Drawing shape) (hO : R.obstacles = drawn shape cs)
    (hcs : List.Forall₂ (Shaken η) cs cs') (hs : ShakenMotion η ms ms') (ht : Timed ms) (hF : FirmBoth (syncOffset ms) (2 * η) η R shape cs (ms.map Prod.fst))
    (hm : ∀ v, Must R (Junction zss (ms.map Prod.fst)) (ms.map Prod.fst) v ↔ Must R (Junction zss' (ms'.map Prod.fst)) (ms'.map Prod.fst) v) :
    prescribedStops R zss ms = prescribedStops { R with obstacles := drawn shape cs' } zss' ms' :=
  prescribedStops_congr fun _ => C128_motionProcedure h0 hD hO hcs hs ht hF hm

end

section
variable {P C Props P' C' Props' : Type}

/-- **C128 for the program.**  Two runs with the same request but for the constraints; places and constraints of the second are those of the first, up to an error `η`. -/
theorem C128_program {w : World (Fl ℝ) P Props C} {E : Engine P C EReal ℝ} {b f : Str} {obj : ArgObj (Fl ℝ)} {docs : List (Doc (Fl ℝ))} {ctx : List C} {pos : P → ℂ}
    {region : C → Set ℂ} {t m : ℝ} (X : ExactProgram w E b f obj docs ctx pos region t m)
    {w' : World (Fl ℝ) P' Props' C'} {E' : Engine P' C' EReal ℝ} {b' f' : Str} {obj' : ArgObj (Fl ℝ)} {docs' : List (Doc (Fl ℝ))} {ctx' : List C'} {pos' : P' → ℂ}
    {region' : C' → Set ℂ} {t' m' : ℝ} (X' : ExactProgram w' E' b' f' obj' docs' ctx' pos' region' t' m')
    {η : ℝ} (h0 : 0 ≤ η) {shape : List ℂ → Set ℂ} (hD : Drawing shape) {cs cs' : List (List ℂ)} (hcs : List.Forall₂ (Shaken η) cs cs')
    (hO : (rulesAsked region obj ctx t m).obstacles = drawn shape cs)
    (hR : rulesAsked region' obj' ctx' t' m' = { rulesAsked region obj ctx t m with obstacles := drawn shape cs' }) :
    ∃ (κ : List ℂ → List Int) (out : List (LineFeature (Fl ℝ) Props)) (out' : List (LineFeature (Fl ℝ) Props')) (N : Nat),
      (∀ fuel ≥ N, main (program w E fuel) b f = .saved (trim obj.output) (out.map w.marshal) ∧
        main (program w' E' fuel) b' f' = .saved (trim obj'.output) (out'.map w'.marshal)) ∧
      List.Forall₂ (WrittenAs (fun l q => q = verticesAt l (κ (l.map pos))) w.enc E.toPoint) docs out ∧
      List.Forall₂ (WrittenAs (fun l q => ∀ zs, Shaken η zs (l.map pos') → FirmBoth (offsetOf zs) (2 * η) η (rulesAsked region obj ctx t m) shape cs zs →
        (∀ v, Must (rulesAsked region obj ctx t m) (Junction (if obj.isFeatureClass then placesOf pos E.toPoint docs else []) zs) zs v ↔
          Must (rulesAsked region obj ctx t m) (Junction (if obj'.isFeatureClass then placesOf pos' E'.toPoint docs' else []) (l.map pos')) (l.map pos') v) →
        q = verticesAt l (κ zs)) w'.enc E'.toPoint) docs' out' := by
  obtain ⟨out, N, h1, h2⟩ := X.prescribed
  obtain ⟨out', N', h1', h2'⟩ := X'.prescribed
  refine ⟨_, out, out', max N N', fun fuel hf => ⟨h1 fuel (le_trans (le_max_left _ _) hf), h1' fuel (le_trans (le_max_right _ _) hf)⟩, h2,
    h2'.imp (fun d o hw => hw.weaken (fun l q hq zs hz hF hm => ?_))⟩
  rw [hq, hR, C128_prescribed h0 hD hO hcs hz hF hm]

/-- **C128 for the program on motions.** -/
theorem C128_sed {w : World (Fl ℝ) Pt3 Props C} {E : Engine Pt3 C EReal ℝ} {b f : Str} {obj : ArgObj (Fl ℝ)} {docs : List (Doc (Fl ℝ))} {ctx : List C}
    {region : C → Set ℂ} {t m : ℝ} (X : SedProgram w E b f obj docs ctx region t m)
    {w' : World (Fl ℝ) Pt3 Props' C'} {E' : Engine Pt3 C' EReal ℝ} {b' f' : Str} {obj' : ArgObj (Fl ℝ)} {docs' : List (Doc (Fl ℝ))} {ctx' : List C'}
    {region' : C' → Set ℂ} {t' m' : ℝ} (X' : SedProgram w' E' b' f' obj' docs' ctx' region' t' m')
    {η : ℝ} (h0 : 0 ≤ η) {shape : List ℂ → Set ℂ} (hD : Drawing shape) {cs cs' : List (List ℂ)} (hcs : List.Forall₂ (Shaken η) cs cs')
    (hO : (rulesAsked region obj ctx t m).obstacles = drawn shape cs)
    (hR : rulesAsked region' obj' ctx' t' m' = { rulesAsked region obj ctx t m with obstacles := drawn shape cs' }) :
    ∃ (κ : List (ℂ × ℝ) → List Int) (out : List (LineFeature (Fl ℝ) Props)) (out' : List (LineFeature (Fl ℝ) Props')) (N : Nat),
      (∀ fuel ≥ N, main (program w E fuel) b f = .saved (trim obj.output) (out.map w.marshal) ∧
        main (program w' E' fuel) b' f' = .saved (trim obj'.output) (out'.map w'.marshal)) ∧
      List.Forall₂ (WrittenAs (fun l q => ∀ ms, l = ms.map timed → Timed ms → q = (verticesAt ms (κ ms)).map timed) w.enc E.toPoint) docs out ∧
      List.Forall₂ (WrittenAs (fun l q => ∀ ms ms', l = ms'.map timed → ShakenMotion η ms ms' → Timed ms →
        FirmBoth (syncOffset ms) (2 * η) η (rulesAsked region obj ctx t m) shape cs (ms.map Prod.fst) →
        (∀ v, Must (rulesAsked region obj ctx t m) (Junction (classPlaces E obj docs) (ms.map Prod.fst)) (ms.map Prod.fst) v ↔
          Must (rulesAsked region obj ctx t m) (Junction (classPlaces E' obj' docs') (ms'.map Prod.fst)) (ms'.map Prod.fst) v) →
        q = (verticesAt ms' (κ ms)).map timed) w'.enc E'.toPoint) docs' out' := by
  obtain ⟨out, N, h1, h2⟩ := X.prescribed
  obtain ⟨out', N', h1', h2'⟩ := X'.prescribed
  refine ⟨_, out, out', max N N', fun fuel hf => ⟨h1 fuel (le_trans (le_max_left _ _) hf), h1' fuel (le_trans (le_max_right _ _) hf)⟩, h2,
    h2'.imp (fun d o hw => hw.weaken (fun l q hq ms ms' hl hz ht hF hm => ?_))⟩
  have ht' : Timed ms' := by
    obtain ⟨u, rfl, rfl, -⟩ := hz.pairs
    unfold Timed at ht ⊢
    rw [List.pairwise_map] at ht ⊢
    exact ht
  rw [hq ms' hl ht', hR, C128_prescribedStops h0 hD hO hcs hz ht hF hm]

end
end Io

/-! ### concrete cases -/

namespace Real
open Io Text Planar

/-- what is known of the far constraint -/
def farNear : Region := ⟨{⟨1000, 1 / 100⟩}, ⟨_, rfl⟩⟩

theorem far_drawn : (rulesAsked (fun r : Region => r.1) (scaledConfig false (1 / 4) (1 / 2)) [farPoint] (1 / 4) (1 / 2)).obstacles = drawn lineSet [[⟨1000, 0⟩]] := by
  simp [rulesAsked, drawn, lineSet, farPoint]

/-- near the origin everything is firm with respect to a constraint far away -/
theorem far_firmBoth {off : Int → Int → Int → ℝ} {δ η : ℝ} (hη : 0 ≤ η ∧ η ≤ 1) {R : Rules} (hm : R.minDist ≤ 1) {zs : List ℂ} (hz : ∀ z ∈ zs, ‖z‖ ≤ 2)
    (hF : Firm off δ η R zs) : FirmBoth off δ η R lineSet [[⟨1000, 0⟩]] zs := by
  have hull : ∀ S : Set ℂ, (∀ z ∈ S, z ∈ zs) → convexHull ℝ S ⊆ Metric.closedBall 0 2 := fun S hS =>
    convexHull_min (fun z h => by simpa using hz z (hS z h)) (convex_closedBall 0 2)
  have hv : ∀ k : Int, 0 ≤ k → k < zs.length → vtx zs k ∈ zs := fun k h0 h1 => by
    have : k.toNat < zs.length := by omega
    simp [vtx, List.getElem?_eq_getElem this]
  have hb : ∀ i j : Int, ∀ z ∈ between zs i j, z ∈ zs := fun i j z h => List.mem_of_mem_drop (List.mem_of_mem_take h)
  have hne : ∀ i j : Int, 0 ≤ i → i < j → j < zs.length → between zs i j ≠ [] := fun i j h0 h1 h2 c => by
    have := congrArg List.length c
    rw [between, List.length_take, List.length_drop, List.length_nil] at this
    omega
  refine ⟨fun _ c hc i j h0 h1 h2 => .inl ?_, fun _ c hc x hx y hy z hz' => .inl ?_, fun _ c hc i j h0 h1 h2 => ⟨.inr ?_, .inr ?_⟩, hF.bent, hF.tolerance, hF.farthest⟩
  all_goals obtain rfl := List.mem_singleton.1 hc
  · rw [← convexHull_pair]
    have : 900 ≤ gap (convexHull ℝ {vtx zs i, vtx zs j}) (lineSet [⟨1000, 0⟩]) :=
      gap_farPoint ⟨_, subset_convexHull ℝ _ (Set.mem_insert _ _)⟩ (hull _ (fun z hz => by
        rcases hz with rfl | rfl
        · exact hv i h0 (by omega)
        · exact hv j (by omega) h2))
    linarith [hη.2]
  · have : 900 ≤ gap (convexHull ℝ {x, y, z}) (lineSet [⟨1000, 0⟩]) :=
      gap_farPoint ⟨_, subset_convexHull ℝ _ (Set.mem_insert _ _)⟩ (hull _ (fun w hw => by
        rcases hw with rfl | rfl | rfl
        · exact hx
        · exact hy
        · exact hz'))
    linarith [hη.2]
  · have : 900 ≤ gap (chordSet (between zs i j)) (lineSet [⟨1000, 0⟩]) :=
      gap_farPoint (chordSet_nonempty (hne i j h0 h1 h2)) ((chordSet_subset_hullSet _).trans (hull _ (hb i j)))
    linarith [hη.2]
  · have : 900 ≤ gap (lineSet (between zs i j)) (lineSet [⟨1000, 0⟩]) :=
      gap_farPoint (lineSet_nonempty (hne i j h0 h1 h2)) ((lineSet_subset_hullSet _).trans (hull _ (hb i j)))
    linarith [hη.2]

/-- a wall across the tent is met firmly: also when its ends and the ends of the chord are moved by up to 1/100 -/
example : FirmPair2 (1 / 100) lineSet [⟨1, -1⟩, ⟨1, 1 / 2⟩] ⟨0, 0⟩ ⟨2, 0⟩ := by
  refine .inr (fun x y c hx hy hc => ?_)
  match c, hc with
  | [p, q], .cons hp (.cons hq .nil) =>
  have parts : ∀ u v : ℂ, dist u v ≤ 1 / 100 → (u.re - 1 / 100 ≤ v.re ∧ v.re ≤ u.re + 1 / 100) ∧ u.im - 1 / 100 ≤ v.im ∧ v.im ≤ u.im + 1 / 100 := fun u v h => by
    rw [dist_eq_norm] at h
    have h1 := abs_le.1 ((Complex.abs_re_le_norm (u - v)).trans h)
    have h2 := abs_le.1 ((Complex.abs_im_le_norm (u - v)).trans h)
    rw [Complex.sub_re] at h1
    rw [Complex.sub_im] at h2
    refine ⟨⟨?_, ?_⟩, ?_, ?_⟩ <;> linarith
  obtain ⟨⟨x1, x2⟩, x3, x4⟩ := parts _ _ hx
  obtain ⟨⟨y1, y2⟩, y3, y4⟩ := parts _ _ hy
  obtain ⟨⟨p1, p2⟩, p3, p4⟩ := parts _ _ hp
  obtain ⟨⟨q1, q2⟩, q3, q4⟩ := parts _ _ hq
  simp only at x1 x2 x3 x4 y1 y2 y3 y4 p1 p2 p3 p4 q1 q2 q3 q4
  -- the side of the chord on which a point lies
  obtain ⟨A, hA⟩ : ∃ A, A = (y.re - x.re) * (p.im - x.im) - (y.im - x.im) * (p.re - x.re) := ⟨_, rfl⟩
  obtain ⟨B, hB⟩ : ∃ B, B = (y.re - x.re) * (q.im - x.im) - (y.im - x.im) * (q.re - x.re) := ⟨_, rfl⟩
  have nA : A < 0 := by rw [hA]; nlinarith
  have pB : 0 < B := by rw [hB]; nlinarith
  have hAB : 0 < B - A := by linarith
  refine ⟨(B / (B - A)) • p + (-A / (B - A)) • q, ?_, .inl ⟨B / (B - A), -A / (B - A), by positivity, div_nonneg (by linarith) hAB.le, by field_simp; ring, rfl⟩⟩
  obtain ⟨a, ha⟩ : ∃ a, a = B / (B - A) := ⟨_, rfl⟩
  obtain ⟨b, hb⟩ : ∃ b, b = -A / (B - A) := ⟨_, rfl⟩
  rw [← ha, ← hb]
  have a0 : 0 ≤ a := by rw [ha]; positivity
  have b0 : 0 ≤ b := by rw [hb]; exact div_nonneg (by linarith) hAB.le
  have ab : a + b = 1 := by rw [ha, hb]; field_simp; ring
  have e : a * A + b * B = 0 := by rw [ha, hb]; field_simp; ring
  have hd : 0 < y.re - x.re := by linarith
  obtain ⟨r, hr⟩ : ∃ r, r = a * p.re + b * q.re := ⟨_, rfl⟩
  have r1 : 99 / 100 ≤ r := by rw [hr]; nlinarith
  have r2 : r ≤ 101 / 100 := by rw [hr]; nlinarith
  refine ⟨(y.re - r) / (y.re - x.re), (r - x.re) / (y.re - x.re), div_nonneg (by linarith) hd.le, div_nonneg (by linarith) hd.le, by field_simp; ring, ?_⟩
  apply Complex.ext
  · simp only [Complex.add_re, Complex.real_smul, Complex.mul_re, Complex.ofReal_re, Complex.ofReal_im, zero_mul, sub_zero]
    rw [← hr]
    field_simp
    ring
  · simp only [Complex.add_im, Complex.real_smul, Complex.mul_im, Complex.ofReal_re, Complex.ofReal_im, zero_mul, add_zero]
    have e' : (y.re - x.re) * (a * p.im + b * q.im - x.im) = (y.im - x.im) * (r - x.re) := by
      rw [hr]
      rw [hA, hB] at e
      have hb' : b = 1 - a := by linarith
      subst hb'
      linarith
    rw [div_mul_eq_mul_div, div_mul_eq_mul_div, ← add_div, div_eq_iff hd.ne']
    linarith

/-- C128 for the program: the tent and the constraint are known up to an error of 1/100 -/
example : ∃ (κ : List ℂ → List Int) (out out' : List (LineFeature (Fl ℝ) Str)) (N : Nat),
    (∀ fuel ≥ N, main (program (world ordsC (scaledConfig false (1 / 4) (1 / 2)) (.geometry (.line (coordsOf' tent))) (.geometry (.line (coordsOf' tent))) [farPoint]) engine fuel)
        "e30=".toList ['-'] = .saved ['o'] (out.map (fun _ => [])) ∧
      main (program (world ordsC (scaledConfig false (1 / 4) (1 / 2)) (.geometry (.line (coordsOf' tentNear))) (.geometry (.line (coordsOf' tent))) [farNear]) engine fuel)
        "e30=".toList ['-'] = .saved ['o'] (out'.map (fun _ => []))) ∧
    List.Forall₂ (WrittenAs (fun l q => q = verticesAt l (κ (l.map id)))
      (world ordsC (scaledConfig false (1 / 4) (1 / 2)) (.geometry (.line (coordsOf' tent))) (.geometry (.line (coordsOf' tent))) [farPoint]).enc engine.toPoint)
      [.geometry (.line (coordsOf' tent)), .geometry (.line (coordsOf' tent))] out ∧
    List.Forall₂ (WrittenAs (fun l q => l = tentNear → q = verticesAt l (κ tent))
      (world ordsC (scaledConfig false (1 / 4) (1 / 2)) (.geometry (.line (coordsOf' tentNear))) (.geometry (.line (coordsOf' tent))) [farNear]).enc engine.toPoint)
      [.geometry (.line (coordsOf' tentNear)), .geometry (.line (coordsOf' tent))] out' := by
  obtain ⟨κ, out, out', N, h1, h2, h3⟩ := C128_program
    (scaled_program false (t := 1 / 4) (m := 1 / 2) (by norm_num) (by norm_num) (coordsOf' tent) (coordsOf' tent) (by simp [coordsOf', tent]) (by simp [coordsOf', tent]) [farPoint])
    (scaled_program false (t := 1 / 4) (m := 1 / 2) (by norm_num) (by norm_num) (coordsOf' tentNear) (coordsOf' tent) (by simp [coordsOf', tentNear]) (by simp [coordsOf', tent]) [farNear])
    (η := 1 / 100) (by norm_num) drawing_line (cs := [[⟨1000, 0⟩]]) (cs' := [[⟨1000, 1 / 100⟩]])
    (.cons (.cons ((Complex.dist_of_re_eq (z := ⟨1000, 0⟩) (w := ⟨1000, 1 / 100⟩) rfl).trans_le (by norm_num [Real.dist_eq])) .nil) .nil)
    far_drawn (by simp [rulesAsked, drawn, lineSet, farNear])
  refine ⟨κ, out, out', N, h1, h2, h3.imp (fun d o hw => hw.weaken (fun l q hq hl => ?_))⟩
  subst hl
  refine hq tent (by rw [List.map_id]; exact tent_shaken) (far_firmBoth (by norm_num) (by simp only [rulesAsked]; norm_num) tent_norm (tent_firm false)) (fun v => ?_)
  rw [List.map_id]
  exact iff_of_false (not_must rfl (by simp [tent]) v) (not_must rfl (by simp [tentNear]) v)

end Real

end Verif
