import Verif.Props.C120_Procedure

/-! C121: moving all files together, or changing constraints out of reach, does not change which vertices the program saves. -/

set_option linter.unusedSectionVars false

namespace Verif
namespace Planar

section
variable {R R' : Rules} {zs zs' : List ℂ}

/-- two requests for two lines that the procedure cannot tell apart -/
structure Alike (R R' : Rules) (zs zs' : List ℂ) : Prop where
  length : zs.length = zs'.length
  near : ∀ i j : Int, 0 ≤ i → j < zs.length → (Near R.tolerance zs i j ↔ Near R'.tolerance zs' i j)
  farthest : ∀ i j k : Int, 0 ≤ i → j < zs.length → (FarthestAt zs i j k ↔ FarthestAt zs' i j k)
  straight : ∀ i j : Int, Straight (between zs i j) ↔ Straight (between zs' i j)
  allowed : ∀ i j : Int, Allowed R (between zs i j) ↔ Allowed R' (between zs' i j)

theorem Alike.thin (h : Alike R R' zs zs') {i j : Int} {rs : List Rng} (ht : Thinned R.tolerance zs i j rs) (h0 : 0 ≤ i) (h1 : j < zs.length) :
    Thinned R'.tolerance zs' i j rs := by
  induction ht with
  | keep i j hn => exact .keep i j ((h.near i j h0 h1).1 hn)
  | cut i j k xs ys hn hk _ _ ih1 ih2 =>
    have k1 := hk.1
    have k2 := hk.2.1
    exact .cut i j k xs ys (fun c => hn ((h.near i j h0 h1).2 c)) ((h.farthest i j k h0 h1).1 hk) (ih1 h0 (by omega)) (ih2 (by omega) h1)

theorem Alike.cut (h : Alike R R' zs zs') {i j : Int} {rs : List Rng}
    (ht : Cut (fun i j => i + 1 < j ∧ ¬ Straight (between zs i j) ∧ ¬ Allowed R (between zs i j)) zs i j rs) (h0 : 0 ≤ i) (h1 : j < zs.length) :
    Cut (fun i j => i + 1 < j ∧ ¬ Straight (between zs' i j) ∧ ¬ Allowed R' (between zs' i j)) zs' i j rs ∧ ∀ r ∈ rs, 0 ≤ r.I ∧ r.J < zs.length := by
  have hb : ∀ i j : Int, (i + 1 < j ∧ ¬ Straight (between zs i j) ∧ ¬ Allowed R (between zs i j)) ↔
      (i + 1 < j ∧ ¬ Straight (between zs' i j) ∧ ¬ Allowed R' (between zs' i j)) := fun i j => by rw [h.straight, h.allowed]
  induction ht with
  | keep i j hn => exact ⟨.keep i j (fun c => hn ((hb i j).2 c)), by simp [h0, h1]⟩
  | cut i j k xs ys hn hk _ _ ih1 ih2 =>
    have k1 := hk.1
    have k2 := hk.2.1
    obtain ⟨a1, b1⟩ := ih1 h0 (by omega)
    obtain ⟨a2, b2⟩ := ih2 (by omega) h1
    refine ⟨.cut i j k xs ys ((hb i j).1 hn) ((h.farthest i j k h0 h1).1 hk) a1 a2, ?_⟩
    intro r hr
    rcases List.mem_append.1 hr with hr | hr
    · exact b1 r hr
    · exact b2 r hr

theorem Each.imp_mem {α β : Type} {Q Q' : α → List β → Prop} {T : β → Prop} {l : List α} {ys : List β} (h : Each Q l ys) (hq : ∀ a ∈ l, ∀ xs, Q a xs → Q' a xs ∧ ∀ x ∈ xs, T x) :
    Each Q' l ys ∧ ∀ y ∈ ys, T y := by
  induction h with
  | nil => exact ⟨.nil, by simp⟩
  | cons hx _ ih =>
    obtain ⟨a1, b1⟩ := hq _ (by simp) _ hx
    obtain ⟨a2, b2⟩ := ih (fun a ha => hq a (List.mem_cons_of_mem _ ha))
    refine ⟨.cons a1 a2, fun y hy => ?_⟩
    rcases List.mem_append.1 hy with hy | hy
    · exact b1 y hy
    · exact b2 y hy

theorem MergeSpec.imp {fixed fixed' : Int → Prop} {ok ok' : Int → Int → Prop} {n : Int} (hf : ∀ v, fixed v ↔ fixed' v) (hok : ∀ i j, 0 ≤ i → j < n → (ok i j ↔ ok' i j))
    {d rs out : List Rng} (h : MergeSpec fixed ok d rs out) (hb : ∀ r ∈ d ++ rs, 0 ≤ r.I ∧ r.J < n) : MergeSpec fixed' ok' d rs out := by
  induction h with
  | done d => exact .done d
  | keep r h t ih =>
    refine .keep r (fun e => ?_) (ih (by simpa using hb))
    obtain ⟨h1, h2⟩ := h e
    have hr := hb r (by simp)
    refine ⟨fun n hn hx => ?_, fun p hp hx => ?_⟩
    · have := hb n (by have := List.mem_of_mem_head? hn; simp [this])
      rw [← hok _ _ hr.1 this.2]; exact h1 n hn (fun c => hx ((hf _).1 c))
    · have := hb p (by have := List.mem_of_mem_getLast? hp; simp [this])
      rw [← hok _ _ this.1 hr.2]; exact h2 p hp (fun c => hx ((hf _).1 c))
  | next r n h hx hn t ih =>
    have hr := hb r (by simp)
    have hn' := hb n (by simp)
    refine .next r n h (fun c => hx ((hf _).2 c)) ((hok _ _ hr.1 hn'.2).1 hn) (ih ?_)
    intro x hx'
    simp only [List.append_assoc, List.mem_append, List.mem_cons, List.not_mem_nil, or_false] at hx' hb
    rcases hx' with hx' | rfl | hx'
    · exact hb x (.inl hx')
    · exact ⟨hr.1, hn'.2⟩
    · exact hb x (.inr (.inr (.inr hx')))
  | prev p r h hn hx hp t ih =>
    have hr := hb r (by simp)
    have hp' := hb p (by simp)
    refine .prev p r h (fun n hn' hx' => ?_) (fun c => hx ((hf _).2 c)) ((hok _ _ hp'.1 hr.2).1 hp) (ih ?_)
    · have := hb n (by have := List.mem_of_mem_head? hn'; simp [this])
      rw [← hok _ _ hr.1 this.2]; exact hn n hn' (fun c => hx' ((hf _).1 c))
    · intro x hx'
      simp only [List.append_assoc, List.mem_append, List.mem_cons, List.not_mem_nil, or_false] at hx' hb
      rcases hx' with hx' | rfl | hx'
      · exact hb x (.inl hx')
      · exact ⟨hp'.1, hr.2⟩
      · exact hb x (.inr (.inr (.inr hx')))

theorem Alike.imp (h : Alike R R' zs zs') {j j' : Int → Prop} (hm : ∀ v, Must R j zs v ↔ Must R' j' zs' v) {out : List Rng} (hp : Procedure R j zs out) : Procedure R' j' zs' out := by
  obtain ⟨rs, ms, ls, h1, h2, h3, h4, h5⟩ := hp
  have hl := h.length
  have hms : ∀ r ∈ ms, 0 ≤ r.I ∧ r.J < zs.length := fun r hr => by
    have := h2.mem hr
    omega
  obtain ⟨a, b⟩ := Each.imp_mem (T := fun r : Rng => 0 ≤ r.I ∧ r.J < zs.length) h4 (fun r hr l hc => h.cut hc (hms r hr).1 (hms r hr).2)
  refine ⟨rs, ms, ls, ?_, ?_, fun v => (h3 v).trans (or_congr_right (hm v)), a, ?_⟩
  · rw [← hl]; exact h.thin h1 le_rfl (by omega)
  · rw [← hl]; exact h2
  · exact MergeSpec.imp hm (fun i j h0 h1 => and_congr (h.near i j h0 h1) (h.allowed i j)) h5 (by simpa using b)

theorem Alike.symm (h : Alike R R' zs zs') : Alike R' R zs' zs where
  length := h.length.symm
  near i j h0 h1 := (h.near i j h0 (by rw [h.length]; exact h1)).symm
  farthest i j k h0 h1 := (h.farthest i j k h0 (by rw [h.length]; exact h1)).symm
  straight i j := (h.straight i j).symm
  allowed i j := (h.allowed i j).symm

theorem Alike.iff (h : Alike R R' zs zs') {j j' : Int → Prop} (hm : ∀ v, Must R j zs v ↔ Must R' j' zs' v) {out : List Rng} : Procedure R j zs out ↔ Procedure R' j' zs' out :=
  ⟨h.imp hm, h.symm.imp (fun v => (hm v).symm)⟩

end

/-! ### moving everything -/

/-- the request with the obstacles moved by `f` and all lengths multiplied by `r` -/
def Rules.image (f : ℂ →ᵃ[ℝ] ℂ) (r : ℝ) (R : Rules) : Rules :=
  { R with tolerance := r * R.tolerance, minDist := r * R.minDist, obstacles := {s | ∃ s0 ∈ R.obstacles, s = f '' s0} }

section
variable {f : ℂ →ᵃ[ℝ] ℂ} {r : ℝ} {R R' : Rules} {zs : List ℂ}

theorem between_map (f : ℂ → ℂ) (zs : List ℂ) (i j : Int) : between (zs.map f) i j = (between zs i j).map f := by
  simp only [between, List.map_take, List.map_drop]

theorem vtx_map (f : ℂ → ℂ) {zs : List ℂ} {k : Int} (h0 : 0 ≤ k) (h1 : k < zs.length) : vtx (zs.map f) k = f (vtx zs k) := by
  have : k.toNat < zs.length := by omega
  simp [vtx, List.getElem?_eq_getElem this]

theorem Scales.offset (hf : Scales f r) {i j k : Int} (h0 : 0 ≤ i) (h1 : i < k) (h2 : k < j) (h3 : j < zs.length) : offsetOf (zs.map f) i j k = r * offsetOf zs i j k := by
  rw [offsetOf, offsetOf, vtx_map f (by omega) (by omega), vtx_map f (by omega) (by omega), vtx_map f (by omega) (by omega), ← image_segment, ← Set.image_singleton, hf.gap]

theorem Scales.straight (hf : Scales f r) (l : List ℂ) : Straight l ↔ Straight (l.map f) := by
  constructor
  · rintro ⟨a, ha, b, hb, hab, h⟩
    refine ⟨f a, List.mem_map_of_mem ha, f b, List.mem_map_of_mem hb, fun e => hab (hf.injective e), fun z hz => ?_⟩
    obtain ⟨w, hw, rfl⟩ := List.mem_map.1 hz
    rw [← image_segment]
    exact ⟨w, h w hw, rfl⟩
  · rintro ⟨a', ha, b', hb, hab, h⟩
    obtain ⟨a, ma, rfl⟩ := List.mem_map.1 ha
    obtain ⟨b, mb, rfl⟩ := List.mem_map.1 hb
    refine ⟨a, ma, b, mb, fun e => hab (by rw [e]), fun z hz => ?_⟩
    have := h (f z) (List.mem_map_of_mem hz)
    rw [← image_segment] at this
    obtain ⟨w, hw, e⟩ := this
    rwa [← hf.injective e]

theorem Scales.freeOf (hf : Scales f r) (l : List ℂ) (x y z : ℂ) :
    FreeOf R.obstacles l x y z ↔ FreeOf (R.image f r).obstacles (l.map f) (f x) (f y) (f z) := by
  have hh : convexHull ℝ {f x, f y, f z} = f '' convexHull ℝ {x, y, z} := by
    rw [f.image_convexHull]; congr 1; simp [Set.image_insert_eq]
  simp only [FreeOf, Rules.image, Set.mem_ofPred_eq, forall_exists_index, and_imp]
  constructor
  · rintro h s s0 hs rfl
    rw [lineSet_map, hf.meet, hh, hf.meet]
    exact h s0 hs
  · intro h s hs
    have := h _ s hs rfl
    rwa [lineSet_map, hf.meet, hh, hf.meet] at this

theorem Scales.sideOK (hf : Scales f r) (l : List ℂ) : SideOK R.obstacles l ↔ SideOK (R.image f r).obstacles (l.map f) := by
  refine and_congr ?_ ?_
  · simp only [Rules.image, Set.mem_ofPred_eq, forall_exists_index, and_imp]
    constructor
    · rintro h s s0 hs rfl
      rw [chordSet_map, lineSet_map, hf.meet, hf.meet]
      exact h s0 hs
    · intro h s hs
      have := h _ s hs rfl
      rwa [chordSet_map, lineSet_map, hf.meet, hf.meet] at this
  · constructor
    · rintro ⟨a, b, h⟩
      exact ⟨_, _, h.map f (fun x _ y _ z _ => hf.freeOf l x y z)⟩
    · rintro ⟨a, b, h⟩
      obtain ⟨w, hw⟩ := Pull.exists (FreeOf R.obstacles l) l
      have := congrArg List.length ((hw.map f (fun x _ y _ z _ => hf.freeOf l x y z)).unique h)
      match w, this with
      | [a, b], _ => exact ⟨a, b, hw⟩

theorem Scales.allowed (hf : Scales f r) (l : List ℂ) : Allowed R l ↔ Allowed (R.image f r) (l.map f) := by
  refine and_congr (imp_congr_right fun _ => ?_) (and_congr (imp_congr_right fun _ => ?_) (imp_congr_right fun _ => hf.sideOK l))
  · simp only [Rules.image, Set.mem_ofPred_eq, forall_exists_index, and_imp]
    constructor
    · rintro h s s0 hs rfl
      rw [chordSet_map, lineSet_map, hf.meet, hf.meet]
      exact h s0 hs
    · intro h s hs
      have := h _ s hs rfl
      rwa [chordSet_map, lineSet_map, hf.meet, hf.meet] at this
  · have key : ∀ a : ℝ, (r * R.minDist ≤ r * a ↔ R.minDist ≤ a) ∧ (r * a < r * R.minDist ↔ a < R.minDist) :=
      fun a => ⟨mul_le_mul_iff_right₀ hf.1, mul_lt_mul_iff_right₀ hf.1⟩
    simp only [Rules.image, Set.mem_ofPred_eq, forall_exists_index, and_imp]
    constructor
    · rintro h s s0 hs rfl
      rw [chordSet_map, lineSet_map, hf.gap, hf.gap, (key _).1, (key _).2]
      exact h s0 hs
    · intro h s hs
      have := h _ s hs rfl
      rwa [chordSet_map, lineSet_map, hf.gap, hf.gap, (key _).1, (key _).2] at this

theorem Scales.alike (hf : Scales f r) (R : Rules) (zs : List ℂ) : Alike R (R.image f r) zs (zs.map f) where
  length := by simp
  near i j h0 h1 := by
    refine forall_congr' fun k => imp_congr_right fun h2 => imp_congr_right fun h3 => ?_
    rw [hf.offset h0 h2 h3 h1]
    exact (mul_le_mul_iff_right₀ hf.1).symm
  farthest i j k h0 h1 := by
    refine and_congr_right fun h2 => and_congr_right fun h3 => and_congr ?_ ?_
    · refine forall_congr' fun l => imp_congr_right fun h4 => imp_congr_right fun h5 => ?_
      rw [hf.offset h0 h2 h3 h1, hf.offset h0 h4 h5 h1]
      exact (mul_le_mul_iff_right₀ hf.1).symm
    · refine forall_congr' fun l => imp_congr_right fun h4 => imp_congr_right fun h5 => ?_
      rw [hf.offset h0 h2 h3 h1, hf.offset h0 (by omega) h5 h1]
      exact (mul_lt_mul_iff_right₀ hf.1).symm
  straight i j := by rw [between_map]; exact hf.straight _
  allowed i j := by rw [between_map]; exact hf.allowed _

theorem Scales.junction (hf : Scales f r) (ho : ∀ z w, LexLe (f z) (f w) ↔ LexLe z w) (zss : List (List ℂ)) (zs : List ℂ) (v : Int) :
    Junction zss zs v ↔ Junction (zss.map (List.map f)) (zs.map f) v := by
  have hfl : (zss.map (List.map f)).flatten = zss.flatten.map f := (List.map_flatten ..).symm
  constructor
  · rintro ⟨n, z, rest, rfl, h1, h2, z', h3, h4⟩
    refine ⟨n, f z, rest.map f, rfl, by simp [h1], ?_, f z', ?_, by rwa [ho]⟩
    · rw [hfl]; exact h2.map f
    · rw [hfl]; exact List.mem_map_of_mem h3
  · rintro ⟨n, z', rest, rfl, h1, h2, w', h3, h4⟩
    rw [hfl] at h2 h3
    rw [List.getElem?_map, Option.map_eq_some_iff] at h1
    obtain ⟨z, h1, rfl⟩ := h1
    obtain ⟨w, mw, rfl⟩ := List.mem_map.1 h3
    have hc : 2 ≤ zss.flatten.count z := by
      rw [← List.count_map_of_injective zss.flatten f hf.injective z, h2.count_eq]
      simp
    obtain ⟨rest', hp⟩ : ∃ rest', zss.flatten.Perm (z :: z :: rest') := by
      have m1 : z ∈ zss.flatten := List.count_pos_iff.1 (by omega)
      have p1 := List.perm_cons_erase m1
      have m2 : z ∈ zss.flatten.erase z := by
        rw [← List.count_pos_iff, List.count_erase_self]; omega
      exact ⟨_, p1.trans ((List.perm_cons_erase m2).cons z)⟩
    exact ⟨n, z, rest', rfl, h1, hp, w, mw, by rwa [ho] at h4⟩

theorem Scales.must (hf : Scales f r) (ho : R.keepSelf = true → ∀ z w, LexLe (f z) (f w) ↔ LexLe z w) {j j' : Int → Prop} (hj : R.keepSelf = true → ∀ v, j v ↔ j' v) (v : Int) :
    Must R j zs v ↔ Must (R.image f r) j' (zs.map f) v := by
  have hm : Moved f id (fun s : Set ℂ => s) zs [] id (fun s : Set ℂ => s) (zs.map f) [] := ⟨by simp, by simp, by simp⟩
  refine and_congr_right fun hk => or_congr (hj hk v) (exists_congr fun k => and_congr_right fun _ => or_congr ?_ (and_congr_right fun _ => ?_))
  · exact hm.revisited hf (ho hk) k
  · exact hm.crossed hf k

/-- the procedure prescribes the same for a line that is moved with its obstacles -/
theorem Scales.procedure (hf : Scales f r) (ho : R.keepSelf = true → ∀ z w, LexLe (f z) (f w) ↔ LexLe z w) {j j' : Int → Prop} (hj : R.keepSelf = true → ∀ v, j v ↔ j' v)
    {out : List Rng} : Procedure R j zs out ↔ Procedure (R.image f r) j' (zs.map f) out :=
  (hf.alike R zs).iff (fun v => hf.must ho hj v)

end

/-! ### obstacles out of reach -/

/-- the line cannot get to the obstacle: its convex hull misses it and, if distances count, keeps the minimum distance -/
def OutOfReach (R : Rules) (zs : List ℂ) (s : Set ℂ) : Prop := Disjoint (hullSet zs) s ∧ (R.dist = true → R.minDist ≤ gap (hullSet zs) s)

/-- the same request, except for obstacles out of reach -/
structure SameInReach (zs : List ℂ) (R R' : Rules) : Prop where
  rest : R' = { R with obstacles := R'.obstacles }
  obstacles : ∀ s, ¬ OutOfReach R zs s → (s ∈ R.obstacles ↔ s ∈ R'.obstacles)

section
variable {R R' : Rules} {zs : List ℂ}

theorem hullSet_between (zs : List ℂ) (i j : Int) : hullSet (between zs i j) ⊆ hullSet zs :=
  convexHull_mono fun _ hz => List.mem_of_mem_drop (List.mem_of_mem_take hz)

theorem SameInReach.symm (h : SameInReach zs R R') : SameInReach zs R' R := by
  obtain ⟨h1, h2⟩ := h
  have e1 : R'.dist = R.dist := by rw [h1]
  have e2 : R'.minDist = R.minDist := by rw [h1]
  refine ⟨?_, fun s hs => (h2 s (fun c => hs ⟨c.1, fun hd => ?_⟩)).symm⟩
  · rw [h1]
  · rw [e2]; exact c.2 (e1 ▸ hd)

theorem SameInReach.allowed (h : SameInReach zs R R') (i j : Int) (ha : Allowed R (between zs i j)) : Allowed R' (between zs i j) := by
  obtain ⟨h1, h2⟩ := h
  have e1 : R'.dist = R.dist := by rw [h1]
  have e2 : R'.minDist = R.minDist := by rw [h1]
  have e3 : R'.geom = R.geom := by rw [h1]
  have e4 : R'.side = R.side := by rw [h1]
  have hc := (chordSet_subset_hullSet (between zs i j)).trans (hullSet_between zs i j)
  have hl := (lineSet_subset_hullSet (between zs i j)).trans (hullSet_between zs i j)
  have miss : ∀ {s t : Set ℂ}, OutOfReach R zs s → t ⊆ hullSet zs → ¬ (t ∩ s).Nonempty := by
    rintro s t ho ht ⟨z, hz, hz'⟩
    exact Set.disjoint_left.1 ho.1 (ht hz) hz'
  have cases : ∀ s, s ∈ R'.obstacles → s ∈ R.obstacles ∨ OutOfReach R zs s := by
    intro s hs
    by_cases ho : OutOfReach R zs s
    · exact .inr ho
    · exact .inl ((h2 s ho).2 hs)
  have meets : (∀ s ∈ R.obstacles, (chordSet (between zs i j) ∩ s).Nonempty ↔ (lineSet (between zs i j) ∩ s).Nonempty) →
      ∀ s ∈ R'.obstacles, (chordSet (between zs i j) ∩ s).Nonempty ↔ (lineSet (between zs i j) ∩ s).Nonempty := by
    intro H s hs
    rcases cases s hs with hs | ho
    · exact H s hs
    · exact iff_of_false (miss ho hc) (miss ho hl)
  refine ⟨fun hg => meets (ha.1 (e3 ▸ hg)), fun hd s hs => ?_, fun hs => ⟨meets (ha.2.2 (e4 ▸ hs)).1, ?_⟩⟩
  · rcases cases s hs with hs | ho
    · rw [e2]; exact ha.2.1 (e1 ▸ hd) s hs
    · have hm := ho.2 (e1 ▸ hd)
      rw [e2]
      have empty : ∀ {a b : Set ℂ}, (a = ∅ ∨ b = ∅) → gap a b = 0 := by
        rintro a b h
        have : {r | ∃ x ∈ a, ∃ y ∈ b, r = dist x y} = ∅ := by
          ext r
          rcases h with rfl | rfl <;> simp
        rw [gap, this, Real.sInf_empty]
      by_cases hn : (chordSet (between zs i j)).Nonempty
      · by_cases hs0 : s.Nonempty
        · exact .inl (hm.trans (gap_mono hc (le_refl s) hn hs0))
        · have hs0 := Set.not_nonempty_iff_eq_empty.1 hs0
          rw [empty (.inr hs0)] at hm ⊢
          exact .inl hm
      · have hb : between zs i j = [] := by
          by_contra hb
          exact hn (chordSet_nonempty hb)
        rw [empty (.inl (Set.not_nonempty_iff_eq_empty.1 hn)), empty (.inl (by rw [hb]; rfl))]
        exact le_or_gt _ _
  · obtain ⟨a, b, hp⟩ := (ha.2.2 (e4 ▸ hs)).2
    refine ⟨a, b, hp.congr (fun x hx y hy z hz => ?_)⟩
    have hsub : convexHull ℝ {x, y, z} ⊆ hullSet zs := by
      refine (convexHull_mono ?_).trans (hullSet_between zs i j)
      rintro w (rfl | rfl | rfl) <;> assumption
    constructor
    · intro H s hs hm
      rcases cases s hs with hs | ho
      · exact H s hs hm
      · exact miss ho hsub
    · intro H s hs hm
      by_cases ho : OutOfReach R zs s
      · exact miss ho hsub
      · exact H s ((h2 s ho).1 hs) hm

theorem SameInReach.alike (h : SameInReach zs R R') : Alike R R' zs zs where
  length := rfl
  near i j _ _ := by
    have : R'.tolerance = R.tolerance := by rw [h.rest]
    rw [this]
  farthest _ _ _ _ _ := Iff.rfl
  straight _ _ := Iff.rfl
  allowed i j := ⟨h.allowed i j, h.symm.allowed i j⟩

theorem SameInReach.must (h : SameInReach zs R R') {j j' : Int → Prop} (hj : R.keepSelf = true → ∀ v, j v ↔ j' v) (v : Int) : Must R j zs v ↔ Must R' j' zs v := by
  have e1 : R'.keepSelf = R.keepSelf := by rw [h.rest]
  have e2 : R'.keepCross = R.keepCross := by rw [h.rest]
  rw [Must, Must, e1, e2]
  exact and_congr_right fun hk => or_congr_left (hj hk v)

end

end Planar

namespace Io
open Text Planar

theorem prescribed_congr {R R' : Rules} {zss zss' : List (List ℂ)} {zs zs' : List ℂ}
    (h : ∀ out, Procedure R (Junction zss zs) zs out ↔ Procedure R' (Junction zss' zs') zs' out) : prescribed R zss zs = prescribed R' zss' zs' := by
  have : Prescribes R zss zs = Prescribes R' zss' zs' := by
    funext s
    simp only [Prescribes, h]
  rw [prescribed, prescribed, this]

/-- **C121, moving.**  What is prescribed for a line does not change when everything is moved, turned, mirrored or scaled; the map must keep the order of the places if vertices
that occur twice are to be kept. -/
theorem C121_moved {f : ℂ →ᵃ[ℝ] ℂ} {r : ℝ} {R : Rules} (hf : Scales f r) (ho : R.keepSelf = true → ∀ z w, LexLe (f z) (f w) ↔ LexLe z w) (zss : List (List ℂ)) (zs : List ℂ) :
    prescribed (R.image f r) (zss.map (List.map f)) (zs.map f) = prescribed R zss zs :=
  (prescribed_congr fun _ => hf.procedure ho (fun hk v => hf.junction (ho hk) zss zs v)).symm

/-- **C121, reach.**  It does not change when obstacles out of reach of the line are added or taken away. -/
theorem C121_reach {R R' : Rules} {zs : List ℂ} (h : SameInReach zs R R') (zss : List (List ℂ)) : prescribed R' zss zs = prescribed R zss zs :=
  (prescribed_congr fun _ => h.alike.iff (fun v => h.must (fun _ _ => Iff.rfl) v)).symm

/-- **C121, order.**  It does not change when the lines of the file are given in another order. -/
theorem C121_order {zss zss' : List (List ℂ)} (h : zss.flatten.Perm zss'.flatten) (R : Rules) (zs : List ℂ) : prescribed R zss zs = prescribed R zss' zs := by
  have hj : ∀ v, Junction zss zs v ↔ Junction zss' zs v := by
    intro v
    constructor
    · rintro ⟨n, z, rest, h1, h2, h3, z', h4, h5⟩
      exact ⟨n, z, rest, h1, h2, h.symm.trans h3, z', h.mem_iff.1 h4, h5⟩
    · rintro ⟨n, z, rest, h1, h2, h3, z', h4, h5⟩
      exact ⟨n, z, rest, h1, h2, h.trans h3, z', h.mem_iff.2 h4, h5⟩
  exact prescribed_congr fun _ => ⟨fun hp => hp.congr (fun _ => hj), fun hp => hp.congr (fun _ v => (hj v).symm)⟩

section
variable {P C Props P' C' Props' : Type}

/-- one run of the program on the configuration `obj`, the documents `docs` and the constraints `ctx`, with exact geometry and Douglas–Peucker offsets -/
structure ExactProgram (w : World (Fl ℝ) P Props C) (E : Engine P C EReal ℝ) (b f : Str) (obj : ArgObj (Fl ℝ)) (docs : List (Doc (Fl ℝ))) (ctx : List C) (pos : P → ℂ)
    (region : C → Set ℂ) (t m : ℝ) : Prop where
  reads : ∃ kind, Reads w b f obj kind docs ctx ∧ E.OK (E.opts (optsFromCfg obj)) kind (docs.flatMap (fun d => (docParts d).map (fun x => x.2.2.map E.toPoint)))
  order : ∀ l, (w.enc.ord l).Perm l
  small : docs.length ≤ maxInt
  docs : ∀ d ∈ docs, HasGeometry d ∧ docParts d ≠ [] ∧ ∀ x ∈ docParts d, x.1 ≤ maxInt ∧ (x.2.1 = ['n', 'u', 'l', 'l'] ∨ (w.enc.unmarshal x.2.1).isSome)
  exact : Planar.Exact pos region E.lib
  lnr : ExactLnr pos E.lnr
  heap : E.heap.Legal Hdb.nearLe
  eps : ∃ e : ℝ, 0 ≤ e ∧ E.eps = .fin e
  name : trim obj.simplificationType ∈ dpNames
  score : E.score .maxOffset = maxOffset (fun a b p => .fin (gap {pos p} (segment ℝ (pos a) (pos b))))
  threshold : obj.threshold = .fin t ∧ 0 ≤ t
  minDist : obj.minDist = .fin m ∧ 0 ≤ m
  avoid : obj.avoidNewSelfIntersects = false

/-- the places of all lines of a file -/
def placesOf (pos : P → ℂ) (toPoint : List (Fl ℝ) → P) (docs : List (Doc (Fl ℝ))) : List (List ℂ) :=
  docs.flatMap (fun d => (docParts d).map (fun x => x.2.2.map (fun p => pos (toPoint p))))

theorem ExactProgram.prescribed {w : World (Fl ℝ) P Props C} {E : Engine P C EReal ℝ} {b f : Str} {obj : ArgObj (Fl ℝ)} {docs : List (Doc (Fl ℝ))} {ctx : List C}
    {pos : P → ℂ} {region : C → Set ℂ} {t m : ℝ} (X : ExactProgram w E b f obj docs ctx pos region t m) :
    ∃ out N, (∀ fuel ≥ N, main (program w E fuel) b f = .saved (trim obj.output) (out.map w.marshal)) ∧
      List.Forall₂ (WrittenAs (fun l q => q = verticesAt l (Io.prescribed (rulesAsked region obj ctx t m)
        (if obj.isFeatureClass then placesOf pos E.toPoint docs else []) (l.map pos))) w.enc E.toPoint) docs out := by
  obtain ⟨kind, hr, hE⟩ := X.reads
  obtain ⟨e, h0, he⟩ := X.eps
  exact program_prescribed w E b f hr X.order X.small X.docs hE X.exact X.lnr X.heap h0 he X.name X.score X.threshold.1 X.threshold.2 X.minDist.1 X.minDist.2 X.avoid

/-- **C121 for the program.**  Two runs, whatever the representation of points and constraints in each; the lines of the second file are those of the first, moved by `φ` (shift,
rotation, reflection, scaling), in any order.  Then a line of the second file that is the image of a line `zs`, and whose request is that of the first run moved by `φ`, except for
obstacles out of reach of the line, is saved with the same vertex numbers as `zs` in the first.  The map must keep the order of the places if self-intersections are kept. -/
theorem C121_program {w : World (Fl ℝ) P Props C} {E : Engine P C EReal ℝ} {b f : Str} {obj : ArgObj (Fl ℝ)} {docs : List (Doc (Fl ℝ))} {ctx : List C} {pos : P → ℂ}
    {region : C → Set ℂ} {t m : ℝ} (X : ExactProgram w E b f obj docs ctx pos region t m)
    {w' : World (Fl ℝ) P' Props' C'} {E' : Engine P' C' EReal ℝ} {b' f' : Str} {obj' : ArgObj (Fl ℝ)} {docs' : List (Doc (Fl ℝ))} {ctx' : List C'} {pos' : P' → ℂ}
    {region' : C' → Set ℂ} {t' m' : ℝ} (X' : ExactProgram w' E' b' f' obj' docs' ctx' pos' region' t' m')
    {φ : ℂ →ᵃ[ℝ] ℂ} {r : ℝ} (hφ : Scales φ r) (ho : obj.planarSelf = true → ∀ z w, LexLe (φ z) (φ w) ↔ LexLe z w) (hfc : obj'.isFeatureClass = obj.isFeatureClass)
    (hlines : obj.isFeatureClass = true → (placesOf pos' E'.toPoint docs').flatten.Perm ((placesOf pos E.toPoint docs).flatten.map φ)) :
    ∃ (κ : List ℂ → List Int) (out : List (LineFeature (Fl ℝ) Props)) (out' : List (LineFeature (Fl ℝ) Props')) (N : Nat),
      (∀ fuel ≥ N, main (program w E fuel) b f = .saved (trim obj.output) (out.map w.marshal) ∧
        main (program w' E' fuel) b' f' = .saved (trim obj'.output) (out'.map w'.marshal)) ∧
      List.Forall₂ (WrittenAs (fun l q => q = verticesAt l (κ (l.map pos))) w.enc E.toPoint) docs out ∧
      List.Forall₂ (WrittenAs (fun l q => ∀ zs, l.map pos' = zs.map φ →
        SameInReach (zs.map φ) ((rulesAsked region obj ctx t m).image φ r) (rulesAsked region' obj' ctx' t' m') → q = verticesAt l (κ zs)) w'.enc E'.toPoint) docs' out' := by
  obtain ⟨out, N, h1, h2⟩ := X.prescribed
  obtain ⟨out', N', h1', h2'⟩ := X'.prescribed
  refine ⟨_, out, out', max N N', fun fuel hf => ⟨h1 fuel (le_trans (le_max_left _ _) hf), h1' fuel (le_trans (le_max_right _ _) hf)⟩, h2,
    h2'.imp (fun d o hw => hw.weaken (fun l q hq zs hz hs => ?_))⟩
  rw [hq, hz, C121_reach hs, hfc]
  congr 1
  rw [← C121_moved (R := rulesAsked region obj ctx t m) hφ ho]
  refine C121_order ?_ _ _
  cases hc : obj.isFeatureClass with
  | false => simp
  | true =>
    simp only [if_true]
    rw [← List.map_flatten]
    exact hlines hc

end
end Io

/-! ### concrete case -/

namespace Real
open Io Text Planar

noncomputable def scaledConfig (fc : Bool) (t m : ℝ) : ArgObj (Fl ℝ) := { freeConfig fc with threshold := .fin t, minDist := .fin m }

theorem scaled_program (fc : Bool) {t m : ℝ} (ht : 0 ≤ t) (hm : 0 ≤ m) (a b : List (List (Fl ℝ))) (ha : 2 ≤ a.length) (hb : 2 ≤ b.length) (ctx : List Region) :
    ExactProgram (world ordsC (scaledConfig fc t m) (.geometry (.line a)) (.geometry (.line b)) ctx) engine "e30=".toList ['-'] (scaledConfig fc t m)
      [.geometry (.line a), .geometry (.line b)] ctx id (fun r : Region => r.1) t m where
  reads := by
    refine ⟨.maxOffset, ⟨⟨"e30=".toList, rfl, ?_⟩, ?_, ⟨['a', '\n', 'b', '\n'], rfl, rfl⟩, (by decide : trim ['o', ' '] ≠ []), rfl, rfl⟩, engine_ok _ ?_ _ _ ?_⟩
    · have hx : decode64 (trim "e30=".toList) = .ok [123, 125] := by decide +kernel
      simp only [parseInput, hx]; rfl
    · have hk : offsetDictionary ((trim ['d', 'p']).map (lowerChar id)) = some .maxOffset := by decide +kernel
      simp only [offsetFn, scaledConfig, freeConfig, config, world, hk]; rfl
    · simpa [Engine.opts, optsFromCfg, scaledConfig, freeConfig, config, Fl.fin_le_fin] using ht
    · simp [docParts, geomParts, ha, hb]
  order l := .refl l
  small := by simp [maxInt]
  docs d hd := by
    simp only [List.mem_cons, List.not_mem_nil, or_false] at hd
    rcases hd with rfl | rfl <;> exact line_ok _ _
  exact := exactLib_exact
  lnr := exactLnr_exact
  heap := Hdb.listHeap_legal
  eps := ⟨0, le_rfl, rfl⟩
  name := show trim ['d', 'p'] ∈ dpNames by decide +kernel
  score := congrArg maxOffset segDist_gap
  threshold := ⟨rfl, ht⟩
  minDist := ⟨rfl, hm⟩
  avoid := rfl

noncomputable def loopCoords : List (List (Fl ℝ)) := [[.fin 0, .fin 0], [.fin 4, .fin 0], [.fin 2, .fin 2], [.fin 2, .fin (-2)], [.fin 4, .fin 0], [.fin 6, .fin 0]]
noncomputable def sideCoords : List (List (Fl ℝ)) := [[.fin 1, .fin 3], [.fin 2, .fin 2], [.fin 3, .fin 5]]
/-- both lines, scaled by 2 and shifted by 1 -/
noncomputable def loopCoords2 : List (List (Fl ℝ)) := [[.fin 1, .fin 0], [.fin 9, .fin 0], [.fin 5, .fin 4], [.fin 5, .fin (-4)], [.fin 9, .fin 0], [.fin 13, .fin 0]]
noncomputable def sideCoords2 : List (List (Fl ℝ)) := [[.fin 3, .fin 6], [.fin 5, .fin 4], [.fin 7, .fin 10]]
noncomputable def twice : ℂ →ᵃ[ℝ] ℂ := rotate (2 : ℝ) 1
def farPoint : Region := ⟨{⟨1000, 0⟩}, ⟨_, rfl⟩⟩

theorem twice_scales : Scales twice 2 := by
  have := rotate_scales (a := ((2 : ℝ) : ℂ)) (by norm_num) 1
  simpa [twice] using this

theorem loop_places : placesOf id engine.toPoint [.geometry (.line loopCoords), .geometry (.line sideCoords)] = [loop, side] := by
  simp [placesOf, loopCoords, sideCoords, docParts, geomParts, engine, loop, side]

theorem loop_places2 : placesOf id engine.toPoint [.geometry (.line sideCoords2), .geometry (.line loopCoords2)] = [side.map twice, loop.map twice] := by
  simp only [placesOf, loopCoords2, sideCoords2, docParts, geomParts, engine, loop, side, twice, rotate_apply, List.flatMap_cons, List.flatMap_nil, List.map_cons, List.map_nil,
    List.append_nil, List.cons_append, List.nil_append, id]
  simp [Complex.ext_iff]
  norm_num

theorem twice_reach (fc : Bool) : ∀ zs ∈ [loop, side], SameInReach (zs.map twice) ((rulesAsked (fun r : Region => r.1) (scaledConfig fc 5 (1 / 2)) [above] 5 (1 / 2)).image twice 2)
    (rulesAsked (fun r : Region => r.1) (scaledConfig fc 10 1) [imageRegion twice above, farPoint] 10 1) := by
  intro zs hzs
  refine ⟨?_, fun s hs => ?_⟩
  · simp only [rulesAsked, Rules.image]
    norm_num
    exact ⟨rfl, rfl, rfl, rfl, rfl⟩
  · have hin : hullSet (zs.map twice) ⊆ {z : ℂ | z.re ≤ 13} := by
      refine convexHull_min ?_ (convex_halfSpace_re_le 13)
      intro z hz
      simp only [Set.mem_ofPred_eq, List.mem_map] at hz ⊢
      obtain ⟨w, hw, rfl⟩ := hz
      simp only [List.mem_cons, List.not_mem_nil, or_false] at hzs
      have : w.re ≤ 6 := by
        rcases hzs with rfl | rfl
        · simp only [loop, List.mem_cons, List.not_mem_nil, or_false] at hw
          rcases hw with rfl | rfl | rfl | rfl | rfl | rfl <;> norm_num
        · simp only [side, List.mem_cons, List.not_mem_nil, or_false] at hw
          rcases hw with rfl | rfl | rfl <;> norm_num
      simp [twice, rotate_apply]
      linarith
    have hfar : s ≠ farPoint.1 := by
      rintro rfl
      refine hs ⟨?_, fun _ => ?_⟩
      · rw [Set.disjoint_left]
        rintro z hz rfl
        have := hin hz
        norm_num at this
      · have hne : (hullSet (zs.map twice)).Nonempty := by
          simp only [List.mem_cons, List.not_mem_nil, or_false] at hzs
          rcases hzs with rfl | rfl
          · exact ⟨_, subset_convexHull ℝ {z | z ∈ loop.map twice} (List.mem_cons_self (a := twice ⟨0, 0⟩))⟩
          · exact ⟨_, subset_convexHull ℝ {z | z ∈ side.map twice} (List.mem_cons_self (a := twice ⟨1, 3⟩))⟩
        obtain ⟨z0, hz0⟩ := hne
        refine le_csInf ⟨_, z0, hz0, _, rfl, rfl⟩ ?_
        rintro r ⟨x, hx, y, rfl, rfl⟩
        have h1 := hin hx
        simp only [Set.mem_ofPred_eq] at h1
        have h2 := Complex.abs_re_le_norm (x - ⟨1000, 0⟩)
        rw [← dist_eq_norm] at h2
        have h3 : (987 : ℝ) ≤ |(x - ⟨1000, 0⟩ : ℂ).re| := by
          rw [Complex.sub_re, abs_sub_comm, le_abs]
          left
          linarith
        refine le_trans ?_ (h3.trans h2)
        simp [Rules.image, rulesAsked]
    simp only [rulesAsked, Rules.image, Set.mem_ofPred_eq, List.mem_cons, List.not_mem_nil, or_false, exists_eq_or_imp, exists_eq_left, exists_eq_left']
    constructor
    · rintro rfl; exact .inl rfl
    · rintro (rfl | rfl)
      · rfl
      · exact absurd rfl hfar

/-- C121 for the program on the loop and the side line of C117 with a half plane as constraint, against a run on both lines scaled, shifted and in the other order, with one
more constraint far away: the same vertices are saved -/
example (fc : Bool) : ∃ (κ : List ℂ → List Int) (out out' : List (LineFeature (Fl ℝ) Str)) (N : Nat),
    (∀ fuel ≥ N, main (program (world ordsC (scaledConfig fc 5 (1 / 2)) (.geometry (.line loopCoords)) (.geometry (.line sideCoords)) [above]) engine fuel) "e30=".toList ['-'] =
        .saved ['o'] (out.map (fun _ => [])) ∧
      main (program (world ordsC (scaledConfig fc 10 1) (.geometry (.line sideCoords2)) (.geometry (.line loopCoords2)) [imageRegion twice above, farPoint]) engine fuel) "e30=".toList
        ['-'] = .saved ['o'] (out'.map (fun _ => []))) ∧
    List.Forall₂ (WrittenAs (fun l q => q = verticesAt l (κ l)) (world ordsC (scaledConfig fc 5 (1 / 2)) (.geometry (.line loopCoords)) (.geometry (.line sideCoords)) [above]).enc
      engine.toPoint) [.geometry (.line loopCoords), .geometry (.line sideCoords)] out ∧
    List.Forall₂ (WrittenAs (fun l q => ∀ zs ∈ [loop, side], l = zs.map twice → q = verticesAt l (κ zs))
      (world ordsC (scaledConfig fc 10 1) (.geometry (.line sideCoords2)) (.geometry (.line loopCoords2)) [imageRegion twice above, farPoint]).enc engine.toPoint)
      [.geometry (.line sideCoords2), .geometry (.line loopCoords2)] out' := by
  obtain ⟨κ, out, out', N, h1, h2, h3⟩ := C121_program (scaled_program fc (t := 5) (m := 1 / 2) (by norm_num) (by norm_num) loopCoords sideCoords (by simp [loopCoords]) (by simp [sideCoords]) [above])
    (scaled_program fc (t := 10) (m := 1) (by norm_num) (by norm_num) sideCoords2 loopCoords2 (by simp [sideCoords2]) (by simp [loopCoords2]) [imageRegion twice above, farPoint])
    twice_scales (fun _ => rotate_order (by norm_num) 1) rfl (fun _ => by
      rw [loop_places, loop_places2]
      simp only [List.flatten_cons, List.flatten_nil, List.append_nil, List.map_append]
      exact List.perm_append_comm)
  refine ⟨κ, out, out', N, h1, ?_, h3.imp (fun d o hw => hw.weaken (fun l q hq zs hz hl => hq zs ?_ (twice_reach fc zs hz)))⟩
  · simpa using h2
  · simpa using hl

end Real
end Verif
