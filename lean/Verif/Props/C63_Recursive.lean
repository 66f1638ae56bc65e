import Verif.Spec.Recursive
import Verif.Props.C08_Simple

/-! C63, C64, C65: the stack loop of the unconstrained simplification is the recursive Douglas–Peucker procedure; a larger threshold
never keeps a vertex that a smaller one drops; simplifying the result again changes nothing. -/

set_option linter.unusedSectionVars false

namespace Verif

variable {P C B K : Type}

/-- the segments the loop makes from its stack: those of every stack entry, in order -/
inductive RecStack (score : ScoreFn P K) (rel : Fl K → Bool) (pts : List P) : List Rng → List Rng → Prop
  | nil : RecStack score rel pts [] []
  | cons (r : Rng) (rs xs ys : List Rng) (h : RecDP score rel pts r.I r.J xs) (hs : RecStack score rel pts rs ys) :
      RecStack score rel pts (r :: rs) (xs ++ ys)

/-- whatever the loop returns are the segments of the recursive procedure, for any score function and relation -/
theorem dpLoop_rec (lib : Lib P C B K) (ids : Nat → Int) (pts : List P) (score : ScoreFn P K) (rel : Fl K → Bool) (inst : Int) :
    ∀ (fuel : Nat) (stack : List Rng) (hque : List (Node P C B)) (g : Nat) (out : List (Node P C B)) (g' : Nat),
      dpLoop lib ids ⟨some (coordsOf pts)⟩ score rel inst fuel stack hque g = .ok (out, g') →
      ∃ hs' : List (Node P C B), out = hque ++ hs' ∧ RecStack score rel pts stack (hs'.map Node.range) := by
  intro fuel
  induction fuel with
  | zero =>
    intro stack hque g out g' h
    cases stack with
    | nil => simp only [dpLoop, Res.ok.injEq, Prod.mk.injEq] at h; exact ⟨[], by simp [h.1], .nil⟩
    | cons r rs => simp [dpLoop] at h
  | succ fuel ih =>
    intro stack hque g out g' h
    cases stack with
    | nil => simp only [dpLoop, Res.ok.injEq, Prod.mk.injEq] at h; exact ⟨[], by simp [h.1], .nil⟩
    | cons r rs =>
      have hsub : (⟨some (coordsOf pts)⟩ : Polyline P).subCoordinates r = .ok (Coords.sub pts r.I r.J) := by
        simp [Polyline.subCoordinates, Polyline.coordinates, coordsOf, Coords.sub]
      simp only [dpLoop, hsub, Res.ok_bind] at h
      obtain ⟨⟨k, v⟩, hsc, h⟩ := Res.bind_eq_ok.1 h
      by_cases hr : rel v = true
      · rw [if_pos hr] at h
        obtain ⟨nd, hnd, h⟩ := Res.bind_eq_ok.1 h
        obtain ⟨hs', e, hst⟩ := ih _ _ _ _ _ h
        refine ⟨nd :: hs', by rw [e]; simp, ?_⟩
        have hrg : nd.range = r := by
          simp only [createNode] at hnd
          obtain ⟨g1, hg1, hnd⟩ := Res.bind_eq_ok.1 hnd
          rw [Res.pure_eq] at hnd
          rw [← Res.ok.inj hnd]
        rw [List.map_cons, hrg]
        exact .cons r rs [r] _ (.keep r.I r.J k v hsc hr) hst
      · rw [if_neg hr] at h
        obtain ⟨hs', e, hst⟩ := ih _ _ _ _ _ h
        refine ⟨hs', e, ?_⟩
        generalize hs'.map Node.range = zs at hst
        cases hst with
        | cons _ _ xs ys hx hst =>
          cases hst with
          | cons _ _ xs' ys' hx' hst =>
            rw [← List.append_assoc]
            exact .cons r rs _ _ (.cut r.I r.J k v xs xs' hsc (by simpa using hr) hx hx') hst

/-- C63.  Whatever the decomposition of a polyline with at least two vertices returns, for any score function, any relation and any
number of iterations: the ranges of the pieces are those of the recursive procedure on the whole line, in the same order. -/
theorem C63_decompose_recursive (lib : Lib P C B K) (ids : Nat → Int) (g : Nat) (pts : List P) (score : ScoreFn P K)
    (rel : Fl K → Bool) (inst : Int) (hlen : 2 ≤ pts.length) (fuel : Nat) (hulls : List (Node P C B)) (g' : Nat)
    (h : decompose lib ids g ⟨some (coordsOf pts)⟩ score rel inst fuel = .ok (hulls, g')) :
    RecDP score rel pts 0 (pts.length - 1) (hulls.map Node.range) := by
  simp only [decompose, range_ok hlen, Res.ok_bind] at h
  obtain ⟨hs', e, hst⟩ := dpLoop_rec lib ids pts score rel inst _ _ _ _ _ _ h
  rw [List.nil_append] at e
  subst e
  generalize hulls.map Node.range = zs at hst
  cases hst with
  | cons _ _ xs ys hx hst =>
    cases hst
    simpa using hx

/-- C63.  When the score splits inside, the recursive procedure has a result on every line and the decomposition returns it. -/
theorem C63_recursive_total (lib : Lib P C B K) (ids : Nat → Int) (g : Nat) (pts : List P) (score : ScoreFn P K)
    (rel : Fl K → Bool) (inst : Int) (hlen : 2 ≤ pts.length) (hhull : HullOk lib pts) (hs : SplitsInside score rel pts) :
    ∃ rs : List Rng, RecDP score rel pts 0 (pts.length - 1) rs ∧ (∀ rs', RecDP score rel pts 0 (pts.length - 1) rs' → rs' = rs) ∧
      ∀ fuel, 2 * pts.length ≤ fuel → ∃ (hulls : List (Node P C B)) (g' : Nat),
        decompose lib ids g ⟨some (coordsOf pts)⟩ score rel inst fuel = .ok (hulls, g') ∧ hulls.map Node.range = rs := by
  obtain ⟨⟨hulls, g'⟩, hr⟩ := C05_decompose_terminates lib ids g pts score rel inst hlen hhull hs _ (Nat.le_refl _)
  have hrec := C63_decompose_recursive lib ids g pts score rel inst hlen _ _ _ hr
  refine ⟨_, hrec, fun rs' h' => h'.unique hrec, fun fuel hf => ?_⟩
  obtain ⟨⟨hulls2, g2⟩, hr2⟩ := C05_decompose_terminates lib ids g pts score rel inst hlen hhull hs fuel hf
  exact ⟨hulls2, g2, hr2, (C63_decompose_recursive lib ids g pts score rel inst hlen _ _ _ hr2).unique hrec⟩

/-- the recursive procedure never lists no segment -/
theorem RecDP.ne_nil {score : ScoreFn P K} {rel : Fl K → Bool} {pts : List P} {i j : Int} {rs : List Rng}
    (h : RecDP score rel pts i j rs) : rs ≠ [] := by
  induction h with
  | keep => simp
  | cut _ _ _ _ xs ys _ _ _ _ ihx _ => simp [ihx]

/-- the first segment begins at the first vertex and the last one ends at the last vertex -/
theorem RecDP.ends {score : ScoreFn P K} {rel : Fl K → Bool} {pts : List P} {i j : Int} {rs : List Rng}
    (h : RecDP score rel pts i j rs) : (∃ r ∈ rs, r.I = i) ∧ (∃ r ∈ rs, r.J = j) := by
  induction h with
  | keep i j => exact ⟨⟨_, List.mem_singleton.2 rfl, rfl⟩, ⟨_, List.mem_singleton.2 rfl, rfl⟩⟩
  | cut _ _ _ _ xs ys _ _ _ _ ihx ihy =>
    obtain ⟨⟨a, ha, ha'⟩, _⟩ := ihx
    obtain ⟨_, ⟨b, hb, hb'⟩⟩ := ihy
    exact ⟨⟨a, List.mem_append_left _ ha, ha'⟩, ⟨b, List.mem_append_right _ hb, hb'⟩⟩

/-- a relation that accepts more keeps a subset of the vertices -/
theorem RecDP.nested {score : ScoreFn P K} {rel rel' : Fl K → Bool} {pts : List P} (hrel : ∀ v, rel v = true → rel' v = true)
    {i j : Int} {rs rs' : List Rng} (h : RecDP score rel pts i j rs) (h' : RecDP score rel' pts i j rs') (y : Int)
    (hy : ∃ r ∈ rs', y = r.I ∨ y = r.J) : ∃ r ∈ rs, y = r.I ∨ y = r.J := by
  induction h' generalizing rs with
  | keep i j k v hs hv =>
    obtain ⟨⟨a, ha, ha'⟩, ⟨b, hb, hb'⟩⟩ := h.ends
    obtain ⟨r, hr, hy⟩ := hy
    rw [List.mem_singleton.1 hr] at hy
    rcases hy with hy | hy
    · exact ⟨a, ha, Or.inl (by rw [hy, ha'])⟩
    · exact ⟨b, hb, Or.inr (by rw [hy, hb'])⟩
  | cut i j k v xs ys hs hv hx hy' ihx ihy =>
    cases h with
    | keep _ _ k1 v1 hs1 hv1 =>
      rw [hs] at hs1; cases hs1
      rw [hrel v hv1] at hv; cases hv
    | cut _ _ k1 v1 xs1 ys1 hs1 hv1 hx1 hy1 =>
      rw [hs] at hs1; cases hs1
      obtain ⟨r, hr, hy⟩ := hy
      rcases List.mem_append.1 hr with hr | hr
      · obtain ⟨r', hr', e⟩ := ihx hx1 ⟨r, hr, hy⟩
        exact ⟨r', List.mem_append_left _ hr', e⟩
      · obtain ⟨r', hr', e⟩ := ihy hy1 ⟨r, hr, hy⟩
        exact ⟨r', List.mem_append_right _ hr', e⟩

/-- C64.  Two runs of `dp.Simplify` on one line with thresholds `small <= large` (both not NaN), whatever the score function: every
vertex kept with the larger threshold is kept with the smaller one. -/
theorem C64_nested [LinearOrder K] (lib : Lib P C B K) (ids ids' : Nat → Int) (g g' : Nat) (pts : List P) (score : ScoreFn P K)
    (small large : Fl K) (inst inst' : Int) (hlen : 2 ≤ pts.length) (hle : small.le large = true) (fuel fuel' : Nat)
    (out out' : List Int)
    (h : dpSimplify lib ids g ⟨some (coordsOf pts)⟩ score none small small inst fuel = .ok out)
    (h' : dpSimplify lib ids' g' ⟨some (coordsOf pts)⟩ score none large large inst' fuel' = .ok out') :
    out' ⊆ out := by
  simp only [dpSimplify, scoreOf, relationOf, Option.getD_none] at h h'
  obtain ⟨⟨hulls, g1⟩, e1, h⟩ := Res.bind_eq_ok.1 h
  obtain ⟨⟨hulls', g2⟩, e2, h'⟩ := Res.bind_eq_ok.1 h'
  simp only [Res.pure_eq, Res.ok.injEq] at h h'
  subst h h'
  have r1 := C63_decompose_recursive _ _ _ _ _ _ _ hlen _ _ _ e1
  have r2 := C63_decompose_recursive _ _ _ _ _ _ _ hlen _ _ _ e2
  intro y hy
  rw [mem_simpleSet] at hy ⊢
  have := r1.nested (fun v hv => Fl.le_trans hv hle) r2 y (by simpa using hy)
  simpa using this

/-- C64.  The same with a squared score function: the squares are compared. -/
theorem C64_nested_square [LinearOrder K] (lib : Lib P C B K) (ids ids' : Nat → Int) (g g' : Nat) (pts : List P)
    (score score' square : ScoreFn P K) (t t' small large : Fl K) (inst inst' : Int) (hlen : 2 ≤ pts.length)
    (hle : small.le large = true) (fuel fuel' : Nat) (out out' : List Int)
    (h : dpSimplify lib ids g ⟨some (coordsOf pts)⟩ score (some square) t small inst fuel = .ok out)
    (h' : dpSimplify lib ids' g' ⟨some (coordsOf pts)⟩ score' (some square) t' large inst' fuel' = .ok out') :
    out' ⊆ out := by
  simp only [dpSimplify, scoreOf, relationOf, Option.getD_some] at h h'
  obtain ⟨⟨hulls, g1⟩, e1, h⟩ := Res.bind_eq_ok.1 h
  obtain ⟨⟨hulls', g2⟩, e2, h'⟩ := Res.bind_eq_ok.1 h'
  simp only [Res.pure_eq, Res.ok.injEq] at h h'
  subst h h'
  have r1 := C63_decompose_recursive _ _ _ _ _ _ _ hlen _ _ _ e1
  have r2 := C63_decompose_recursive _ _ _ _ _ _ _ hlen _ _ _ e2
  intro y hy
  rw [mem_simpleSet] at hy ⊢
  have := r1.nested (fun v hv => Fl.le_trans hv hle) r2 y (by simpa using hy)
  simpa using this

/-- the segments between consecutive vertices, `m` of them from vertex `o` -/
def units (o : Int) (m : Nat) : List Rng := (List.range m).map (fun t : Nat => ⟨o + t, o + t + 1⟩)

theorem units_add (o : Int) (a b : Nat) : units o (a + b) = units o a ++ units (o + a) b := by
  simp only [units, List.range_add, List.map_append, List.map_map]
  congr 1
  apply List.map_congr_left
  intro t _
  simp only [Function.comp, Nat.cast_add]
  congr 1 <;> omega

section
variable [LinearOrder K] [Zero K]

/-- the score is the last interior vertex of largest distance -/
theorem maxOffset_eq (distFn : P → P → P → Fl K) (c : Coords P) (q : Int → P)
    (hq : ∀ k, 0 ≤ k → k < c.len → c.pt k = .ok (q k)) (m : Int) (v : Fl K) (h0 : 0 < m) (h1 : m < c.len - 1) (hn : v ≠ .nan)
    (hv0 : (Fl.fin 0).le v = true) (hm : distFn (q 0) (q (c.len - 1)) (q m) = v)
    (hle : ∀ t, 0 < t → t < c.len - 1 → distFn (q 0) (q (c.len - 1)) (q t) ≠ .nan →
        (distFn (q 0) (q (c.len - 1)) (q t)).le v = true)
    (hlast : ∀ t, m < t → t < c.len - 1 → (distFn (q 0) (q (c.len - 1)) (q t)).ge v = false) :
    maxOffset distFn c = .ok (m, v) := by
  obtain ⟨k, v', e, n1, l1, m1, c1⟩ := maxOffset_spec distFn c q (by omega) hq
  have hvv := m1 m h0 h1 (by rw [hm]; exact hn)
  rw [hm] at hvv
  rcases c1 with ⟨rfl, rfl, c2⟩ | ⟨c2, c3, c4, c5⟩
  · have := c2 m h0 h1
    rw [hm] at this
    simp [Fl.ge, hv0] at this
  · have hvv' := hle k c2 c3 (by rw [← c4]; exact n1)
    rw [← c4] at hvv'
    have hk : k = m := by
      rcases Int.lt_trichotomy k m with hlt | heq | hgt
      · have := c5 m hlt h1
        rw [hm] at this
        simp [Fl.ge, hvv'] at this
      · exact heq
      · have := hlast k hgt c3
        rw [← c4] at this
        simp [Fl.ge, hvv] at this
    subst hk
    rw [e, c4, hm]

/-- the recursive procedure, with a score that splits inside, chains from the first to the last vertex -/
theorem RecDP.chain {score : ScoreFn P K} {rel : Fl K → Bool} {pts : List P} (hs : SplitsInside score rel pts) {i j : Int}
    {rs : List Rng} (h : RecDP score rel pts i j rs) (hi : 0 ≤ i) (hij : i < j) (hj : j < pts.length) : Chain i j rs := by
  induction h with
  | keep i j => exact Chain.singleton hij
  | cut i j k v xs ys hsc hv hx hy ihx ihy =>
    obtain ⟨k', v', e, hk⟩ := hs i j hi hij hj
    rw [hsc] at e; cases e
    have := hk hv
    exact (ihx hi (by omega) (by omega)).append (ihy (by omega) (by omega) (by omega))

/-- the recursive procedure on the kept vertices alone keeps all of them -/
theorem RecDP.again (distFn : P → P → P → Fl K) {rel : Fl K → Bool} (hrel : rel (.fin 0) = true) {pts q : List P} {i j : Int}
    {rs : List Rng} (h : RecDP (maxOffset distFn) rel pts i j rs) (hi : 0 ≤ i) (hij : i < j) (hj : j < pts.length) (o : Nat)
    (hq : ∀ (t : Nat) (x : Int), (i :: rs.map Rng.J)[t]? = some x → q[o + t]? = pts[x.toNat]?) :
    RecDP (maxOffset distFn) rel q o (o + rs.length) (units o rs.length) := by
  have hsi := maxOffset_splitsInside distFn rel hrel pts
  induction h generalizing o with
  | keep i j k v hs hv =>
    refine .keep _ _ 1 (.fin 0) ?_ hrel
    rw [C03_maxOffset_short]
    · rw [Coords.len_sub _ _ _ (by omega)]; simp; omega
    · rw [Coords.len_sub _ _ _ (by omega)]; simp; omega
  | cut i j k v xs ys hs hv hx hy ihx ihy =>
    obtain ⟨k', v', e, hk⟩ := hsi i j hi hij hj
    rw [hs] at e; cases e
    have hk := hk hv
    have hcx := hx.chain hsi hi (by omega) (by omega)
    have hcy := hy.chain hsi (by omega) (by omega) hj
    have hlx : (i :: xs.map Rng.J)[xs.length]? = some (i + k) := by
      have := hcx.getLast
      rwa [List.getLast?_eq_getElem?, List.length_cons, List.length_map, Nat.add_sub_cancel] at this
    have hE : i :: (xs ++ ys).map Rng.J = (i :: xs.map Rng.J) ++ ys.map Rng.J := by simp
    rw [hE] at hq
    have hq1 : ∀ (t : Nat) (x : Int), (i :: xs.map Rng.J)[t]? = some x → q[o + t]? = pts[x.toNat]? := by
      intro t x hx
      refine hq t x ?_
      have hlt : t < (i :: xs.map Rng.J).length := by
        by_contra hc
        rw [List.getElem?_eq_none (by omega)] at hx; cases hx
      rw [List.getElem?_append_left hlt]; exact hx
    have hq2 : ∀ (t : Nat) (x : Int), ((i + k) :: ys.map Rng.J)[t]? = some x → q[o + xs.length + t]? = pts[x.toNat]? := by
      intro t x hx
      cases t with
      | zero =>
        rw [List.getElem?_cons_zero] at hx
        cases hx
        exact hq1 _ _ hlx
      | succ t =>
        rw [List.getElem?_cons_succ] at hx
        rw [Nat.add_assoc]
        refine hq _ x ?_
        rw [List.getElem?_append_right (by simp)]
        rw [List.length_cons, List.length_map, show xs.length + (t + 1) - (xs.length + 1) = t by omega]
        exact hx
    have hx' := ihx hi (by omega) (by omega) o hq1
    have hy' := ihy (by omega) (by omega) hj (o + xs.length) hq2
    have hxl : 0 < xs.length := List.length_pos_iff.2 hx.ne_nil
    have hyl : 0 < ys.length := List.length_pos_iff.2 hy.ne_nil
    rw [List.length_append, units_add]
    refine .cut _ _ xs.length v _ _ ?_ hv hx' ?_
    · -- the split vertex is still the last of largest distance
      have hc := hcx.append hcy
      have hpw := hc.bounds_pairwise
      rw [hE] at hpw
      set E := (i :: xs.map Rng.J) ++ ys.map Rng.J with hEdef
      have hlenE : E.length = xs.length + ys.length + 1 := by simp [hEdef]
      have hlast : E[xs.length + ys.length]? = some j := by
        have := hc.getLast
        rw [hE, List.getLast?_eq_getElem?, hlenE] at this
        exact this
      have hget : ∀ t : Nat, t ≤ xs.length + ys.length → E[t]? = some (E.getD t 0) := by
        intro t ht
        rw [List.getD_eq_getElem?_getD, List.getElem?_eq_getElem (by omega)]; rfl
      have hmono : ∀ a b : Nat, a < b → b ≤ xs.length + ys.length → E.getD a 0 < E.getD b 0 := by
        intro a b hab hb
        have := List.pairwise_iff_getElem.1 hpw a b (by omega) (by omega) hab
        simpa [List.getD_eq_getElem?_getD, List.getElem?_eq_getElem (show a < E.length by omega),
          List.getElem?_eq_getElem (show b < E.length by omega)] using this
      have hE0 : E.getD 0 0 = i := by simp [hEdef]
      have hEm : E.getD (xs.length + ys.length) 0 = j := by rw [List.getD_eq_getElem?_getD, hlast]; rfl
      have hEx : E.getD xs.length 0 = i + k := by
        rw [List.getD_eq_getElem?_getD, hEdef, List.getElem?_append_left (by simp), hlx]; rfl
      have hbnd : ∀ t : Nat, t ≤ xs.length + ys.length → i ≤ E.getD t 0 ∧ E.getD t 0 ≤ j := by
        intro t ht
        constructor
        · rcases Nat.eq_zero_or_pos t with rfl | hp
          · omega
          · have := hmono 0 t hp ht; omega
        · rcases Nat.lt_or_eq_of_le ht with hp | rfl
          · have := hmono t _ hp (Nat.le_refl _); omega
          · omega
      let d := pts[i.toNat]'(by omega)
      have hqpt : ∀ t, 0 ≤ t → t < (Coords.sub pts i j).len →
          (Coords.sub pts i j).pt t = .ok ((pts[(i + t).toNat]?).getD d) := by
        intro t h1 h2
        rw [Coords.len_sub _ _ _ (by omega)] at h2
        obtain ⟨p, hp, hp'⟩ := Coords.pt_sub_ok (pts := pts) (i := i) (j := j) h1 (by omega) hi hj
        rw [hp, hp']; rfl
      obtain ⟨k2, v2, e2, n1, l1, m1, c1⟩ := maxOffset_spec distFn _ _ (by rw [Coords.len_sub _ _ _ (by omega)]; omega) hqpt
      rw [hs] at e2; cases e2
      rw [Coords.len_sub _ _ _ (by omega)] at m1 c1
      rcases c1 with ⟨c2, c3, c4⟩ | ⟨c2, c3, c4, c5⟩
      · rw [c3, hrel] at hv; cases hv
      · have hlen' : (Coords.sub q o (o + ((xs.length + ys.length : Nat) : Int))).len = xs.length + ys.length + 1 := by
          rw [Coords.len_sub _ _ _ (by omega)]; push_cast; omega
        have hqlen : ∀ t : Nat, t ≤ xs.length + ys.length → q[o + t]? = pts[(E.getD t 0).toNat]? := fun t ht =>
          hq t _ (hget t ht)
        have hqpt' : ∀ t, 0 ≤ t → t < (Coords.sub q o (o + ((xs.length + ys.length : Nat) : Int))).len →
            (Coords.sub q o (o + ((xs.length + ys.length : Nat) : Int))).pt t = .ok ((pts[(E.getD t.toNat 0).toNat]?).getD d) := by
          intro t h1 h2
          rw [hlen'] at h2
          have hb := hbnd t.toNat (by omega)
          have hql : o + (xs.length + ys.length) < q.length := by
            by_contra hc
            have h3 := hqlen (xs.length + ys.length) (Nat.le_refl _)
            rw [List.getElem?_eq_none (by omega), hEm, List.getElem?_eq_getElem (by omega)] at h3
            cases h3
          obtain ⟨p, hp, hp'⟩ := Coords.pt_sub_ok (pts := q) (i := o) (j := (o + ((xs.length + ys.length : Nat) : Int))) h1
            (by push_cast; omega) (by omega) (by push_cast; omega)
          rw [hp]
          have h4 := hqlen t.toNat (by omega)
          rw [show ((o : Int) + t).toNat = o + t.toNat by omega, h4] at hp'
          rw [hp']; rfl
        refine maxOffset_eq distFn _ _ hqpt' _ v (by omega) (by rw [hlen']; omega) n1 l1 ?_ ?_ ?_
        · rw [hlen', c4]
          simp only [Int.toNat_zero, Int.toNat_natCast, hE0, hEx]
          rw [show ((xs.length : Int) + ys.length + 1 - 1).toNat = xs.length + ys.length by omega, hEm]
          rw [show i + (j + 1 - i - 1) = j by omega, show i + 0 = i by omega]
        · intro t h1 h2 h3
          rw [hlen'] at h2 h3 ⊢
          simp only [Int.toNat_zero, hE0] at h3 ⊢
          rw [show ((xs.length : Int) + ys.length + 1 - 1).toNat = xs.length + ys.length by omega, hEm] at h3 ⊢
          have a1 := hmono 0 t.toNat (by omega) (by omega)
          have a2 := hmono t.toNat (xs.length + ys.length) (by omega) (Nat.le_refl _)
          have := m1 (E.getD t.toNat 0 - i) (by omega) (by omega)
          rw [show i + (j + 1 - i - 1) = j by omega, show i + 0 = i by omega,
            show i + (E.getD t.toNat 0 - i) = E.getD t.toNat 0 by omega] at this
          exact this h3
        · intro t h1 h2
          rw [hlen'] at h2 ⊢
          simp only [Int.toNat_zero, hE0]
          rw [show ((xs.length : Int) + ys.length + 1 - 1).toNat = xs.length + ys.length by omega, hEm]
          have a1 := hmono xs.length t.toNat (by omega) (by omega)
          have a2 := hmono t.toNat (xs.length + ys.length) (by omega) (Nat.le_refl _)
          have := c5 (E.getD t.toNat 0 - i) (by omega) (by omega)
          rw [show i + (j + 1 - i - 1) = j by omega, show i + 0 = i by omega,
            show i + (E.getD t.toNat 0 - i) = E.getD t.toNat 0 by omega] at this
          exact this
    · rw [Nat.cast_add, ← Int.add_assoc]
      simpa using hy'

/-- C65.  Simplifying twice is simplifying once: `dp.Simplify` with the offset score (distances of any kind, NaN and negative values
included), a threshold accepting zero, on a line of at least two vertices returned the vertices `out`; `q` is the line of the kept
vertices.  Then `dp.Simplify` of `q` keeps every vertex of `q`. -/
theorem C65_idempotent (lib : Lib P C B K) (ids ids' : Nat → Int) (g g' : Nat) (pts q : List P) (distFn : P → P → P → Fl K)
    (threshold sq : Fl K) (inst inst' : Int) (hlen : 2 ≤ pts.length) (ht : (Fl.fin 0).le threshold = true)
    (hhull : HullOk lib q) (fuel : Nat) (out : List Int)
    (h : dpSimplify lib ids g ⟨some (coordsOf pts)⟩ (maxOffset distFn) none threshold sq inst fuel = .ok out)
    (hq : q.map some = out.map (fun i => pts[i.toNat]?)) :
    ∀ fuel', 2 * q.length ≤ fuel' →
      dpSimplify lib ids' g' ⟨some (coordsOf q)⟩ (maxOffset distFn) none threshold sq inst' fuel' =
        .ok ((List.range q.length).map (fun t : Nat => (t : Int))) := by
  have hrel : scoreRelation threshold (.fin 0) = true := ht
  simp only [dpSimplify, scoreOf, relationOf, Option.getD_none] at h ⊢
  obtain ⟨⟨hulls, g1⟩, e1, h⟩ := Res.bind_eq_ok.1 h
  simp only [Res.pure_eq, Res.ok.injEq] at h
  have r1 := C63_decompose_recursive _ _ _ _ _ _ _ hlen _ _ _ e1
  have hsi := maxOffset_splitsInside distFn _ hrel pts
  have hch := r1.chain hsi (Int.le_refl 0) (by omega) (by omega)
  have hne : hulls ≠ [] := by
    intro hc; exact r1.ne_nil (by simp [hc])
  rw [simpleSet_chain hch hne] at h
  have hql : q.length = hulls.length + 1 := by
    have := congrArg List.length hq
    simpa [← h] using this
  have hpos : 0 < hulls.length := List.length_pos_iff.2 hne
  have r2 := r1.again distFn hrel (q := q) (Int.le_refl 0) (by omega) (by omega) 0 (by
    intro t x hx
    have h1 := congrArg (fun l => l[t]?) hq
    have h2 : (0 :: (hulls.map Node.range).map Rng.J) = out := by rw [← h, List.map_map]; rfl
    rw [h2] at hx
    simp only [List.getElem?_map, hx, Option.map_some] at h1
    rw [Nat.zero_add]
    cases hqt : q[t]? with
    | none => rw [hqt] at h1; cases h1
    | some p => rw [hqt, Option.map_some] at h1; exact Option.some.inj h1)
  intro fuel' hf
  obtain ⟨⟨hulls2, g2⟩, e2⟩ := C05_decompose_terminates lib ids' g' q (maxOffset distFn) (scoreRelation threshold) inst'
    (by omega) hhull (maxOffset_splitsInside distFn _ hrel q) fuel' hf
  have r3 := C63_decompose_recursive _ _ _ _ _ _ _ (by omega) _ _ _ e2
  have hch3 := r3.chain (maxOffset_splitsInside distFn _ hrel q) (Int.le_refl 0) (by omega) (by omega)
  have hne3 : hulls2 ≠ [] := by
    intro hc; exact r3.ne_nil (by simp [hc])
  rw [List.length_map, show ((0 : Nat) : Int) + (hulls.length : Int) = (q.length : Int) - 1 by omega] at r2
  have hu := r3.unique r2
  simp only [e2, Res.ok_bind, Res.pure_eq]
  rw [simpleSet_chain hch3 hne3, show hulls2.map (fun nd => nd.range.J) = (hulls2.map Node.range).map Rng.J by
    rw [List.map_map]; rfl, hu, hql, List.range_succ_eq_map]
  simp [units, List.map_map, Function.comp_def]

/-- C65.  The same for the synchronised distance of trajectories. -/
theorem C65_idempotent_sed (lib : Lib P C B K) (ids ids' : Nat → Int) (g g' : Nat) (pts q : List P) (sed : P → P → P → Fl K)
    (threshold sq : Fl K) (inst inst' : Int) (hlen : 2 ≤ pts.length) (ht : (Fl.fin 0).le threshold = true)
    (hhull : HullOk lib q) (fuel : Nat) (out : List Int)
    (h : dpSimplify lib ids g ⟨some (coordsOf pts)⟩ (maxSEDOffset sed) none threshold sq inst fuel = .ok out)
    (hq : q.map some = out.map (fun i => pts[i.toNat]?)) :
    ∀ fuel', 2 * q.length ≤ fuel' →
      dpSimplify lib ids' g' ⟨some (coordsOf q)⟩ (maxSEDOffset sed) none threshold sq inst' fuel' =
        .ok ((List.range q.length).map (fun t : Nat => (t : Int))) :=
  C65_idempotent lib ids ids' g g' pts q sed threshold sq inst inst' hlen ht hhull fuel out h hq

end

/-- non-trivial case of C63: the segments of heights 0 3 1 7 0 at threshold 2 -/
example : RecDP (maxOffset (K := Int) fun _ _ (p : Int) => .fin p) (scoreRelation (.fin 2)) [0, 3, 1, 7, 0] 0 4
    [⟨0, 1⟩, ⟨1, 3⟩, ⟨3, 4⟩] :=
  C63_decompose_recursive demoLib (fun n => n) 0 [0, 3, 1, 7, 0] _ _ 0 (by decide) 20
    [⟨0, Coords.sub [0, 3, 1, 7, 0] 0 1, ⟨0, 1⟩, _, _, 0⟩, ⟨1, Coords.sub [0, 3, 1, 7, 0] 1 3, ⟨1, 3⟩, _, _, 0⟩,
      ⟨2, Coords.sub [0, 3, 1, 7, 0] 3 4, ⟨3, 4⟩, _, _, 0⟩] 3 rfl

/-- non-trivial case of C64: threshold 2 keeps 0 1 3 4, threshold 5 keeps 0 3 4 -/
example : dpSimplify demoLib (fun n => n) 0 ⟨some (coordsOf [0, 3, 1, 7, 0])⟩ (maxOffset fun _ _ p => .fin p) none (.fin 2) (.fin 2)
      0 20 = .ok [0, 1, 3, 4] ∧
    dpSimplify demoLib (fun n => n) 0 ⟨some (coordsOf [0, 3, 1, 7, 0])⟩ (maxOffset fun _ _ p => .fin p) none (.fin 5) (.fin 5)
      0 20 = .ok [0, 3, 4] ∧ [0, 3, 4] ⊆ [0, 1, 3, 4] :=
  ⟨rfl, rfl, by decide⟩

/-- non-trivial case of C65: the second run on heights 0 3 7 0 keeps all four vertices -/
example : dpSimplify demoLib (fun n => n) 0 ⟨some (coordsOf [0, 3, 7, 0])⟩ (maxOffset fun _ _ p => .fin p) none (.fin 2) (.fin 2)
    0 8 = .ok [0, 1, 2, 3] :=
  C65_idempotent demoLib (fun n => n) (fun n => n) 0 0 [0, 3, 1, 7, 0] [0, 3, 7, 0] _ _ _ 0 0 (by decide) (by decide)
    (demo_hullOk _) 20 [0, 1, 3, 4] rfl rfl 8 (by decide)

end Verif
