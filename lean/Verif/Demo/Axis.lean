import Mathlib.Order.WithBot
import Verif.Demo.Env

/-!
Exact geometry on a line of integers, the concrete case beside the theorems about constrained simplification: every geometry occupies the interval of its
vertices, distances are gaps between intervals, the hull of a sub-line keeps all its vertices.  All assumptions used by the theorems about one polyline hold
for every list of integers.
-/

namespace Verif
namespace Axis

abbrev Bx := WithBot (WithTop Int)

def lo : List Int → Int
  | [] => 0
  | a :: l => l.foldl min a
def hi : List Int → Int
  | [] => 0
  | a :: l => l.foldl max a

/-- the interval of a geometry -/
def span : Geo Int Int → Int × Int
  | .point p => (p, p)
  | .ctx p => (p, p)
  | .line c => (lo c.points, hi c.points)
  | .poly c => (lo c.points, hi c.points)
  | .seg c => (lo ([c.points.head?, c.points.getLast?].filterMap id), hi ([c.points.head?, c.points.getLast?].filterMap id))

/-- the gap between two intervals -/
def gap (s t : Int × Int) : Int := max 0 (max (t.1 - s.2) (s.1 - t.2))

def below : Bx → Int → Int
  | some (some l), x => l - x
  | _, _ => 0
def above : Int → Bx → Int
  | x, some (some h) => x - h
  | _, _ => 0

/-- the gap between an interval and a box; an infinite side is at no distance -/
def boxGap (s : Int × Int) (b : Box Bx) : Int :=
  max 0 (max (below b.minX s.2) (above s.1 b.maxX))

def boxPt (x : Int) : Bx := ((x : WithTop Int) : WithBot (WithTop Int))

def lib : Lib Int Int Bx Int where
  convexHull c := c
  bounds g := ⟨boxPt (span g).1, boxPt 0, boxPt (span g).2, boxPt 0⟩
  intersects a b := decide (gap (span a) (span b) = 0)
  intersection a b := if gap (span a) (span b) = 0 then [max (span a).1 (span b).1] else []
  distance a b := .fin (gap (span a) (span b))
  boxDistance g b := .fin (boxGap (span g) b)
  ptInRing c p := decide (lo c.points < p ∧ p < hi c.points)
  equals2D a b := decide (a = b)
  ptDistance a b := .fin (max (a - b) (b - a))

def lnr : LnrLib Int Bx where
  sortV l := l.insertionSort (fun a b => a.pt ≤ b.pt)
  segBox a b := ⟨boxPt (min a b), boxPt 0, boxPt (max a b), boxPt 0⟩
  segSeg a b c d := if max (min a b) (min c d) ≤ min (max a b) (max c d) then [(max (min a b) (min c d), false, false)] else []
  segSearch data d := (List.range data.length).filter (fun o => match data[d]?, data[o]? with
    | some s, some t => s.box.intersects t.box
    | _, _ => false)


/-- polylines of integers; the distance of a vertex to the segment is the gap, `EpsilonDist` is 0 -/
def env (lines : Int → Demo.Line Int Int Int) : Env Int Int Bx Int :=
  Demo.env lib lnr (fun a b p => .fin (gap (p, p) (min a b, max a b))) (.fin 0) lines

/-! ### intervals -/

theorem foldl_min_le (l : List Int) : ∀ a, l.foldl min a ≤ a ∧ (∀ x ∈ l, l.foldl min a ≤ x) ∧ (l.foldl min a = a ∨ l.foldl min a ∈ l) := by
  induction l with
  | nil => simp
  | cons b l ih =>
    intro a
    obtain ⟨h1, h2, h3⟩ := ih (min a b)
    simp only [List.foldl_cons, List.mem_cons, forall_eq_or_imp]
    refine ⟨by omega, ⟨by omega, h2⟩, ?_⟩
    rcases h3 with h3 | h3
    · rw [h3]
      rcases Int.le_total a b with h | h
      · left; omega
      · right; left; omega
    · exact .inr (.inr h3)

theorem foldl_max_ge (l : List Int) : ∀ a, a ≤ l.foldl max a ∧ (∀ x ∈ l, x ≤ l.foldl max a) ∧ (l.foldl max a = a ∨ l.foldl max a ∈ l) := by
  induction l with
  | nil => simp
  | cons b l ih =>
    intro a
    obtain ⟨h1, h2, h3⟩ := ih (max a b)
    simp only [List.foldl_cons, List.mem_cons, forall_eq_or_imp]
    refine ⟨by omega, ⟨by omega, h2⟩, ?_⟩
    rcases h3 with h3 | h3
    · rw [h3]
      rcases Int.le_total b a with h | h
      · left; omega
      · right; left; omega
    · exact .inr (.inr h3)

theorem lo_le {l : List Int} {x : Int} (h : x ∈ l) : lo l ≤ x := by
  cases l with
  | nil => cases h
  | cons a l =>
    obtain ⟨h1, h2, -⟩ := foldl_min_le l a
    rcases List.mem_cons.1 h with rfl | h
    · exact h1
    · exact h2 x h

theorem le_hi {l : List Int} {x : Int} (h : x ∈ l) : x ≤ hi l := by
  cases l with
  | nil => cases h
  | cons a l =>
    obtain ⟨h1, h2, -⟩ := foldl_max_ge l a
    rcases List.mem_cons.1 h with rfl | h
    · exact h1
    · exact h2 x h

theorem lo_mem {l : List Int} (h : l ≠ []) : lo l ∈ l := by
  cases l with
  | nil => exact absurd rfl h
  | cons a l =>
    obtain ⟨-, -, h3⟩ := foldl_min_le l a
    exact List.mem_cons.2 h3

theorem hi_mem {l : List Int} (h : l ≠ []) : hi l ∈ l := by
  cases l with
  | nil => exact absurd rfl h
  | cons a l =>
    obtain ⟨-, -, h3⟩ := foldl_max_ge l a
    exact List.mem_cons.2 h3

theorem lo_le_hi (l : List Int) : lo l ≤ hi l := by
  cases l with
  | nil => exact Int.le_refl _
  | cons a l => exact Int.le_trans (lo_le (List.mem_cons_self)) (le_hi (List.mem_cons_self))

theorem span_le (g : Geo Int Int) : (span g).1 ≤ (span g).2 := by
  cases g <;> simp only [span] <;> first | exact Int.le_refl _ | exact lo_le_hi _

theorem gap_mono {s t g : Int × Int} (h1 : t.1 ≤ s.1) (h2 : s.2 ≤ t.2) : gap t g ≤ gap s g := by
  unfold gap; omega

theorem gap_zero {p : Int} {t : Int × Int} (h1 : t.1 ≤ p) (h2 : p ≤ t.2) : gap (p, p) t = 0 := by
  unfold gap; omega

theorem boxPt_le {a b : Int} : boxPt a ≤ boxPt b ↔ a ≤ b := by
  unfold boxPt; rw [WithBot.coe_le_coe, WithTop.coe_le_coe]

theorem boxPt_lt {a b : Int} : boxPt a < boxPt b ↔ a < b := by
  unfold boxPt; rw [WithBot.coe_lt_coe, WithTop.coe_lt_coe]

theorem boxGap_le {s : Int × Int} {g : Geo Int Int} {b : Box Bx} (h : lib.bounds g ≤ b) : boxGap s b ≤ gap s (span g) := by
  obtain ⟨h1, -, h2, -⟩ := h
  obtain ⟨x0, y0, x1, y1⟩ := b
  simp only [lib] at h1 h2
  have k1 : below x0 s.2 ≤ max 0 ((span g).1 - s.2) := by
    rcases x0 with _ | _ | l
    · simp [below]
    · simp [below]
    · have : l ≤ (span g).1 := boxPt_le.1 h1
      simp only [below]; omega
  have k2 : above s.1 x1 ≤ max 0 (s.1 - (span g).2) := by
    rcases x1 with _ | _ | l
    · simp [above]
    · simp [above]
    · have : (span g).2 ≤ l := boxPt_le.1 h2
      simp only [above]; omega
  simp only [boxGap, gap]
  omega

/-! ### the assumptions hold for all lines -/

section
variable {lines : Int → Demo.Line Int Int Int} {h : Int}

theorem env_ok : EnvOK (env lines) := by
  refine Demo.env_ok (fun p g => ?_)
  simp only [lib]
  split_ifs <;> simp

theorem lnr_sound : SortSound lib lnr := by
  refine SortSound.of_exact (fun p q => by simp [lib]) (fun l => List.perm_insertionSort _ l) (fun l => ?_)
  have : Std.Total (α := Vtx Int) (fun a b => a.pt ≤ b.pt) := ⟨fun a b => le_total a.pt b.pt⟩
  have : IsTrans (Vtx Int) (fun a b => a.pt ≤ b.pt) := ⟨fun a b c h1 h2 => le_trans (a := a.pt) h1 h2⟩
  exact List.pairwise_insertionSort _ l

theorem search_sound : SearchSound lnr := by
  intro data d o s hs
  simp only [lnr, hs, List.mem_filter, List.mem_range]
  constructor
  · rintro ⟨h1, h2⟩
    rw [List.getElem?_eq_getElem h1] at h2 ⊢
    exact ⟨_, rfl, h2⟩
  · rintro ⟨t, h1, h2⟩
    exact ⟨(List.getElem?_eq_some_iff.1 h1).1, by rw [h1]; exact h2⟩

theorem lnr_ok : LnrOK (env lines).lnr :=
  ⟨fun l => List.perm_insertionSort _ l, fun data d o ho => by
    simp only [env, Demo.env, lnr, List.mem_filter, List.mem_range] at ho; exact ho.1⟩

theorem hull_cases {c : Coords Int} (h : 2 ≤ c.len) : ∃ g : Geo Int Int, hullGeometry c = .ok g ∧ span g = (lo c.points, hi c.points) ∧ (g = .poly c ∨ g = .line c) := by
  unfold hullGeometry
  by_cases h3 : c.len > 2
  · exact ⟨.poly c, by simp [h3], rfl, .inl rfl⟩
  · exact ⟨.line c, by simp [show c.len = 2 by omega], rfl, .inr rfl⟩

theorem inst_ok (h2 : 2 ≤ (lines h).pts.length) (ht : (Fl.fin 0).le (lines h).opts.sqThreshold = true) : InstOK (env lines) h (lines h).pts := by
  refine Demo.inst_ok h2 (fun a b p => ?_) ht (fun i j h0 h1 h2 => ?_)
  · simp only [Fl.fin_le_fin, decide_eq_true_eq]; unfold gap; omega
  · obtain ⟨g, e, -⟩ := hull_cases (c := Coords.sub (lines h).pts i j) (by rw [Coords.len_sub _ _ _ (by omega)]; omega)
    refine ⟨g, e, boxPt_le.2 (span_le g), le_refl _⟩

theorem known_span {nd : Node Int Int Bx} (hk : Known (env lines) (fun k => (lines k).pts) [h] nd) :
    span nd.geom = (lo (between (lines h).pts nd.range.I nd.range.J), hi (between (lines h).pts nd.range.I nd.range.J)) ∧
      nd.mbr = lib.bounds nd.geom ∧ nd.coords.points = between (lines h).pts nd.range.I nd.range.J := by
  obtain ⟨h1, h2, h3, h4, h5⟩ := hk
  rw [List.mem_singleton] at h1
  rw [h1] at h2 h5
  obtain ⟨g, e, e2, -⟩ := hull_cases (c := Coords.sub (lines h).pts nd.range.I nd.range.J) (by rw [Coords.len_sub _ _ _ (by omega)]; omega)
  have hg : hullGeometry (Coords.sub (lines h).pts nd.range.I nd.range.J) = .ok nd.geom := h2.geom
  rw [e] at hg
  cases hg
  rw [e2, points_sub _ h3 (by omega) h5]
  exact ⟨rfl, h2.mbr, by rw [h2.coords]; exact points_sub _ h3 (by omega) h5⟩

theorem mem_between {ps : List Int} {i j : Int} (h0 : 0 ≤ i) {v : Nat} (h1 : i ≤ v) (h2 : v ≤ j) {x : Int} (hx : ps[v]? = some x) : x ∈ between ps i j := by
  rw [between, List.mem_iff_getElem?]
  refine ⟨v - i.toNat, ?_⟩
  rw [List.getElem?_take_of_lt (by omega), List.getElem?_drop, show i.toNat + (v - i.toNat) = v by omega, hx]

theorem hull_near : HullNear (env lines) Hdb.nearLe (fun k => (lines k).pts) h where
  heap := Hdb.listHeap_legal
  mono _ _ _ h1 h2 := Fl.le_trans h1 h2
  sort := lnr_sound
  search := search_sound
  box p nd hk b hb := by
    obtain ⟨h1, h2, -⟩ := known_span hk
    rw [h2] at hb
    show (Fl.fin (boxGap (p, p) b)).le (.fin (gap (p, p) (span nd.geom))) = true
    rw [Fl.fin_le_fin, decide_eq_true_eq]
    exact boxGap_le hb
  vertex nd hk v hv p q hq he := by
    obtain ⟨h1, -, -⟩ := known_span hk
    have he : p = q := by simpa [env, Demo.env, lib] using he
    subst he
    have := mem_between hk.lo (Int.le_of_lt hv.1) (Int.le_of_lt hv.2) hq
    refine found_exact ?_
    show (Fl.fin (gap (p, p) (span nd.geom))).le (.fin 0) = true
    rw [Fl.fin_le_fin, decide_eq_true_eq, h1, gap_zero (lo_le this) (le_hi this)]
  cross nd hk a b s t hs ht hab x hx := by
    obtain ⟨h1, -, -⟩ := known_span hk
    have hseg : ∀ (c : Nat) (u : Int × Int), seg (lines h).pts c = some u → nd.range.I ≤ c ∧ (c : Int) + 1 ≤ nd.range.J →
        u.1 ∈ between (lines h).pts nd.range.I nd.range.J ∧ u.2 ∈ between (lines h).pts nd.range.I nd.range.J := by
      intro c u hu hc
      unfold seg at hu
      split at hu
      · rename_i p q hp hq
        cases hu
        exact ⟨mem_between hk.lo hc.1 (by omega) hp, mem_between hk.lo (by push_cast; omega) (by push_cast; omega) hq⟩
      · cases hu
    have hx : x ∈ (if max (min s.1 s.2) (min t.1 t.2) ≤ min (max s.1 s.2) (max t.1 t.2) then [(max (min s.1 s.2) (min t.1 t.2), false, false)] else []) := hx
    split_ifs at hx with hc
    · rw [List.mem_singleton] at hx
      subst hx
      refine found_exact ?_
      show (Fl.fin (gap (_, _) (span nd.geom))).le (.fin 0) = true
      rw [Fl.fin_le_fin, decide_eq_true_eq, h1, gap_zero]
      · rcases hab with hab | hab
        · obtain ⟨k1, k2⟩ := hseg a s hs hab
          have := lo_le k1; have := lo_le k2; dsimp only; omega
        · obtain ⟨k1, k2⟩ := hseg b t ht hab
          have := lo_le k1; have := lo_le k2; dsimp only; omega
      · rcases hab with hab | hab
        · obtain ⟨k1, k2⟩ := hseg a s hs hab
          have := le_hi k1; have := le_hi k2; dsimp only; omega
        · obtain ⟨k1, k2⟩ := hseg b t ht hab
          have := le_hi k1; have := le_hi k2; dsimp only; omega
    · cases hx

theorem box_sound : BoxSound lib := by
  intro a b hab
  have hab : gap (span a) (span b) = 0 := by simpa [lib] using hab
  have h1 : (span b).1 ≤ (span a).2 := by unfold gap at hab; omega
  have h2 : (span a).1 ≤ (span b).2 := by unfold gap at hab; omega
  simp only [Box.intersects, lib, gt_iff_lt, boxPt_lt, Bool.not_eq_true', Bool.or_eq_false_iff, decide_eq_false_iff_not]
  omega

theorem lo_anti {l l' : List Int} (hne : l ≠ []) (hs : ∀ x ∈ l, x ∈ l') : lo l' ≤ lo l := lo_le (hs _ (lo_mem hne))
theorem hi_mono {l l' : List Int} (hne : l ≠ []) (hs : ∀ x ∈ l, x ∈ l') : hi l ≤ hi l' := le_hi (hs _ (hi_mem hne))

theorem ctx_sound (hm : (Fl.fin 0).le (lines h).opts.minDist = true) : CtxSound (env lines) Hdb.nearLe (fun k => (lines k).pts) h where
  heap := Hdb.listHeap_legal
  mono _ _ _ h1 h2 := Fl.le_trans h1 h2
  passed d x h1 h2 := by
    cases h3 : x.le (.fin 0) with
    | false => rfl
    | true => exact absurd (h2.symm.trans (Fl.le_trans h1 (Fl.le_trans h3 hm))) (by decide)
  refl p := by simp [env, Demo.env, lib]
  boxes := box_sound
  minDist := hm
  bound nd hk := by
    intro c hc b hb
    have hc := (Demo.ctxdb_spec lib h (lines h).ctx).2.mem_iff.1 hc
    obtain ⟨g, -, rfl⟩ := List.mem_map.1 hc
    show (Fl.fin (boxGap (span nd.geom) b)).le (.fin (gap (span nd.geom) (span (.ctx g)))) = true
    rw [Fl.fin_le_fin, decide_eq_true_eq]
    exact boxGap_le hb
  hull nd hk := by
    obtain ⟨h1, -, h3⟩ := known_span hk
    have hne : between (lines h).pts nd.range.I nd.range.J ≠ [] := by
      have := hk.lo; have := hk.lt; have := hk.hi
      have hins : nd.inst = h := by have := hk.inst; rwa [List.mem_singleton] at this
      rw [hins] at this
      rw [← List.length_pos_iff, between, List.length_take, List.length_drop]; omega
    have key : ∀ (x g : Geo Int Int) (l : List Int), span x = (lo l, hi l) → l ≠ [] → (∀ y ∈ l, y ∈ between (lines h).pts nd.range.I nd.range.J) →
        (Fl.fin (gap (span nd.geom) (span g))).le (.fin (gap (span x) (span g))) = true := by
      intro x g l hx hl hs
      rw [Fl.fin_le_fin, decide_eq_true_eq, h1, hx]
      exact gap_mono (lo_anti hl hs) (hi_mono hl hs)
    refine ⟨fun g _ => ?_, fun g _ => ?_, fun g _ x hx y hy z hz => ?_, fun g _ x hx => ?_⟩
    · refine key (.seg nd.coords) g _ rfl ?_ ?_
      · rw [h3]
        cases hb : between (lines h).pts nd.range.I nd.range.J with
        | nil => exact absurd hb hne
        | cons a l => simp
      · intro y hy
        rw [h3, List.mem_filterMap] at hy
        obtain ⟨o, ho, hy⟩ := hy
        simp only [List.mem_cons, List.not_mem_nil, or_false] at ho
        rcases ho with rfl | rfl
        · exact List.mem_of_mem_head? hy
        · exact List.mem_of_getLast? hy
    · exact key (.line nd.coords) g nd.coords.points rfl (by rw [h3]; exact hne) (by rw [h3]; exact fun y hy => hy)
    · refine key (Homotopy.triangle x y z) g [x, y, z, x] rfl (by simp) ?_
      intro w hw
      simp only [List.mem_cons, List.not_mem_nil, or_false] at hw
      rcases hw with rfl | rfl | rfl | rfl <;> assumption
    · show (Fl.fin (gap (span x) (span g))).le (.fin 0) = true
      have : gap (span x) (span g) = 0 := by simpa [env, Demo.env, lib] using hx
      rw [Fl.fin_le_fin, decide_eq_true_eq, this]

end

/-! ### concrete runs -/

def opts (t m : Int) : Opts Int :=
  { threshold := .fin t, sqThreshold := .fin t, minDist := .fin m, nonPlanarDisplacement := .fin 1, planarSelf := true, nonPlanarSelf := true,
    avoidNewSelfIntersects := true, geomRelation := true, distRelation := true, dirRelation := true }

/-- a line running to and fro over the constraint points 12 and 40 -/
def line : Demo.Line Int Int Int := ⟨[0, 10, 4, 20, 4, 30], [12, 40], opts 3 2⟩

/-- ranges of the pieces and kept indices -/
def result (r : Res (Out Int Int Bx × (Int → Bool))) : List (Int × Int) × List Int := match r with
  | .ok (o, _) => (o.hulls.map (fun n => (n.range.I, n.range.J)), o.simple)
  | _ => ([], [])

/-- a line of 13 vertices with a fixed vertex 7: three pieces -/
def long : Demo.Line Int Int Int := ⟨[0, 5, 2, 7, 6, 20, 21, 22, 23, 24, 18, 30, 29], [12, 40], { opts 30 2 with nonPlanarSelf := false }⟩

def run (l : Demo.Line Int Int Int) (cv : List Int) : Res (Out Int Int Bx × (Int → Bool)) :=
  simplify (env (fun _ => l)) (fun n => n) 0 cv (fun _ => false) 60

example : result (run line []) = ([(0, 1), (1, 2), (2, 3), (3, 4), (4, 5)], [0, 1, 2, 3, 4, 5]) := by decide +kernel
example : result (run long [7]) = ([(7, 10), (10, 12), (0, 7)], [0, 7, 10, 12]) := by decide +kernel

/-- the concrete case beside C09, C10, C12, C30 and C48: the run above meets all their hypotheses -/
theorem long_case : ∃ out d, run long [7] = .ok (out, d) ∧ out.simple = [0, 7, 10, 12] ∧ KeptIndices 13 out.simple ∧ 7 ∈ out.simple ∧
    (∀ nd ∈ out.hulls, nd.range.J = nd.range.I + 1 ∨ nd.coords.len = 2 ∨
      Respects lib Hdb.nearLe long.opts ((Hdb.contents (Demo.ctxdb lib 0 long.ctx)).map Node.geom) nd.coords (between long.pts nd.range.I nd.range.J)) ∧
    ∀ nd ∈ out.hulls, nd.coords.len = nd.range.J - nd.range.I + 1 := by
  have he : EnvOK (env (fun _ => long)) := env_ok
  have hi : InstOK (env (fun _ => long)) 0 long.pts := inst_ok (lines := fun _ => long) (by decide) (by decide)
  have hinj : Function.Injective (fun n : Nat => (n : Int)) := fun a b h => by simpa using h
  have hcv : ∀ i ∈ [(7 : Int)], 0 ≤ i ∧ i < long.pts.length := by decide
  have hr : (match run long [7] with | .ok (o, _) => o.simple | _ => []) = [0, 7, 10, 12] := by decide +kernel
  cases e : run long [7] with
  | ok r =>
    obtain ⟨out, d⟩ := r
    rw [e] at hr
    have hr : out.simple = [0, 7, 10, 12] := hr
    refine ⟨out, d, rfl, hr, C09_subsequence (pts := fun _ => long.pts) he lnr_ok hi hinj hcv e,
      (C12_survive (pts := fun _ => long.pts) he lnr_ok hi hinj hcv hull_near rfl e).1 7 (by simp),
      C30_context_partial (pts := fun _ => long.pts) he lnr_ok hi hinj hcv (ctx_sound (by decide)) e, fun nd hnd => ?_⟩
    exact (C48_coords (pts := fun _ => long.pts) he lnr_ok hi hinj hcv e nd hnd).len
  | panic => rw [e] at hr; cases hr
  | timeout => rw [e] at hr; cases hr

/-- the constraint index of the case is not empty -/
example : ((Hdb.contents (Demo.ctxdb lib 0 long.ctx)).map Node.geom) = [.ctx 12, .ctx 40] := by decide +kernel

end Axis
end Verif
