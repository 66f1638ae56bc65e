import Verif.Demo.Plane
import Verif.Lemmas.Wanted

/-! C51, C56, C57: contiguity of pieces and the search for conflicting pieces. -/

set_option linter.unusedSectionVars false

namespace Verif

section
variable {P C B K : Type}

/-- Specification: the two segments have a common end point. -/
def ShareEnd (eq : P → P → Bool) (ai aj bi bj : P) : Prop := eq aj bi = true ∨ eq aj bj = true ∨ eq ai bj = true ∨ eq ai bi = true

theorem contigLoop_iff (lib : Lib P C B K) (ai aj bi bj : P) (l : List P) :
    Node.contigLoop lib ai aj bi bj l = true ↔ ShareEnd lib.equals2D ai aj bi bj ∧
      ∃ p ∈ l, lib.equals2D p ai = true ∨ lib.equals2D p aj = true ∨ lib.equals2D p bi = true ∨ lib.equals2D p bj = true := by
  induction l with
  | nil => simp [Node.contigLoop]
  | cons p l ih =>
    simp only [Node.contigLoop, List.mem_cons, exists_eq_or_imp]
    split_ifs with h
    · simp only [Bool.and_eq_true, Bool.or_eq_true, true_iff] at h ⊢
      unfold ShareEnd
      grind
    · rw [ih]
      simp only [Bool.and_eq_true, Bool.or_eq_true, not_and, not_or] at h
      unfold ShareEnd
      grind

/-- C56.  Two pieces are contiguous exactly when their hulls intersect, their segments have a common end point, and some intersection point is an end point of
one of the segments; the counts are those of the intersection. -/
theorem C56_contiguous {lib : Lib P C B K} {a b : Node P C B} {ai aj bi bj : P} (ha : a.segmentPoints = .ok (ai, aj)) (hb : b.segmentPoints = .ok (bi, bj)) :
    ∃ inters contig n, Node.isContiguous lib a b = .ok (inters, contig, n) ∧ inters = lib.intersects a.geom b.geom ∧
      n = (if lib.intersects a.geom b.geom then (lib.intersection a.geom b.geom).length else 0) ∧
      (contig = true ↔ lib.intersects a.geom b.geom = true ∧ ShareEnd lib.equals2D ai aj bi bj ∧
        ∃ p ∈ lib.intersection a.geom b.geom, lib.equals2D p ai = true ∨ lib.equals2D p aj = true ∨ lib.equals2D p bi = true ∨ lib.equals2D p bj = true) := by
  unfold Node.isContiguous
  by_cases h : lib.intersects a.geom b.geom = true
  · simp only [h, if_true, ha, hb, Res.ok_bind, Res.pure_eq, true_and]
    exact ⟨true, _, _, rfl, rfl, rfl, contigLoop_iff lib ai aj bi bj _⟩
  · simp only [h, Res.pure_eq]
    exact ⟨false, false, 0, rfl, by simp, rfl, by simp⟩

/-- C56, symmetry: with symmetric predicates the answer does not depend on the order of the pieces. -/
theorem C56_symmetric {lib : Lib P C B K} {a b : Node P C B} (heq : ∀ p q, lib.equals2D p q = lib.equals2D q p)
    (hint : ∀ x y : Geo P C, lib.intersects x y = lib.intersects y x) (hpts : ∀ x y : Geo P C, (lib.intersection x y).Perm (lib.intersection y x))
    {sa sb : P × P} (ha : a.segmentPoints = .ok sa) (hb : b.segmentPoints = .ok sb) : Node.isContiguous lib a b = Node.isContiguous lib b a := by
  obtain ⟨i1, c1, n1, e1, h1, h2, h3⟩ := C56_contiguous (lib := lib) ha hb
  obtain ⟨i2, c2, n2, e2, k1, k2, k3⟩ := C56_contiguous (lib := lib) hb ha
  rw [e1, e2]
  have hc : c1 = c2 := by
    rw [Bool.eq_iff_iff, h3, k3, hint b.geom a.geom]
    have hm : ∀ p, p ∈ lib.intersection b.geom a.geom ↔ p ∈ lib.intersection a.geom b.geom := fun p => (hpts _ _).mem_iff
    have hs : ShareEnd lib.equals2D sa.1 sa.2 sb.1 sb.2 ↔ ShareEnd lib.equals2D sb.1 sb.2 sa.1 sa.2 := by
      unfold ShareEnd
      rw [heq sb.2 sa.1, heq sb.2 sa.2, heq sb.1 sa.2, heq sb.1 sa.1]
      grind
    rw [hs]
    simp only [hm]
    grind
  rw [h1, k1, h2, k2, hc, hint b.geom a.geom, (hpts b.geom a.geom).length_eq]

/-- C57: single segments and pieces with a two-cornered hull can always collapse -/
theorem C57_segments {lib : Lib P C B K} {a b : Node P C B} (h : a.range.size = 1 ∨ a.geom.isLineString = true) : a.collapsible lib b = .ok true := by
  unfold Node.collapsible
  rcases h with h | h
  · simp [h]
  · split_ifs <;> rfl

/-- C57: a piece is unable to collapse exactly when it is a polygon with more than two vertices, one end of the other piece is an end of it, and the other end of
the other piece is strictly inside its hull. -/
theorem C57_blocked {lib : Lib P C B K} {a b : Node P C B} {ai aj bi bj : P} (ha : a.segmentPoints = .ok (ai, aj)) (hb : b.segmentPoints = .ok (bi, bj)) :
    a.collapsible lib b = .ok false ↔ a.range.size ≠ 1 ∧ ∃ shell, a.geom = .poly shell ∧
      ∃ c far, (c = bi ∧ (lib.equals2D ai c = true ∨ lib.equals2D aj c = true) ∨
          c = bj ∧ ¬ (lib.equals2D ai bi = true ∨ lib.equals2D aj bi = true) ∧ (lib.equals2D ai c = true ∨ lib.equals2D aj c = true)) ∧
        far = (if lib.equals2D c bj then bi else bj) ∧ lib.ptInRing shell far = true := by
  unfold Node.collapsible
  by_cases h1 : a.range.size = 1
  · simp [h1]
  by_cases h2 : a.geom.isLineString = true
  · simp only [h1, if_false, h2, if_true, Res.pure_eq, Res.ok.injEq, Bool.true_eq_false, false_iff, not_and, not_exists]
    intro _ sh hg
    rw [hg] at h2; cases h2
  simp only [h1, if_false, h2, Bool.false_eq_true, ha, hb, Res.ok_bind, ne_eq, not_false_eq_true, true_and]
  by_cases c1 : (lib.equals2D ai bi || lib.equals2D aj bi) = true
  · have c1' : lib.equals2D ai bi = true ∨ lib.equals2D aj bi = true := by simpa using c1
    simp only [c1, if_true]
    cases hg : a.geom with
    | poly sh =>
      simp only [Res.pure_eq, Res.ok.injEq, Geo.poly.injEq, exists_eq_left', Bool.not_eq_false']
      constructor
      · intro h; exact ⟨bi, _, .inl ⟨rfl, c1'⟩, rfl, h⟩
      · rintro ⟨c, far, ⟨rfl, -⟩ | ⟨-, h, -⟩, rfl, h'⟩
        · exact h'
        · exact absurd c1' h
    | point _ => simp
    | line _ => simp
    | seg _ => simp
    | ctx _ => simp
  · have c1' : ¬ (lib.equals2D ai bi = true ∨ lib.equals2D aj bi = true) := by simpa using c1
    simp only [c1, Bool.false_eq_true, if_false]
    by_cases c2 : (lib.equals2D ai bj || lib.equals2D aj bj) = true
    · have c2' : lib.equals2D ai bj = true ∨ lib.equals2D aj bj = true := by simpa using c2
      simp only [c2, if_true]
      cases hg : a.geom with
      | poly sh =>
        simp only [Res.pure_eq, Res.ok.injEq, Geo.poly.injEq, exists_eq_left', Bool.not_eq_false']
        constructor
        · intro h; exact ⟨bj, _, .inr ⟨rfl, c1', c2'⟩, rfl, h⟩
        · rintro ⟨c, far, ⟨rfl, h⟩ | ⟨rfl, -⟩, rfl, h'⟩
          · exact absurd h c1'
          · exact h'
      | point _ => simp
      | line _ => simp
      | seg _ => simp
      | ctx _ => simp
    · have c2' : ¬ (lib.equals2D ai bj = true ∨ lib.equals2D aj bj = true) := by simpa using c2
      simp only [c2, Bool.false_eq_true, if_false, Res.pure_eq, Res.ok.injEq, Bool.true_eq_false, false_iff, not_exists, not_and]
      rintro sh - c far h
      rcases h with ⟨rfl, h⟩ | ⟨rfl, -, h⟩
      · exact absurd h c1'
      · exact absurd h c2'

/-- C57: which of two contiguous pieces is selected -/
theorem C57_contiguous {lib : Lib P C B K} {a b : Node P C B} {s : Option (Node P C B) × Option (Node P C B)} (h : contiguousCandidates lib a b = .ok s) :
    (s.1 = some a ∧ a.collapsible lib b = .ok false ∨ s.1 = none ∧ a.collapsible lib b = .ok true) ∧
    (s.2 = some b ∧ b.collapsible lib a = .ok false ∨ s.2 = none ∧ b.collapsible lib a = .ok true) := by
  unfold contiguousCandidates at h
  obtain ⟨ca, h1, h⟩ := Res.bind_eq_ok.1 h
  obtain ⟨cb, h2, h⟩ := Res.bind_eq_ok.1 h
  cases h
  cases ca <;> cases cb <;> simp [h1, h2]

/-- Specification: the segments of `a` and `b` meet, the segment of `a` meets the part of the line replaced by the segment of `b`, and the replaced parts do
not meet. -/
def NewCrossing (lib : Lib P C B K) (a b : Node P C B) : Prop :=
  lib.intersects a.segment b.segment = true ∧ lib.intersects a.segment b.polyline = true ∧ lib.intersects a.polyline b.polyline = false

/-- Specification: the replaced parts meet, and their segments do not meet or meet farther than `d` from where the parts meet. -/
def Moved [LinearOrder K] (lib : Lib P C B K) (d : Fl K) (a b : Node P C B) : Prop :=
  lib.intersects a.polyline b.polyline = true ∧
    (lib.intersection a.segment b.segment = [] ∧ lib.intersection a.polyline b.polyline ≠ [] ∨
      ∃ p ∈ lib.intersection a.polyline b.polyline, ∃ q ∈ lib.intersection a.segment b.segment, (lib.ptDistance p q).gt d = true)

/-- C57: which of two pieces that are not contiguous is selected.  Both if a meeting of the replaced parts is lost or moved; otherwise the first one if its
segment makes a new crossing with the second; otherwise the second one if its segment makes a new crossing with the first; otherwise none. -/
theorem C57_noncontiguous [LinearOrder K] {lib : Lib P C B K} {a b : Node P C B}
    (hs : lib.intersects b.segment a.segment = lib.intersects a.segment b.segment)
    (hl : lib.intersects b.polyline a.polyline = lib.intersects a.polyline b.polyline) (d : Fl K) :
    (Moved lib d a b → nonContiguousCandidates lib d a b = (some a, some b)) ∧
    (NewCrossing lib a b → nonContiguousCandidates lib d a b = (some a, none)) ∧
    (¬ NewCrossing lib a b → NewCrossing lib b a → nonContiguousCandidates lib d a b = (none, some b)) ∧
    (¬ Moved lib d a b → ¬ NewCrossing lib a b → ¬ NewCrossing lib b a → nonContiguousCandidates lib d a b = (none, none)) := by
  unfold Moved NewCrossing nonContiguousCandidates
  rw [hs, hl]
  simp only [← List.length_pos_iff_ne_nil, ← List.length_eq_zero_iff]
  cases lib.intersects a.segment b.segment <;> cases lib.intersects a.segment b.polyline <;> cases lib.intersects b.segment a.polyline <;>
    cases lib.intersects a.polyline b.polyline <;> simp <;> grind

end

section
variable {P C B K : Type} [LinearOrder B] [BoundedOrder B] [LinearOrder K]
variable {env : Env P C B K} {pts : Int → List P} {hs : List Int}

/-- C57: the conflict searches select only the piece itself and stored pieces whose box meets its box and whose hull is within `EpsilonDist` -/
theorem C57_only_neighbours (he : EnvOK env) (d : Fl K) {db : Db P C B} (hd : DbOK db) (hp : ∀ x ∈ Hdb.contents db, Known env pts hs x ∧ x.mbr.Valid)
    {hull : Node P C B} (hk : Known env pts hs hull) (dirty : Int → Bool) :
    ∃ s t, Yields (select env d db hull) s ∧ Yields (selectFeatureClass env dirty d db hull) t ∧ ∀ x, x ∈ s ∨ x ∈ t → x = hull ∨
      x ∈ Hdb.contents db ∧ x.id ≠ hull.id ∧ hull.mbr.intersects x.mbr = true ∧ (env.lib.distance x.geom hull.geom).le env.eps = true := by
  obtain ⟨ns, ⟨N, hN⟩, p⟩ := neighboursOf_yields (env := env) hd (fun x hx => (hp x hx).2) hull
  have hns : ∀ x ∈ ns, x ∈ Hdb.contents db ∧ x.id ≠ hull.id ∧ hull.mbr.intersects x.mbr = true ∧ (env.lib.distance x.geom hull.geom).le env.eps = true := by
    intro x hx
    have := List.mem_filter.1 (p.mem_iff.1 hx)
    exact ⟨this.1, by simpa using this.2⟩
  have hopt : ∀ x ∈ optimizeNeighbours env dirty hull ns, x ∈ ns := by
    intro x hx
    unfold optimizeNeighbours at hx
    split_ifs at hx
    · exact hx
    · exact (List.mem_filter.1 hx).1
  obtain ⟨s, e1, h1⟩ := selectLoop_ok he (d := d) hk ns [] (fun n hn => (hp n (hns n hn).1).1)
  obtain ⟨t, e2, h2⟩ := selectFCLoop_ok he (d := d) hk (optimizeNeighbours env dirty hull ns) [] (fun n hn => (hp n (hns n (hopt n hn)).1).1)
  refine ⟨s, t, ⟨N, fun fuel hf => by simp only [select, hN fuel hf, Res.ok_bind, e1]⟩,
    ⟨N, fun fuel hf => by simp only [selectFeatureClass, hN fuel hf, Res.ok_bind, e2]⟩, fun x hx => ?_⟩
  rcases hx with hx | hx
  · rcases h1 x hx with h | h | h
    · cases h
    · exact .inl h
    · exact .inr (hns x h)
  · rcases h2 x hx with h | h | h
    · cases h
    · exact .inl h
    · exact .inr (hns x (hopt x h))

/-! ### C51 -/

/-- C51, the part that holds: a piece whose deformation is asked for on account of a neighbour (of another feature, if the feature of the piece has not been
refined) is selected if no other piece whose deformation is asked for has the same index range.
Missing for the full statement: pieces of different features with equal index ranges, `C51_refuted`. -/
theorem C51_selected_partial {dirty : Int → Bool} {d : Fl K} {db : Db P C B} {hull : Node P C B} {fuel : Nat} {ns out : List (Node P C B)}
    (hn : neighboursOf env db hull fuel = .ok ns) (ho : selectFeatureClass env dirty d db hull fuel = .ok out) {x n : Node P C B}
    (hm : n ∈ ns) (hq : dirty hull.inst = true ∨ (env.inst n.inst).id ≠ (env.inst hull.inst).id) (hx : Wanted env d hull n x)
    (hu : ∀ m ∈ ns, ∀ y, Wanted env d hull m y → y.range = x.range → y = x) : x ∈ out := by
  simp only [selectFeatureClass, hn, Res.ok_bind] at ho
  refine selectFCLoop_complete _ _ _ ho x (.inr ⟨n, ?_, hx⟩) (fun m hm => hu m ?_)
  · unfold optimizeNeighbours
    split_ifs with h
    · exact hm
    · exact List.mem_filter.2 ⟨hm, by simpa using Ne.symm (hq.resolve_left h)⟩
  · unfold optimizeNeighbours at hm
    split_ifs at hm
    · exact hm
    · exact (List.mem_filter.1 hm).1

end

/-! ### concrete cases -/

namespace Plane

/-- features 1, 2 and 3: an arch, and two detours round its ends whose chords cross it -/
def archLines : Int → Demo.Line Pt (List Pt) ℚ := fun h =>
  if h = 1 then ⟨[(0, 0), (1, 1/2), (2, 0)], [], { opts 10 0 with avoidNewSelfIntersects := true }⟩
  else if h = 2 then ⟨[(1, -1), (5, 0), (1, 3)], [], { opts 10 0 with avoidNewSelfIntersects := true }⟩
  else ⟨[(1/2, -2), (-5, 0), (1/2, 4)], [], { opts 10 0 with avoidNewSelfIntersects := true }⟩

abbrev archEnv : Env Pt (List Pt) Bx ℚ := Plane.env archLines

/-- the whole feature `h` as one piece -/
def arch (h : Int) : Node Pt (List Pt) Bx :=
  match createNode archEnv.lib h (Coords.sub (archLines h).pts 0 2) ⟨0, 2⟩ h with
  | .ok nd => nd
  | _ => { id := h, coords := ⟨[], []⟩, range := ⟨0, 2⟩, mbr := ⟨⊥, ⊥, ⊤, ⊤⟩, geom := .ctx [], inst := h }

local instance : DecidableEq (Node Pt (List Pt) Bx) := fun a b => instDecidableEqNode a b
local instance : DecidableEq (Option (Node Pt (List Pt) Bx) × Option (Node Pt (List Pt) Bx)) := @instDecidableEqProd _ _ Option.instDecidableEq Option.instDecidableEq

def archDb : Db Pt (List Pt) Bx :=
  match Hdb.load nodeOps archEnv.heur (Hdb.newHdb Hdb.defaultCap) [arch 1, arch 2, arch 3] 10 with
  | .ok t => t
  | _ => Hdb.newHdb Hdb.defaultCap

/-- C51 refuted.  Features 2 and 3 both have to be deformed on account of feature 1, but both pieces have the range `0..2`, and only one of them is returned. -/
theorem _root_.Verif.C51_refuted : ∃ ns out, neighboursOf archEnv archDb (arch 1) 10 = .ok ns ∧ arch 2 ∈ ns ∧ arch 3 ∈ ns ∧
    Wanted archEnv (.fin 1) (arch 1) (arch 2) (arch 2) ∧ Wanted archEnv (.fin 1) (arch 1) (arch 3) (arch 3) ∧
    selectFeatureClass archEnv (fun _ => true) (.fin 1) archDb (arch 1) 10 = .ok out ∧ arch 3 ∈ out ∧ arch 2 ∉ out := by
  refine ⟨[arch 2, arch 3], [arch 3], by decide +kernel, by decide +kernel, by decide +kernel, ?_, ?_, by decide +kernel, by decide +kernel, by decide +kernel⟩
  · exact ⟨(true, false, 3), (none, some (arch 2)), by decide +kernel, by decide +kernel, .inr rfl⟩
  · exact ⟨(true, false, 3), (none, some (arch 3)), by decide +kernel, by decide +kernel, .inr rfl⟩

/-- feature 1 asks for both its neighbours, and the hypotheses of `C51_selected_partial` hold if feature 3 has a range of its own -/
example : Node.isContiguous archEnv.lib (arch 1) (arch 2) = .ok (true, false, 3) ∧ (arch 1).collapsible archEnv.lib (arch 2) = .ok true := by decide +kernel

/-- the arch is not crossed by the segments of the detours' original lines, but the segment of the first detour crosses the arch -/
example : nonContiguousCandidates archEnv.lib (.fin 1) (arch 1) (arch 2) = (none, some (arch 2)) := by
  refine (C57_noncontiguous (by decide +kernel) (by decide +kernel) _).2.2.1 ?_ ?_
  · rintro ⟨-, h, -⟩; revert h; decide +kernel
  · exact ⟨by decide +kernel, by decide +kernel, by decide +kernel⟩

/-- a piece of one feature and a hook going into its hull: contiguous, and the first piece is blocked -/
def hookLines : Int → Demo.Line Pt (List Pt) ℚ := fun _ => ⟨[(0, 0), (2, 4), (4, 0), (2, 1)], [], { opts 10 0 with avoidNewSelfIntersects := true }⟩

example : (match createNode Plane.lib 0 (Coords.sub (hookLines 1).pts 0 2) ⟨0, 2⟩ 1, createNode Plane.lib 1 (Coords.sub (hookLines 1).pts 2 3) ⟨2, 3⟩ 1 with
    | .ok a, .ok b => decide (Node.isContiguous Plane.lib a b = .ok (true, true, 2)) && decide (a.collapsible Plane.lib b = .ok false) &&
        decide (b.collapsible Plane.lib a = .ok true) && decide (contiguousCandidates Plane.lib a b = .ok (some a, none))
    | _, _ => false) = true := by decide +kernel

end Plane

end Verif
