import Verif.Demo.Axis

/-!
The geometry of Demo/Axis with a priority queue that compares distances like the code, with a tolerance (of one unit).
-/

namespace Verif
namespace Axis

/-- hdb/kobj.go:27-37 `kobjCmp` with a tolerance of one unit: `y` is compared as less than `x` -/
def tolLess : Fl Int → Fl Int → Bool
  | .fin y, .fin x => decide (y + 1 < x)
  | y, x => y.lt x

/-- `a` may be handed out before `b` -/
def tolNear (a b : Fl Int) : Prop := a ≠ .nan ∧ tolLess b a = false

/-- take out the first entry that satisfies `f` -/
def takeFirst {O : Type} (f : O → Bool) : List O → Option (O × List O)
  | [] => none
  | a :: l => if f a then some (a, l) else (takeFirst f l).map (fun x => (x.1, a :: x.2))

theorem takeFirst_spec {O : Type} (f : O → Bool) : ∀ {l : List O} {x : O} {r : List O}, takeFirst f l = some (x, r) → f x = true ∧ l.Perm (x :: r) := by
  intro l
  induction l with
  | nil => intro x r e; cases e
  | cons a l ih =>
    intro x r e
    rw [takeFirst] at e
    split at e
    · cases e; exact ⟨by assumption, List.Perm.refl _⟩
    · obtain ⟨⟨y, q⟩, h1, h2⟩ := Option.map_eq_some_iff.1 e
      cases h2
      obtain ⟨h3, h4⟩ := ih h1
      exact ⟨h3, (h4.cons a).trans (List.Perm.swap _ _ _)⟩

theorem takeFirst_none {O : Type} (f : O → Bool) {l : List O} (e : takeFirst f l = none) : ∀ x ∈ l, f x = false := by
  induction l with
  | nil => intro x hx; cases hx
  | cons a l ih =>
    rw [takeFirst] at e
    split at e
    · cases e
    · intro x hx
      rcases List.mem_cons.1 hx with rfl | hx
      · cases hx' : f x with
        | false => rfl
        | true => exact absurd hx' ‹¬ f x = true›
      · exact ih (by simpa using e) x hx

/-- a queue that compares like the code, first come first served among entries compared as equal -/
def tolHeap {T B : Type} : Hdb.Heap (Hdb.KObj T B Int) :=
  ⟨fun q o => q ++ [o], fun q => match takeFirst (fun x => q.all (fun y => !tolLess y.dist x.dist)) q with
    | some x => some x
    | none => match q with
      | [] => none
      | a :: l => some (a, l)⟩

theorem tolHeap_legal {T B : Type} [LinearOrder B] [BoundedOrder B] : (tolHeap : Hdb.Heap (Hdb.KObj T B Int)).Legal tolNear where
  push q o := List.perm_append_singleton o q
  pop_none q e := by
    simp only [tolHeap] at e
    split at e
    · cases e
    · cases q with
      | nil => rfl
      | cons a l => cases e
  pop_perm q x r e := by
    simp only [tolHeap] at e
    split at e
    · rename_i h; cases e; exact (takeFirst_spec _ h).2
    · cases q with
      | nil => cases e
      | cons a l => cases e; exact List.Perm.refl _
  pop_min q x r e hn y hy := by
    simp only [tolHeap] at e
    split at e
    · rename_i h
      cases e
      obtain ⟨h1, h2⟩ := takeFirst_spec _ h
      rw [List.all_eq_true] at h1
      exact ⟨hn x (h2.mem_iff.2 List.mem_cons_self), by simpa using h1 y (h2.mem_iff.2 (List.mem_cons_of_mem _ hy))⟩
    · rename_i h
      exfalso
      cases hm : Hdb.popMin q with
      | none =>
        rw [Hdb.popMin_none hm] at e
        cases e
      | some m =>
        obtain ⟨m, r'⟩ := m
        have hp := Hdb.popMin_perm hm
        have hmin := Hdb.popMin_min hm hn
        have := takeFirst_none _ h m (hp.mem_iff.2 List.mem_cons_self)
        rw [List.all_eq_false] at this
        obtain ⟨z, hz, hl⟩ := this
        have hl : tolLess z.dist m.dist = true := by simpa using hl
        have hle : z.dist = m.dist ∨ m.dist.le z.dist = true := by
          rcases List.mem_cons.1 (hp.mem_iff.1 hz) with rfl | hz
          · exact .inl rfl
          · exact .inr (hmin z hz)
        revert hl hle
        cases z.dist <;> cases m.dist <;> simp [tolLess, Fl.le, Fl.lt] <;> omega

theorem tolMono : ∀ a b c : Fl Int, tolNear a b → b.le c = true → tolNear a c := by
  intro a b c
  cases a <;> cases b <;> cases c <;> simp [tolNear, tolLess, Fl.le, Fl.lt] <;> omega

/-- something at distance 0 is not passed over in a search up to 1 -/
theorem found_tol {x : Fl Int} (hx : x.le (.fin 0) = true) : Found tolNear (.fin 1) x := by
  revert hx
  cases x with
  | fin a =>
    intro hx
    rw [Fl.fin_le_fin, decide_eq_true_eq] at hx
    refine ⟨by rw [Fl.fin_le_fin, decide_eq_true_eq]; omega, fun d => ?_⟩
    cases d <;> simp [tolNear, tolLess, Fl.le, Fl.lt] <;> omega
  | ninf =>
    intro _
    refine ⟨rfl, fun d => ?_⟩
    cases d <;> simp [tolNear, tolLess, Fl.le, Fl.lt]
  | _ => intro hx; cases hx

/-- the geometry with this queue; the searches for the pieces around a vertex go up to the tolerance -/
def tolEnv (lines : Int → Demo.Line Int Int Int) : Env Int Int Bx Int := { env lines with heap := tolHeap, eps := .fin 1 }

variable {lines : Int → Demo.Line Int Int Int} {h : Int}

theorem tol_ok : EnvOK (tolEnv lines) :=
  have he := env_ok (lines := lines)
  ⟨he.heur, ⟨tolNear, tolHeap_legal, tolMono⟩, he.ord, he.ordRm, he.point⟩

theorem tol_inst (h2 : 2 ≤ (lines h).pts.length) (ht : (Fl.fin 0).le (lines h).opts.sqThreshold = true) : InstOK (tolEnv lines) h (lines h).pts :=
  have hi := inst_ok (lines := lines) h2 ht
  ⟨hi.pln, hi.two, hi.hull, hi.box, hi.inside, hi.score, hi.ctx⟩

theorem tol_known {nd : Node Int Int Bx} (hk : Known (tolEnv lines) (fun k => (lines k).pts) [h] nd) : Known (env lines) (fun k => (lines k).pts) [h] nd :=
  ⟨hk.inst, hk.piece, hk.lo, hk.lt, hk.hi⟩

theorem tol_near : HullNear (tolEnv lines) tolNear (fun k => (lines k).pts) h :=
  have hn := hull_near (lines := lines) (h := h)
  ⟨⟨hn.sort, hn.search, fun nd hk v hv p q hq he => found_tol (hn.vertex nd (tol_known hk) v hv p q hq he).1,
    fun nd hk a b s t hs ht hab x hx => found_tol (hn.cross nd (tol_known hk) a b s t hs ht hab x hx).1⟩, tolHeap_legal, tolMono, fun p nd hk => hn.box p nd (tol_known hk)⟩

theorem tol_sound (hm : (Fl.fin 1).le (lines h).opts.minDist = true) : CtxSound (tolEnv lines) tolNear (fun k => (lines k).pts) h :=
  have hs := ctx_sound (lines := lines) (h := h) (Fl.le_trans (by decide) hm)
  ⟨tolHeap_legal, tolMono, by
      intro d x h1 h2
      have h2 : d.le (lines h).opts.minDist = false := h2
      revert h1 h2 hm
      cases d <;> cases x <;> cases (lines h).opts.minDist <;> simp [tolNear, tolLess, Fl.le, Fl.lt] <;> omega,
    hs.refl, hs.boxes, hs.minDist, fun nd hk => hs.bound nd (tol_known hk), fun nd hk => hs.hull nd (tol_known hk)⟩

theorem ctxdb_yields (h : Int) (l : List Int) : Yields (buildContextDB lib Demo.heur h l) (Demo.ctxdb lib h l) := by
  have hn : DbOK (Hdb.newHdb Hdb.defaultCap : Db Int Int Bx) := DbOK.new
  obtain ⟨t, e, -⟩ := Hdb.load_spec (ops := nodeOps) (H := Demo.heur) (t := (Hdb.newHdb Hdb.defaultCap : Db Int Int Bx)) (Hdb.newHdb_wf _ _) Demo.heur_legal
    (l.map (ctxNode lib h)) (l.length + 1) (by
      rw [List.length_map]
      exact Nat.succ_le_succ (Nat.clog_le_of_le_pow (Nat.lt_pow_self (by decide)).le))
  have hc : Demo.ctxdb lib h l = t := by unfold Demo.ctxdb buildContextDB; rw [e]
  rw [hc]
  exact (show Mono (buildContextDB lib Demo.heur h l) from Hdb.load_le _ _ _ _).yields e

/-- a line to 10 and back to 5, with constraint points at 8 (on the line) and 11 (not on the line, one unit away) -/
def turn : Demo.Line Int Int Int := ⟨[0, 10, 5], [8, 11], { opts 30 0 with planarSelf := false, nonPlanarSelf := false }⟩

end Axis
end Verif
