import Verif.Props.C09_Simplify
import Verif.Lemmas.Points
import Verif.Props.C16_Index
import Verif.Props.C07_Tolerance

/-! A concrete environment around a given geometry library, used by the concrete cases. -/

namespace Verif
namespace Demo

variable {P C B K : Type}

/-- index heuristics: first child, halves, no reordering -/
def heur {T B : Type} : Heur T B where
  choose _ _ := some 0
  arrange l := l
  splitIdx bs := bs.length / 2
  select _ _ l := l
  height n := Nat.clog (maxEntries Hdb.defaultCap) n

theorem heur_legal {T B : Type} [LinearOrder B] : Hdb.Legal (heur : Heur T B) (maxEntries Hdb.defaultCap) := by
  have h8 : maxEntries Hdb.defaultCap = 8 := by decide +kernel
  refine ⟨fun b bs h => ⟨0, List.length_pos_iff.2 h, rfl⟩, fun l => List.Perm.refl _, fun bs h => ?_, fun _ _ _ l => List.Perm.refl _, fun n hn => ?_⟩
  · simp only [heur, h, h8]; omega
  · simp only [heur]
    exact ⟨Nat.le_of_lt (Nat.pow_pred_clog_lt_self (by omega) (by omega)), Nat.le_pow_clog (by omega) n⟩

/-- a polyline with its constraints and options -/
structure Line (P C K : Type) where
  pts : List P
  ctx : List C
  opts : Opts K

section
variable [LinearOrder B] [BoundedOrder B] [LinearOrder K] [Zero K]

/-- the constraint index -/
def ctxdb (lib : Lib P C B K) (h : Int) (geoms : List C) : Db P C B :=
  match buildContextDB lib heur h geoms (geoms.length + 1) with
  | .ok t => t
  | _ => Hdb.newHdb Hdb.defaultCap

theorem ctxdb_spec (lib : Lib P C B K) (h : Int) (geoms : List C) : Hdb.TreeWF nodeOps (ctxdb lib h geoms) ∧
    (Hdb.contents (ctxdb lib h geoms)).Perm (geoms.map (ctxNode lib h)) := by
  obtain ⟨t, e, w, -, -, p⟩ := Hdb.load_spec (ops := nodeOps) (H := heur) (t := (Hdb.newHdb Hdb.defaultCap : Db P C B)) (Hdb.newHdb_wf _ _) heur_legal
    (geoms.map (ctxNode lib h)) (geoms.length + 1) (by
      rw [List.length_map]
      exact Nat.succ_le_succ (Nat.clog_le_of_le_pow (Nat.lt_pow_self (by decide)).le))
  rw [contents_new, List.nil_append] at p
  unfold ctxdb buildContextDB
  rw [e]
  exact ⟨w, p⟩

/-- polylines scored by `maxOffset` with the distance `distFn` -/
def env (lib : Lib P C B K) (lnr : LnrLib P B) (distFn : P → P → P → Fl K) (eps : Fl K) (lines : Int → Line P C K) : Env P C B K where
  lib := lib
  lnr := lnr
  heur := heur
  heap := Hdb.listHeap
  ord _ l := l
  ordRm _ l := l
  eps := eps
  inst h := { id := h, pln := createPolyline (coordsOf (lines h).pts), opts := (lines h).opts, score := maxOffset distFn, square := some (maxOffset distFn),
              ctxdb := ctxdb lib h (lines h).ctx }

variable {lib : Lib P C B K} {lnr : LnrLib P B} {distFn : P → P → P → Fl K} {eps : Fl K} {lines : Int → Line P C K}

theorem env_ok (hp : ∀ p g, (lib.intersection (.point p) g).length ≤ 1 ∧ (lib.intersection g (.point p)).length ≤ 1) :
    EnvOK (env lib lnr distFn eps lines) :=
  ⟨heur_legal, ⟨Hdb.nearLe, Hdb.listHeap_legal, fun _ _ _ h1 h2 => Fl.le_trans h1 h2⟩, fun _ l => List.Perm.refl l, fun _ l => List.Perm.refl l, hp⟩

theorem inst_ok {h : Int} (h2 : 2 ≤ (lines h).pts.length) (hd : ∀ a b p, (Fl.fin 0).le (distFn a b p) = true)
    (ht : (Fl.fin 0).le (lines h).opts.sqThreshold = true)
    (hh : ∀ i j : Int, 0 ≤ i → i < j → j < (lines h).pts.length → ∃ g, hullGeometry (C := C) (lib.convexHull (Coords.sub (lines h).pts i j)) = .ok g ∧
      (lib.bounds g).Valid) : InstOK (env lib lnr distFn eps lines) h (lines h).pts where
  pln := rfl
  two := h2
  hull i j h1 h2 h3 := (hh i j h1 h2 h3).imp (fun _ h => h.1)
  box i j h1 h2 h3 g hg := by
    obtain ⟨g', e, v⟩ := hh i j h1 h2 h3
    have hg : hullGeometry (lib.convexHull (Coords.sub (lines h).pts i j)) = .ok g := hg
    rw [hg] at e
    cases e
    exact v
  inside := by
    refine maxOffset_splitsInside _ _ ?_ _
    exact ht
  score i j h1 h2 h3 := by
    have hlen : (Coords.sub (lines h).pts i j).len = j + 1 - i := Coords.len_sub _ _ _ (by omega)
    have hq : ∀ k, 0 ≤ k → k < (Coords.sub (lines h).pts i j).len → (Coords.sub (lines h).pts i j).pt k =
        .ok ((lines h).pts[(i + k).toNat]?.getD ((lines h).pts[0]'(by omega))) := by
      intro k hk0 hk1
      obtain ⟨p, hp, hp'⟩ := Coords.pt_sub_ok (pts := (lines h).pts) (i := i) (j := j) (k := k) (by omega) (by omega) h1 h3
      rw [hp', hp]; rfl
    obtain ⟨k, e, k0, k1, -⟩ := C03_maxOffset distFn _ _ (by omega) hq (fun _ _ _ => hd _ _ _)
    exact ⟨k, _, e, k0, by omega⟩
  ctx := (ctxdb_spec lib h (lines h).ctx).1

end

end Demo

end Verif
