import Verif.Lemmas.HdbKnn
import Verif.Lemmas.HdbRemove
import Verif.Lemmas.HdbBuild
import Verif.Model.Yields

/-! The index operations as terminating computations (`Yields`), for use by their callers. -/

set_option linter.unusedSectionVars false

namespace Verif
namespace Hdb

variable {T B K : Type} [LinearOrder B] [BoundedOrder B] [LinearOrder K]

theorem allLoop_mono : ∀ (n : Nat) (nd : DbNode T B) stack result r, allLoop n nd stack result = .ok r → allLoop (n + 1) nd stack result = .ok r := by
  intro n
  induction n with
  | zero => intro nd stack result r h; simp [allLoop] at h
  | succ n ih =>
    intro nd stack result r h
    rw [allLoop] at h ⊢
    split at h <;> simp_all

theorem searchChildren_mono (q : Box B) (leaf : Bool) (n : Nat) : ∀ (cs : List (DbNode T B)) stack result r,
    searchChildren n q leaf cs stack result = .ok r → searchChildren (n + 1) q leaf cs stack result = .ok r := by
  intro cs
  induction cs with
  | nil => intro stack result r h; simpa [searchChildren] using h
  | cons c cs ih =>
    intro stack result r h
    simp only [searchChildren] at h ⊢
    split_ifs at h ⊢
    · exact ih _ _ _ h
    · obtain ⟨a, h1, h2⟩ := Res.bind_eq_ok.1 h
      rw [allLoop_mono _ _ _ _ _ h1, Res.ok_bind]
      exact ih _ _ _ h2
    · exact ih _ _ _ h
    · exact ih _ _ _ h

theorem searchLoop_mono (q : Box B) : ∀ (n : Nat) (nd : DbNode T B) stack result r, searchLoop q n nd stack result = .ok r →
    searchLoop q (n + 1) nd stack result = .ok r := by
  intro n
  induction n with
  | zero => intro nd stack result r h; simp [searchLoop] at h
  | succ n ih =>
    intro nd stack result r h
    rw [searchLoop] at h ⊢
    obtain ⟨⟨s, a⟩, h1, h2⟩ := Res.bind_eq_ok.1 h
    rw [searchChildren_mono q _ _ _ _ _ _ h1, Res.ok_bind]
    cases s with
    | nil => exact h2
    | cons x s => exact ih _ _ _ _ h2

theorem knnDrain_mono (hp : Heap (KObj T B K)) (limit : Int) (pred : KObj T B K → Bool × Bool) : ∀ (n : Nat) queue result r,
    knnDrain hp limit pred n queue result = .ok r → knnDrain hp limit pred (n + 1) queue result = .ok r := by
  intro n
  induction n with
  | zero => intro queue result r h; simp [knnDrain] at h
  | succ n ih =>
    intro queue result r h
    rw [knnDrain] at h ⊢
    cases hpop : hp.pop queue with
    | none => simpa [hpop] using h
    | some x =>
      simp only [hpop] at h ⊢
      split_ifs at h ⊢ <;> first | exact h | exact ih _ _ _ h

theorem knnLoop_mono (hp : Heap (KObj T B K)) (limit : Int) (score : Option T → Box B → Fl K) (pred : KObj T B K → Bool × Bool) :
    ∀ (n : Nat) nd queue result r, knnLoop hp limit score pred n nd queue result = .ok r → knnLoop hp limit score pred (n + 1) nd queue result = .ok r := by
  intro n
  induction n with
  | zero => intro nd queue result r h; simp [knnLoop] at h
  | succ n ih =>
    intro nd queue result r h
    rw [knnLoop] at h ⊢
    obtain ⟨a, h1, h2⟩ := Res.bind_eq_ok.1 h
    rw [knnDrain_mono _ _ _ _ _ _ _ h1, Res.ok_bind]
    rcases a with a | ⟨a, b⟩
    · exact h2
    · cases hpop : hp.pop a with
      | none => simpa [hpop] using h2
      | some x =>
        simp only [hpop] at h2 ⊢
        exact ih _ _ _ _ h2

theorem yields_of_mono {α : Type} {f : Nat → Res α} (hm : ∀ n r, f n = .ok r → f (n + 1) = .ok r) {N : Nat} {r : α} (h : f N = .ok r) : Yields f r := by
  refine ⟨N, fun n hn => ?_⟩
  induction hn with
  | refl => exact h
  | step _ ih => exact hm _ _ ih

theorem all_yields {ops : ItemOps T B} {t : Tree T B} (hw : TreeWF ops t) : ∃ out, Yields (all t) out ∧ out.Perm (contents t) := by
  obtain ⟨out, e, p⟩ := all_spec hw _ (Nat.le_refl _)
  refine ⟨out, yields_of_mono (fun n r h => ?_) e, p⟩
  obtain ⟨a, h1, h2⟩ := Res.bind_eq_ok.1 h
  rw [all, allLoop_mono _ _ _ _ _ h1]; exact h2

theorem search_yields {ops : ItemOps T B} {t : Tree T B} (hw : TreeWF ops t) (hv : ∀ x ∈ contents t, (ops.mbr x).Valid) (q : Box B) :
    ∃ out, Yields (search t q) out ∧ out.Perm ((contents t).filter (fun x => q.intersects (ops.mbr x))) := by
  obtain ⟨out, e, p⟩ := search_spec hw hv q _ (Nat.le_refl _)
  refine ⟨out, yields_of_mono (fun n r h => ?_) e, p⟩
  unfold search at h ⊢
  split_ifs at h ⊢
  · exact h
  · obtain ⟨a, h1, h2⟩ := Res.bind_eq_ok.1 h
    rw [searchLoop_mono _ _ _ _ _ _ h1]; exact h2

theorem contextNeighbours_rough_yields {strong : Prop} {ops : ItemOps T B} {t : Tree T B} (hw : TreeWF ops t) {hp : Heap (KObj T B K)}
    {near far : Fl K → Fl K → Prop} (hl : hp.Legal near) {boxDist : Box B → Fl K} {itemDist : T → Fl K}
    (hb : strong → BoxNear ops near far boxDist itemDist (contents t)) (dist : Fl K) :
    ∃ out, Yields (contextNeighbours hp t boxDist itemDist dist) out ∧ KOut strong far itemDist dist (contents t) out := by
  obtain ⟨out, e, p⟩ := contextNeighbours_rough hw hl hb dist _ (Nat.le_refl _)
  refine ⟨out, yields_of_mono (fun n r h => ?_) e, p⟩
  unfold contextNeighbours knn at h ⊢
  obtain ⟨a, h1, h2⟩ := Res.bind_eq_ok.1 h
  rw [knnLoop_mono _ _ _ _ _ _ _ _ _ h1]; exact h2

theorem contextNeighbours_yields {strong : Prop} {ops : ItemOps T B} {t : Tree T B} (hw : TreeWF ops t) {hp : Heap (KObj T B K)}
    {near : Fl K → Fl K → Prop} (hl : hp.Legal near) (hmono : ∀ a b c, near a b → b.le c = true → near a c) {boxDist : Box B → Fl K}
    {itemDist : T → Fl K} (hb : strong → BoxBound ops boxDist itemDist (contents t)) (dist : Fl K) :
    ∃ out, Yields (contextNeighbours hp t boxDist itemDist dist) out ∧ KOut strong near itemDist dist (contents t) out :=
  contextNeighbours_rough_yields hw hl (fun h => (hb h).boxNear hmono) dist

theorem remove_yields {ops : ItemOps T B} {t : Tree T B} (hw : TreeWF ops t) (item : T) :
    ∃ t', Yields (remove ops t item) t' ∧ TreeWF ops t' ∧ t'.maxE = t.maxE ∧ t'.minE = t.minE ∧
      ((∃ x, ops.id x = ops.id item ∧ (contents t).Perm (x :: contents t')) ∨
       (t' = t ∧ ¬ ∃ x ∈ contents t, ops.id x = ops.id item ∧ ops.mbr x = ops.mbr item)) := by
  obtain ⟨t', N, e, h⟩ := remove_spec hw item
  exact ⟨t', ⟨N, e⟩, h⟩

/-- removing a stored item from an index with distinct identifiers -/
theorem remove_mem_yields {ops : ItemOps T B} {t : Tree T B} (hw : TreeWF ops t) (hn : ((contents t).map ops.id).Nodup) {item : T}
    (hi : item ∈ contents t) :
    ∃ t', Yields (remove ops t item) t' ∧ TreeWF ops t' ∧ t'.maxE = t.maxE ∧ (contents t).Perm (item :: contents t') := by
  obtain ⟨t', y, w, m, _, h⟩ := remove_yields hw item
  refine ⟨t', y, w, m, ?_⟩
  rcases h with ⟨x, hx, hp⟩ | ⟨_, h⟩
  · have hxm : x ∈ contents t := hp.mem_iff.2 (by simp)
    have : x = item := by
      by_contra hne
      exact hne (List.inj_on_of_nodup_map hn hxm hi hx)
    rw [this] at hp; exact hp
  · exact absurd ⟨item, hi, rfl, rfl⟩ h

end Hdb
end Verif
