import Verif.Props.C16_Index

/-! C68: nearest-neighbour search with a limit on the number of results. -/

set_option linter.unusedSectionVars false

namespace Verif
namespace Hdb

variable {T B K : Type}

theorem knnDrain_limit (hp : Heap (KObj T B K)) (k : Nat) (pred : KObj T B K → Bool × Bool) :
    ∀ (fuel : Nat) (queue : List (KObj T B K)) (acc : List (Option T)) (x : List (Option T) ⊕ List (KObj T B K) × List (Option T)), acc.length < k →
      knnDrain hp (-1) pred fuel queue acc = .ok x →
      (∃ out, x = .inl out ∧ acc <+: out ∧ knnDrain hp k pred fuel queue acc = .ok (.inl (out.take k))) ∨
      (∃ q out, x = .inr (q, out) ∧ acc <+: out ∧
        ((out.length < k ∧ knnDrain hp k pred fuel queue acc = .ok (.inr (q, out))) ∨
         (k ≤ out.length ∧ knnDrain hp k pred fuel queue acc = .ok (.inl (out.take k))))) := by
  intro fuel
  induction fuel with
  | zero => intro queue acc x _ h; simp [knnDrain] at h
  | succ fuel ih =>
    intro queue acc x hlen h
    simp only [knnDrain] at h ⊢
    cases hpop : hp.pop queue with
    | none =>
      rw [hpop] at h
      simp only [Res.ok.injEq] at h
      exact .inr ⟨queue, acc, h.symm, List.prefix_rfl, .inl ⟨hlen, rfl⟩⟩
    | some p =>
      obtain ⟨y, rest⟩ := p
      rw [hpop] at h
      simp only at h ⊢
      by_cases hi : y.isItem = true
      · simp only [hi, if_true] at h ⊢
        generalize hacc : (if (pred y).1 = true then acc ++ [y.node.item] else acc) = acc' at h ⊢
        have hpre : acc <+: acc' := by
          rw [← hacc]; split_ifs
          · exact List.prefix_append _ _
          · exact List.prefix_rfl
        have hle : acc'.length ≤ k := by
          rw [← hacc]; split_ifs
          · simp; omega
          · omega
        by_cases hst : (pred y).2 = true
        · simp only [hst, if_true, Res.ok.injEq] at h ⊢
          exact .inl ⟨acc', h.symm, hpre, by rw [List.take_of_length_le hle]⟩
        · simp only [hst] at h ⊢
          have hneg : ¬ ((-1 : Int) ≠ 0 ∧ (acc'.length : Int) = -1) := by
            rintro ⟨-, h⟩; omega
          rw [if_neg (by simp), if_neg hneg] at h
          rw [if_neg (by simp)]
          have hsub : ∀ (fuel : Nat) (queue : List (KObj T B K)) (acc : List (Option T)) (x : List (Option T) ⊕ List (KObj T B K) × List (Option T)),
              knnDrain hp (-1) pred fuel queue acc = .ok x → (∃ out, x = .inl out ∧ acc <+: out) ∨ ∃ q out, x = .inr (q, out) ∧ acc <+: out := by
            clear ih h hneg hst hle hpre hacc hi hpop hlen
            intro fuel
            induction fuel with
            | zero => intro queue acc x h; simp [knnDrain] at h
            | succ fuel ih =>
              intro queue acc x h
              simp only [knnDrain] at h
              split at h
              · simp only [Res.ok.injEq] at h; exact .inr ⟨_, _, h.symm, List.prefix_rfl⟩
              · rename_i y rest hpop
                by_cases hi : y.isItem = true
                · simp only [hi, if_true] at h
                  have hpre : acc <+: (if (pred y).1 = true then acc ++ [y.node.item] else acc) := by
                    split_ifs
                    · exact List.prefix_append _ _
                    · exact List.prefix_rfl
                  split_ifs at h
                  all_goals first
                    | (simp only [Res.ok.injEq] at h; exact .inl ⟨_, h.symm, by simp [*]⟩)
                    | (rcases ih _ _ _ h with ⟨o, e, p⟩ | ⟨q, o, e, p⟩
                       · exact .inl ⟨o, e, List.IsPrefix.trans (by simp [*]) p⟩
                       · exact .inr ⟨q, o, e, List.IsPrefix.trans (by simp [*]) p⟩)
                · simp only [hi] at h
                  simp only [Bool.false_eq_true, if_false, Res.ok.injEq] at h
                  exact .inr ⟨_, _, h.symm, List.prefix_rfl⟩
          by_cases hk : acc'.length = k
          · rw [if_pos ⟨by omega, by omega⟩]
            rcases hsub _ _ _ _ h with ⟨o, e, p⟩ | ⟨q, o, e, p⟩
            · refine .inl ⟨o, e, hpre.trans p, ?_⟩
              rw [← hk, List.prefix_iff_eq_take.1 p]; simp
            · refine .inr ⟨q, o, e, hpre.trans p, .inr ⟨by rw [← hk]; exact p.length_le, ?_⟩⟩
              rw [← hk, List.prefix_iff_eq_take.1 p]; simp
          · rw [if_neg (by rintro ⟨-, h⟩; omega)]
            rcases ih rest acc' x (by omega) h with ⟨o, e, p, r⟩ | ⟨q, o, e, p, r⟩
            · exact .inl ⟨o, e, hpre.trans p, r⟩
            · exact .inr ⟨q, o, e, hpre.trans p, r⟩
      · simp only [hi] at h ⊢
        simp only [Bool.false_eq_true, if_false, Res.ok.injEq] at h ⊢
        exact .inr ⟨queue, acc, h.symm, List.prefix_rfl, .inl ⟨hlen, rfl⟩⟩

theorem knnLoop_prefix (hp : Heap (KObj T B K)) (score : Option T → Box B → Fl K) (pred : KObj T B K → Bool × Bool) :
    ∀ (fuel : Nat) (nd : DbNode T B) (queue : List (KObj T B K)) (acc out : List (Option T)),
      knnLoop hp (-1) score pred fuel nd queue acc = .ok out → acc <+: out := by
  intro fuel
  induction fuel with
  | zero => intro nd queue acc out h; simp [knnLoop] at h
  | succ fuel ih =>
    intro nd queue acc out h
    simp only [knnLoop] at h
    obtain ⟨x, hx, h⟩ := Res.bind_eq_ok.1 h
    rcases knnDrain_limit hp (acc.length + 1) pred _ _ _ _ (by omega) hx with ⟨o, rfl, p, -⟩ | ⟨q, o, rfl, p, -⟩
    · simp only [Res.ok.injEq] at h; rw [← h]; exact p
    · simp only at h
      split at h
      · simp only [Res.ok.injEq] at h; rw [← h]; exact p
      · exact p.trans (ih _ _ _ _ h)

theorem knnLoop_limit (hp : Heap (KObj T B K)) (k : Nat) (score : Option T → Box B → Fl K) (pred : KObj T B K → Bool × Bool) :
    ∀ (fuel : Nat) (nd : DbNode T B) (queue : List (KObj T B K)) (acc out : List (Option T)), acc.length < k →
      knnLoop hp (-1) score pred fuel nd queue acc = .ok out → knnLoop hp k score pred fuel nd queue acc = .ok (out.take k) := by
  intro fuel
  induction fuel with
  | zero => intro nd queue acc out _ h; simp [knnLoop] at h
  | succ fuel ih =>
    intro nd queue acc out hlen h
    simp only [knnLoop] at h ⊢
    obtain ⟨x, hx, h⟩ := Res.bind_eq_ok.1 h
    rcases knnDrain_limit hp k pred _ _ _ _ hlen hx with ⟨o, rfl, p, e⟩ | ⟨q, o, rfl, p, ⟨hl, e⟩ | ⟨hl, e⟩⟩
    · simp only [Res.ok.injEq] at h; rw [← h, e]; rfl
    · simp only at h
      rw [e]
      simp only [Res.ok_bind]
      split at h
      · simp only [Res.ok.injEq] at h
        rw [← h, List.take_of_length_le (by omega)]
      · exact ih _ _ _ _ hl h
    · simp only at h
      rw [e]
      simp only [Res.ok_bind]
      have hpo : o <+: out := by
        split at h
        · simp only [Res.ok.injEq] at h; rw [h]; exact List.prefix_rfl
        · exact knnLoop_prefix hp score pred _ _ _ _ _ h
      rw [List.prefix_iff_eq_take.1 hpo, List.take_take, Nat.min_eq_left hl]

theorem derefAll_take : ∀ (l : List (Option T)) (out : List T) (k : Nat), derefAll l = .ok out → derefAll (l.take k) = .ok (out.take k) := by
  intro l
  induction l with
  | nil => intro out k h; simp only [derefAll, Res.ok.injEq] at h; subst h; simp [derefAll]
  | cons a l ih =>
    intro out k h
    cases k with
    | zero => simp [derefAll]
    | succ k =>
      cases a with
      | none => simp [derefAll] at h
      | some a =>
        simp only [derefAll] at h
        obtain ⟨o, ho, h⟩ := Res.bind_eq_ok.1 h
        simp only [Res.pure_eq, Res.ok.injEq] at h
        subst h
        simp only [List.take_succ_cons, derefAll, ih o k ho, Res.ok_bind, Res.pure_eq]

/-- C68.  For every queue, score and predicate: `Knn` with a positive limit `k` returns the first `k` results of the search without limit. -/
theorem C68_limit (hp : Heap (KObj T B K)) (t : Tree T B) (k : Nat) (hk : 0 < k) (score : Option T → Box B → Fl K)
    (pred : KObj T B K → Bool × Bool) (fuel : Nat) (out : List T) (h : knn hp t (-1) score pred fuel = .ok out) :
    knn hp t k score pred fuel = .ok (out.take k) := by
  simp only [knn] at h ⊢
  obtain ⟨x, hx, h⟩ := Res.bind_eq_ok.1 h
  rw [knnLoop_limit hp k score pred fuel t.data [] [] x hk hx, Res.ok_bind]
  exact derefAll_take x out k h

variable [LinearOrder B] [BoundedOrder B]

/-- C68.  After every history, with a queue that always pops a minimum: the search for the `k` nearest within `dist` returns as many stored items as
there are within `dist`, but at most `k`, nearest first, and no stored item that is left out is strictly nearer than a returned one. -/
theorem C68_nearest [DecidableEq T] [LinearOrder K] (ops : ItemOps T B) (cap : Nat) {H : Heur T B} (hH : Legal H (maxEntries cap)) (os : List (Op T))
    (hid : IdsInj ops (os.flatMap Op.items)) {hp : Heap (KObj T B K)} (hl : hp.Legal nearLe) {boxDist : Box B → Fl K} {itemDist : T → Fl K}
    (hb : BoxBound ops boxDist itemDist (os.flatMap Op.items)) (k : Nat) (hk : 0 < k) :
    ∃ t, Yields (fun fuel => run ops H fuel (newHdb cap) os) t ∧
      ∀ dist fuel, treeFuel t ≤ fuel → ∃ out rest : List T, knn hp t k (scoreFn boxDist itemDist) (predicateFn dist) fuel = .ok out ∧
        (out ++ rest).Perm (bag [] os) ∧ out.length = min k ((bag [] os).filter (fun x => (itemDist x).le dist)).length ∧
        (∀ x ∈ out, (itemDist x).le dist = true) ∧ out.Pairwise (fun a b => (itemDist a).le (itemDist b) = true) ∧
        ∀ x ∈ out, ∀ y ∈ rest, (itemDist y).lt (itemDist x) = false := by
  obtain ⟨t, y, w, -, c⟩ := run_spec (ops := ops) (H := H) os (newHdb_wf ops cap) hH (by simpa [newHdb, contents, emptyRoot, flat] using hid)
  have c' : (contents t).Perm (bag [] os) := by simpa [newHdb, contents, emptyRoot, flat] using c
  refine ⟨t, y, fun dist fuel hf => ?_⟩
  obtain ⟨out, e, p⟩ := contextNeighbours_spec w hl (fun a b c h1 h2 => Fl.le_trans h1 h2)
    (fun x hx => hb x ((mem_bag os (c'.mem_iff.1 hx)).resolve_left (by simp))) dist fuel hf
  obtain ⟨p1, p2⟩ := KOut_exact p
  have hsplit : ((bag [] os).filter (fun x => (itemDist x).le dist) ++ (bag [] os).filter (fun x => !(itemDist x).le dist)).Perm (bag [] os) :=
    List.filter_append_perm _ _
  have hin : ∀ x ∈ out, (itemDist x).le dist = true := fun x hx => (List.mem_filter.1 (p1.mem_iff.1 hx)).2
  refine ⟨out.take k, out.drop k ++ (bag [] os).filter (fun x => !(itemDist x).le dist), C68_limit hp t k hk _ _ fuel out e, ?_, ?_, ?_, ?_, ?_⟩
  · rw [← List.append_assoc, List.take_append_drop]
    exact ((p1.trans (c'.filter _)).append_right _).trans hsplit
  · rw [List.length_take, (p1.trans (c'.filter _)).length_eq]
  · exact fun x hx => hin x (List.mem_of_mem_take hx)
  · exact p2.sublist (List.take_sublist k out)
  · intro x hx z hz
    have hxd := hin x (List.mem_of_mem_take hx)
    rcases List.mem_append.1 hz with hz | hz
    · rw [← List.take_append_drop k out, List.pairwise_append] at p2
      have := p2.2.2 x hx z hz
      rw [Fl.lt_iff_not_le (Fl.ne_nan_of_le_right this) (Fl.ne_nan_of_le_left this), this]; rfl
    · have hzd := (List.mem_filter.1 hz).2
      cases hlt : (itemDist z).lt (itemDist x) with
      | false => rfl
      | true =>
        have := Fl.le_trans (Fl.le_of_lt hlt) hxd
        rw [this] at hzd; cases hzd

/-- eight items, the two nearest within distance 4 of the left edge, and a limit larger than the number within the distance -/
example : (match run demoOps demoHeur 50 (newHdb 4) demoHistory with
    | .ok t => [2, 3, 9].map fun k : Nat =>
        (match knn listHeap t k (scoreFn demoBoxDist (fun x => demoBoxDist x.2)) (predicateFn (.fin 4)) 50 with | .ok out => out.map Prod.fst | _ => [])
    | _ => []) = [[1, 6], [1, 6, 2], [1, 6, 2, 7]] := by decide +kernel

end Hdb
end Verif
