import Verif.Lemmas.HdbMemRead
import Verif.Props.C16_Index

/-! C72: the index as stored — slices with spare capacity, pointers into arrays, in-place changes — holds the tree that the value-level model describes. -/

set_option linter.unusedSectionVars false

namespace Verif.Hdb.Mem

variable {T B : Type} [LinearOrder B] [BoundedOrder B]

/-- one operation -/
theorem runOp_mem [DecidableEq T] {ops : ItemOps T B} (cfg : Cfg B) {H : MHeur T B} {t : Hdb.Tree T B} (hw : TreeWF ops t) (hH : MLegal H t.maxE) (o : Op T)
    (hid : IdsInj ops (contents t ++ o.items)) :
    ∃ t', Yields (fun fuel => Hdb.runOp ops H.toHeur fuel t o) t' ∧ TreeWF ops t' ∧ t'.maxE = t.maxE ∧ (contents t').Perm (bagOp (contents t) o) ∧
      ∃ N, ∀ fuel ≥ N, ∀ m fp, Store m.heap t.data fp → m.maxE = t.maxE → m.minE = t.minE →
        ∃ m' fp', runOp ops cfg H fuel m o = .ok m' ∧ Store m'.heap t'.data fp' ∧ m'.maxE = t'.maxE ∧ m'.minE = t'.minE := by
  obtain ⟨t', ⟨N, hy⟩, w, mm, c⟩ := runOp_spec hw hH.legal o hid
  refine ⟨t', ⟨N, hy⟩, w, mm, c, ?_⟩
  cases o with
  | load items =>
    refine ⟨max N (loadFuel H.toHeur items.length), fun fuel hf m fp hs h1 h2 => ?_⟩
    exact load_mem cfg hw hH hs h1 h2 items fuel (Nat.le_trans (Nat.le_max_right _ _) hf) (hy fuel (Nat.le_trans (Nat.le_max_left _ _) hf))
  | remove item => exact ⟨N, fun fuel hf m fp hs h1 h2 => remove_mem cfg hs h1 h2 item fuel (hy fuel hf)⟩
  | clear =>
    refine ⟨N, fun fuel hf m fp hs h1 h2 => ?_⟩
    have e : Res.ok (Hdb.clear t) = .ok t' := hy fuel hf
    cases e
    exact ⟨clear m, [m.heap.next], rfl, clearHeap_mem hs.next, h1, h2⟩

theorem run_mem [DecidableEq T] {ops : ItemOps T B} (cfg : Cfg B) {H : MHeur T B} : ∀ (os : List (Op T)) {t : Hdb.Tree T B}, TreeWF ops t → MLegal H t.maxE →
    IdsInj ops (contents t ++ os.flatMap Op.items) →
    ∃ t', Yields (fun fuel => Hdb.run ops H.toHeur fuel t os) t' ∧ TreeWF ops t' ∧ (contents t').Perm (bag (contents t) os) ∧
      ∃ N, ∀ fuel ≥ N, ∀ m fp, Store m.heap t.data fp → m.maxE = t.maxE → m.minE = t.minE →
        ∃ m' fp', run ops cfg H fuel m os = .ok m' ∧ Store m'.heap t'.data fp' := by
  intro os
  induction os with
  | nil => intro t hw _ _; exact ⟨t, Yields.const t, hw, List.Perm.refl _, 0, fun fuel _ m fp hs _ _ => ⟨m, fp, rfl, hs⟩⟩
  | cons o os ih =>
    intro t hw hH hid
    rw [List.flatMap_cons] at hid
    obtain ⟨t1, y1, w1, m1, c1, N1, s1⟩ := runOp_mem cfg hw hH o (hid.mono (by intro x hx; simp at hx ⊢; tauto))
    obtain ⟨t2, y2, w2, c2, N2, s2⟩ := ih w1 (by rw [m1]; exact hH) (hid.mono (by
      intro x hx
      rcases List.mem_append.1 hx with hx | hx
      · rcases mem_bagOp (c1.mem_iff.1 hx) with h | h <;> simp [h]
      · simp only [List.mem_append]; exact Or.inr (Or.inr hx)))
    refine ⟨t2, Yields.bind y1 y2, w2, c2.trans (bag_perm os c1), max N1 N2, fun fuel hf m fp hs h1 h2 => ?_⟩
    obtain ⟨m', fp', e1, st1, q1, q2⟩ := s1 fuel (Nat.le_trans (Nat.le_max_left _ _) hf) m fp hs h1 h2
    obtain ⟨m2, fp2, e2, st2⟩ := s2 fuel (Nat.le_trans (Nat.le_max_right _ _) hf) m' fp' st1 q1 q2
    exact ⟨m2, fp2, by rw [run, e1, Res.ok_bind, e2], st2⟩

/-- C72.  For every bucket size, every growth policy of `append`, all (legal) heuristics and every history of `Load`, `Remove` and `Clear` on a new index: the
run on memory never reads outside an array and ends, and the tree found by following the child slices from `tree.data` is the one the value-level run
yields with the same heuristics. -/
theorem C72_memory_tree [DecidableEq T] (ops : ItemOps T B) (cfg : Cfg B) (cap : Nat) {H : MHeur T B} (hH : MLegal H (maxEntries cap)) (os : List (Op T))
    (hid : IdsInj ops (os.flatMap Op.items)) :
    ∃ t, Yields (fun fuel => Hdb.run ops H.toHeur fuel (Hdb.newHdb cap) os) t ∧
      ∃ N, ∀ fuel ≥ N, ∃ m, run ops cfg H fuel (newHdb cfg cap) os = .ok m ∧
        ∀ d, t.data.height < d → ∃ c, load m.heap root = .ok c ∧ decode m.heap d c = t.data := by
  obtain ⟨t, y, w, c, N, s⟩ := run_mem (ops := ops) cfg (H := H) os (newHdb_wf ops cap) hH (by simpa [Hdb.newHdb, contents, emptyRoot, flat] using hid)
  obtain ⟨fp0, hs0⟩ := newHdb_mem (T := T) cfg cap
  refine ⟨t, y, N, fun fuel hf => ?_⟩
  obtain ⟨m, fp, e, hs⟩ := s fuel hf (newHdb cfg cap) fp0 hs0 rfl rfl
  exact ⟨m, e, decode_store w.root hs⟩

/-- C72.  Read through the pointers after any history, `All` returns exactly the items loaded and not removed, each as often as it was loaded; `Search` exactly those whose box
intersects the query; `Collides` whether there is one. -/
theorem C72_memory_reads [DecidableEq T] (ops : ItemOps T B) (cfg : Cfg B) (cap : Nat) {H : MHeur T B} (hH : MLegal H (maxEntries cap)) (os : List (Op T))
    (hid : IdsInj ops (os.flatMap Op.items)) (hv : ∀ x ∈ os.flatMap Op.items, (ops.mbr x).Valid) :
    ∃ N, ∀ fuel ≥ N, ∃ m, run ops cfg H fuel (newHdb cfg cap) os = .ok m ∧
      (∃ out, all m fuel = .ok out ∧ out.Perm (bag [] os)) ∧
      (∀ q, ∃ out, search m q fuel = .ok out ∧ out.Perm ((bag [] os).filter (fun x => q.intersects (ops.mbr x)))) ∧
      (∀ q, ∃ b, collides m q fuel = .ok b ∧ (b = true ↔ ∃ x ∈ bag [] os, q.intersects (ops.mbr x) = true)) := by
  obtain ⟨t, y, w, c, N, s⟩ := run_mem (ops := ops) cfg (H := H) os (newHdb_wf ops cap) hH (by simpa [Hdb.newHdb, contents, emptyRoot, flat] using hid)
  have c' : (contents t).Perm (bag [] os) := by simpa [Hdb.newHdb, contents, emptyRoot, flat] using c
  have hv' : ∀ x ∈ contents t, (ops.mbr x).Valid := fun x hx => hv x ((mem_bag os (c'.mem_iff.1 hx)).resolve_left (by simp))
  obtain ⟨fp0, hs0⟩ := newHdb_mem (T := T) cfg cap
  refine ⟨max N (cntN t.data), fun fuel hf => ?_⟩
  have hf2 := Nat.le_trans (Nat.le_max_right _ _) hf
  obtain ⟨m, fp, e, hs⟩ := s fuel (Nat.le_trans (Nat.le_max_left _ _) hf) (newHdb cfg cap) fp0 hs0 rfl rfl
  refine ⟨m, e, ?_, fun q => ?_, fun q => ?_⟩
  · obtain ⟨out, e1, p⟩ := all_spec w fuel hf2
    exact ⟨out, by rw [all_mem hs, e1], p.trans c'⟩
  · obtain ⟨out, e1, p⟩ := search_spec w hv' q fuel hf2
    exact ⟨out, by rw [search_mem hs, e1], p.trans (c'.filter _)⟩
  · obtain ⟨b, e1, p⟩ := collides_spec w hv' q fuel hf2
    refine ⟨b, by rw [collides_mem hs, e1], p.trans ?_⟩
    constructor
    · rintro ⟨x, hx, h⟩; exact ⟨x, c'.mem_iff.1 hx, h⟩
    · rintro ⟨x, hx, h⟩; exact ⟨x, c'.mem_iff.2 hx, h⟩

/-! ### the statements are about something -/

/-- computable heuristics that really reorder: the children are reversed -/
def demoMHeur : MHeur DemoItem (Fin 16) where
  choose _ bs := if bs = [] then none else some (bs.length - 1)
  perm bs := (List.range bs.length).reverse
  splitIdx bs := bs.length / 2
  select _ _ l := l
  height n := Nat.clog 4 n

theorem demoM_legal : MLegal demoMHeur 4 := by
  refine ⟨fun b bs h => ⟨bs.length - 1, by have := List.length_pos_iff.2 h; omega, by simp [demoMHeur, h]⟩, fun bs => List.reverse_perm _, fun bs h => ?_,
    fun _ _ _ l => List.Perm.refl _, fun n hn => ?_⟩
  · simp only [demoMHeur, h]; omega
  · simp only [demoMHeur]
    exact ⟨Nat.le_of_lt (Nat.pow_pred_clog_lt_self (by omega) (by omega)), Nat.le_pow_clog (by omega) n⟩

/-- `append` doubles -/
def demoCfg : Cfg (Fin 16) := ⟨fun cap _ => cap, Box.empty⟩

/-- the history of C16 run in memory: splits, in-place appends, a bulk load and a removal -/
example : (match run demoOps demoCfg demoMHeur 50 (newHdb demoCfg 4) demoHistory with
    | .ok m => (match all m 50 with | .ok out => out.map Prod.fst | _ => [], match search m ⟨1, 0, 3, 0⟩ 50 with | .ok out => out.map Prod.fst | _ => [])
    | _ => ([], [])) = ([6, 7, 8, 9, 2, 1, 5, 4], [6, 7, 2, 1]) := by decide +kernel

/-- after it some child slices have spare cells behind them: (length, capacity) of the child slices of the root's children -/
example : (match run demoOps demoCfg demoMHeur 50 (newHdb demoCfg 4) demoHistory with
    | .ok m => (cells m.heap ⟨0, 1⟩).flatMap (fun c => (cells m.heap c.children).map (fun c => (c.children.len, (m.heap.arrays c.children.arr).length)))
    | _ => []) = [(2, 7), (2, 3), (4, 4)] := by decide +kernel

end Verif.Hdb.Mem
