import Mathlib.Data.List.SplitBy
import Mathlib.Data.List.Sort
import Verif.Lemmas.SplitSelf

/-! Runs of equal vertices in a sorted list, and the two loops of package `lnr` that collect them. -/

set_option linter.unusedSectionVars false

namespace Verif

variable {P C B K : Type}

/-- equal elements of the list are next to each other -/
def Contig {α : Type} (r : α → α → Bool) (s : List α) : Prop := ∀ a b c, [a, b, c].Sublist s → r a c = true → r a b = true

/-- `r` behaves like equality -/
structure EqLike {α : Type} (r : α → α → Bool) : Prop where
  refl : ∀ a, r a a = true
  symm : ∀ a b, r a b = true → r b a = true
  trans : ∀ a b c, r a b = true → r b c = true → r a c = true

theorem EqLike.comap {α β : Type} {r : α → α → Bool} (h : EqLike r) (f : β → α) : EqLike (fun a b => r (f a) (f b)) :=
  ⟨fun _ => h.refl _, fun _ _ => h.symm _ _, fun _ _ _ => h.trans _ _ _⟩

theorem Contig.sublist {α : Type} {r : α → α → Bool} {s t : List α} (h : Contig r s) (hs : t.Sublist s) : Contig r t :=
  fun a b c habc => h a b c (habc.trans hs)

/-- in the run decomposition, elements of different runs differ -/
theorem runs_pairwise {α : Type} {r : α → α → Bool} (hr : EqLike r) : ∀ (gs : List (List α)), [] ∉ gs →
    gs.IsChain (fun a b => ∃ ha hb, r (a.getLast ha) (b.head hb) = false) → Contig r gs.flatten →
    gs.Pairwise (fun m n => ∀ x ∈ m, ∀ y ∈ n, r x y = false) := by
  intro gs
  induction gs with
  | nil => intro _ _ _; exact List.Pairwise.nil
  | cons m gs ih =>
    intro hn hc hcg
    have hn' : [] ∉ gs := fun h => hn (List.mem_cons_of_mem _ h)
    refine List.pairwise_cons.2 ⟨?_, ih hn' (hc.tail) (hcg.sublist (by rw [List.flatten_cons]; exact List.sublist_append_right _ _))⟩
    intro n hnm x hx y hy
    by_contra hxy
    simp only [Bool.not_eq_false] at hxy
    match gs, hc, hnm, hcg with
    | m2 :: gs, hc, hnm, hcg =>
      obtain ⟨ha, hb, hlh⟩ := (List.isChain_cons_cons.1 hc).1
      have hy2 : y ∈ (m2 :: gs).flatten := List.mem_flatten.2 ⟨n, hnm, hy⟩
      obtain ⟨b, m2', rfl⟩ : ∃ b m2', m2 = b :: m2' := by
        cases m2 with
        | nil => exact absurd rfl hb
        | cons b m => exact ⟨b, m, rfl⟩
      have hm : m = m.dropLast ++ [m.getLast ha] := (List.dropLast_append_getLast ha).symm
      -- the last of `m` equals `x`
      have h1 : r x (m.getLast ha) = true := by
        rw [hm] at hx
        rcases List.mem_append.1 hx with hx | hx
        · refine hcg x (m.getLast ha) y ?_ hxy
          rw [List.flatten_cons]
          have : [x, m.getLast ha].Sublist m := by
            conv => rhs; rw [hm]
            exact (List.singleton_sublist.2 hx).append (List.Sublist.refl _)
          exact this.append (List.singleton_sublist.2 hy2)
        · rw [List.mem_singleton] at hx; rw [← hx]; exact hr.refl x
      have h2 : r x b = true := by
        rw [List.flatten_cons, List.cons_append] at hy2
        rcases List.mem_cons.1 hy2 with rfl | hy2
        · exact hxy
        · refine hcg x b y ?_ hxy
          rw [List.flatten_cons, List.flatten_cons, List.cons_append]
          exact (List.singleton_sublist.2 hx).append ((List.singleton_sublist.2 hy2).cons_cons b)
      have := hr.trans _ _ _ (hr.symm _ _ h1) h2
      simp only [List.head_cons] at hlh
      rw [hlh] at this; cases this

/-- a run consists of all elements equal to one of its elements -/
theorem run_eq_filter {α : Type} {r : α → α → Bool} (hr : EqLike r) {s : List α} (hc : Contig r s) {m : List α} (hm : m ∈ s.splitBy r) {x : α} (hx : x ∈ m) :
    m = s.filter (fun y => r x y) := by
  have hp := runs_pairwise hr (s.splitBy r) (List.nil_notMem_splitBy r s) (List.isChain_getLast_head_splitBy r s)
    (by rw [List.flatten_splitBy]; exact hc)
  have hch := List.isChain_of_mem_splitBy hm
  obtain ⟨u, v, huv⟩ := List.append_of_mem hm
  have hs : s = u.flatten ++ (m ++ v.flatten) := by
    have := List.flatten_splitBy r s
    rw [huv] at this; simpa using this.symm
  rw [huv, List.pairwise_append] at hp
  obtain ⟨-, hp2, hp3⟩ := hp
  have hp4 := (List.pairwise_cons.1 hp2).1
  have hall : m.Pairwise (fun a b => r a b = true) := by
    have : Trans (fun a b => r a b = true) (fun a b => r a b = true) (fun a b => r a b = true) := ⟨fun h1 h2 => hr.trans _ _ _ h1 h2⟩
    exact List.isChain_iff_pairwise.1 hch
  rw [hs, List.filter_append, List.filter_append]
  have e1 : u.flatten.filter (fun y => r x y) = [] := by
    rw [List.filter_eq_nil_iff]
    intro y hy
    obtain ⟨n, hn, hyn⟩ := List.mem_flatten.1 hy
    have := hp3 n hn m (by simp) y hyn x hx
    intro hc'
    rw [hr.symm _ _ hc'] at this; cases this
  have e2 : v.flatten.filter (fun y => r x y) = [] := by
    rw [List.filter_eq_nil_iff]
    intro y hy
    obtain ⟨n, hn, hyn⟩ := List.mem_flatten.1 hy
    rw [hp4 n hn x hx y hyn]; simp
  have e3 : m.filter (fun y => r x y) = m := by
    rw [List.filter_eq_self]
    intro y hy
    by_cases hxy : x = y
    · rw [hxy]; exact hr.refl y
    · have hsym : Std.Symm (fun a b => r a b = true) := ⟨fun a b h => hr.symm a b h⟩
      exact hall.forall hx hy hxy
  rw [e1, e2, e3]; simp

/-! ### the loops -/

theorem splitByLoop_acc {α : Type} (r : α → α → Bool) : ∀ (l : List α) (a : α) (g : List α) (gs : List (List α)),
    List.splitBy.loop r l a g gs = gs.reverse ++ List.splitBy.loop r l a g [] := by
  intro l
  induction l with
  | nil => intro a g gs; simp [List.splitBy.loop]
  | cons b l ih =>
    intro a g gs
    simp only [List.splitBy.loop]
    split
    · rw [ih]
    · rw [ih b [] ((a :: g).reverse :: gs), ih b [] [(a :: g).reverse]]; simp

theorem splitByLoop_ne {α : Type} (r : α → α → Bool) : ∀ (l : List α) (a : α) (g : List α) , List.splitBy.loop r l a g [] ≠ [] := by
  intro l
  induction l with
  | nil => intro a g; simp [List.splitBy.loop]
  | cons b l ih =>
    intro a g
    simp only [List.splitBy.loop]
    split
    · exact ih _ _
    · rw [splitByLoop_acc]; simp

/-- what `planarIntersects` reports for a run -/
def planarReport (m : List (Vtx P)) : Option (Inter P) := m.getLast?.map (fun v => ⟨v.pt, .planarVertex, sortedIntsSet (m.map Vtx.index), []⟩)

/-- lnr/self.go:38-59: all runs of at least two vertices except the last run are reported -/
theorem planarLoop_eq (eq : P → P → Bool) : ∀ (l : List (Vtx P)) (a : Vtx P) (grp : List (Vtx P)) (d : Nat) (idx : List Int),
    (grp = [] → d = 0 ∧ idx = []) → (grp ≠ [] → d = grp.length + 1 ∧ idx = (grp.reverse ++ [a]).map Vtx.index) →
    planarLoop eq (a :: l) d idx =
      ((List.splitBy.loop (fun a b : Vtx P => eq a.pt b.pt) l a grp []).dropLast.filter (fun m => 2 ≤ m.length)).filterMap planarReport := by
  intro l
  induction l with
  | nil => intro a grp d idx _ _; simp [planarLoop, List.splitBy.loop]
  | cons b l ih =>
    intro a grp d idx h1 h2
    simp only [planarLoop, List.splitBy.loop]
    cases hab : eq a.pt b.pt with
    | true =>
      simp only [if_true]
      by_cases hg : grp = []
      · obtain ⟨rfl, rfl⟩ := h1 hg
        subst hg
        simp only [if_true]
        exact ih b [a] _ _ (by simp) (by simp)
      · obtain ⟨rfl, rfl⟩ := h2 hg
        simp only [Nat.add_one_ne_zero, if_false]
        exact ih b (a :: grp) _ _ (by simp) (by simp)
    | false =>
      simp only [Bool.false_eq_true, if_false]
      rw [splitByLoop_acc, List.reverse_singleton, List.singleton_append, List.dropLast_cons_of_ne_nil (splitByLoop_ne _ _ _ _), List.filter_cons]
      by_cases hg : grp = []
      · obtain ⟨rfl, rfl⟩ := h1 hg
        subst hg
        simp only [gt_iff_lt, Nat.not_lt_zero, if_false, List.reverse_cons, List.reverse_nil, List.nil_append, List.length_singleton,
          Nat.reduceLeDiff, decide_false, Bool.false_eq_true]
        exact ih b [] 0 [] (by simp) (by simp)
      · obtain ⟨rfl, rfl⟩ := h2 hg
        have hpos : 0 < grp.length := List.length_pos_iff.2 hg
        have hlen : 2 ≤ (a :: grp).reverse.length := by simp; omega
        rw [if_pos (by omega), if_pos (by simpa using hlen), List.filterMap_cons]
        simp only [planarReport, List.reverse_cons, List.getLast?_append, List.getLast?_singleton, Option.some_or, Option.map_some]
        congr 1
        exact ih b [] 0 [] (by simp) (by simp)

/-- lnr/fc.go:37-58: likewise -/
theorem fcLoop_eq (eq : P → P → Bool) : ∀ (l : List (Vtx P)) (a : Vtx P) (grp : List (Vtx P)) (d : Nat) (idx : List (Vtx P)),
    (grp = [] → d = 0 ∧ idx = []) → (grp ≠ [] → d = grp.length + 1 ∧ idx = grp.reverse ++ [a]) →
    fcLoop eq (a :: l) d idx =
      ((List.splitBy.loop (fun a b : Vtx P => eq a.pt b.pt) l a grp []).dropLast.filter (fun m => 2 ≤ m.length)).flatMap
        (fun m => m.map (fun v => (v.fid, v.index))) := by
  intro l
  induction l with
  | nil => intro a grp d idx _ _; simp [fcLoop, List.splitBy.loop]
  | cons b l ih =>
    intro a grp d idx h1 h2
    simp only [fcLoop, List.splitBy.loop]
    cases hab : eq a.pt b.pt with
    | true =>
      simp only [if_true]
      by_cases hg : grp = []
      · obtain ⟨rfl, rfl⟩ := h1 hg
        subst hg
        simp only [if_true]
        exact ih b [a] _ _ (by simp) (by simp)
      · obtain ⟨rfl, rfl⟩ := h2 hg
        simp only [Nat.add_one_ne_zero, if_false]
        exact ih b (a :: grp) _ _ (by simp) (by simp)
    | false =>
      simp only [Bool.false_eq_true, if_false]
      rw [splitByLoop_acc, List.reverse_singleton, List.singleton_append, List.dropLast_cons_of_ne_nil (splitByLoop_ne _ _ _ _), List.filter_cons]
      by_cases hg : grp = []
      · obtain ⟨rfl, rfl⟩ := h1 hg
        subst hg
        simp only [gt_iff_lt, Nat.not_lt_zero, if_false, List.reverse_cons, List.reverse_nil, List.nil_append, List.length_singleton,
          Nat.reduceLeDiff, decide_false, Bool.false_eq_true]
        exact ih b [] 0 [] (by simp) (by simp)
      · obtain ⟨rfl, rfl⟩ := h2 hg
        have hpos : 0 < grp.length := List.length_pos_iff.2 hg
        have hlen : 2 ≤ (a :: grp).reverse.length := by simp; omega
        rw [if_pos (by omega), if_pos (by simpa using hlen), List.flatMap_cons]
        simp only [List.reverse_cons]
        congr 1
        exact ih b [] 0 [] (by simp) (by simp)

theorem planarLoop_runs (eq : P → P → Bool) (s : List (Vtx P)) : planarLoop eq s 0 [] =
    ((s.splitBy (fun a b => eq a.pt b.pt)).dropLast.filter (fun m => 2 ≤ m.length)).filterMap planarReport := by
  cases s with
  | nil => simp [planarLoop, List.splitBy]
  | cons a l => exact planarLoop_eq eq l a [] 0 [] (by simp) (by simp)

theorem fcLoop_runs (eq : P → P → Bool) (s : List (Vtx P)) : fcLoop eq s 0 [] =
    ((s.splitBy (fun a b => eq a.pt b.pt)).dropLast.filter (fun m => 2 ≤ m.length)).flatMap (fun m => m.map (fun v => (v.fid, v.index))) := by
  cases s with
  | nil => simp [fcLoop, List.splitBy]
  | cons a l => exact fcLoop_eq eq l a [] 0 [] (by simp) (by simp)

/-- the runs before the last one: those not equal to the last element -/
theorem mem_dropLast_runs {α : Type} {r : α → α → Bool} (hr : EqLike r) {s : List α} (hc : Contig r s) {top : α} (ht : s.getLast? = some top) (m : List α) :
    m ∈ (s.splitBy r).dropLast ↔ ∃ x ∈ s, m = s.filter (fun y => r x y) ∧ r x top = false := by
  have hne : s ≠ [] := by rintro rfl; cases ht
  have hgne : s.splitBy r ≠ [] := List.splitBy_ne_nil.2 hne
  have hp := runs_pairwise hr (s.splitBy r) (List.nil_notMem_splitBy r s) (List.isChain_getLast_head_splitBy r s)
    (by rw [List.flatten_splitBy]; exact hc)
  have hlast := List.getLast_getLast_splitBy r hne
  have htop : s.getLast hne = top := by
    rw [List.getLast?_eq_some_getLast hne] at ht; exact Option.some.inj ht
  have htm : top ∈ (s.splitBy r).getLast hgne := by
    rw [← htop, ← hlast]; exact List.getLast_mem _
  have hd : s.splitBy r = (s.splitBy r).dropLast ++ [(s.splitBy r).getLast hgne] := (List.dropLast_append_getLast hgne).symm
  constructor
  · intro hm
    have hm' : m ∈ s.splitBy r := (List.dropLast_sublist _).subset hm
    obtain ⟨x, hx⟩ := List.exists_mem_of_ne_nil m (List.ne_nil_of_mem_splitBy hm')
    refine ⟨x, ?_, run_eq_filter hr hc hm' hx, ?_⟩
    · rw [← List.flatten_splitBy r s]; exact List.mem_flatten.2 ⟨m, hm', hx⟩
    · rw [hd, List.pairwise_append] at hp
      exact hp.2.2 m hm _ (by simp) x hx top htm
  · rintro ⟨x, hx, rfl, hxt⟩
    rw [← List.flatten_splitBy r s] at hx
    obtain ⟨n, hn, hxn⟩ := List.mem_flatten.1 hx
    rw [← run_eq_filter hr hc hn hxn]
    rw [hd] at hn
    rcases List.mem_append.1 hn with hn | hn
    · exact hn
    · rw [List.mem_singleton] at hn
      have hn' : n ∈ s.splitBy r := by rw [hn]; exact List.getLast_mem _
      have h1 := run_eq_filter hr hc hn' hxn
      have h2 : top ∈ n := hn ▸ htm
      rw [h1] at h2
      have := (List.mem_filter.1 h2).2
      rw [hxt] at this; cases this

end Verif
