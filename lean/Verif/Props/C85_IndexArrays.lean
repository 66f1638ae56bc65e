import Verif.Model.IdxMem

/-! C85: the index lists of the pieces share arrays, and no piece ever changes another one. -/

namespace Verif.Idx

/-- What the run has made so far.  `done`: the finished slices, each with the list it stands for in the model of values.  `jobs`: the calls going on, by goroutine, each with
the list it is to make. -/
structure Sys where
  heap : Heap
  done : List (Slice × List Int)
  jobs : Nat → Option (Job × List Int)

/-- goroutine `t` gets a new state -/
def Sys.put (S : Sys) (t : Nat) (o : Option (Job × List Int)) : Nat → Option (Job × List Int) := fun u => if u = t then o else S.jobs u

/-- One step of the run: some idle goroutine begins a call, with arguments finished before, or some goroutine makes a step.  The list to be made is that of the model of
values: `Coords.sub`, `Coords.slice`, and the joining of merge/merge.go:39-52. -/
inductive Step (grow : Nat → Nat → Nat) : Sys → Sys → Prop
  | sub (S : Sys) (t : Nat) (ht : S.jobs t = none) (i j : Int) (hij : i ≤ j + 1) :
    Step grow S { S with jobs := S.put t (some (.start i j, (Coords.sub (P := Unit) [] i j).idxs)) }
  | slice (S : Sys) (t : Nat) (ht : S.jobs t = none) (p : Slice) (v : List Int) (hp : (p, v) ∈ S.done) (i j : Int) (c : Coords Unit)
    (hc : Coords.slice ⟨[], v⟩ i j = .ok c) : Step grow S { S with jobs := S.put t (some (.slice p i j, c.idxs)) }
  | join (S : Sys) (t : Nat) (ht : S.jobs t = none) (a b : Slice) (v w : List Int) (ha : (a, v) ∈ S.done) (hb : (b, w) ∈ S.done) (hv : v ≠ []) :
    Step grow S { S with jobs := S.put t (some (.join a b, v.dropLast ++ w)) }
  | run (S : Sys) (t : Nat) (x : Job) (v : List Int) (ht : S.jobs t = some (x, v)) (h' : Heap) (y : Job) (hs : x.step grow S.heap = .ok (h', .inl y)) :
    Step grow S { heap := h', done := S.done, jobs := S.put t (some (y, v)) }
  | finish (S : Sys) (t : Nat) (x : Job) (v : List Int) (ht : S.jobs t = some (x, v)) (h' : Heap) (s : Slice) (hs : x.step grow S.heap = .ok (h', .inr s)) :
    Step grow S { heap := h', done := S.done ++ [(s, v)], jobs := S.put t none }

/-- the states of all runs, in any order of the goroutines -/
inductive Reach (grow : Nat → Nat → Nat) : Sys → Prop
  | init : Reach grow ⟨⟨fun _ => [], 0⟩, [], fun _ => none⟩
  | step {S S' : Sys} : Reach grow S → Step grow S S' → Reach grow S'

/-! ### the invariant -/

structure Good (h : Heap) (s : Slice) (v : List Int) : Prop where
  arr : s.arr < h.next
  fits : s.off + s.cap ≤ (h.arrays s.arr).length
  le : s.len ≤ s.cap
  reads : read h s = v

theorem Good.len {h : Heap} {s : Slice} {v : List Int} (g : Good h s v) : s.len = v.length := by
  have h1 := g.fits; have h2 := g.le
  rw [← g.reads]
  simp only [read, List.length_take, List.length_drop]
  omega

/-- the array a call is writing to -/
def Job.own : Job → Option Nat
  | .fill s _ _ => some s.arr
  | _ => none

/-- a call going on is in order -/
def JobOk (h : Heap) (done : List (Slice × List Int)) : Job → List Int → Prop
  | .start i j, v => i ≤ j + 1 ∧ v = rangeInts i j
  | .fill s i j, v => ∃ i₀, v = rangeInts i₀ j ∧ i₀ ≤ i ∧ i ≤ j + 1 ∧ Good h s (rangeInts i₀ (i - 1)) ∧ s.off = 0 ∧ s.cap = (j - i₀ + 1).toNat ∧
      (∀ q ∈ done, q.1.arr ≠ s.arr)
  | .slice p i j, v => ∃ w c, (p, w) ∈ done ∧ Coords.slice (P := Unit) ⟨[], w⟩ i j = .ok c ∧ v = c.idxs
  | .join a b, v => ∃ w u, (a, w) ∈ done ∧ (b, u) ∈ done ∧ w ≠ [] ∧ v = w.dropLast ++ u

structure Inv (S : Sys) : Prop where
  done : ∀ q ∈ S.done, Good S.heap q.1 q.2
  jobs : ∀ t x v, S.jobs t = some (x, v) → JobOk S.heap S.done x v
  apart : ∀ t t' x v x' v', S.jobs t = some (x, v) → S.jobs t' = some (x', v') → t ≠ t' → ∀ a, x.own = some a → x'.own ≠ some a

theorem Good.frame {h h' : Heap} {s : Slice} {v : List Int} (g : Good h s v) (hn : h.next ≤ h'.next) (ha : h'.arrays s.arr = h.arrays s.arr) : Good h' s v :=
  ⟨Nat.lt_of_lt_of_le g.arr hn, by rw [ha]; exact g.fits, g.le, by rw [← g.reads]; simp only [read, ha]⟩

theorem rangeInts_snoc (i j : Int) (h : i ≤ j) : rangeInts i j = rangeInts i (j - 1) ++ [j] := by
  unfold rangeInts
  rw [show (j + 1 - i).toNat = (j - 1 + 1 - i).toNat + 1 by omega, List.range_succ, List.map_append]
  congr 1
  simp only [List.map_cons, List.map_nil, List.cons.injEq, and_true]
  omega

theorem rangeInts_length (i j : Int) : (rangeInts i j).length = (j + 1 - i).toNat := by simp [rangeInts]

/-- a step writes only to the array of its own call, and to new ones -/
theorem step_frame {grow : Nat → Nat → Nat} {h h' : Heap} {done : List (Slice × List Int)} {x : Job} {v : List Int} {r : Job ⊕ Slice} (hx : JobOk h done x v)
    (hs : x.step grow h = .ok (h', r)) : h.next ≤ h'.next ∧ ∀ a < h.next, x.own ≠ some a → h'.arrays a = h.arrays a := by
  cases x with
  | start i j =>
    simp only [Job.step] at hs
    split at hs
    · cases hs
    · simp only [alloc, Res.ok.injEq, Prod.mk.injEq] at hs
      obtain ⟨rfl, -⟩ := hs
      exact ⟨by simp, fun a ha _ => by simp [Nat.ne_of_lt ha]⟩
  | fill s i j =>
    obtain ⟨i₀, -, h0, h1, g, hoff, hcap, -⟩ := hx
    simp only [Job.step] at hs
    split at hs
    · simp only [Res.ok.injEq, Prod.mk.injEq] at hs
      obtain ⟨rfl, -⟩ := hs
      have hl := g.len
      rw [rangeInts_length] at hl
      rw [append, if_pos (by simp only [List.length_singleton]; omega)]
      refine ⟨Nat.le_refl _, fun a _ hown => ?_⟩
      simp only [setArr]
      rw [if_neg (fun he => hown (by rw [he]; rfl))]
    · simp only [Res.ok.injEq, Prod.mk.injEq] at hs
      obtain ⟨rfl, -⟩ := hs
      exact ⟨Nat.le_refl _, fun _ _ _ => rfl⟩
  | slice p i j =>
    obtain ⟨s, -, hs⟩ := Res.bind_eq_ok.1 hs
    simp only [Res.pure_eq, Res.ok.injEq, Prod.mk.injEq] at hs
    obtain ⟨rfl, -⟩ := hs
    exact ⟨Nat.le_refl _, fun _ _ _ => rfl⟩
  | join a b =>
    obtain ⟨s, hc, hs⟩ := Res.bind_eq_ok.1 hs
    simp only [Res.pure_eq, Res.ok.injEq, Prod.mk.injEq] at hs
    obtain ⟨rfl, -⟩ := hs
    simp only [cut3] at hc
    split at hc
    · injection hc with hc
      rw [append]
      split
      · rename_i hfit
        subst hc
        simp only at hfit
        have : (read h b) = [] := List.length_eq_zero_iff.1 (by omega)
        refine ⟨Nat.le_refl _, fun a' _ _ => ?_⟩
        simp only [setArr, this, overwrite, List.append_nil, List.length_nil, Nat.add_zero, List.take_append_drop]
        split
        · rename_i he; rw [he]
        · rfl
      · exact ⟨by simp [alloc], fun a ha _ => by simp [alloc, Nat.ne_of_lt ha]⟩
    · cases hc

theorem read_cut {h : Heap} {p : Slice} {w : List Int} (g : Good h p w) (i n k : Nat) (hn : i + n ≤ w.length) :
    read h ⟨p.arr, p.off + i, n, k⟩ = (w.drop i).take n := by
  have hl := g.len
  have hr := g.reads
  rw [← hr] at hn ⊢
  simp only [read, List.length_take, List.length_drop] at hn ⊢
  rw [List.drop_take, List.drop_drop, List.take_take]
  congr 1
  omega

/-- a step of a call in order does not panic, and makes what it is to make -/
theorem step_ok {grow : Nat → Nat → Nat} {h : Heap} {done : List (Slice × List Int)} {x : Job} {v : List Int} (hd : ∀ q ∈ done, Good h q.1 q.2) (hx : JobOk h done x v) :
    ∃ h' r, x.step grow h = .ok (h', r) ∧
      (∀ y, r = .inl y → JobOk h' done y v ∧ ∀ a, y.own = some a → x.own = some a ∨ h.next ≤ a) ∧
      (∀ s, r = .inr s → Good h' s v ∧ (x.own = some s.arr ∨ h.next ≤ s.arr ∨ ∃ q ∈ done, q.1.arr = s.arr)) := by
  cases x with
  | start i j =>
    obtain ⟨hij, rfl⟩ := hx
    refine ⟨_, _, by simp only [Job.step]; rw [if_neg (by omega)], ?_, by simp⟩
    rintro y hy
    injection hy with hy
    subst hy
    refine ⟨⟨i, rfl, Int.le_refl _, hij, ⟨by simp [alloc], by simp [alloc], Nat.zero_le _, ?_⟩, rfl, rfl, fun q hq => ?_⟩, ?_⟩
    · rw [show rangeInts i (i - 1) = [] from List.length_eq_zero_iff.1 (by rw [rangeInts_length]; omega)]
      simp [read]
    · simp only [alloc]; exact Nat.ne_of_lt (hd q hq).arr
    · rintro a ha
      simp only [Job.own, alloc, Option.some.injEq] at ha
      subst ha
      exact Or.inr (Nat.le_refl _)
  | fill s i j =>
    obtain ⟨i₀, rfl, h0, h1, g, hoff, hcap, hfree⟩ := hx
    have hl := g.len
    rw [rangeInts_length] at hl
    by_cases hij : i ≤ j
    · refine ⟨_, _, by simp only [Job.step]; rw [if_pos hij], ?_, by simp⟩
      rintro y hy
      injection hy with hy
      subst hy
      have hfit : s.len + [i].length ≤ s.cap := by simp only [List.length_singleton]; omega
      rw [append, if_pos hfit]
      refine ⟨⟨i₀, rfl, by omega, by omega, ⟨g.arr, ?_, hfit, ?_⟩, hoff, hcap, hfree⟩, fun a ha => Or.inl ha⟩
      · have := g.fits
        have := g.le
        simp only [setArr, if_true, overwrite, List.length_append, List.length_take, List.length_drop, List.length_singleton]
        simp only [List.length_singleton] at hfit
        omega
      · have hr := g.reads
        have hf := g.fits
        simp only [read, hoff, List.drop_zero] at hr
        simp only [List.length_singleton] at hfit
        rw [show i + 1 - 1 = i by omega, rangeInts_snoc i₀ i h0, ← hr]
        simp only [read, setArr, if_true, hoff, List.drop_zero, Nat.zero_add, overwrite, List.length_singleton]
        rw [List.take_append_of_le_length (by simp; omega), List.take_of_length_le (by simp)]
    · refine ⟨_, _, by simp only [Job.step]; rw [if_neg hij], by simp, ?_⟩
      rintro s' hs
      injection hs with hs
      subst hs
      have : i - 1 = j := by omega
      rw [this] at g
      exact ⟨g, Or.inl rfl⟩
  | slice p i j =>
    obtain ⟨w, c, hp, hc, rfl⟩ := hx
    have g := hd _ hp
    have hl := g.len
    have hle := g.le
    unfold Coords.slice at hc
    have hlen : (⟨[], w⟩ : Coords Unit).len = (w.length : Int) := rfl
    rw [hlen] at hc
    by_cases hb : 0 ≤ i ∧ i ≤ j ∧ j ≤ (w.length : Int)
    · rw [if_pos hb] at hc
      injection hc with hc
      subst hc
      simp only at hl
      have hcut : cut p i j = .ok ⟨p.arr, p.off + i.toNat, (j - i).toNat, (p.cap - i).toNat⟩ := by
        rw [cut, cut3, if_pos (by simp only at hle; omega)]
      refine ⟨_, _, by simp only [Job.step, hcut, Res.ok_bind]; rfl, by simp, ?_⟩
      rintro s hs
      injection hs with hs
      subst hs
      refine ⟨⟨g.arr, ?_, ?_, read_cut g _ _ _ (by simp only; omega)⟩, Or.inr (Or.inr ⟨_, hp, rfl⟩)⟩
      · have := g.fits
        have hb' : 0 ≤ i ∧ i ≤ j ∧ j ≤ (w.length : Int) := hb
        simp only at this hle ⊢
        omega
      · simp only at hle ⊢
        omega
    · rw [if_neg hb] at hc; cases hc
  | join a b =>
    obtain ⟨w, u, ha, hb, hw, rfl⟩ := hx
    have g := hd _ ha
    have g2 := hd _ hb
    have hl := g.len
    have hle := g.le
    have hf := g.fits
    have hw' : 0 < w.length := List.length_pos_iff.2 hw
    simp only at hl hle hf
    have hcut : cut3 a 0 (a.len - 1) (a.len - 1) = .ok ⟨a.arr, a.off + 0, a.len - 1, a.len - 1⟩ := by
      rw [cut3, if_pos (by omega)]
      simp only [Int.toNat_zero, Int.sub_zero, Nat.add_zero, Res.ok.injEq, Slice.mk.injEq, true_and]
      omega
    have hcutread : read h ⟨a.arr, a.off + 0, a.len - 1, a.len - 1⟩ = w.dropLast := by
      rw [read_cut g 0 (a.len - 1) _ (by simp only; omega), List.drop_zero, List.dropLast_eq_take, hl]
    have hu := g2.reads
    simp only at hu
    refine ⟨_, _, by simp only [Job.step, hcut, Res.ok_bind]; rfl, by simp, ?_⟩
    rintro s hs
    injection hs with hs
    subst hs
    rw [append, hu]
    split
    · rename_i hfit
      simp only at hfit
      have hnil : u = [] := List.length_eq_zero_iff.1 (by omega)
      subst hnil
      simp only [List.append_nil, List.length_nil, Nat.add_zero]
      have harr : ∀ k, setArr h a.arr (overwrite (h.arrays a.arr) k []) = h := by
        intro k
        simp only [setArr, overwrite, List.append_nil, List.length_nil, Nat.add_zero, List.take_append_drop]
        cases h
        simp only [Heap.mk.injEq, and_true]
        funext b
        split
        · rename_i he; rw [he]
        · rfl
      rw [harr]
      refine ⟨⟨g.arr, by simp only; omega, by simp only; omega, ?_⟩, Or.inr (Or.inr ⟨_, ha, rfl⟩)⟩
      simpa using hcutread
    · refine ⟨⟨by simp [alloc], ?_, by simp only; omega, ?_⟩, Or.inr (Or.inl (by simp [alloc]))⟩
      · simp only [alloc, if_true, hcutread, List.length_append, List.length_dropLast, List.length_replicate]
        omega
      · simp only [read, alloc, if_true, List.drop_zero]
        rw [show List.take (a.len - 1) (List.drop (a.off + 0) (h.arrays a.arr)) = w.dropLast from hcutread]
        rw [List.take_append_of_le_length (by simp only [List.length_append, List.length_dropLast]; omega),
          List.take_of_length_le (by simp only [List.length_append, List.length_dropLast]; omega)]

theorem JobOk.frame {h h' : Heap} {done done' : List (Slice × List Int)} {x : Job} {v : List Int} (hx : JobOk h done x v) (hn : h.next ≤ h'.next)
    (ha : ∀ a, x.own = some a → h'.arrays a = h.arrays a) (hsub : ∀ q ∈ done, q ∈ done') (hnew : ∀ q ∈ done', q ∈ done ∨ ∀ a, x.own = some a → q.1.arr ≠ a) :
    JobOk h' done' x v := by
  cases x with
  | start i j => exact hx
  | fill s i j =>
    obtain ⟨i₀, h1, h2, h3, g, h4, h5, h6⟩ := hx
    exact ⟨i₀, h1, h2, h3, g.frame hn (ha _ rfl), h4, h5, fun q hq => (hnew q hq).elim (h6 q) (fun h => h _ rfl)⟩
  | slice p i j => obtain ⟨w, c, h1, h2, h3⟩ := hx; exact ⟨w, c, hsub _ h1, h2, h3⟩
  | join a b => obtain ⟨w, u, h1, h2, h3⟩ := hx; exact ⟨w, u, hsub _ h1, hsub _ h2, h3⟩

theorem JobOk.own_lt {h : Heap} {done : List (Slice × List Int)} {x : Job} {v : List Int} (hx : JobOk h done x v) {a : Nat} (ha : x.own = some a) :
    a < h.next ∧ ∀ q ∈ done, q.1.arr ≠ a := by
  cases x with
  | fill s i j =>
    obtain ⟨i₀, _, _, _, g, _, _, hf⟩ := hx
    simp only [Job.own, Option.some.injEq] at ha
    subst ha
    exact ⟨g.arr, hf⟩
  | _ => cases ha

theorem inv_step {grow : Nat → Nat → Nat} {S S' : Sys} (hS : Inv S) (hs : Step grow S S') :
    Inv S' ∧ ∀ q ∈ S.done, q ∈ S'.done ∧ S'.heap.arrays q.1.arr = S.heap.arrays q.1.arr := by
  have spawn : ∀ (t : Nat) (x : Job) (v : List Int), x.own = none → JobOk S.heap S.done x v → Inv { S with jobs := S.put t (some (x, v)) } := by
    intro t x v hown hx
    refine ⟨hS.done, fun u y w hu => ?_, fun u u' y w y' w' hu hu' hne a ha => ?_⟩
    · simp only [Sys.put] at hu
      split at hu
      · cases hu; exact hx
      · exact hS.jobs u y w hu
    · simp only [Sys.put] at hu hu'
      split at hu
      · cases hu; rw [hown] at ha; cases ha
      · split at hu'
        · cases hu'; rw [hown]; exact fun h => by cases h
        · exact hS.apart u u' y w y' w' hu hu' hne a ha
  cases hs with
  | sub t ht i j hij => exact ⟨spawn t _ _ rfl ⟨hij, rfl⟩, fun q hq => ⟨hq, rfl⟩⟩
  | slice t ht p v hp i j c hc => exact ⟨spawn t _ _ rfl ⟨v, c, hp, hc, rfl⟩, fun q hq => ⟨hq, rfl⟩⟩
  | join t ht a b v w ha hb hv => exact ⟨spawn t _ _ rfl ⟨v, w, ha, hb, hv, rfl⟩, fun q hq => ⟨hq, rfl⟩⟩
  | run t x v ht h' y hs =>
    have hx := hS.jobs t x v ht
    obtain ⟨hn, hfr⟩ := step_frame hx hs
    obtain ⟨h2, r, hs2, hy, -⟩ := step_ok (grow := grow) hS.done hx
    rw [hs] at hs2
    simp only [Res.ok.injEq, Prod.mk.injEq] at hs2
    obtain ⟨rfl, rfl⟩ := hs2
    obtain ⟨hy, hyown⟩ := hy y rfl
    have hdone : ∀ q ∈ S.done, h'.arrays q.1.arr = S.heap.arrays q.1.arr := fun q hq =>
      hfr _ (hS.done q hq).arr (fun ho => (hx.own_lt ho).2 q hq rfl)
    have other : ∀ u z w, u ≠ t → S.jobs u = some (z, w) → ∀ a, z.own = some a → h'.arrays a = S.heap.arrays a := fun u z w hu hj a ha =>
      hfr a ((hS.jobs u z w hj).own_lt ha).1 (hS.apart u t z w x v hj ht hu a ha)
    refine ⟨⟨fun q hq => (hS.done q hq).frame hn (hdone q hq), fun u z w hu => ?_, fun u u' z w z' w' hu hu' hne a ha => ?_⟩, fun q hq => ⟨hq, hdone q hq⟩⟩
    · simp only [Sys.put] at hu
      split at hu
      · cases hu; exact hy
      · rename_i hne
        exact (hS.jobs u z w hu).frame hn (other u z w hne hu) (fun q hq => hq) (fun q hq => Or.inl hq)
    · simp only [Sys.put] at hu hu'
      split at hu
      · cases hu
        split at hu'
        · rename_i h1 h2; exact absurd (h1.trans h2.symm) hne
        · intro ha'
          rcases hyown a ha with h | h
          · exact hS.apart t u' x _ z' w' ht hu' (by rename_i h1 h2; exact fun h => h2 h.symm) a h ha'
          · exact absurd ((hS.jobs u' z' w' hu').own_lt ha').1 (Nat.not_lt.2 h)
      · split at hu'
        · cases hu'
          intro ha'
          rcases hyown a ha' with h | h
          · exact hS.apart u t z w x _ hu ht (by assumption) a ha h
          · exact absurd ((hS.jobs u z w hu).own_lt ha).1 (Nat.not_lt.2 h)
        · exact hS.apart u u' z w z' w' hu hu' hne a ha
  | finish t x v ht h' s hs =>
    have hx := hS.jobs t x v ht
    obtain ⟨hn, hfr⟩ := step_frame hx hs
    obtain ⟨h2, r, hs2, -, hy⟩ := step_ok (grow := grow) hS.done hx
    rw [hs] at hs2
    simp only [Res.ok.injEq, Prod.mk.injEq] at hs2
    obtain ⟨rfl, rfl⟩ := hs2
    obtain ⟨hy, hown⟩ := hy s rfl
    have hdone : ∀ q ∈ S.done, h'.arrays q.1.arr = S.heap.arrays q.1.arr := fun q hq =>
      hfr _ (hS.done q hq).arr (fun ho => (hx.own_lt ho).2 q hq rfl)
    refine ⟨⟨fun q hq => ?_, fun u z w hu => ?_, fun u u' z w z' w' hu hu' hne a ha => ?_⟩, fun q hq => ⟨List.mem_append_left _ hq, hdone q hq⟩⟩
    · rcases List.mem_append.1 hq with hq | hq
      · exact (hS.done q hq).frame hn (hdone q hq)
      · simp only [List.mem_singleton] at hq; subst hq; exact hy
    · simp only [Sys.put] at hu
      split at hu
      · cases hu
      · rename_i hne
        have hz := hS.jobs u z w hu
        refine hz.frame hn (fun a ha => hfr a (hz.own_lt ha).1 (hS.apart u t z w x v hu ht hne a ha)) (fun q hq => List.mem_append_left _ hq) (fun q hq => ?_)
        rcases List.mem_append.1 hq with hq | hq
        · exact Or.inl hq
        · refine Or.inr fun a ha => ?_
          simp only [List.mem_singleton] at hq
          subst hq
          rintro rfl
          rcases hown with h | h | ⟨q, hq, h⟩
          · exact hS.apart u t z w x v hu ht hne _ ha h
          · exact absurd (hz.own_lt ha).1 (Nat.not_lt.2 h)
          · exact (hz.own_lt ha).2 q hq h
    · simp only [Sys.put] at hu hu'
      split at hu
      · cases hu
      · split at hu'
        · cases hu'
        · exact hS.apart u u' z w z' w' hu hu' hne a ha

theorem inv_reach {grow : Nat → Nat → Nat} {S : Sys} (h : Reach grow S) : Inv S := by
  induction h with
  | init => exact ⟨fun q hq => by simp at hq, fun t x v h => by simp at h, fun t t' x v x' v' h => by simp at h⟩
  | step _ hs ih => exact (inv_step ih hs).1

/-! ### the theorems -/

/-- **C85, what a piece reads**: at any time of any run, with the goroutines in any order and any growth of slices, every index list that was finished reads as the list
the model of values gives. -/
theorem C85_reads (grow : Nat → Nat → Nat) (S : Sys) (h : Reach grow S) (s : Slice) (v : List Int) (hs : (s, v) ∈ S.done) : read S.heap s = v :=
  ((inv_reach h).done _ hs).reads

/-- **C85, nothing is overwritten**: no step of any goroutine writes to an array that a finished index list uses, not even behind its end; so the goroutines that read it
need no lock. -/
theorem C85_unwritten (grow : Nat → Nat → Nat) (S S' : Sys) (h : Reach grow S) (hs : Step grow S S') (s : Slice) (v : List Int) (hd : (s, v) ∈ S.done) :
    (s, v) ∈ S'.done ∧ S'.heap.arrays s.arr = S.heap.arrays s.arr := (inv_step (inv_reach h) hs).2 _ hd

/-- **C85, no call fails**: whenever the model of values returns, the call on the stored slices makes its next step and does not panic. -/
theorem C85_no_panic (grow : Nat → Nat → Nat) (S : Sys) (h : Reach grow S) (t : Nat) (x : Job) (v : List Int) (ht : S.jobs t = some (x, v)) :
    ∃ S', Step grow S S' ∧ ∃ h' r, x.step grow S.heap = .ok (h', r) ∧ S'.heap = h' := by
  obtain ⟨h', r, hs, -⟩ := step_ok (grow := grow) (inv_reach h).done ((inv_reach h).jobs t x v ht)
  cases r with
  | inl y => exact ⟨_, .run S t x v ht h' y hs, h', _, hs, rfl⟩
  | inr s => exact ⟨_, .finish S t x v ht h' s hs, h', _, hs, rfl⟩

/-- **C85, two goroutines never write to the same array**: the arrays being filled are different from each other and from those of finished lists. -/
theorem C85_apart (grow : Nat → Nat → Nat) (S : Sys) (h : Reach grow S) (t : Nat) (s : Slice) (i j : Int) (v : List Int) (ht : S.jobs t = some (.fill s i j, v)) :
    (∀ q ∈ S.done, q.1.arr ≠ s.arr) ∧
    ∀ t' s' i' j' v', S.jobs t' = some (.fill s' i' j', v') → t' ≠ t → s'.arr ≠ s.arr := by
  refine ⟨((inv_reach h).jobs t _ v ht).own_lt rfl |>.2, fun t' s' i' j' v' ht' hne he => ?_⟩
  exact (inv_reach h).apart t' t _ v' _ v ht' ht hne s'.arr rfl (by rw [he]; rfl)

/-- the lists are those of the model of values: merging two pieces -/
theorem C85_merge_list {P C B : Type} (ha hb : Node P C B) (c : Coords P) (h : contiguousCoordinates ha hb = .ok c) :
    (ha.coords.idxs ≠ [] ∧ c.idxs = ha.coords.idxs.dropLast ++ hb.coords.idxs) ∨ (hb.coords.idxs ≠ [] ∧ c.idxs = hb.coords.idxs.dropLast ++ ha.coords.idxs) := by
  unfold contiguousCoordinates at h
  split at h
  · cases h
  · by_cases hc : hb.range.I < ha.range.J ∧ hb.range.J = ha.range.I
    · rw [if_pos hc] at h
      by_cases h0 : hb.coords.idxs = []
      · simp [h0] at h
      · simp only [h0, if_false, Res.ok.injEq] at h; subst h; exact Or.inr ⟨h0, rfl⟩
    · rw [if_neg hc] at h
      by_cases h0 : ha.coords.idxs = []
      · simp [h0] at h
      · simp only [h0, if_false, Res.ok.injEq] at h; subst h; exact Or.inl ⟨h0, rfl⟩

/-- merge/merge.go:50 without the third index, `append(Idxs[:n], ...)` -/
def joinUnlimited (grow : Nat → Nat → Nat) (h : Heap) (a b : Slice) : Res (Heap × Slice) := do
  let n : Int := a.len - 1
  return append grow h (← cut a 0 n) (read h b)

/-- one array with the list 0, 1, 2, 3, and one with 1, 9 -/
def demoHeap : Heap := ⟨fun a => if a = 0 then [0, 1, 2, 3] else if a = 1 then [1, 9] else [], 2⟩

/-- case: the third index is needed.  The piece 0, 1 is the first half of 0, 1, 2, 3; joined with 1, 9 as in the code the array is left as it is, without the third index the
other half reads 9, 3. -/
example : read demoHeap ⟨0, 0, 2, 4⟩ = [0, 1] ∧ read demoHeap ⟨0, 2, 2, 2⟩ = [2, 3] ∧
    (∃ h s, Job.step (fun c _ => 2 * c) demoHeap (.join ⟨0, 0, 2, 4⟩ ⟨1, 0, 2, 2⟩) = .ok (h, .inr s) ∧ read h s = [0, 1, 9] ∧ read h ⟨0, 2, 2, 2⟩ = [2, 3]) ∧
    (∃ h s, joinUnlimited (fun c _ => 2 * c) demoHeap ⟨0, 0, 2, 4⟩ ⟨1, 0, 2, 2⟩ = .ok (h, s) ∧ read h s = [0, 1, 9] ∧ read h ⟨0, 2, 2, 2⟩ = [9, 3]) :=
  ⟨by decide, by decide, ⟨_, _, rfl, by decide, by decide⟩, ⟨_, _, rfl, by decide, by decide⟩⟩

/-- case: a run of two goroutines that reaches a finished list -/
example : ∃ S, Reach (fun c _ => 2 * c) S ∧ (∃ s, (s, [(5 : Int)]) ∈ S.done) ∧ S.jobs 1 = some (.fill ⟨1, 0, 0, 8⟩ 0 7, rangeInts 0 7) := by
  refine ⟨_, Reach.step (.step (.step (.step (.step (.step .init (.sub _ 0 rfl 5 5 (by decide))) (.sub _ 1 rfl 0 7 (by decide))) (.run _ 0 (.start 5 5) _ rfl _ _ rfl))
    (.run _ 1 (.start 0 7) _ rfl _ _ rfl)) (.run _ 0 (.fill ⟨0, 0, 0, 1⟩ 5 5) _ rfl _ _ rfl)) (.finish _ 0 (.fill ⟨0, 0, 1, 1⟩ 6 5) _ rfl _ _ rfl), ⟨⟨0, 0, 1, 1⟩, ?_⟩, rfl⟩
  exact List.mem_append_right _ (List.mem_singleton.2 rfl)

end Verif.Idx
