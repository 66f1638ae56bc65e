import Verif.Spec.Refine
import Verif.Spec.Chain

/-! Specification vocabulary: the merge pass over the segments of one line, left to right. -/

namespace Verif

/-- `MergeSpec fixed ok done todo out`: the segments `done` lie before the segments `todo`, which are treated from left to right; `out` are the segments in the end.
A single segment of the line is joined with the next segment if the vertex between them is not fixed and the union is `ok`; otherwise with the one before it, under the
same conditions; otherwise it stays.  Other segments stay, and so do the unions. -/
inductive MergeSpec (fixed : Int → Prop) (ok : Int → Int → Prop) : List Rng → List Rng → List Rng → Prop
  | done (d : List Rng) : MergeSpec fixed ok d [] d
  | keep {d rs out : List Rng} (r : Rng) (h : r.J = r.I + 1 → (∀ n ∈ rs.head?, ¬ fixed r.J → ¬ ok r.I n.J) ∧ ∀ p ∈ d.getLast?, ¬ fixed r.I → ¬ ok p.I r.J)
      (t : MergeSpec fixed ok (d ++ [r]) rs out) : MergeSpec fixed ok d (r :: rs) out
  | next {d rs out : List Rng} (r n : Rng) (h : r.J = r.I + 1) (hf : ¬ fixed r.J) (hn : ok r.I n.J)
      (t : MergeSpec fixed ok (d ++ [⟨r.I, n.J⟩]) rs out) : MergeSpec fixed ok d (r :: n :: rs) out
  | prev {d rs out : List Rng} (p r : Rng) (h : r.J = r.I + 1) (hn : ∀ n ∈ rs.head?, ¬ fixed r.J → ¬ ok r.I n.J) (hf : ¬ fixed r.I) (hp : ok p.I r.J)
      (t : MergeSpec fixed ok (d ++ [⟨p.I, r.J⟩]) rs out) : MergeSpec fixed ok (d ++ [p]) (r :: rs) out

/-- the pass is a function -/
theorem MergeSpec.unique {fixed : Int → Prop} {ok : Int → Int → Prop} {d rs out out' : List Rng} (h : MergeSpec fixed ok d rs out) (h' : MergeSpec fixed ok d rs out') :
    out = out' := by
  induction h generalizing out' with
  | done d => cases h'; rfl
  | keep r h t ih =>
    cases h' with
    | keep _ h' t' => exact ih t'
    | next _ n h1 hf hn t' => exact absurd hn ((h h1).1 n (by simp) hf)
    | prev p _ h1 hn hf hp t' => exact absurd hp ((h h1).2 p (by simp) hf)
  | next r n h hf hn t ih =>
    cases h' with
    | keep _ h' t' => exact absurd hn ((h' h).1 n (by simp) hf)
    | next _ _ _ _ _ t' => exact ih t'
    | prev p _ _ hn' hf' hp t' => exact absurd hn (hn' n (by simp) hf)
  | @prev d rs out p r h hn hf hp t ih =>
    generalize hd : d ++ [p] = d0 at h'
    cases h' with
    | keep _ h' t' => subst hd; exact absurd hp ((h' h).2 p (by simp) hf)
    | next _ n _ hf' hn' t' => exact absurd hn' (hn n (by simp) hf')
    | @prev d' _ _ p' _ _ _ _ _ t' =>
      obtain ⟨rfl, hpp⟩ := List.append_inj' hd rfl
      cases hpp
      exact ih t'

end Verif
