import Mathlib.Data.List.Basic

/-! Pulling a line tight: go along the line again and again and leave out every vertex whose triangle with its two neighbours is free, until two vertices are left or nothing
can be left out. -/

namespace Verif

variable {P : Type}

/-- one walk along the line; `a` is the last vertex kept, then come the vertices ahead and those of them that are kept -/
inductive PullOnce (free : P → P → P → Prop) : P → List P → List P → Prop
  | nil (a : P) : PullOnce free a [] []
  | last (a b : P) : PullOnce free a [b] [b]
  | drop {a b c : P} {w r : List P} (h : free a b c) (t : PullOnce free a (c :: w) r) : PullOnce free a (b :: c :: w) r
  | keep {a b c : P} {w r : List P} (h : ¬ free a b c) (t : PullOnce free b (c :: w) r) : PullOnce free a (b :: c :: w) (b :: r)

/-- walks along the line until two vertices are left or a walk leaves out nothing -/
inductive Pull (free : P → P → P → Prop) : List P → List P → Prop
  | short {l : List P} (h : l.length ≤ 2) : Pull free l l
  | stuck {a : P} {w : List P} (h : 2 < (a :: w).length) (hw : PullOnce free a w w) : Pull free (a :: w) (a :: w)
  | go {a : P} {w w' r : List P} (h : 2 < (a :: w).length) (hw : PullOnce free a w w') (hl : w'.length < w.length) (t : Pull free (a :: w') r) : Pull free (a :: w) r

end Verif
