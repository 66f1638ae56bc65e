import Verif.Model.HdbMem
import Verif.Spec.History

/-! Histories of the index in memory, and the tree a memory stands for. -/

namespace Verif.Hdb.Mem

variable {T B : Type} [LinearOrder B] [BoundedOrder B]

/-- the minimal legality of the heuristics; `perm` only has to be a permutation -/
structure MLegal (H : MHeur T B) (M : Nat) : Prop where
  choose : ∀ b bs, bs ≠ [] → ∃ i, i < bs.length ∧ H.choose b bs = some i
  perm : ∀ bs, (H.perm bs).Perm (List.range bs.length)
  splitIdx : ∀ bs, bs.length = M + 1 → 0 < H.splitIdx bs ∧ H.splitIdx bs ≤ M
  select : ∀ y n, 0 < n → ∀ l, (H.select y n l).Perm l
  height : ∀ N, M < N → M ^ (H.height N - 1) ≤ N ∧ N ≤ M ^ H.height N

/-- run one operation -/
def runOp (ops : ItemOps T B) (cfg : Cfg B) (H : MHeur T B) (fuel : Nat) (t : Tree T B) : Op T → Res (Tree T B)
  | .load items => loadItems ops cfg H t items fuel
  | .remove item => remove ops cfg t item fuel
  | .clear => .ok (clear t)

/-- run a history -/
def run (ops : ItemOps T B) (cfg : Cfg B) (H : MHeur T B) (fuel : Nat) : Tree T B → List (Op T) → Res (Tree T B)
  | t, [] => .ok t
  | t, o :: os => do run ops cfg H fuel (← runOp ops cfg H fuel t o) os

/-- the tree below a cell, read off the memory to the given depth by following the child slices -/
def decode (h : Heap T B) : Nat → Cell T B → DbNode T B
  | 0, c => .mk [] c.item c.height c.leaf c.bbox
  | d + 1, c => .mk ((cells h c.children).map (decode h d)) c.item c.height c.leaf c.bbox

end Verif.Hdb.Mem
