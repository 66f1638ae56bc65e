import Verif.Model.Hdb
import Verif.Lemmas.Box

/-! Specification of the index: its contents, its structural invariant, and what is assumed of the numeric heuristics. -/

namespace Verif
namespace Hdb

variable {T B : Type} [LinearOrder B] [BoundedOrder B]

/-- items stored at depth `h` below a node (`h = 0`: the node is an entry) -/
def flat : Nat → DbNode T B → List T
  | 0, nd => nd.item.toList
  | h + 1, nd => nd.children.flatMap (flat h)

/-- structural invariant of a node of height `h` (`h = 0`: an entry): recorded height, leaf flag exactly at height 1, between 1 and
`M` children, all of height `h - 1`, box = union of the children's boxes -/
def WF (ops : ItemOps T B) (M : Nat) : Nat → DbNode T B → Prop
  | 0, nd => ∃ t, nd = newLeafNode ops t
  | h + 1, nd => nd.item = none ∧ nd.height = h + 1 ∧ nd.leaf = decide (h = 0) ∧ nd.children ≠ [] ∧ nd.children.length ≤ M ∧
      nd.bbox = Box.unionAll (nd.children.map DbNode.bbox) ∧ ∀ c ∈ nd.children, WF ops M h c

/-- invariant of the root: empty leaf, or a well-formed node -/
def RootWF (ops : ItemOps T B) (M : Nat) (nd : DbNode T B) : Prop :=
  nd = .mk [] none 1 true Box.empty ∨ ∃ h, WF ops M (h + 1) nd

/-- contents of a tree (read through the recorded height of the root) -/
def contents (t : Tree T B) : List T := flat t.data.height t.data

/-- the minimal legality of the heuristics -/
structure Legal (H : Heur T B) (M : Nat) : Prop where
  choose : ∀ b bs, bs ≠ [] → ∃ i, i < bs.length ∧ H.choose b bs = some i
  arrange : ∀ l, (H.arrange l).Perm l
  splitIdx : ∀ bs, bs.length = M + 1 → 0 < H.splitIdx bs ∧ H.splitIdx bs ≤ M
  select : ∀ y n, 0 < n → ∀ l, (H.select y n l).Perm l
  height : ∀ N, M < N → M ^ (H.height N - 1) ≤ N ∧ N ≤ M ^ H.height N

/-- invariant of a tree: capacity at least 4, fill at least 1, root well formed -/
structure TreeWF (ops : ItemOps T B) (t : Tree T B) : Prop where
  cap : 4 ≤ t.maxE
  fill : 1 ≤ t.minE
  root : RootWF ops t.maxE t.data

end Hdb
end Verif
