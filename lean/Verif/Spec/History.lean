import Verif.Spec.Hdb
import Verif.Model.Yields

/-! Histories of the index and their abstract meaning as a bag of items. -/

namespace Verif
namespace Hdb

variable {T B : Type}

/-- the mutating operations of the index: hdb/load.go:19, hdb/remove.go:86, hdb/clear.go:15 -/
inductive Op (T : Type) where
  | load (items : List T)
  | remove (item : T)
  | clear

/-- run one operation -/
def runOp [LinearOrder B] [BoundedOrder B] (ops : ItemOps T B) (H : Heur T B) (fuel : Nat) (t : Tree T B) : Op T → Res (Tree T B)
  | .load items => load ops H t items fuel
  | .remove item => remove ops t item fuel
  | .clear => .ok (clear t)

/-- run a history -/
def run [LinearOrder B] [BoundedOrder B] (ops : ItemOps T B) (H : Heur T B) (fuel : Nat) : Tree T B → List (Op T) → Res (Tree T B)
  | t, [] => .ok t
  | t, o :: os => do run ops H fuel (← runOp ops H fuel t o) os

/-- abstract meaning of an operation on a bag of items -/
def bagOp [DecidableEq T] (c : List T) : Op T → List T
  | .load items => c ++ items
  | .remove item => c.erase item
  | .clear => []

/-- abstract meaning of a history -/
def bag [DecidableEq T] : List T → List (Op T) → List T
  | c, [] => c
  | c, o :: os => bag (bagOp c o) os

/-- items an operation mentions -/
def Op.items : Op T → List T
  | .load items => items
  | .remove item => [item]
  | .clear => []

end Hdb
end Verif
