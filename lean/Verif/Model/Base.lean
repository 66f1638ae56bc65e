import Mathlib.Order.Basic
import Mathlib.Order.Defs.LinearOrder

/-!
Basic vocabulary of the model.

* `Res` : outcome of a Go computation (value, panic, or loop fuel exhausted).
* `Fl`  : `float64` values with IEEE comparison results, over an arbitrary linear order of finite values.
-/

namespace Verif

/-- Outcome of a Go computation.  `panic` is a run-time panic, `timeout` means that the fuel given to a loop was used up;
a loop that yields `timeout` for every fuel does not terminate. -/
inductive Res (α : Type _) where
  | ok (a : α)
  | panic
  | timeout
  deriving DecidableEq, Repr

namespace Res

variable {α β γ : Type _}

/-- sequencing: a panic or a timeout ends the computation -/
def bind (x : Res α) (f : α → Res β) : Res β :=
  match x with
  | ok a => f a
  | panic => panic
  | timeout => timeout

instance : Monad Res where
  pure := Res.ok
  bind := Res.bind

@[simp] theorem pure_eq (a : α) : (Pure.pure a : Res α) = ok a := rfl
@[simp] theorem ok_bind (a : α) (f : α → Res β) : ((ok a : Res α) >>= f) = f a := rfl
@[simp] theorem panic_bind (f : α → Res β) : ((panic : Res α) >>= f) = panic := rfl
@[simp] theorem timeout_bind (f : α → Res β) : ((timeout : Res α) >>= f) = timeout := rfl

theorem bind_eq_ok {x : Res α} {f : α → Res β} {b : β} :
    (x >>= f) = ok b ↔ ∃ a, x = ok a ∧ f a = ok b := by
  cases x <;> simp

/-- `m[i]` of a Go slice: out of range is a panic -/
def ofOption : Option α → Res α
  | some a => ok a
  | none => panic

@[simp] theorem ofOption_some (a : α) : ofOption (some a) = ok a := rfl
@[simp] theorem ofOption_none : ofOption (none : Option α) = panic := rfl

end Res

/-- `float64` : NaN, the infinities and finite values taken from an arbitrary ordered set (rounding is not modelled). -/
inductive Fl (K : Type _) where
  | nan
  | ninf
  | fin (k : K)
  | pinf
  deriving DecidableEq, Repr

namespace Fl

variable {K : Type _} [LinearOrder K]

/-- Go `a <= b` on floats: false as soon as one side is NaN -/
def le : Fl K → Fl K → Bool
  | nan, _ => false
  | _, nan => false
  | ninf, _ => true
  | _, pinf => true
  | fin a, fin b => decide (a ≤ b)
  | _, _ => false

/-- Go `a < b` on floats: false as soon as one side is NaN -/
def lt : Fl K → Fl K → Bool
  | nan, _ => false
  | _, nan => false
  | ninf, ninf => false
  | ninf, _ => true
  | pinf, _ => false
  | _, ninf => false
  | fin a, fin b => decide (a < b)
  | fin _, pinf => true

/-- Go `a >= b` -/
def ge (a b : Fl K) : Bool := le b a
/-- Go `a > b` -/
def gt (a b : Fl K) : Bool := lt b a

def isNaN : Fl K → Bool
  | nan => true
  | _ => false

@[simp] theorem le_nan (a : Fl K) : le a nan = false := by cases a <;> rfl
@[simp] theorem nan_le (a : Fl K) : le nan a = false := by cases a <;> rfl
@[simp] theorem lt_nan (a : Fl K) : lt a nan = false := by cases a <;> rfl
@[simp] theorem nan_lt (a : Fl K) : lt nan a = false := by cases a <;> rfl
@[simp] theorem fin_le_fin (a b : K) : le (fin a) (fin b) = decide (a ≤ b) := rfl
@[simp] theorem fin_lt_fin (a b : K) : lt (fin a) (fin b) = decide (a < b) := rfl

theorem le_refl {a : Fl K} (h : a ≠ nan) : le a a = true := by
  cases a <;> simp_all [le]

theorem le_trans {a b c : Fl K} (h1 : le a b = true) (h2 : le b c = true) : le a c = true := by
  cases a <;> cases b <;> cases c <;> simp_all [le]
  exact _root_.le_trans h1 h2

theorem ne_nan_of_le_left {a b : Fl K} (h : le a b = true) : a ≠ nan := by
  intro h'; subst h'; simp at h

theorem ne_nan_of_le_right {a b : Fl K} (h : le a b = true) : b ≠ nan := by
  intro h'; subst h'; simp at h

/-- away from NaN, `<` is the negation of `>=` -/
theorem lt_iff_not_le {a b : Fl K} (ha : a ≠ nan) (hb : b ≠ nan) : lt a b = !le b a := by
  cases a <;> cases b <;> simp_all [le, lt]
  rw [← decide_not]; simp

theorem le_total {a b : Fl K} (ha : a ≠ nan) (hb : b ≠ nan) : le a b = true ∨ le b a = true := by
  cases a <;> cases b <;> simp_all [le]
  exact _root_.le_total _ _

theorem le_of_lt {a b : Fl K} (h : lt a b = true) : le a b = true := by
  cases a <;> cases b <;> simp_all [le, lt]
  exact _root_.le_of_lt h

theorem lt_of_lt_of_le {a b c : Fl K} (h1 : lt a b = true) (h2 : le b c = true) : lt a c = true := by
  cases a <;> cases b <;> cases c <;> simp_all [le, lt]
  exact _root_.lt_of_lt_of_le h1 h2

theorem lt_of_le_of_lt {a b c : Fl K} (h1 : le a b = true) (h2 : lt b c = true) : lt a c = true := by
  cases a <;> cases b <;> cases c <;> simp_all [le, lt]
  exact _root_.lt_of_le_of_lt h1 h2

end Fl

end Verif
