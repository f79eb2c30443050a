import Mathlib.Algebra.Order.Field.Basic
import Mathlib.Tactic.Ring
import Mathlib.Tactic.Linarith
import Mathlib.Tactic.FieldSimp
import Mathlib.Tactic.NormNum
import Mathlib.Tactic.IntervalCases
import Mathlib.Tactic.Positivity

/-!
# Shared vocabulary of the model

Python exceptions are values of type `Err`; a function that may raise returns `Except Err α`.
-/

namespace FreeGS

/-- The Python exception classes that the modelled code can raise. -/
inductive Err where
  | assertion
  | value
  | index
  | key
  | type
  | runtime
  | zeroDivision
  | attribute
  | unbound
  | linalg
  /-- Not a Python exception: numpy goes on with nan or inf, which the model does not follow any further. -/
  | nonfinite
  deriving DecidableEq, Repr, Inhabited

/-- `x ∈ Except` is a normal return. -/
def Returns {α : Type _} (x : Except Err α) (a : α) : Prop := x = Except.ok a

/-- The call raises the exception `e`. -/
def Raises {α : Type _} (x : Except Err α) (e : Err) : Prop := x = Except.error e

end FreeGS
