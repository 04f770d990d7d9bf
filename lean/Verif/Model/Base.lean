import Mathlib.Data.Rat.Floor
import Mathlib.Data.List.Basic

/-!
Common vocabulary of the model: python exceptions as values.
-/

namespace Verif

/-- The python exceptions that the modelled code can raise.  `nonTermination` is not a python exception: it is
what a fuel-bounded model of a `while` loop returns when the fuel is used up; the theorems show where it cannot
happen. -/
inductive PyErr where
  | indexError
  | valueError
  | keyError
  | typeError
  | runtimeError
  | zeroDivision
  | unboundLocal
  | timeout
  | lookupError
  | notImplemented
  | arithmeticError
  | attributeError
  | osError
  | nonTermination
  deriving DecidableEq, Repr

/-- python list indexing `l[i]` for a non-negative index. -/
def pyGet {α : Type} (l : List α) (i : ℕ) : Except PyErr α :=
  match l[i]? with
  | some a => .ok a
  | none => .error .indexError

end Verif
