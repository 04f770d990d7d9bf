import Verif.Model.Float
import Verif.Model.Strformat
import Verif.Model.Equipment

/-!
`hardware_tools/strformat.py` in rounded arithmetic (see `Verif.Model.Float`): the magnitudes, their product with the threshold, the
quotient, the `divmod` of floats and the difference of two instants are rounded.  Comparisons, `fmod`, `floor` and the digits printed for a
float are exact, as they are in CPython.
-/

namespace Verif.Float

open Verif Verif.Strformat Verif.Equip

/-- The default `prefixes` as floats, `strformat.py:39-49`. -/
def defaultPrefixesF (R : Rounding) : List (String × ℚ) := defaultPrefixes.map fun p => (p.1, R.fl p.2)

/-- The loop in floats, `strformat.py:50-52`. -/
def findPrefixF (R : Rounding) (v threshold : ℚ) : List (String × ℚ) → Option (String × ℚ)
  | [] => none
  | (p, f) :: rest => if R.fl (threshold * f) ≤ |v| then some (p, f) else findPrefixF R v threshold rest

/-- `value / f` in floats, `strformat.py:52,54`. -/
def pyDivF (R : Rounding) (a b : ℚ) : Except PyErr ℚ := if b = 0 then .error .zeroDivision else .ok (R.fl (a / b))

/-- `metric_prefix` in floats, `strformat.py:13-54`. -/
def metricPrefixF (R : Rounding) (value : Num) (unit : String) (specifier specifierSmall : Spec) (threshold : ℚ)
    (prefixes : Option (List (String × ℚ))) : Except PyErr String :=
  match value with
  | .inf _ | .nan => .ok (specifier.fmt value ++ "  " ++ unit)
  | .fin v =>
    let prefixes := prefixes.getD (defaultPrefixesF R)
    match findPrefixF R v threshold prefixes with
    | some (p, f) => do
      let s ← pyDivF R v f
      return specifier.fmt (.fin s) ++ " " ++ p ++ unit
    | none =>
      match prefixes.getLast? with
      | none => .error .indexError
      | some (p, f) => do
        let s ← pyDivF R v f
        return specifierSmall.fmt (.fin s) ++ " " ++ p ++ unit

/-- `fmod(a, b)`, which is exact, used by the `divmod` of `strformat.py:68,70`. -/
def fmod (a b : ℚ) : ℚ := a - pyTrunc (a / b) * b

/-- python `divmod(a, b)` of floats (CPython's `float_divmod`, `npy_divmod` for numpy floats) for a nonzero `b`, `strformat.py:68,70`.
Simplification: the sign of a zero is dropped. -/
def divmodF (R : Rounding) (a b : ℚ) : ℚ × ℚ :=
  let mod := fmod a b
  let div := R.fl (R.fl (a - mod) / b)
  let (mod, div) := if mod ≠ 0 ∧ (b < 0 ↔ ¬ mod < 0) then (R.fl (mod + b), R.fl (div - 1)) else (mod, div)
  let floordiv : ℚ := ⌊div⌋
  (if R.fl (div - floordiv) > 1 / 2 then R.fl (floordiv + 1) else floordiv, mod)

/-- The fields printed by `time_str` in floats, `strformat.py:67-78`. -/
def timeFieldsF (R : Rounding) (duration : ℚ) (sub hours : Bool) : Option ℤ × ℤ × ℤ × Option ℤ :=
  let (minutes, seconds) := divmodF R duration 60
  let (h, m) := if hours then
      let (h, m) := divmodF R minutes 60
      (some (pyTrunc h), pyTrunc m)
    else (none, pyTrunc minutes)
  if sub then
    let c := hundredths seconds
    (h, m, c / 100, some (c % 100))
  else (h, m, pyTrunc seconds, none)

/-- `time_str` in floats, `strformat.py:57-78`. -/
def timeStrF (R : Rounding) (duration : ℚ) (sub hours : Bool) : String :=
  match timeFieldsF R duration sub hours with
  | (h, m, s, c) =>
    (match h with
      | some h => pad2 h ++ ":"
      | none => "") ++ pad2 m ++ ":" ++ pad2 s ++
    (match c with
      | some c => "." ++ pad2 c
      | none => "")

/-- `elapsed_str` in floats, `strformat.py:81-106`: the difference of two floats is rounded, and so is `total_seconds()` of a difference of
datetimes, which is an integer number of microseconds divided by a million. -/
def elapsedStrF (R : Rounding) (start : Start) (stop : Option ℚ) (nowDate nowPerf : ℚ) (sub hours : Bool) : Except PyErr String :=
  match start with
  | .datetime t => .ok (timeStrF R (R.fl (stop.getD nowDate - t)) sub hours)
  | .float t => .ok (timeStrF R (R.fl (stop.getD nowPerf - t)) sub hours)
  | .other => .error .typeError

end Verif.Float
