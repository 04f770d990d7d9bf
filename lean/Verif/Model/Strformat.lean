import Verif.Model.Base
import Mathlib.Algebra.Order.Floor.Ring
import Mathlib.Algebra.Order.Round
import Mathlib.Data.Rat.Floor

/-!
Model of `hardware_tools/strformat.py`.
-/

namespace Verif.Strformat

open Verif

/-- A float: finite (exact rational) or special. -/
inductive Num where
  | fin (q : ℚ)
  | inf (neg : Bool)
  | nan
  deriving DecidableEq

/-- A python format specifier together with its rendering (`f"{x:{spec}}"`), which is left uninterpreted. -/
structure Spec where
  fmt : Num → String

/-- The default `prefixes`, `strformat.py:39-49`. -/
def defaultPrefixes : List (String × ℚ) :=
  [("T", 1000000000000), ("G", 1000000000), ("M", 1000000), ("k", 1000), (" ", 1), ("m", 1 / 1000),
   ("µ", 1 / 1000000), ("n", 1 / 1000000000), ("p", 1 / 1000000000000)]

/-- The loop `strformat.py:50-52`: the first prefix that is reached. -/
def findPrefix (v threshold : ℚ) : List (String × ℚ) → Option (String × ℚ)
  | [] => none
  | (p, f) :: rest => if threshold * f ≤ |v| then some (p, f) else findPrefix v threshold rest

/-- `value / f` (ZeroDivisionError for a zero magnitude), `strformat.py:52,54`. -/
def pyDiv (a b : ℚ) : Except PyErr ℚ := if b = 0 then .error .zeroDivision else .ok (a / b)

/-- `metric_prefix`, `strformat.py:13-54`. -/
def metricPrefix (value : Num) (unit : String) (specifier specifierSmall : Spec) (threshold : ℚ)
    (prefixes : Option (List (String × ℚ))) : Except PyErr String :=
  match value with
  | .inf _ | .nan => .ok (specifier.fmt value ++ "  " ++ unit)
  | .fin v =>
    let prefixes := prefixes.getD defaultPrefixes
    match findPrefix v threshold prefixes with
    | some (p, f) => do
      let s ← pyDiv v f
      return specifier.fmt (.fin s) ++ " " ++ p ++ unit
    | none =>
      match prefixes.getLast? with
      | none => .error .indexError
      | some (p, f) => do
        let s ← pyDiv v f
        return specifierSmall.fmt (.fin s) ++ " " ++ p ++ unit

/-- python `divmod(a, b)` for positive `b`: floored quotient and the remainder. -/
def divmod (a b : ℚ) : ℤ × ℚ := (⌊a / b⌋, a - ⌊a / b⌋ * b)

/-- Correctly rounded (ties to even) number of hundredths printed by the `.2f` format. -/
def hundredths (x : ℚ) : ℤ :=
  let f := ⌊x * 100⌋
  let r := x * 100 - f
  if r < 1 / 2 then f else if 1 / 2 < r then f + 1 else if f % 2 = 0 then f else f + 1

/-- `f"{n:02}"` for an int. -/
def pad2 (n : ℤ) : String := if 0 ≤ n ∧ n < 10 then "0" ++ toString n else toString n

/-- The fields printed by `time_str`: hours (if asked for), minutes, whole seconds and hundredths (if asked for),
`strformat.py:67-78`.  `int(x)` of a floored value is the value itself; `int(seconds)` truncates. -/
def timeFields (duration : ℚ) (sub hours : Bool) : Option ℤ × ℤ × ℤ × Option ℤ :=
  let (minutes, seconds) := divmod duration 60
  let (h, m) := if hours then
      let (h, m) := divmod minutes 60
      (some h, ⌊m⌋)
    else (none, minutes)
  if sub then
    let c := hundredths seconds
    (h, m, c / 100, some (c % 100))
  else (h, m, ⌊seconds⌋, none)

/-- `time_str`, `strformat.py:57-78` (the `05.2f` format is only used for non-negative seconds). -/
def timeStr (duration : ℚ) (sub hours : Bool) : String :=
  match timeFields duration sub hours with
  | (h, m, s, c) =>
    (match h with
      | some h => pad2 h ++ ":"
      | none => "") ++ pad2 m ++ ":" ++ pad2 s ++
    (match c with
      | some c => "." ++ pad2 c
      | none => "")

/-- The type of the `start` argument of `elapsed_str`. -/
inductive Start where
  /-- a `datetime`, as seconds since a fixed epoch -/
  | datetime (t : ℚ)
  /-- a `float`, from `perf_counter()` -/
  | float (t : ℚ)
  /-- anything else, including `int` -/
  | other

/-- `elapsed_str`, `strformat.py:81-106`; `nowDate` and `nowPerf` are the clocks read when `stop` is `None`. -/
def elapsedStr (start : Start) (stop : Option ℚ) (nowDate nowPerf : ℚ) (sub hours : Bool) : Except PyErr String :=
  match start with
  | .datetime t => .ok (timeStr (stop.getD nowDate - t) sub hours)
  | .float t => .ok (timeStr (stop.getD nowPerf - t) sub hours)
  | .other => .error .typeError

end Verif.Strformat
