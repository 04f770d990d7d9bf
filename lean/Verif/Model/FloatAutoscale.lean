import Verif.Model.Autoscale
import Verif.Model.Float

/-!
`AnalogChannel.autoscale` of `hardware_tools/equipment/scope.py` in rounded arithmetic (see `Verif.Model.Float`): the same functions as in
`Verif.Autoscale`, with a rounding after every operation on floats and of every decimal number of the source.
-/

namespace Verif.Float

open Verif Verif.Autoscale

/-- Screen units in floats, scope.py:213-214. -/
def screenF (R : Rounding) (a : Acq) (v : ℚ) : ℚ :=
  R.fl (R.fl (R.fl (v - a.clipMin) / R.fl (a.clipMax - a.clipMin)) - 1 / 2)

/-- The decision of scope.py:217-259 in floats: the new scale and position, or `none` when `update` stays `False`. -/
def decisionF (R : Rounding) (n scale position lo hi : ℚ) : Option (ℚ × ℚ) :=
  let mid := R.fl (R.fl (lo + hi) / 2)
  let span := R.fl (hi - lo)
  let recentre (newScale : ℚ) : ℚ × ℚ := (newScale, R.fl (R.fl (R.fl (position - R.fl (n * mid)) * scale) / newScale))
  if R.fl (45 / 100) < hi then
    some (recentre (if R.fl (6 / 10) < span then R.fl (scale * 4) else if span < R.fl (1 / 10) then R.fl (scale / 4) else scale))
  else if lo < -R.fl (45 / 100) then
    some (recentre (if R.fl (6 / 10) < span then R.fl (scale * 4) else if span < R.fl (1 / 10) then R.fl (scale / 4) else scale))
  else if span < R.fl (5 / 100) then
    some (recentre (R.fl (scale / 10)))
  else
    let resize : Bool := decide (span < R.fl (75 / 100)) || decide (R.fl (85 / 100) < span)
    let newScale := if resize then R.fl (scale / R.fl (R.fl (8 / 10) / span)) else scale
    if R.fl (1 / 10) < mid ∨ mid < -R.fl (1 / 10) ∨ newScale ≠ scale then some (recentre newScale)
    else if resize then some (newScale, position) else none

/-- scope.py:211-259 for one acquisition, in floats. -/
def adjustF (R : Rounding) (n scale position : ℚ) (a : Acq) : Except PyErr (Option (ℚ × ℚ)) := do
  let (lo, hi) ← minMax (a.y.map (screenF R a))
  return decisionF R n scale position lo hi

/-- The `while` loop in floats, scope.py:204-265: the number of attempts left, and the history. -/
def loopF (R : Rounding) (dev : Dev) : ℕ → List Ev → Except PyErr ℕ × List Ev
  | 0, log => (.ok 0, log)
  | k + 1, log =>
    let position := dev.position log
    let scale := dev.scale log
    match dev.acquire log with
    | .error e => (.error e, log ++ [.acquire])
    | .ok a =>
      match adjustF R dev.nDiv scale position a with
      | .error e => (.error e, log ++ [.acquire])
      | .ok none => (.ok k, log ++ [.acquire])
      | .ok (some (s, p)) => loopF R dev k (log ++ [.acquire] ++ [.setScale s] ++ [.setPosition p])

/-- `autoscale` in floats, scope.py:188-271. -/
def autoscaleF (R : Rounding) (dev : Dev) (log : List Ev) : Except PyErr Unit × List Ev :=
  let original := dev.points log
  match loopF R dev 10 (log ++ [.setPoints 1000000]) with
  | (.error e, log') => (.error e, log')
  | (.ok k, log') =>
    let log'' := log' ++ [.setPoints original]
    if k = 0 then (.error .timeout, log'') else (.ok (), log'')

end Verif.Float
