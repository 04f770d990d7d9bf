import Verif.Model.Base
import Mathlib.Data.Rat.Floor

/-!
Model of `AnalogChannel.autoscale`, `hardware_tools/equipment/scope.py:188-271`.

The instrument is arbitrary: what it answers may depend on the whole history of what was done to it.  Floats are
exact rationals.
-/

namespace Verif.Autoscale

open Verif

/-- The outside effects of `autoscale`: the property setters and one acquisition (`single` followed by
`read_waveform`). -/
inductive Ev where
  | setPoints (v : ℚ)
  | setScale (v : ℚ)
  | setPosition (v : ℚ)
  | acquire
  deriving DecidableEq

/-- What `read_waveform` returns, as far as `autoscale` uses it (scope.py:210-214): the vertical samples and the two
clipping limits. -/
structure Acq where
  y : List ℚ
  clipMin : ℚ
  clipMax : ℚ

/-- An instrument: the replies to property reads and the outcome of an acquisition (scope.py:209-210, which may raise)
after a given history. -/
structure Dev where
  points : List Ev → ℚ
  position : List Ev → ℚ
  scale : List Ev → ℚ
  acquire : List Ev → Except PyErr Acq
  nDiv : ℚ

/-- `ndarray.min()` and `ndarray.max()`, scope.py:220-221; an empty array is a ValueError. -/
def minMax : List ℚ → Except PyErr (ℚ × ℚ)
  | [] => .error .valueError
  | y :: ys => .ok (ys.foldl min y, ys.foldl max y)

/-- Screen units, scope.py:213-214.  Equal clipping limits (a division by zero, NaN in numpy) are not modelled
faithfully: division by zero is zero here. -/
def screen (a : Acq) (v : ℚ) : ℚ := (v - a.clipMin) / (a.clipMax - a.clipMin) - 1 / 2

/-- The decision of scope.py:217-259: the new scale and position, or `none` when `update` stays `False`.
0.45, 0.6, ... are taken as exact. -/
def decision (n scale position : ℚ) (lo hi : ℚ) : Option (ℚ × ℚ) :=
  let mid := (lo + hi) / 2
  let span := hi - lo
  let recentre (newScale : ℚ) : ℚ × ℚ := (newScale, (position - n * mid) * scale / newScale)
  if 45 / 100 < hi then
    some (recentre (if 6 / 10 < span then scale * 4 else if span < 1 / 10 then scale / 4 else scale))
  else if lo < -(45 / 100) then
    some (recentre (if 6 / 10 < span then scale * 4 else if span < 1 / 10 then scale / 4 else scale))
  else if span < 5 / 100 then
    some (recentre (scale / 10))
  else
    let resize : Bool := decide (span < 75 / 100) || decide (85 / 100 < span)
    let newScale := if resize then scale / (8 / 10 / span) else scale
    if 1 / 10 < mid ∨ mid < -(1 / 10) ∨ newScale ≠ scale then some (recentre newScale)
    else if resize then some (newScale, position) else none

/-- scope.py:211-259 for one acquisition. -/
def adjust (n scale position : ℚ) (a : Acq) : Except PyErr (Option (ℚ × ℚ)) := do
  let (lo, hi) ← minMax (a.y.map (screen a))
  return decision n scale position lo hi

/-- The `while` loop, scope.py:204-265: the number of attempts left, and the history. -/
def loop (dev : Dev) : ℕ → List Ev → Except PyErr ℕ × List Ev
  | 0, log => (.ok 0, log)
  | k + 1, log =>
    let position := dev.position log
    let scale := dev.scale log
    match dev.acquire log with
    | .error e => (.error e, log ++ [.acquire])
    | .ok a =>
      match adjust dev.nDiv scale position a with
      | .error e => (.error e, log ++ [.acquire])
      | .ok none => (.ok k, log ++ [.acquire])
      | .ok (some (s, p)) => loop dev k (log ++ [.acquire] ++ [.setScale s] ++ [.setPosition p])

/-- `autoscale`, scope.py:188-271.  An exception of an acquisition leaves the function at once. -/
def autoscale (dev : Dev) (log : List Ev) : Except PyErr Unit × List Ev :=
  let original := dev.points log
  match loop dev 10 (log ++ [.setPoints 1000000]) with
  | (.error e, log') => (.error e, log')
  | (.ok k, log') =>
    let log'' := log' ++ [.setPoints original]
    if k = 0 then (.error .timeout, log'') else (.ok (), log'')

end Verif.Autoscale
