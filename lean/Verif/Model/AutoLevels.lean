import Verif.Model.Pipeline
import Verif.Model.Stats

/-!
Model of the automatic levels, `_runner_levels` of `hardware_tools/measurement/eyediagram/pam2.py`, and of `calculate` with them.

Samples are exact rationals.  The Gaussian mixture fit (sklearn) of samples that are not all equal is a parameter, as is their standard deviation,
which is irrational in general.
-/

namespace Verif.AutoLevels

open Verif Verif.Stats Verif.Pam2 Verif.Pipeline

/-- `waveform_y[::k]`, pam2.py:825 (numpy slice with a positive step). -/
def decimate (k : ℕ) (y : List ℚ) : List ℚ := (List.range ((y.length + k - 1) / k)).filterMap fun i : ℕ => y[i * k]?

/-- The step of the decimation, pam2.py:824: `max(1, int(ratio / 2))`. -/
def stride (ratio : ℚ) : ℕ := max 1 ⌊ratio / 2⌋.toNat

/-- The samples the levels are computed from, pam2.py:821-826; `downsample` with its default of 500 bins, stats.py:142. -/
def reduced (nMax : Option ℚ) (y : List ℚ) : Except PyErr (List ℚ) :=
  match nMax with
  | none => .ok y
  | some n =>
    if n = 0 then .error .zeroDivision
    else downsample (if 10 < y.length / n then decimate (stride (y.length / n)) y else y) n (some 500)

/-- All samples are equal: `y.ptp() == 0`, gaussian.py:175-176. -/
def constant : List ℚ → Bool
  | [] => true
  | a :: l => l.all (· == a)

/-- `fit_mix_samples(values, n_max=2).center()`, gaussian.py:162-198, 89-97: for equal samples their value; no samples raise ValueError in `ptp`.
`fit`: the centre of the mixture fitted to other samples. -/
def fitCenter (fit : List ℚ → Except PyErr ℚ) : List ℚ → Except PyErr ℚ
  | [] => .error .valueError
  | a :: l => if constant (a :: l) then .ok a else fit (a :: l)

/-- `values.std()`, pam2.py:835, 838: zero for equal samples.  Simplification: the value for no samples is nan in numpy and not used
(pam2.py:840-841 raise). -/
def deviation (dev : List ℚ → ℚ) (l : List ℚ) : ℚ := if constant l then 0 else dev l

/-- `_runner_levels`, pam2.py:805-853: `y_0` and `y_1`. -/
def runnerLevels (dev : List ℚ → ℚ) (fit : List ℚ → Except PyErr ℚ) (nMax : Option ℚ) (y : List ℚ) : Except PyErr (Level ℚ × Level ℚ) := do
  let d ← reduced nMax y
  let lo ← minimum d
  let hi ← maximum d
  let v0 := d.filter (· < (lo + hi) / 2)
  let v1 := d.filter ((lo + hi) / 2 < ·)
  let c0 ← fitCenter fit v0
  let c1 ← fitCenter fit v1
  return (⟨c0, deviation dev v0⟩, ⟨c1, deviation dev v1⟩)

/-- The measured levels in step 1, pam2.py:219-229 (no debug plots): only if one of them is not given; of all waveforms together. -/
def measured (dev : List ℚ → ℚ) (fit : List ℚ → Except PyErr ℚ) (nMax : Option ℚ) (c : LevelConfig ℚ) (wfs : List Wave) :
    Except PyErr (Level ℚ × Level ℚ) :=
  if c.y0 = none ∨ c.y1 = none then runnerLevels dev fit nMax (wfs.flatMap (·.2)) else .ok (⟨0, 0⟩, ⟨0, 0⟩)

/-- `PAM2.calculate`, eyediagram.py:451-510, with the levels measured.  Simplification: the sampling interval, which the constructor computes, is
computed after the levels, so if both fail the exception may differ. -/
def calculateAuto (dev : List ℚ → ℚ) (fit : List ℚ → Except PyErr ℚ) (nMax : Option ℚ) (s : Settings)
    (given : Option (List (List (Option ℚ)))) (clocks : Option (List Wave)) (cdr : List (Option ℚ) → Except PyErr (List (Option ℚ)))
    (mask : Option MaskFn) (wfs : List Wave) : Except PyErr Analysis := do
  let m ← measured dev fit nMax s.level wfs
  calculateAll s m given clocks cdr mask wfs

end Verif.AutoLevels
