import Verif.Model.FloatMeasures
import Verif.Model.Pam2Measures

/-!
The vertical eye closure penalty of `hardware_tools/measurement/eyediagram/pam2.py` and the logarithms of `hardware_tools/math/stats.py` in rounded
arithmetic (see `Verif.Model.Float`).
-/

namespace Verif.Float

open Verif Verif.Pam2

/-- The logarithms of numpy, stats.py:291, 298, 299: off by at most two units of rounding. -/
structure Logs (R : Rounding) where
  ln : ℚ → ℚ
  log10 : ℚ → ℚ
  ln_err : ∀ x, 0 < x → |(ln x : ℝ) - Real.log x| ≤ 2 * R.u * |Real.log x|
  log10_err : ∀ x, 0 < x → |(log10 x : ℝ) - Real.logb 10 x| ≤ 2 * R.u * |Real.logb 10 x|

/-- `UncertainValue.log` in floats, stats.py:288-293; `none` is (nan, nan). -/
def UVF.log (R : Rounding) (L : Logs R) (a : UVF) : Option UVF :=
  if a.value ≤ 0 then none else some ⟨L.ln a.value, |R.fl (a.stddev / a.value)|⟩

/-- `UncertainValue.log10` in floats, stats.py:295-300. -/
def UVF.log10 (R : Rounding) (L : Logs R) (a : UVF) : Option UVF :=
  if a.value ≤ 0 then none else some ⟨L.log10 a.value, |R.fl (a.stddev / R.fl (a.value * L.ln 10))|⟩

/-- numpy's position of a percentile among `n` sorted samples with the method median_unbiased in floats, pam2.py:442-447:
`n * q + (alpha + q * (1 - alpha - beta)) - 1` with `alpha = beta = 1 / 3`. -/
def virtualF (R : Rounding) (q : ℚ) (n : ℕ) : ℚ :=
  R.fl (R.fl (R.fl (n * q) + R.fl (R.fl (1 / 3) + R.fl (q * R.fl (R.fl (1 - R.fl (1 / 3)) - R.fl (1 / 3))))) - 1)

/-- numpy's interpolation between two samples in floats (`_lerp`), pam2.py:446-447. -/
def lerpF (R : Rounding) (a b t : ℚ) : ℚ :=
  if 1 / 2 ≤ t then R.fl (b - R.fl (R.fl (b - a) * R.fl (1 - t))) else R.fl (a + R.fl (R.fl (b - a) * t))

/-- `np.percentile` in floats, pam2.py:446-447, for the percentage `pc`. -/
def percentileF (R : Rounding) (pc : ℚ) (l : List ℚ) : Option ℚ :=
  let s := l.insertionSort (· ≤ ·)
  let p := virtualF R (R.fl (R.fl pc / 100)) s.length
  if p < 0 then s.head?
  else if (s.length : ℚ) - 1 ≤ p then s.getLast?
  else do
    let a ← s[⌊p⌋.toNat]?
    let b ← s[⌊p⌋.toNat + 1]?
    return lerpF R a b (R.fl (p - ⌊p⌋))

/-- `np.log10(x) * 10` of a measure in floats, pam2.py:449, stats.py:232-240, 295-300. -/
def decibelsF (R : Rounding) (L : Logs R) (x : NVF) : NVF :=
  match x.value with
  | none => NVF.nan
  | some v =>
    if v ≤ 0 then NVF.nan
    else ⟨some (R.fl (L.log10 v * 10)), x.stddev.map fun s => R.fl (|R.fl (s / R.fl (v * L.ln 10))| * |10|)⟩

/-- `vecp` in floats, pam2.py:439-449, from the samples of the levels and the optical modulation amplitude; nan stands for
any number that is not finite (a distance of 0 of the percentiles gives inf in the code). -/
def vecpF (R : Rounding) (L : Logs R) (l0 l1 : List ℚ) (oma : Option UVF) : NVF :=
  match percentileF R (5 / 100) l1, percentileF R (9995 / 100) l0, oma with
  | some a, some b, some o => decibelsF R L (nvDivCF R o (R.fl (a - b)))
  | _, _, _ => NVF.nan

/-- The closure penalty of the samples of all waveforms in floats, pam2.py:436-449. -/
def closureF (R : Rounding) (L : Logs R) (mean dot : List ℚ → ℚ) (root : ℚ → ℚ) (nf : ℚ) (o : List VOut) : NVF :=
  vecpF R L (o.flatMap (·.y0)) (o.flatMap (·.y1)) (vMeasuresF R mean dot root nf o).omaCross

end Verif.Float
