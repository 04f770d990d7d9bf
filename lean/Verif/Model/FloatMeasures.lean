import Verif.Model.FloatUncertain
import Verif.Model.FloatPam2

/-!
The vertical measures of `hardware_tools/measurement/eyediagram/pam2.py` in rounded arithmetic (see `Verif.Model.Float`): the same functions as in
`Verif.Model.Pam2Measures`, with a rounding after every operation on floats.
-/

namespace Verif.Float

open Verif Verif.Pam2

/-- A value and its standard deviation, each possibly nan or inf, stats.py:173-183. -/
structure NVF where
  value : Option ℚ
  stddev : Option ℚ
  deriving DecidableEq

/-- (nan, nan), pam2.py:440. -/
def NVF.nan : NVF := ⟨none, none⟩

/-- numpy's division of numbers in floats, stats.py:243-250; `none` is nan or inf. -/
def npDivF (R : Rounding) (a b : ℚ) : Option ℚ := if b = 0 then none else some (R.fl (a / b))

/-- `UncertainValue.__truediv__` of numpy numbers in floats, uncertain operand, stats.py:242-247. -/
def nvDivF (R : Rounding) (root : ℚ → ℚ) (a b : UVF) : NVF where
  value := npDivF R a.value b.value
  stddev := do
    let v ← npDivF R a.value b.value
    let x ← npDivF R a.stddev a.value
    let y ← npDivF R b.stddev b.value
    return R.fl (|v| * root (varF R x y))

/-- `UncertainValue.__truediv__` of numpy numbers in floats, plain operand, stats.py:248-250. -/
def nvDivCF (R : Rounding) (a : UVF) (b : ℚ) : NVF := ⟨npDivF R a.value b, npDivF R a.stddev |b|⟩

/-- An operation on two measures, pam2.py:427-436: nan if one is. -/
def bothF {α : Type} (f : UVF → UVF → α) (a b : Option UVF) : Option α := do
  let x ← a
  let y ← b
  return f x y

/-- `(a - 3 * a.stddev) - (b + 3 * b.stddev)` in floats, pam2.py:428. -/
def openingF (R : Rounding) (root : ℚ → ℚ) (a b : UVF) : UVF :=
  UVF.sub R root (UVF.subC R a (R.fl (3 * a.stddev))) (UVF.addC R b (R.fl (3 * b.stddev)))

/-- Vertical measures in floats, pam2.py:383-437.  Simplification: without the closure penalty (`closureF`) and the transitions (integers). -/
structure VMeasuresF where
  y0 : Option UVF
  y1 : Option UVF
  cross : Option UVF
  y0Cross : Option UVF
  y1Cross : Option UVF
  avg : Option UVF
  amp : Option UVF
  height : Option UVF
  heightR : NVF
  snr : NVF
  crossR : NVF
  extinction : NVF
  omaCross : Option UVF

/-- The vertical measures from the samples of all waveforms in floats, pam2.py:383-437; `nf` is the configured noise floor; `mean`, `dot` and `root` are
those of numpy (`UVF.samples`). -/
def vMeasuresF (R : Rounding) (mean dot : List ℚ → ℚ) (root : ℚ → ℚ) (nf : ℚ) (o : List VOut) : VMeasuresF :=
  let s := fun f : VOut → List ℚ => UVF.samples R mean dot root (o.flatMap f)
  let y0 := s (·.y0)
  let y1 := s (·.y1)
  let cross := s (·.cross)
  let y0Cross := s (·.y0Cross)
  let y1Cross := s (·.y1Cross)
  let amp := bothF (UVF.sub R root) y1 y0
  let height := bothF (openingF R root) y1 y0
  { y0 := y0, y1 := y1, cross := cross, y0Cross := y0Cross, y1Cross := y1Cross, avg := s (·.avg)
    amp := amp
    height := height
    heightR := (bothF (nvDivF R root) height amp).getD NVF.nan
    snr := (bothF (fun b a => nvDivCF R (UVF.sub R root b a) (R.fl (b.stddev + a.stddev))) y1 y0).getD NVF.nan
    crossR := (bothF (nvDivF R root) (bothF (UVF.sub R root) cross y0) amp).getD NVF.nan
    extinction := (bothF (nvDivF R root) (y1.map fun a => UVF.subC R a nf) (y0.map fun a => UVF.subC R a nf)).getD NVF.nan
    omaCross := bothF (UVF.sub R root) y1Cross y0Cross }

end Verif.Float
