import Verif.Model.Pam2
import Verif.Model.Stats
import Mathlib.Data.Real.Basic
import Mathlib.Data.List.Sort
import Mathlib.Analysis.SpecialFunctions.Log.Base

/-!
Model of the measures computed from the samples in `PAM2._step4_measure`, pam2.py:374-536.  Not modelled: the mask (Model/Eye) and plots.

A measure without samples is (nan, nan), here `none`; operations with it give nan again.  All values are numpy numbers, for which a division by
zero gives nan or inf instead of an exception; both are `none` here.
-/

namespace Verif.Pam2

open Verif Verif.Stats

/-- A value and its standard deviation, each possibly nan or inf, stats.py:173-183. -/
structure NV where
  value : Option ℝ
  stddev : Option ℝ

/-- (nan, nan). -/
def NV.nan : NV := ⟨none, none⟩

open Classical in
/-- numpy's division of numbers; `none` is nan or inf. -/
noncomputable def npDiv (a b : ℝ) : Option ℝ := if b = 0 then none else some (a / b)

/-- `UncertainValue.__truediv__` of numpy numbers, uncertain operand, stats.py:242-247. -/
noncomputable def nvDiv (a b : UV) : NV where
  value := npDiv a.value b.value
  stddev := do
    let v ← npDiv a.value b.value
    let x ← npDiv a.stddev a.value
    let y ← npDiv b.stddev b.value
    return |v| * Real.sqrt (x ^ 2 + y ^ 2)

/-- `UncertainValue.__truediv__` of numpy numbers, plain operand, stats.py:248-250. -/
noncomputable def nvDivC (a : UV) (b : ℝ) : NV := ⟨npDiv a.value b, npDiv a.stddev |b|⟩

/-- An operation on two measures: nan if one is. -/
def both {α : Type} (f : UV → UV → α) (a b : Option UV) : Option α := do
  let x ← a
  let y ← b
  return f x y

/-- A division of two measures: nan if one is. -/
noncomputable def bothDiv (a b : Option UV) : NV := (both nvDiv a b).getD NV.nan

/-- A measure of all samples: `np.fromiter` and `UncertainValue.samples`, pam2.py:406-411, 418-423, 502-511. -/
noncomputable def ofSamples (l : List ℚ) : Option UV := UV.samples (l.map fun x : ℚ => (x : ℝ))

/-- `np.percentile` with the method median_unbiased, pam2.py:442-447; `q` is the fraction (percentage / 100), nan without samples.  The position
among the sorted samples, counted from zero, is `n q + 1/3 + q/3 - 1`; between two positions numpy interpolates. -/
def percentile (q : ℚ) (l : List ℚ) : Option ℚ :=
  let s := l.insertionSort (· ≤ ·)
  let p := s.length * q + (1 / 3 + q * (1 - 1 / 3 - 1 / 3)) - 1
  if p < 0 then s.head?
  else if (s.length : ℚ) - 1 ≤ p then s.getLast?
  else do
    let a ← s[⌊p⌋.toNat]?
    let b ← s[⌊p⌋.toNat + 1]?
    return a + (b - a) * (p - ⌊p⌋)

open Classical in
/-- `np.log10` of a measure, stats.py:295-300, times 10: numpy calls the method of that name. -/
noncomputable def decibels (a : NV) : NV :=
  match a.value with
  | none => NV.nan
  | some v => if v ≤ 0 then NV.nan else ⟨some (Real.logb 10 v * 10), a.stddev.map fun s => |s / (v * Real.log 10)| * |10|⟩

/-- `vecp`, pam2.py:439-449, from the samples of the levels and the optical modulation amplitude. -/
noncomputable def vecpOf (l0 l1 : List ℚ) (oma : Option UV) : NV :=
  match percentile (5 / 10000) l1, percentile (9995 / 10000) l0, oma with
  | some a, some b, some o => decibels (nvDivC o ((a - b : ℚ) : ℝ))
  | _, _, _ => NV.nan

/-- Vertical measures, pam2.py:383-449. -/
structure VMeasures where
  y0 : Option UV
  y1 : Option UV
  cross : Option UV
  y0Cross : Option UV
  y1Cross : Option UV
  avg : Option UV
  amp : Option UV
  height : Option UV
  heightR : NV
  snr : NV
  crossR : NV
  extinction : NV
  omaCross : Option UV
  vecp : NV
  trans : Bool → Bool → Bool → ℕ

/-- `(a - 3 * a.stddev) - (b + 3 * b.stddev)`, pam2.py:428, 527-528. -/
noncomputable def opening (a b : UV) : UV := (a.subC (3 * a.stddev)).sub (b.addC (3 * b.stddev))

/-- The vertical measures from the samples of all waveforms, pam2.py:383-449; `nf` is the configured noise floor. -/
noncomputable def vMeasures (nf : ℝ) (o : List VOut) : VMeasures :=
  let y0 := ofSamples (o.flatMap (·.y0))
  let y1 := ofSamples (o.flatMap (·.y1))
  let cross := ofSamples (o.flatMap (·.cross))
  let y0Cross := ofSamples (o.flatMap (·.y0Cross))
  let y1Cross := ofSamples (o.flatMap (·.y1Cross))
  let avg := ofSamples (o.flatMap (·.avg))
  let amp := both UV.sub y1 y0
  let height := both opening y1 y0
  { y0 := y0, y1 := y1, cross := cross, y0Cross := y0Cross, y1Cross := y1Cross, avg := avg
    amp := amp
    height := height
    heightR := bothDiv height amp
    snr := ((both (fun b a => nvDivC (b.sub a) (b.stddev + a.stddev)) y1 y0)).getD NV.nan
    crossR := bothDiv (both UV.sub cross y0) amp
    extinction := bothDiv (y1.map fun a => a.subC nf) (y0.map fun a => a.subC nf)
    omaCross := both UV.sub y1Cross y0Cross
    vecp := vecpOf (o.flatMap (·.y0)) (o.flatMap (·.y1)) (both UV.sub y1Cross y0Cross)
    trans := fun x y z => (o.map fun v => v.trans x y z).sum }

/-- Horizontal measures, pam2.py:502-536. -/
structure HMeasures where
  tSym : Option UV
  t0 : Option UV
  t1 : Option UV
  t0Start : Option UV
  t1Start : Option UV
  tRise : Option UV
  tFall : Option UV
  tRiseStart : Option UV
  tFallStart : Option UV
  tCross : Option UV
  fSym : NV
  width : Option UV
  widthR : NV
  dcd : Option UV
  dcdR : NV
  jitterPp : Option ℝ
  jitterRms : Option ℝ

/-- `a.max() - a.min()`, `ptp` of pam2.py:535; nan without samples, pam2.py:532-533. -/
noncomputable def ptp : List ℝ → Option ℝ
  | [] => none
  | x :: l => some (l.foldl max x - l.foldl min x)

/-- The horizontal measures from the samples of all waveforms, pam2.py:462-536; `T` is the duration of a symbol (`t_sym`). -/
noncomputable def hMeasures (T : ℚ) (o : List HOut) : HMeasures :=
  let s := fun f : HOut → List ℚ => ofSamples ((o.flatMap f).map fun t : ℚ => t * T)
  let riseLower := s (·.riseLower)
  let riseUpper := s (·.riseUpper)
  let riseHalf := s (·.riseHalf)
  let fallLower := s (·.fallLower)
  let fallUpper := s (·.fallUpper)
  let fallHalf := s (·.fallHalf)
  let crossLeft := s (·.crossLeft)
  let crossRight := s (·.crossRight)
  let tSym := both UV.sub crossRight crossLeft
  let t0 := both (fun r f => (r.sub f).addC (T : ℝ)) riseHalf fallHalf
  let t1 := both (fun f r => (f.sub r).addC (T : ℝ)) fallHalf riseHalf
  let width := both opening crossRight crossLeft
  let dcd := both (fun a b => (⟨(a.sub b).value / 2, (a.sub b).stddev / |2|⟩ : UV)) t1 t0
  { tSym := tSym
    t0 := t0
    t1 := t1
    t0Start := fallHalf
    t1Start := riseHalf
    tRise := both UV.sub riseUpper riseLower
    tFall := both UV.sub fallLower fallUpper
    tRiseStart := riseLower
    tFallStart := fallUpper
    tCross := crossLeft
    fSym := bothDiv (some ⟨1, 0⟩) tSym
    width := width
    widthR := bothDiv width tSym
    dcd := dcd
    dcdR := bothDiv dcd tSym
    jitterPp := ptp ((o.flatMap (·.crossLeft)).map fun t : ℚ => ((t * T : ℚ) : ℝ))
    jitterRms := crossLeft.map (·.stddev) }

end Verif.Pam2
