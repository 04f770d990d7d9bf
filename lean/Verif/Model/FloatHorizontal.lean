import Verif.Model.FloatMeasures

/-!
`sample_horizontal` of `hardware_tools/measurement/eyediagram/_pam2_fb.py` and `_pam2.pyx` and the horizontal measures of `pam2.py` in rounded arithmetic
(see `Verif.Model.Float`): the same functions as in `Verif.Pam2`, with a rounding after every operation on floats.
-/

namespace Verif.Float

open Verif Verif.Lines Verif.Eye Verif.Pam2

/-- A value is in the window of height `height` around `level`, in floats, _pam2_fb.py:188-197, 218, 245-257, _pam2.pyx:233-245, 263-290. -/
def inHeight (R : Rounding) (level height y : ℚ) : Bool := within (windowEnds R level height).1 (windowEnds R level height).2 y

/-- `y_cross_min <= y <= y_cross_max` in floats, _pam2_fb.py:193-194, 218; false for nan. -/
def atCrossF (R : Rounding) (h : HWin) (y : ℚ) : Bool :=
  match h.cross with
  | none => false
  | some c => inHeight R c h.height y

/-- The crossing times in floats, _pam2_fb.py:214-224, _pam2.pyx:263-269. -/
def crossStepF (R : Rounding) (h : HWin) (v : HOut) (p : Pt) : HOut :=
  if atCrossF R h p.2 then
    if within (-1 / 2) (1 / 2) p.1 then { v with crossLeft := v.crossLeft ++ [p.1] }
    else if 1 / 2 < p.1 ∧ p.1 ≤ 3 / 2 then { v with crossRight := v.crossRight ++ [p.1] }
    else v
  else v

/-- One sample of an edge in floats, _pam2_fb.py:245-261, _pam2.pyx:274-290. -/
def hEdgeStepF (R : Rounding) (h : HWin) (dir : ℤ) (v : HOut) (p : Pt) : HOut :=
  let v := if inHeight R h.lower h.height p.2 then
      (if dir = 1 then { v with riseLower := v.riseLower ++ [p.1] } else { v with fallLower := v.fallLower ++ [p.1] }) else v
  let v := if inHeight R h.upper h.height p.2 then
      (if dir = 1 then { v with riseUpper := v.riseUpper ++ [p.1] } else { v with fallUpper := v.fallUpper ++ [p.1] }) else v
  if inHeight R (1 / 2) h.height p.2 then
    (if dir = 1 then { v with riseHalf := v.riseHalf ++ [p.1] } else { v with fallHalf := v.fallHalf ++ [p.1] }) else v

/-- One symbol in floats, _pam2_fb.py:210-263; `ys` is normalised.  Simplification: `int(n * 1 / 4)` of the integer `n` is exact (n < 2^53). -/
def hStepF (R : Rounding) (ys : List ℚ) (tSym tDelta : ℚ) (h : HWin) (v : HOut) (ci : Center × ℤ) : Except PyErr HOut := do
  let ps ← pointsF R ys tSym tDelta ci.1
  let v := ps.foldl (crossStepF R h) v
  if ci.2 = 0 then return v
  let w := iWidthF R tSym tDelta
  let (start, stop) ← edgeRange ys w ((2 * w + 1) / 4) ci.1 ci.2
  let es ← (List.range' start (stop + 1 - start)).mapM fun ii => do
    let t ← pyGet (gridTF R tSym tDelta) ii
    let y ← pyGetZ ys (ci.1.i - w + ii)
    return ((R.fl (t + R.fl (ci.1.t / tSym)), y) : Pt)
  return es.foldl (hEdgeStepF R h ci.2) v

/-- The windows in floats, _pam2_fb.py:186-197. -/
def hWinF (R : Rounding) (yZero yUa : ℚ) (yCross : Option ℚ) (height lower upper : ℚ) : HWin :=
  ⟨lower, upper, yCross.map fun y => R.fl (R.fl (y - yZero) / yUa), height⟩

/-- `sample_horizontal` in floats, _pam2_fb.py:145-265.  Simplification: a direction for every symbol, as `sample_vertical` gives. -/
def sampleHorizontalF (R : Rounding) (ys : List ℚ) (centers : List Center) (dirs : List ℤ) (tDelta tSym yZero yUa : ℚ) (yCross : Option ℚ)
    (height lower upper : ℚ) : Except PyErr HOut :=
  (centers.zip dirs).foldlM (hStepF R (normaliseF R ys yZero yUa) tSym tDelta (hWinF R yZero yUa yCross height lower upper)) HOut.empty

/-- One symbol in floats, _pam2.pyx:254-290. -/
def hStepCF (R : Rounding) (mem : ℤ → ℚ) (ys : List ℚ) (tSym tDelta : ℚ) (h : HWin) (v : HOut) (ci : Center × ℤ) : HOut :=
  (pointsCF R mem ys tSym tDelta ci.1).foldl (fun v p =>
    let v := crossStepF R h v p
    if ci.2 = 0 ∨ p.1 > 1 / 2 then v else hEdgeStepF R h ci.2 v p) v

/-- `sample_horizontal_c` in floats, _pam2.pyx:177-292. -/
def sampleHorizontalCF (R : Rounding) (mem : ℤ → ℚ) (ys : List ℚ) (centers : List Center) (dirs : List ℤ) (tDelta tSym yZero yUa : ℚ)
    (yCross : Option ℚ) (height lower upper : ℚ) : HOut :=
  (centers.zip dirs).foldl (hStepCF R mem (normaliseF R ys yZero yUa) tSym tDelta (hWinF R yZero yUa yCross height lower upper)) HOut.empty

/-- The horizontal measures in floats, pam2.py:501-536. -/
structure HMeasuresF where
  tSym : Option UVF
  t0 : Option UVF
  t1 : Option UVF
  t0Start : Option UVF
  t1Start : Option UVF
  tRise : Option UVF
  tFall : Option UVF
  tRiseStart : Option UVF
  tFallStart : Option UVF
  tCross : Option UVF
  fSym : NVF
  width : Option UVF
  widthR : NVF
  dcd : Option UVF
  dcdR : NVF
  jitterPp : Option ℚ
  jitterRms : Option ℚ

/-- `a.max() - a.min()` in floats, `ptp` of pam2.py:535; nan without samples, pam2.py:532-533. -/
def ptpF (R : Rounding) : List ℚ → Option ℚ
  | [] => none
  | x :: l => some (R.fl (l.foldl max x - l.foldl min x))

/-- Half of an uncertain value in floats, pam2.py:530. -/
def halfF (R : Rounding) (a : UVF) : UVF := ⟨R.fl (a.value / 2), R.fl (a.stddev / |2|)⟩

/-- The horizontal measures from the samples of all waveforms in floats, pam2.py:462-536; `T` is the duration of a symbol (`t_sym`). -/
def hMeasuresF (R : Rounding) (mean dot : List ℚ → ℚ) (root : ℚ → ℚ) (T : ℚ) (o : List HOut) : HMeasuresF :=
  let s := fun f : HOut → List ℚ => UVF.samples R mean dot root ((o.flatMap f).map fun t : ℚ => R.fl (t * T))
  let riseLower := s (·.riseLower)
  let riseUpper := s (·.riseUpper)
  let riseHalf := s (·.riseHalf)
  let fallLower := s (·.fallLower)
  let fallUpper := s (·.fallUpper)
  let fallHalf := s (·.fallHalf)
  let crossLeft := s (·.crossLeft)
  let crossRight := s (·.crossRight)
  let tSym := bothF (UVF.sub R root) crossRight crossLeft
  let t0 := bothF (fun r f => UVF.addC R (UVF.sub R root r f) T) riseHalf fallHalf
  let t1 := bothF (fun f r => UVF.addC R (UVF.sub R root f r) T) fallHalf riseHalf
  let width := bothF (openingF R root) crossRight crossLeft
  let dcd := bothF (fun a b => halfF R (UVF.sub R root a b)) t1 t0
  { tSym := tSym
    t0 := t0
    t1 := t1
    t0Start := fallHalf
    t1Start := riseHalf
    tRise := bothF (UVF.sub R root) riseUpper riseLower
    tFall := bothF (UVF.sub R root) fallLower fallUpper
    tRiseStart := riseLower
    tFallStart := fallUpper
    tCross := crossLeft
    fSym := (tSym.map fun a => nvDivF R root ⟨1, 0⟩ a).getD NVF.nan
    width := width
    widthR := (bothF (nvDivF R root) width tSym).getD NVF.nan
    dcd := dcd
    dcdR := (bothF (nvDivF R root) dcd tSym).getD NVF.nan
    jitterPp := ptpF R ((o.flatMap (·.crossLeft)).map fun t : ℚ => R.fl (t * T))
    jitterRms := crossLeft.map (·.stddev) }

end Verif.Float
