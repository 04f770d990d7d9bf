import Verif.Model.Pam2
import Verif.Model.Cdr

/-!
Model of `PAM2.calculate` as a whole: steps 1 to 5 one after the other, `eyediagram.py:451-510` with the steps of `pam2.py` and `eyediagram.py`.

The levels measured in step 1 (a fit that is not modelled), the clock recovery and the mask are parameters.  The coloured images of step 5 are
modelled in `Draw`; here only the exception that the reference lines can raise.
-/

namespace Verif.Pipeline

open Verif Verif.Lines Verif.Eye Verif.Pam2

/-- The settings, eyediagram.py:311-341, pam2.py:144-146, and the resolution. -/
structure Settings where
  level : LevelConfig ℚ
  polarity : Polarity
  period : Option ℚ
  skip : Bool
  levelWidth : ℚ
  crossWidth : ℚ
  timeHeight : ℚ
  edgeLower : ℚ
  edgeUpper : ℚ
  pointCloud : Bool
  resolution : ℕ

/-- `_t_delta`, eyediagram.py:442-443: of the first waveform.  With a single sample numpy divides by zero (nan or inf), which makes `int` in step 3
raise: ValueError or OverflowError; here ValueError. -/
def tDelta : List Wave → Except PyErr ℚ
  | [] => .error .indexError
  | w :: _ =>
    match w.1.head?, w.1.getLast? with
    | some first, some last => if w.1.length = 1 then .error .valueError else .ok ((last - first) / (w.1.length - 1 : ℕ))
    | _, _ => .error .indexError

/-- A number; ValueError for nan. -/
def number : Option ℚ → Except PyErr ℚ
  | some t => .ok t
  | none => .error .valueError

/-- Clock edges without nan.  With one, either the symbol period is nan or the index of its symbol: `int(nan)` raises ValueError,
eyediagram.py:622, 632. -/
def finite (e : List (List (Option ℚ))) : Except PyErr (List (List ℚ)) := e.mapM fun l => l.mapM number

/-- Step 3 for one waveform, eyediagram.py:626-641: its values and symbols. -/
def sampled (T δ : ℚ) (w : Wave) (edges : List ℚ) : Except PyErr Wf := do
  let tZero ← pyGet w.1 0
  return ⟨w.2, sampleEdges T δ tZero w.2.length edges⟩

/-- The levels after step 4, pam2.py:451-459, from the means of the samples of logical zeros and ones; `none`: nan. -/
def newLevels (c : LevelConfig ℚ) (m0 m1 : Option ℚ) (l : Levels ℚ) : Option (Levels ℚ) :=
  match c.y0, c.y1 with
  | some _, some _ => some (updateLevels c 0 0 l)
  | none, some _ => m0.map fun a => updateLevels c a 0 l
  | _, none =>
    match m0, m1 with
    | some a, some b => some (updateLevels c a b l)
    | _, _ => none

/-- The reference lines, eyediagram.py:795-812, pam2.py:335-343: writing to a line outside the image raises IndexError. -/
def drawGrid (s : Settings) : Except PyErr Unit :=
  if ([0, 1 / 2, 1, -1 / 4, 1 / 4, 3 / 4, 5 / 4, s.edgeLower, s.edgeUpper] : List ℚ).all fun u =>
      (uiaToImage s.resolution u).all fun p => decide (p < s.resolution)
  then .ok () else .error .indexError

/-- What is computed with the final levels: horizontal samples, mask, bathtub curve, counts of the image. -/
structure Picture where
  levels : Levels ℚ
  h : List HOut
  mask : Option MaskAll
  bathtub : List (ℚ × ℚ)
  counts : Grid

/-- Everything `calculate` computes.  `v` is `none` if the measures are skipped, `picture` is `none` if a level is nan or the amplitude is zero:
python goes on with nan and inf in all later results. -/
structure Analysis where
  tSym : ℚ
  wfs : List Wf
  v : Option (List VOut)
  picture : Option Picture

/-- How a mask is sampled, `_sample_mask` with a mask: sample period, symbol period, zero, amplitude and waveforms. -/
abbrev MaskFn := ℚ → ℚ → ℚ → ℚ → List Wf → Except PyErr MaskAll

/-- Step 5, eyediagram.py:835-864 and the reference lines. -/
def picture (s : Settings) (T δ : ℚ) (wfs : List Wf) (l : Levels ℚ) (h : List HOut) (m : Option MaskAll) (b : List (ℚ × ℚ)) :
    Except PyErr Picture := do
  let g ← stackAll wfs δ T l.zero l.ua s.resolution s.pointCloud
  drawGrid s
  return ⟨l, h, m, b, g⟩

/-- `_sample_mask`, eyediagram.py:767-769: nothing without a mask. -/
def runMask (mask : Option MaskFn) (T δ : ℚ) (wfs : List Wf) (l : Levels ℚ) : Except PyErr (Option MaskAll) :=
  match mask with
  | none => .ok none
  | some f => do return some (← f δ T l.zero l.ua wfs)

/-- Step 5 without usable levels: only the exception that the reference lines can raise. -/
def noPicture (s : Settings) : Except PyErr (Option Picture) := do
  drawGrid s
  return none

/-- The rest of step 4 after the vertical measurement, pam2.py:461-556, and step 5.  The bathtub curve is at half the amplitude, pam2.py:556.
Simplification: without usable levels the horizontal measurement has no results; with a mask, ZeroDivisionError (python floats; numpy floats give inf). -/
def finish (s : Settings) (mask : Option MaskFn) (T δ : ℚ) (wfs : List Wf) (v : List VOut) (l : Option (Levels ℚ)) :
    Except PyErr (Option Picture) :=
  match l.filter fun l => decide (l.ua ≠ 0) with
  | none => if mask.isSome then .error .zeroDivision else noPicture s
  | some l => do
    let cross := mean (v.flatMap (·.cross))
    let h ← (wfs.zip v).mapM fun p =>
      sampleHorizontal p.1.y p.1.centers p.2.edgeDir δ T l.zero l.ua cross s.timeHeight s.edgeLower s.edgeUpper
    let m ← runMask mask T δ wfs l
    let b ← bathtubCurve wfs δ T l.zero l.ua (1 / 2)
    return some (← picture s T δ wfs l h m b)

/-- Step 5 if the measures are skipped: the levels of step 1, no mask. -/
def skipPicture (s : Settings) (T δ : ℚ) (wfs : List Wf) (l : Levels ℚ) : Except PyErr (Option Picture) :=
  if l.ua = 0 then noPicture s
  else do return some (← picture s T δ wfs l [] none [])

/-- Steps 4 and 5, pam2.py:345-556, eyediagram.py:835-864. -/
def measure (s : Settings) (mask : Option MaskFn) (T δ : ℚ) (wfs : List Wf) (l : Levels ℚ) : Except PyErr Analysis :=
  if s.skip then do
    return ⟨T, wfs, none, ← skipPicture s T δ wfs l⟩
  else do
    let v ← wfs.mapM fun w => sampleVertical w.y w.centers δ T l.half s.levelWidth s.crossWidth
    let p ← finish s mask T δ wfs v (newLevels s.level (mean (v.flatMap (·.y0))) (mean (v.flatMap (·.y1))) l)
    return ⟨T, wfs, some v, p⟩

/-- `PAM2.calculate`, eyediagram.py:451-510: `m` are the levels measured in step 1.  Simplification: clock edges beyond the number of
waveforms are only used for the period (the constructor and step 2 give one list per waveform). -/
def calculateAll (s : Settings) (m : Level ℚ × Level ℚ) (given : Option (List (List (Option ℚ)))) (clocks : Option (List Wave))
    (cdr : List (Option ℚ) → Except PyErr (List (Option ℚ))) (mask : Option MaskFn) (wfs : List Wave) : Except PyErr Analysis := do
  let δ ← tDelta wfs
  let l := levels s.level m
  let e ← finite (← clockEdges given clocks wfs l s.polarity cdr s.period)
  match ← symbolPeriod e with
  | none => .error .valueError
  | some T => do
    let ws ← (wfs.zip e).mapM fun p => sampled T δ p.1 p.2
    measure s mask T δ ws l

/-- `get_bit_stream` after `calculate`, pam2.py:750-782. -/
def bits (a : Analysis) (nrzm : Bool) : Except PyErr (List (List ℤ)) := bitStream true (a.v.map fun v => v.map (·.edgeDir)) nrzm

/-- The default clock recovery, `CDR(period).run` without nan edges, pam2.py:316-328, 856-875: clock edges only.  A nan among the data edges makes
the comparisons and `int` fail, here ValueError. -/
def recover (run : List ℚ → Except PyErr (List ℚ × List ℚ)) (edges : List (Option ℚ)) : Except PyErr (List (Option ℚ)) := do
  let r ← run (← edges.mapM number)
  return r.1.map some

end Verif.Pipeline
