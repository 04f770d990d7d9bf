import Verif.Model.FloatCdr
import Verif.Model.Pipeline

/-!
`sample_vertical` of `hardware_tools/measurement/eyediagram/_pam2_fb.py` and `_pam2.pyx` and the symbol period of `eyediagram.py` in rounded arithmetic
(see `Verif.Model.Float`): the same functions as in `Verif.Pam2` and `Verif.Eye`, with a rounding after every operation on floats.
-/

namespace Verif.Float

open Verif Verif.Lines Verif.Eye Verif.Cdr Verif.Pam2 Verif.Pipeline

/-- The times and values of the samples of one symbol in floats, _pam2_fb.py:36-40, 83, 92-94. -/
def pointsF (R : Rounding) (ys : List ℚ) (tSym tDelta : ℚ) (c : Center) : Except PyErr (List Pt) :=
  (gridTF R tSym tDelta).zipIdx.mapM fun p => do
    let y ← pyGetZ ys (c.i - iWidthF R tSym tDelta + p.2)
    return (R.fl (p.1 + R.fl (c.t / tSym)), y)

/-- The same without bounds check, _pam2.pyx:47-53, 100-115. -/
def pointsCF (R : Rounding) (mem : ℤ → ℚ) (ys : List ℚ) (tSym tDelta : ℚ) (c : Center) : List Pt :=
  (gridTF R tSym tDelta).zipIdx.map fun p =>
    (R.fl (p.1 + R.fl (c.t / tSym)), rawGet mem ys (c.i - iWidthF R tSym tDelta + p.2))

/-- `abc_width` in floats, _pam2_fb.py:42, _pam2.pyx:55. -/
def abcWidthF (R : Rounding) (levelWidth tDelta tSym : ℚ) : ℚ := max levelWidth (R.fl (R.fl (R.fl (101 / 100) * tDelta) / tSym))

/-- The lower and the upper end of the window of width `w` around the time `u`, _pam2_fb.py:43-57, _pam2.pyx:56-70. -/
def windowEnds (R : Rounding) (u w : ℚ) : ℚ × ℚ := (R.fl (u - R.fl (w / 2)), R.fl (u + R.fl (w / 2)))

/-- A time is in a window, _pam2_fb.py:96-110, _pam2.pyx:117-134. -/
def inWindow (R : Rounding) (u w : ℚ) (p : Pt) : Bool := within (windowEnds R u w).1 (windowEnds R u w).2 p.1

/-- The body of the loop over the samples in floats, _pam2_fb.py:96-113, _pam2.pyx:117-137. -/
def samplesF (R : Rounding) (levelWidth crossWidth abc : ℚ) (ps : List Pt) : Samples :=
  let inA := inWindow R (-1 / 2) abc
  let inB := inWindow R (1 / 2) abc
  let inC := inWindow R (3 / 2) abc
  ⟨(ps.filter inA).map Prod.snd,
   (ps.filter fun p => !inA p && inB p).map Prod.snd,
   (ps.filter fun p => !inA p && !inB p && inC p).map Prod.snd,
   (ps.filter (inWindow R (1 / 2) levelWidth)).map Prod.snd,
   (ps.filter (inWindow R 0 crossWidth)).map Prod.snd,
   (ps.filter (inWindow R (1 / 2) levelWidth)).map Prod.snd,
   (ps.filter fun p => within 0 1 p.1).map Prod.snd⟩

/-- `np.mean(samples) > y_half` in floats, _pam2_fb.py:115-117: false for nan; `mean` see `IsMean`. -/
def aboveF (mean : List ℚ → ℚ) (yHalf : ℚ) (l : List ℚ) : Bool := if l = [] then false else decide (mean l > yHalf)

/-- `sym > (y_half * n)` in floats, _pam2.pyx:118-125, 139-141: the values are added one after the other. -/
def aboveCF (R : Rounding) (yHalf : ℚ) (l : List ℚ) : Bool := decide (l.foldl (fun s y => R.fl (s + y)) 0 > R.fl (yHalf * l.length))

/-- `sample_vertical` in floats, _pam2_fb.py:10-142. -/
def sampleVerticalF (R : Rounding) (mean : List ℚ → ℚ) (ys : List ℚ) (centers : List Center) (tDelta tSym yHalf levelWidth crossWidth : ℚ) :
    Except PyErr VOut :=
  centers.foldlM (fun v c => do
    let ps ← pointsF R ys tSym tDelta c
    return vStep (aboveF mean yHalf) (samplesF R levelWidth crossWidth (abcWidthF R levelWidth tDelta tSym) ps) v) VOut.empty

/-- `sample_vertical_c` in floats, _pam2.pyx:15-166. -/
def sampleVerticalCF (R : Rounding) (mem : ℤ → ℚ) (ys : List ℚ) (centers : List Center) (tDelta tSym yHalf levelWidth crossWidth : ℚ) : VOut :=
  centers.foldl (fun v c =>
    vStep (aboveCF R yHalf)
      (samplesF R levelWidth crossWidth (abcWidthF R levelWidth tDelta tSym) (pointsCF R mem ys tSym tDelta c)) v) VOut.empty

/-- The symbol period in floats, eyediagram.py:559-567; nan without a period. -/
def symbolPeriodF (R : Rounding) (mean : List ℚ → ℚ) (edges : List (List ℚ)) : Except PyErr (Option ℚ) :=
  if edges = [] then .error .valueError
  else
    let periods := (edges.map (diffsF R)).flatten
    if periods = [] then .ok none
    else
      let kept := periods.filter (· < R.fl (10 * mean periods))
      .ok (if kept = [] then none else some (mean kept))

/-- `_t_delta` in floats, eyediagram.py:442-443; see `Pipeline.tDelta`. -/
def tDeltaF (R : Rounding) : List Wave → Except PyErr ℚ
  | [] => .error .indexError
  | w :: _ =>
    match w.1.head?, w.1.getLast? with
    | some first, some last => if w.1.length = 1 then .error .valueError else .ok (R.fl (R.fl (last - first) / (w.1.length - 1 : ℕ)))
    | _, _ => .error .indexError

/-- The selected edges in floats, pam2.py:310-312, 785-802, 874-875. -/
def selectedEdgesF (R : Rounding) (w : Wave) (l : Levels ℚ) (p : Polarity) : Except PyErr (List (Option ℚ)) := do
  return filterPolarity (← edgesNpF R w.1 w.2 l.rising l.half l.falling) p

/-- The samples of the symbols of all waveforms, in floats: steps 2 to 4 of `PAM2.calculate` for records with the default clock recovery,
pam2.py:300-330, 383-397, eyediagram.py:559-567, 617-641.  `cdr` is `CDR.run`.  Simplification: the levels are given; clock and data edges that are nan
are ValueErrors, as in `Pipeline`. -/
def verticalsF (R : Rounding) (mean : List ℚ → ℚ) (cdr : List ℚ → Except PyErr (List ℚ × List ℚ)) (l : Levels ℚ) (p : Polarity)
    (levelWidth crossWidth : ℚ) (wfs : List Wave) : Except PyErr (List VOut) := do
  let δ ← tDeltaF R wfs
  let clk ← wfs.mapM fun w => do
    let e ← (← selectedEdgesF R w l p).mapM number
    let r ← cdr e
    return r.1
  match ← symbolPeriodF R mean clk with
  | none => .error .valueError
  | some T =>
    (wfs.zip clk).mapM fun q => do
      let tZero ← pyGet q.1.1 0
      sampleVerticalF R mean q.1.2 (sampleEdgesF R T δ tZero q.1.2.length q.2) δ T l.half levelWidth crossWidth

/-- The directions of the edges of the symbols, in floats, pam2.py:391, 405. -/
def directionsF (R : Rounding) (mean : List ℚ → ℚ) (cdr : List ℚ → Except PyErr (List ℚ × List ℚ)) (l : Levels ℚ) (p : Polarity)
    (levelWidth crossWidth : ℚ) (wfs : List Wave) : Except PyErr (List (List ℤ)) := do
  return (← verticalsF R mean cdr l p levelWidth crossWidth wfs).map fun v => v.edgeDir

end Verif.Float
