import Verif.Model.FloatEye
import Verif.Model.Mask

/-!
The masks of `hardware_tools/measurement/mask.py` and `_sample_mask` of `eyediagram.py` in rounded arithmetic (see `Verif.Model.Float`): the same functions as
in `Verif.Mask` and `Verif.Eye`, with a rounding after every operation on floats.
-/

namespace Verif.Float

open Verif Verif.Lines Verif.Mask Verif.Eye

/-- `Mask._convert_ua`, `Mask._convert_ui` in floats, mask.py:49-79. -/
def convertUnitF (R : Rounding) (actual : Qty) (unit : ℚ) : Except PyErr Qty :=
  if actual.real then
    if unit = 0 then .error .zeroDivision else .ok (plain (R.fl (actual.v / unit)))
  else .ok actual

/-- `path_upper` in floats, mask.py:203-208, 361-366. -/
def pathUpperF (R : Rounding) (yu : ℚ) : List Pt := [(0, 2), (0, R.fl (1 + yu)), (1, R.fl (1 + yu)), (1, 2)]

/-- `factor * 0.5 + (1 - factor) * v` in floats, mask.py:245-249, 408-414. -/
def towardsF (R : Rounding) (f : ℚ) (q : Qty) : Qty := plain (R.fl (R.fl (f * (1 / 2)) + R.fl (R.fl (1 - f) * q.v)))

/-- `(1 - factor) * v` in floats, mask.py:238, 240-242, 399, 402, 404-405. -/
def scaledF (R : Rounding) (f v : ℚ) : ℚ := R.fl (R.fl (1 - f) * v)

/-- `0.5 - (0.5 - a') * (0.5 - b) / (0.5 - a)` in floats, mask.py:239, 400-401, 403. -/
def proportionalF (R : Rounding) (a' b a : ℚ) : ℚ :=
  R.fl (1 / 2 - R.fl (R.fl (R.fl (1 / 2 - a') * R.fl (1 / 2 - b)) / R.fl (1 / 2 - a)))

/-- `path_center` of a hexagon in floats, mask.py:193-201. -/
def hexCenterF (R : Rounding) (m : Hexagon) : List Pt :=
  [(m.x1.v, 1 / 2), (m.x2.v, R.fl (1 - m.y1.v)), (R.fl (1 - m.x2.v), R.fl (1 - m.y1.v)), (R.fl (1 - m.x1.v), 1 / 2), (R.fl (1 - m.x2.v), m.y1.v),
    (m.x2.v, m.y1.v), (m.x1.v, 1 / 2)]

/-- `Mask.paths` of a hexagon in floats, mask.py:42-47; `-yl` is not rounded. -/
def hexPathsF (R : Rounding) (m : Hexagon) : Except PyErr (List (List Pt)) :=
  if m.converted then .ok [hexCenterF R m, pathUpperF R m.yu.v, pathLower m.yl.v] else .error .valueError

/-- `MaskHexagon.convert_mixed_units` in floats, mask.py:220-233. -/
def hexConvertF (R : Rounding) (m : Hexagon) (ua ui : ℚ) : Except PyErr Hexagon := do
  let x1 ← convertUnitF R m.x1 ui
  let x2 ← convertUnitF R m.x2 ui
  let y1 ← convertUnitF R m.y1 ua
  let yl ← convertUnitF R m.yl ua
  let yu ← convertUnitF R m.yu ua
  if m.zeroRef then return { Hexagon.new x1 x2 y1 yl yu m.zeroRef with converted := true }
  else return { Hexagon.new x1 x2 (plain (R.fl (1 / 2 - y1.v))) (plain (R.fl (yl.v - 1 / 2))) (plain (R.fl (yu.v - 1 / 2))) m.zeroRef with
    converted := true }

/-- `MaskHexagon.adjust` in floats, mask.py:235-252. -/
def hexAdjustF (R : Rounding) (m : Hexagon) (factor : ℚ) : Except PyErr Hexagon :=
  if factor > 0 then
    let x1 := scaledF R factor m.x1.v
    if R.fl (1 / 2 - m.x1.v) = 0 then .error .zeroDivision
    else .ok { Hexagon.new (plain x1) (plain (proportionalF R x1 m.x2.v m.x1.v)) (plain (scaledF R factor m.y1.v))
      (plain (scaledF R factor m.yl.v)) (plain (scaledF R factor m.yu.v)) m.zeroRef with converted := m.converted }
  else
    let f := -factor
    .ok { Hexagon.new (towardsF R f m.x1) (towardsF R f m.x2) (towardsF R f m.y1) (towardsF R f m.yl) (towardsF R f m.yu) m.zeroRef with
      converted := m.converted }

/-- `path_center` of a decagon in floats, mask.py:347-359. -/
def decCenterF (R : Rounding) (m : Decagon) : List Pt :=
  [(m.x1.v, 1 / 2), (m.x2.v, R.fl (1 - m.y2.v)), (m.x3.v, R.fl (1 - m.y1.v)), (R.fl (1 - m.x3.v), R.fl (1 - m.y1.v)),
    (R.fl (1 - m.x2.v), R.fl (1 - m.y2.v)), (R.fl (1 - m.x1.v), 1 / 2), (R.fl (1 - m.x2.v), m.y2.v), (R.fl (1 - m.x3.v), m.y1.v), (m.x3.v, m.y1.v),
    (m.x2.v, m.y2.v), (m.x1.v, 1 / 2)]

/-- `Mask.paths` of a decagon in floats, mask.py:42-47. -/
def decPathsF (R : Rounding) (m : Decagon) : Except PyErr (List (List Pt)) :=
  if m.converted then .ok [decCenterF R m, pathUpperF R m.yu.v, pathLower m.yl.v] else .error .valueError

/-- `MaskDecagon.convert_mixed_units` in floats, mask.py:378-394. -/
def decConvertF (R : Rounding) (m : Decagon) (ua ui : ℚ) : Except PyErr Decagon := do
  let x1 ← convertUnitF R m.x1 ui
  let x2 ← convertUnitF R m.x2 ui
  let x3 ← convertUnitF R m.x3 ui
  let y1 ← convertUnitF R m.y1 ua
  let y2 ← convertUnitF R m.y2 ua
  let yl ← convertUnitF R m.yl ua
  let yu ← convertUnitF R m.yu ua
  if m.zeroRef then return { Decagon.new x1 x2 x3 y1 y2 yl yu m.zeroRef with converted := true }
  else return { Decagon.new x1 x2 x3 (plain (R.fl (1 / 2 - y1.v))) (plain (R.fl (1 / 2 - y2.v))) (plain (R.fl (yl.v - 1 / 2)))
      (plain (R.fl (yu.v - 1 / 2))) m.zeroRef with converted := true }

/-- `MaskDecagon.adjust` in floats, mask.py:396-417. -/
def decAdjustF (R : Rounding) (m : Decagon) (factor : ℚ) : Except PyErr Decagon :=
  if factor > 0 then
    let x1 := scaledF R factor m.x1.v
    let y1 := scaledF R factor m.y1.v
    if R.fl (1 / 2 - m.x1.v) = 0 ∨ R.fl (1 / 2 - m.y1.v) = 0 then .error .zeroDivision
    else .ok { Decagon.new (plain x1) (plain (proportionalF R x1 m.x2.v m.x1.v)) (plain (proportionalF R x1 m.x3.v m.x1.v)) (plain y1)
      (plain (proportionalF R y1 m.y2.v m.y1.v)) (plain (scaledF R factor m.yl.v)) (plain (scaledF R factor m.yu.v)) m.zeroRef with
      converted := m.converted }
  else
    let f := -factor
    .ok { Decagon.new (towardsF R f m.x1) (towardsF R f m.x2) (towardsF R f m.x3) (towardsF R f m.y1) (towardsF R f m.y2) (towardsF R f m.yl)
      (towardsF R f m.yu) m.zeroRef with converted := m.converted }

/-- The margins in floats, eyediagram.py:775-777. -/
def marginsF (R : Rounding) : List ℚ := (List.range 2001).map fun i : ℕ => R.fl ((1000 - (i : ℚ)) / 1000)

/-- The loop over the waveforms in floats, eyediagram.py:783-791. -/
def maskLoopF (R : Rounding) (tDelta tSym yZero yUa : ℚ) (paths : List (List (List Pt))) : List Wf → MaskAll → Except PyErr MaskAll
  | [], a => .ok a
  | w :: rest, a => do
    let o ← sampleMaskF R w.y w.centers tDelta tSym yZero yUa paths (marginsF R)
    maskLoopF R tDelta tSym yZero yUa paths rest
      ⟨a.offenders ++ [o.offenders], a.hits ++ o.hits, min a.margin o.margin, a.count + o.offenders.length⟩

/-- `_sample_mask` with a hexagon mask in floats, eyediagram.py:758-793. -/
def sampleHexMaskF (R : Rounding) (m : Hexagon) (tDelta tSym yZero yUa : ℚ) (wfs : List Wf) : Except PyErr MaskAll := do
  let c ← hexConvertF R m yUa tSym
  let paths ← (marginsF R).mapM fun f => do hexPathsF R (← hexAdjustF R c f)
  maskLoopF R tDelta tSym yZero yUa paths wfs ⟨[], [], 1, 0⟩

/-- `_sample_mask` with a decagon mask in floats, eyediagram.py:758-793. -/
def sampleDecMaskF (R : Rounding) (m : Decagon) (tDelta tSym yZero yUa : ℚ) (wfs : List Wf) : Except PyErr MaskAll := do
  let c ← decConvertF R m yUa tSym
  let paths ← (marginsF R).mapM fun f => do decPathsF R (← decAdjustF R c f)
  maskLoopF R tDelta tSym yZero yUa paths wfs ⟨[], [], 1, 0⟩

end Verif.Float
