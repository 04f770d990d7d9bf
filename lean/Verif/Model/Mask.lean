import Verif.Model.Lines

/-!
Model of the masks, `hardware_tools/measurement/mask.py`.

Floats are exact rationals.  `to_dict` is in MaskDict; user defined subclasses are not modelled.
-/

namespace Verif.Mask

open Verif Verif.Lines

/-- `MixedUnits`, mask.py:10-16: a number, and whether it is a `RealUnits`. -/
structure Qty where
  real : Bool
  v : ℚ
  deriving DecidableEq

/-- The result of arithmetic with a `RealUnits` is a plain float. -/
def plain (v : ℚ) : Qty := ⟨false, v⟩

/-- `Mask._convert_ua`, `Mask._convert_ui`, mask.py:49-79. -/
def convertUnit (actual : Qty) (unit : ℚ) : Except PyErr Qty :=
  if actual.real then
    if unit = 0 then .error .zeroDivision else .ok (plain (actual.v / unit))
  else .ok actual

/-- `path_upper`, mask.py:203-208, 361-366. -/
def pathUpper (yu : ℚ) : List Pt := [(0, 2), (0, 1 + yu), (1, 1 + yu), (1, 2)]

/-- `path_lower`, mask.py:210-215, 368-373. -/
def pathLower (yl : ℚ) : List Pt := [(0, -1), (0, -yl), (1, -yl), (1, -1)]

/-! ### Hexagon -/

/-- `MaskHexagon`, mask.py:117-262.  The paths are determined by the parameters. -/
structure Hexagon where
  x1 : Qty
  x2 : Qty
  y1 : Qty
  yl : Qty
  yu : Qty
  zeroRef : Bool
  converted : Bool
  deriving DecidableEq

/-- `MaskHexagon.__init__`, mask.py:163-218, 31-40. -/
def Hexagon.new (x1 x2 y1 yl yu : Qty) (zeroRef : Bool) : Hexagon := ⟨x1, x2, y1, yl, yu, zeroRef, false⟩

/-- `path_center`, mask.py:193-201. -/
def Hexagon.center (m : Hexagon) : List Pt :=
  [(m.x1.v, 1 / 2), (m.x2.v, 1 - m.y1.v), (1 - m.x2.v, 1 - m.y1.v), (1 - m.x1.v, 1 / 2), (1 - m.x2.v, m.y1.v), (m.x2.v, m.y1.v),
    (m.x1.v, 1 / 2)]

/-- `Mask.paths`, mask.py:42-47. -/
def Hexagon.paths (m : Hexagon) : Except PyErr (List (List Pt)) :=
  if m.converted then .ok [m.center, pathUpper m.yu.v, pathLower m.yl.v] else .error .valueError

/-- `MaskHexagon.convert_mixed_units`, mask.py:220-233. -/
def Hexagon.convert (m : Hexagon) (ua ui : ℚ) : Except PyErr Hexagon := do
  let x1 ← convertUnit m.x1 ui
  let x2 ← convertUnit m.x2 ui
  let y1 ← convertUnit m.y1 ua
  let yl ← convertUnit m.yl ua
  let yu ← convertUnit m.yu ua
  if m.zeroRef then return { Hexagon.new x1 x2 y1 yl yu m.zeroRef with converted := true }
  else return { Hexagon.new x1 x2 (plain (1 / 2 - y1.v)) (plain (yl.v - 1 / 2)) (plain (yu.v - 1 / 2)) m.zeroRef with
    converted := true }

/-- `factor * 0.5 + (1 - factor) * v`, mask.py:245-249, 408-414. -/
def towards (f : ℚ) (q : Qty) : Qty := plain (f * (1 / 2) + (1 - f) * q.v)

/-- `0.5 - (0.5 - a') * (0.5 - b) / (0.5 - a)`, mask.py:239, 400-401, 403. -/
def proportional (a' b a : ℚ) : ℚ := 1 / 2 - (1 / 2 - a') * (1 / 2 - b) / (1 / 2 - a)

/-- `MaskHexagon.adjust`, mask.py:235-252. -/
def Hexagon.adjust (m : Hexagon) (factor : ℚ) : Except PyErr Hexagon :=
  if factor > 0 then
    let x1 := (1 - factor) * m.x1.v
    if 1 / 2 - m.x1.v = 0 then .error .zeroDivision
    else .ok { Hexagon.new (plain x1) (plain (proportional x1 m.x2.v m.x1.v)) (plain ((1 - factor) * m.y1.v))
      (plain ((1 - factor) * m.yl.v)) (plain ((1 - factor) * m.yu.v)) m.zeroRef with converted := m.converted }
  else
    let f := -factor
    .ok { Hexagon.new (towards f m.x1) (towards f m.x2) (towards f m.y1) (towards f m.yl) (towards f m.yu) m.zeroRef with
      converted := m.converted }

/-! ### Decagon -/

/-- `MaskDecagon`, mask.py:265-429. -/
structure Decagon where
  x1 : Qty
  x2 : Qty
  x3 : Qty
  y1 : Qty
  y2 : Qty
  yl : Qty
  yu : Qty
  zeroRef : Bool
  converted : Bool
  deriving DecidableEq

/-- `MaskDecagon.__init__`, mask.py:311-376, 31-40. -/
def Decagon.new (x1 x2 x3 y1 y2 yl yu : Qty) (zeroRef : Bool) : Decagon := ⟨x1, x2, x3, y1, y2, yl, yu, zeroRef, false⟩

/-- `path_center`, mask.py:347-359. -/
def Decagon.center (m : Decagon) : List Pt :=
  [(m.x1.v, 1 / 2), (m.x2.v, 1 - m.y2.v), (m.x3.v, 1 - m.y1.v), (1 - m.x3.v, 1 - m.y1.v), (1 - m.x2.v, 1 - m.y2.v),
    (1 - m.x1.v, 1 / 2), (1 - m.x2.v, m.y2.v), (1 - m.x3.v, m.y1.v), (m.x3.v, m.y1.v), (m.x2.v, m.y2.v), (m.x1.v, 1 / 2)]

/-- `Mask.paths`, mask.py:42-47. -/
def Decagon.paths (m : Decagon) : Except PyErr (List (List Pt)) :=
  if m.converted then .ok [m.center, pathUpper m.yu.v, pathLower m.yl.v] else .error .valueError

/-- `MaskDecagon.convert_mixed_units`, mask.py:378-394. -/
def Decagon.convert (m : Decagon) (ua ui : ℚ) : Except PyErr Decagon := do
  let x1 ← convertUnit m.x1 ui
  let x2 ← convertUnit m.x2 ui
  let x3 ← convertUnit m.x3 ui
  let y1 ← convertUnit m.y1 ua
  let y2 ← convertUnit m.y2 ua
  let yl ← convertUnit m.yl ua
  let yu ← convertUnit m.yu ua
  if m.zeroRef then return { Decagon.new x1 x2 x3 y1 y2 yl yu m.zeroRef with converted := true }
  else return { Decagon.new x1 x2 x3 (plain (1 / 2 - y1.v)) (plain (1 / 2 - y2.v)) (plain (yl.v - 1 / 2)) (plain (yu.v - 1 / 2))
      m.zeroRef with converted := true }

/-- `MaskDecagon.adjust`, mask.py:396-417. -/
def Decagon.adjust (m : Decagon) (factor : ℚ) : Except PyErr Decagon :=
  if factor > 0 then
    let x1 := (1 - factor) * m.x1.v
    let y1 := (1 - factor) * m.y1.v
    if 1 / 2 - m.x1.v = 0 ∨ 1 / 2 - m.y1.v = 0 then .error .zeroDivision
    else .ok { Decagon.new (plain x1) (plain (proportional x1 m.x2.v m.x1.v)) (plain (proportional x1 m.x3.v m.x1.v)) (plain y1)
      (plain (proportional y1 m.y2.v m.y1.v)) (plain ((1 - factor) * m.yl.v)) (plain ((1 - factor) * m.yu.v)) m.zeroRef with
      converted := m.converted }
  else
    let f := -factor
    .ok { Decagon.new (towards f m.x1) (towards f m.x2) (towards f m.x3) (towards f m.y1) (towards f m.y2) (towards f m.yl)
      (towards f m.yu) m.zeroRef with converted := m.converted }

end Verif.Mask
