import Verif.Model.FloatStats
import Verif.Model.Eye

/-!
The symbol windows of `hardware_tools/measurement/eyediagram/eyediagram.py` and `_eyediagram_fb.py` in rounded arithmetic (see
`Verif.Model.Float`): the same functions as in `Verif.Eye`, with a rounding after every operation on floats.
-/

namespace Verif.Float

open Verif Verif.Lines Verif.Eye

/-- `b % d` for floats with `d > 0`, used at eyediagram.py:632: the remainder of the division towards zero is exact, a negative one is
moved up by a rounded addition. -/
def pyModF (R : Rounding) (b d : ℚ) : ℚ :=
  let m := b - d * pyInt (b / d)
  if m < 0 then R.fl (m + d) else m

/-- `i_width` in floats, eyediagram.py:622, _eyediagram_fb.py:33,84,133. -/
def iWidthF (R : Rounding) (tSym tDelta : ℚ) : ℤ := pyInt (R.fl (R.fl (tSym / tDelta) + 1 / 2)) + 2

/-- `center_i` in floats, eyediagram.py:633. -/
def centerIF (R : Rounding) (tDelta tZero b : ℚ) : ℤ :=
  pyInt (R.fl (R.fl (R.fl (R.fl (b - tZero) - pyModF R b tDelta) / tDelta) + 1 / 2))

/-- The body of the loop over the clock edges in floats, eyediagram.py:631-638. -/
def sampleEdgeF (R : Rounding) (tSym tDelta tZero : ℚ) (maxI : ℕ) (b : ℚ) : Option Center :=
  let i := centerIF R tDelta tZero b
  let w := iWidthF R tSym tDelta
  if i - w < 0 ∨ i + w ≥ maxI then none else some ⟨i, -pyModF R b tDelta⟩

/-- `_step3_sample` for one waveform in floats, eyediagram.py:627-641. -/
def sampleEdgesF (R : Rounding) (tSym tDelta tZero : ℚ) (maxI : ℕ) (edges : List ℚ) : List Center :=
  edges.filterMap (sampleEdgeF R tSym tDelta tZero maxI)

/-- `t_width_ui` in floats, _eyediagram_fb.py:34,85,134. -/
def tWidthF (R : Rounding) (tSym tDelta : ℚ) : ℚ := R.fl (R.fl (iWidthF R tSym tDelta * tDelta) / tSym)

/-- `t0` in floats, _eyediagram_fb.py:33-37, 84-87, 133-137. -/
def gridTF (R : Rounding) (tSym tDelta : ℚ) : List ℚ :=
  let tw := tWidthF R tSym tDelta
  linspaceF R (R.fl (1 / 2 - tw)) (R.fl (1 / 2 + tw)) (2 * iWidthF R tSym tDelta).toNat

/-- `t` and `y` of one symbol in floats, _eyediagram_fb.py:49-53, 92-96, 147-151. -/
def windowF (R : Rounding) (ys : List ℚ) (tSym tDelta : ℚ) (c : Center) : List Pt :=
  let w := iWidthF R tSym tDelta
  ((gridTF R tSym tDelta).map fun t => R.fl (t + R.fl (c.t / tSym))).zip (pySlice ys (c.i - w) (c.i + w + 1))

/-- `(waveform_y - y_zero) / y_ua` in floats, _eyediagram_fb.py:39,139. -/
def normaliseF (R : Rounding) (y : List ℚ) (yZero yUa : ℚ) : List ℚ := y.map fun v => R.fl (R.fl (v - yZero) / yUa)

/-- The `while` loop in floats, _eyediagram_fb.py:153-155. -/
def advanceF (R : Rounding) (w : List Pt) : List (List (List Pt)) → ℕ → Except PyErr ℕ
  | [], k => .ok k
  | p :: rest, k => do
    if ← isHittingF R w p then advanceF R w rest (k + 1) else return k

/-- The body of the loop over the symbols in floats, _eyediagram_fb.py:146-163. -/
def maskStepF (R : Rounding) (paths : List (List (List Pt))) (zero : List (List Pt)) (iZero : ℕ) (s : MaskState) (iw : ℕ × List Pt) :
    Except PyErr MaskState := do
  let m ← advanceF R iw.2 (paths.drop s.iMargin) s.iMargin
  if m < iZero then return { s with iMargin := m }
  let h ← hitsF R iw.2 zero
  if h = [] then return { s with iMargin := m }
  return ⟨m, s.offenders ++ [iw.1], s.hits ++ h⟩

/-- `sample_mask` in floats, _eyediagram_fb.py:103-162. -/
def sampleMaskF (R : Rounding) (y : List ℚ) (centers : List Center) (tDelta tSym yZero yUa : ℚ) (paths : List (List (List Pt)))
    (margins : List ℚ) : Except PyErr MaskOut := do
  let iZero := margins.length / 2
  let ws := centers.map (windowF R (normaliseF R y yZero yUa) tSym tDelta)
  let s ← ((List.range ws.length).zip ws).foldlM (maskStepF R paths (paths.getD iZero []) iZero) ⟨0, [], []⟩
  return ⟨s.offenders, s.hits, ← marginAt margins s.iMargin⟩

/-- The pixels of one symbol in floats, _eyediagram_fb.py:89-99. -/
def pixelsF (R : Rounding) (y : List ℚ) (tDelta tSym minY maxY : ℚ) (resolution : ℕ) (c : Center) : List (ℤ × ℤ) :=
  (windowF R (y.map fun v => R.fl (R.fl (v - minY) / R.fl (maxY - minY))) tSym tDelta c).map fun p =>
    (pyInt (R.fl (R.fl (R.fl (p.1 + 1 / 2) / 2) * resolution)), pyInt (R.fl (p.2 * resolution)))

end Verif.Float
