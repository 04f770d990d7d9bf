import Verif.Model.FloatEye

/-!
The bathtub curves of `hardware_tools/measurement/eyediagram/eyediagram.py` and `_eyediagram_fb.py` in rounded arithmetic (see `Verif.Model.Float`): the
same functions as in `Verif.Eye`, with a rounding after every operation on floats.
-/

namespace Verif.Float

open Verif Verif.Lines Verif.Eye

/-- `y_slice` for one level in floats, _eyediagram_fb.py:12-59. -/
def ySliceF (R : Rounding) (w : Wf) (tDelta tSym yZero yUa level : ℚ) : Except PyErr (List ℚ) :=
  w.centers.foldlM (fun acc c => do
    let h ← hitsF R (windowF R (normaliseF R w.y yZero yUa) tSym tDelta c) [[(0, level), (1, level)]]
    return acc ++ h.map Prod.fst) []

/-- The curve from the times of all hits in floats, eyediagram.py:733-755. -/
def bathtubF (R : Rounding) (hits : List ℚ) : List (ℚ × ℚ) :=
  let h := sort hits
  let left := h.filter (· ≤ 1 / 2)
  let right := h.filter (· > 1 / 2)
  let berL := (List.range left.length).map fun i : ℕ => R.fl (1 - R.fl ((i : ℚ) / left.length))
  let berR := (List.range right.length).reverse.map fun i : ℕ => R.fl (1 - R.fl ((i : ℚ) / right.length))
  (0, 1) :: (left.zip berL ++ right.zip berR ++ [(1, 1)])

/-- `_generate_bathtub_curves` for one level in floats, eyediagram.py:713-756. -/
def bathtubCurveF (R : Rounding) (wfs : List Wf) (tDelta tSym yZero yUa level : ℚ) : Except PyErr (List (ℚ × ℚ)) := do
  let h ← wfs.mapM fun w => ySliceF R w tDelta tSym yZero yUa level
  return bathtubF R h.flatten

end Verif.Float
