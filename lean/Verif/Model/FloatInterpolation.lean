import Verif.Model.FloatSearch
import Mathlib.Analysis.SpecialFunctions.Trigonometric.Basic

/-!
`hardware_tools/math/interpolation.py` in rounded arithmetic (see `Verif.Model.Float`).
-/

namespace Verif.Float

open Verif

/-- What `np.sinc` (numpy), used in `interpolation.py:34`, takes from the C library: the constant `pi` and the sine.  The sine may be off by two units
of rounding of its argument, which covers any library that is within two units of the result. -/
structure Trig (R : Rounding) where
  pi : ℚ
  sin : ℚ → ℚ
  pi_err : |(pi : ℝ) - Real.pi| ≤ R.u * Real.pi
  sin_err : ∀ y, |(sin y : ℝ) - Real.sin y| ≤ 2 * R.u * |(y : ℝ)|

/-- `np.sinc(x)` (numpy), used in `interpolation.py:34`: `y = pi * where(x == 0, 1.0e-20, x)`, `sin(y) / y`. -/
def npSincF (R : Rounding) (W : Trig R) (x : ℚ) : ℚ :=
  let y := R.fl (W.pi * (if x = 0 then R.fl (1 / 10 ^ 20) else x))
  R.fl (W.sin y / y)

/-- One value of the result, `interpolation.py:33-34`: the dot product of `yp` with one column of the matrix. -/
def sincAtF (R : Rounding) (W : Trig R) (dot : List (ℚ × ℚ) → ℚ) (period : ℚ) (xp yp : List ℚ) (x : ℚ) : ℚ :=
  dot (yp.zip (xp.map fun xk => npSincF R W (R.fl (R.fl (x - xk) / period))))

/-- `sinc`, `interpolation.py:7-35`; `ndim` is `len(xp.shape)` (the data is used only when it is 1).  `dot` is `np.dot`.  A zero period divides by zero in
numpy (nan results); the model's division by zero is never used by the theorems. -/
def sincF (R : Rounding) (W : Trig R) (dot : List (ℚ × ℚ) → ℚ) (ndim : ℕ) (x xp yp : List ℚ) : Except PyErr (List ℚ) :=
  if ndim ≠ 1 then .error .valueError
  else if xp.length ≠ yp.length then .error .valueError
  else
    match xp with
    | x0 :: x1 :: _ => .ok (x.map (sincAtF R W dot (R.fl (x1 - x0)) xp yp))
    | _ => .error .valueError

end Verif.Float
