import Verif.Model.Base
import Mathlib.Analysis.SpecialFunctions.Trigonometric.Basic

/-!
Model of `hardware_tools/math/interpolation.py`.
-/

namespace Verif.Interpolation

open Verif

/-- `np.sinc` (numpy): `sin(pi x) / (pi x)`, 1 at 0. -/
noncomputable def npSinc (x : ℝ) : ℝ := if x = 0 then 1 else Real.sin (Real.pi * x) / (Real.pi * x)

/-- The dot product with one column of the tiled matrix, `interpolation.py:33-34`. -/
noncomputable def sincAt (period : ℝ) (xp yp : List ℝ) (x : ℝ) : ℝ :=
  (List.zipWith (fun xk yk => yk * npSinc ((x - xk) / period)) xp yp).sum

/-- `sinc`, `interpolation.py:7-35`; `ndim` is `len(xp.shape)` (the data is used only when it is 1).  A zero period
divides by zero in numpy (nan results); the model's division by zero is never used by the theorems. -/
noncomputable def sinc (ndim : ℕ) (x xp yp : List ℝ) : Except PyErr (List ℝ) :=
  if ndim ≠ 1 then .error .valueError
  else if xp.length ≠ yp.length then .error .valueError
  else
    match xp with
    | x0 :: x1 :: _ => .ok (x.map (sincAt (x1 - x0) xp yp))
    | _ => .error .valueError

end Verif.Interpolation
