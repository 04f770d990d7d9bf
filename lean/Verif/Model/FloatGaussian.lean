import Verif.Model.FloatSearch
import Verif.Model.FloatStats
import Verif.Model.Gaussian

/-!
`Gaussian` and `GaussianMix` of `hardware_tools/math/gaussian.py` in rounded arithmetic (see `Verif.Model.Float`), for deviations other than 0 (with deviation
0 nothing is computed, see `Verif.Gaussian.fArr`).
-/

namespace Verif.Float

open Verif

/-- `Gaussian`, `gaussian.py:14-37`, with floats. -/
structure CompQ where
  amplitude : ℚ
  mean : ℚ
  stddev : ℚ

/-- What `f`, `gaussian.py:133-134`, takes from numpy and the C library: `np.pi`, `**2`, `np.exp` (for arguments up to 0) and `np.sqrt`.  Square and
exponential may be off by two units of rounding.  Simplification: no underflow of the exponential. -/
structure Lib (R : Rounding) where
  pi : ℚ
  square : ℚ → ℚ
  exp : ℚ → ℚ
  sqrt : ℚ → ℚ
  pi_err : |(pi : ℝ) - Real.pi| ≤ R.u * Real.pi
  square_err : ∀ x, |square x - x ^ 2| ≤ 2 * R.u * x ^ 2
  square_neg : ∀ x, square (-x) = square x
  exp_err : ∀ t, t ≤ 0 → |(exp t : ℝ) - Real.exp t| ≤ 2 * R.u * Real.exp t
  exp_zero : exp 0 = 1
  exp_le_one : ∀ t, t ≤ 0 → exp t ≤ 1
  sqrt_err : ∀ y, 0 ≤ y → |(sqrt y : ℝ) - Real.sqrt y| ≤ R.u * Real.sqrt y

/-- `f` for a deviation other than 0, `gaussian.py:133-134`. -/
def gaussF (R : Rounding) (L : Lib R) (c : CompQ) (x : ℚ) : ℚ :=
  R.fl (R.fl (c.amplitude * L.exp (R.fl (-L.square (R.fl (R.fl (x - c.mean) / c.stddev)) / 2))) /
    L.sqrt (R.fl (R.fl (2 * L.pi) * L.square c.stddev)))

/-- `GaussianMix.compute` at one position, `gaussian.py:76-87`: `np.dot` with ones. -/
def mixF (R : Rounding) (L : Lib R) (dot : List (ℚ × ℚ) → ℚ) (cs : List CompQ) (x : ℚ) : ℚ := dot (cs.map fun c => (gaussF R L c x, 1))

/-- One grid search, `gaussian.py:101-103` and `104-107`. -/
noncomputable def peakF (R : Rounding) (L : Lib R) (dot : List (ℚ × ℚ) → ℚ) (cs : List CompQ) (a b : ℚ) : Except PyErr ℚ :=
  match Gaussian.argmax ((linspaceF R a b 999).map (mixF R L dot cs)) with
  | none => .error .valueError
  | some i => pyGet (linspaceF R a b 999) i

/-- `GaussianMix.center`, `gaussian.py:89-107`. -/
noncomputable def centerF (R : Rounding) (L : Lib R) (dot : List (ℚ × ℚ) → ℚ) (cs : List CompQ) : Except PyErr ℚ :=
  match cs with
  | [] => .error .valueError
  | [c] => .ok c.mean
  | c :: rest => do
    let xMin := (rest.map CompQ.mean).foldl min c.mean
    let xMax := (rest.map CompQ.mean).foldl max c.mean
    let x ← peakF R L dot cs xMin xMax
    peakF R L dot cs (R.fl (x - R.fl (R.fl (xMax - xMin) / 1000))) (R.fl (x + R.fl (R.fl (xMax - xMin) / 1000)))

end Verif.Float
