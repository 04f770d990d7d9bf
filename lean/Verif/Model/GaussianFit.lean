import Verif.Model.Gaussian
import Mathlib.Algebra.Order.Archimedean.Real.Basic
import Mathlib.Algebra.Order.Floor.Ring
import Mathlib.Data.List.Sort

/-!
Model of the fits of `hardware_tools/math/gaussian.py` (`fit_pdf`, `fit_mix_samples`) and of the levels `_runner_levels` of `pam2.py` takes from them.

The optimisers of scipy and sklearn are parameters.  Samples are exact reals.
-/

namespace Verif.GaussianFit

open Verif Verif.Gaussian

/-- What is read from a fitted `sklearn.mixture.GaussianMixture` of one dimensional data, `gaussian.py:187-195`: `weights_[i]`, `means_[i][0]`,
`covariances_[i][0][0]` and `aic(y_norm)`. -/
structure GM where
  weights : List ℝ
  means : List ℝ
  covs : List ℝ
  aic : ℝ

/-- `np.rint`: the nearest integer, halves to even (used by `round`, `gaussian.py:183`). -/
noncomputable def rint (x : ℝ) : ℤ :=
  if Int.fract x < 1 / 2 then ⌊x⌋ else if 1 / 2 < Int.fract x then ⌊x⌋ + 1 else if ⌊x⌋ % 2 = 0 then ⌊x⌋ else ⌊x⌋ + 1

/-- `round(decimals=6)`, `gaussian.py:183`. -/
noncomputable def round6 (x : ℝ) : ℝ := (rint (x * 1000000) : ℝ) / 1000000

/-- `len(np.unique(y_norm.round(decimals=6)))`, `gaussian.py:183`. -/
noncomputable def distinct (ys : List ℝ) : ℕ := (ys.map round6).dedup.length

/-- `y.min()` of a list with first entry `a`. -/
noncomputable def minOf (a : ℝ) (l : List ℝ) : ℝ := l.foldl min a
/-- `y.max()` of a list with first entry `a`. -/
noncomputable def maxOf (a : ℝ) (l : List ℝ) : ℝ := l.foldl max a

/-- `y.mean()`, `gaussian.py:177`. -/
noncomputable def mean (y : List ℝ) : ℝ := y.sum / y.length

/-- `y_norm`, `gaussian.py:178-179`. -/
noncomputable def normalised (y : List ℝ) (span : ℝ) : List ℝ := y.map fun v => (v - mean y) / span

/-- One component of the chosen model in the unit of the samples, `gaussian.py:192-195`. -/
noncomputable def component (g : GM) (span avg : ℝ) (i : ℕ) : Except PyErr Comp := do
  let w ← pyGet g.weights i
  let m ← pyGet g.means i
  let c ← pyGet g.covs i
  return ⟨w, m * span + avg, |Real.sqrt c * span|⟩

/-- The order of `sorted(components, key=lambda c: -c.amplitude)`, `gaussian.py:197`. -/
noncomputable def before (c d : Comp) : Bool := decide (-c.amplitude ≤ -d.amplitude)

/-- `fit_mix_samples`, `gaussian.py:162-198`: `fit k ys` is `GaussianMixture(k, tol=tol).fit(ys)`. -/
noncomputable def fitMix (fit : ℕ → List ℝ → Except PyErr GM) (nMax : ℤ) : List ℝ → Except PyErr (List Comp)
  | [] => .error .valueError
  | a :: l =>
    let span := maxOf a l - minOf a l
    if span = 0 then .ok [⟨1, a, 0⟩]
    else do
      let ys := normalised (a :: l) span
      let models ← (List.range (min nMax (distinct ys)).toNat).mapM fun i : ℕ => fit (i + 1) ys
      match argmin (models.map GM.aic) with
      | none => .error .valueError
      | some best =>
        let g ← pyGet models best
        let cs ← (List.range (best + 1)).mapM (component g span (mean (a :: l)))
        return cs.mergeSort before

/-- `values.std()`, `pam2.py:835, 838`. -/
noncomputable def std (y : List ℝ) : ℝ := Real.sqrt ((y.map fun v => (v - mean y) ^ 2).sum / y.length)

/-- `_runner_levels`, `pam2.py:828-844`, after the reduction of the samples: value and deviation of `y_0` and of `y_1`. -/
noncomputable def levels (fit : ℕ → List ℝ → Except PyErr GM) : List ℝ → Except PyErr ((ℝ × ℝ) × (ℝ × ℝ))
  | [] => .error .valueError
  | a :: l => do
    let mid := (minOf a l + maxOf a l) / 2
    let v0 := (a :: l).filter fun v => decide (v < mid)
    let v1 := (a :: l).filter fun v => decide (mid < v)
    let f0 ← fitMix fit 2 v0
    let f1 ← fitMix fit 2 v1
    let c0 ← center f0
    let c1 ← center f1
    return ((c0, std v0), (c1, std v1))

/-- `np.average(x, weights=w)`, `gaussian.py:150-151`, for weights that do not add up to zero. -/
noncomputable def average (x w : List ℝ) : ℝ := (List.zipWith (· * ·) x w).sum / w.sum

/-- `fit_pdf`, `gaussian.py:136-159`.  `curveFit x y p0`: the parameters (amplitude, mean, deviation) found by `scipy.optimize.curve_fit` for `f`.
Arrays of different length raise TypeError in `np.average`, empty ones ZeroDivisionError.  Frequencies that add up to zero become nan or infinite, which
`curve_fit` rejects with ValueError. -/
noncomputable def fitPdf (curveFit : List ℝ → List ℝ → ℝ × ℝ × ℝ → Except PyErr (ℝ × ℝ × ℝ)) (x : List ℝ) : List ℝ → Except PyErr Comp
  | [] => if x = [] then .error .zeroDivision else .error .typeError
  | b :: r =>
    let total := (b :: r).sum
    if x.length ≠ (b :: r).length then .error .typeError
    else if total = 0 then .error .valueError
    else do
      let w := (b :: r).map (· / total)
      let m := average x w
      let s := Real.sqrt (average (x.map fun v => (v - m) ^ 2) w)
      let p ← curveFit x w (maxOf (b / total) (r.map (· / total)), m, s)
      return ⟨p.1 * total, p.2.1, p.2.2⟩

end Verif.GaussianFit
