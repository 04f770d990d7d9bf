import Verif.Model.Stats
import Mathlib.Data.EReal.Basic

/-!
Model of `bin_exponential`, `hardware_tools/math/stats.py:107-139`.

Simplification: the samples are not negative (their logarithm would be nan); exact real arithmetic.
-/

namespace Verif.Stats

open Verif

open Classical in
/-- `np.log10(y)`, stats.py:120-121: minus infinity for zero. -/
noncomputable def log10 (v : NNReal) : EReal := if v = 0 then ⊥ else ((Real.logb 10 v : ℝ) : EReal)

/-- `min(y_exp)`, stats.py:122; a ValueError for no samples. -/
noncomputable def minE : List EReal → Except PyErr EReal
  | [] => .error .valueError
  | y :: ys => .ok (ys.foldl min y)

/-- `max(y_exp)`, stats.py:123. -/
noncomputable def maxE : List EReal → Except PyErr EReal
  | [] => .error .valueError
  | y :: ys => .ok (ys.foldl max y)

open Classical in
/-- `np.histogram(y, edges)` with explicit edges, see `histogram`; stats.py:133, 139. -/
noncomputable def histogramE (y edges : List EReal) : List ℤ :=
  diff (edges.dropLast.map (fun e => ((y.countP (· < e) : ℕ) : ℤ)) ++
    (match edges.getLast? with
     | none => []
     | some e => [((y.countP (· ≤ e) : ℕ) : ℤ)]))

open Classical in
/-- The exponent of the last edge if there is a zero, stats.py:125-128. -/
noncomputable def topExp (yMax : EReal) : ℤ := if yMax = ⊥ then 0 else ⌈yMax.toReal⌉

/-- The edges if there is a zero, stats.py:129-132: minus infinity, then `bin_count` integers up to the top. -/
noncomputable def decadeEdges (top : ℤ) (binCount : ℕ) : List EReal :=
  ⊥ :: (List.range binCount).map fun i : ℕ => (((top - ((binCount : ℤ) - 1) + i : ℤ) : ℝ) : EReal)

/-- The edges otherwise, `np.linspace`, stats.py:138. -/
noncomputable def expEdges (lo hi : ℝ) (binCount : ℕ) : List EReal :=
  (List.range (binCount + 1)).map fun i : ℕ => ((lo + i * ((hi - lo) / binCount) : ℝ) : EReal)

open Classical in
/-- `bin_exponential` with `density` false, stats.py:107-139: counts and edges (exponents). -/
noncomputable def binExponential (y : List NNReal) (binCount : ℕ) : Except PyErr (List ℤ × List EReal) := do
  let yExp := y.map log10
  let yMin ← minE yExp
  let yMax ← maxE yExp
  let edges := if yMin = ⊥ then decadeEdges (topExp yMax) binCount else expEdges yMin.toReal yMax.toReal binCount
  return (histogramE yExp edges, edges)

open Classical in
/-- `bin_exponential` with `density` true, stats.py:134-136 and `np.histogram`: the counts are divided by their sum and,
without a zero, by the widths of the bins; `none` is nan (0 / 0) or infinite. -/
noncomputable def binExponentialDensity (y : List NNReal) (binCount : ℕ) : Except PyErr (List (Option ℝ) × List EReal) := do
  let yExp := y.map log10
  let yMin ← minE yExp
  let yMax ← maxE yExp
  let (counts, edges) ← binExponential y binCount
  let width : ℝ := if yMin = ⊥ then 1 else (yMax.toReal - yMin.toReal) / binCount
  return (counts.map fun c : ℤ => if width = 0 ∨ counts.sum = 0 then none else some ((c : ℝ) / width / (counts.sum : ℝ)), edges)

end Verif.Stats
