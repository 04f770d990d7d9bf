import Verif.Model.Base
import Mathlib.Algebra.Order.Floor.Ring
import Mathlib.Data.Rat.Floor
import Mathlib.Data.List.Sort
import Mathlib.Analysis.SpecialFunctions.Log.Base
import Mathlib.Analysis.SpecialFunctions.Pow.Real

/-!
Model of `hardware_tools/math/stats.py`.

Samples are exact rationals (no rounding, no nan); `UncertainValue` uses reals because of the square roots.
-/

namespace Verif.Stats

open Verif

/-- `np.linspace(lo, hi, n + 1)` (numpy), exact arithmetic. -/
def linspace (lo hi : ℚ) (n : ℕ) : List ℚ := (List.range (n + 1)).map fun i : ℕ => lo + i * ((hi - lo) / n)

/-- The smallest sample, `min(y)`, `stats.py:53`. -/
def minimum : List ℚ → Except PyErr ℚ
  | [] => .error .valueError
  | y :: ys => .ok (ys.foldl min y)

/-- The largest sample, `max(y)`, `stats.py:54`. -/
def maximum : List ℚ → Except PyErr ℚ
  | [] => .error .valueError
  | y :: ys => .ok (ys.foldl max y)

/-- `np.diff` of a list of counts (numpy, used by `np.histogram`). -/
def diff : List ℤ → List ℤ
  | a :: b :: l => (b - a) :: diff (b :: l)
  | _ => []

/-- `np.histogram(y, edges)` with explicit edges (numpy): differences of the cumulative counts
`searchsorted(edges[:-1], 'left')`, `searchsorted(edges[-1], 'right')`.  Used at `stats.py:64`. -/
def histogram (y : List ℚ) (edges : List ℚ) : List ℤ :=
  diff (edges.dropLast.map (fun e => ((y.countP (· < e) : ℕ) : ℤ)) ++
    (match edges.getLast? with
     | none => []
     | some e => [((y.countP (· ≤ e) : ℕ) : ℤ)]))

/-- The range used for the edges, `stats.py:53-62`. -/
def linearRange (y : List ℚ) : Except PyErr (ℚ × ℚ) := do
  let yMin ← minimum y
  let yMax ← maximum y
  if yMin = yMax then
    if yMin = 0 then return (-1, 1)
    else return (yMin - |yMin| * (5 / 100), yMin + |yMin| * (5 / 100))
  else return (yMin, yMax)

/-- `bin_linear` with `density` false, `stats.py:40-64`. -/
def binLinear (y : List ℚ) (binCount : ℕ) : Except PyErr (List ℤ × List ℚ) := do
  let (lo, hi) ← linearRange y
  let edges := linspace lo hi binCount
  return (histogram y edges, edges)

/-- The counting dictionary of `bin_exact`, in insertion order; one iteration of the loop `stats.py:77-81`. -/
def bump {α : Type} [DecidableEq α] (e : α) : List (α × ℕ) → List (α × ℕ)
  | [] => [(e, 1)]
  | (k, c) :: d => if k = e then (k, c + 1) :: d else (k, c) :: bump e d

/-- Dictionary lookup `counts[b]`, `stats.py:83`. -/
def lookup {α : Type} [DecidableEq α] (b : α) : List (α × ℕ) → Except PyErr ℕ
  | [] => .error .keyError
  | (k, c) :: d => if k = b then .ok c else lookup b d

/-- `bin_exact` / `bin_exact_np`, `stats.py:67-104`. -/
def binExact {α : Type} [LinearOrder α] (y : List α) : Except PyErr (List ℕ × List α) := do
  let d := y.foldl (fun d e => bump e d) []
  let bins := (d.map Prod.fst).insertionSort (· ≤ ·)
  let counts ← bins.mapM (fun b => lookup b d)
  return (counts, bins)

/-- Bin centres, `stats.py:163`. -/
def midpoints : List ℚ → List ℚ
  | a :: b :: l => ((a + b) / 2) :: midpoints (b :: l)
  | _ => []

/-- Undo the binning, `stats.py:166-170` (`[b] * k` is empty for negative `k`). -/
def expand (scale : ℚ) (counts : List ℤ) (bins : List ℚ) : List ℚ :=
  (List.zip counts bins).flatMap fun cb => List.replicate ⌊cb.1 * scale⌋.toNat cb.2

/-- `downsample`, `stats.py:142-170`. -/
def downsample (y : List ℚ) (nMax : ℚ) (binCount : Option ℕ) : Except PyErr (List ℚ) :=
  if y.length = 0 then .error .zeroDivision
  else
    let scale := nMax / y.length
    if 1 ≤ scale then .ok y
    else
      match binCount with
      | some n => do
        let (counts, edges) ← binLinear y n
        return expand scale counts (midpoints edges)
      | none => do
        let (counts, bins) ← binExact y
        return expand scale (counts.map Int.ofNat) bins

/-! ### UncertainValue -/

/-- `UncertainValue`, `stats.py:173-183`. -/
structure UV where
  value : ℝ
  stddev : ℝ

/-- `UncertainValue.samples`, `stats.py:185-199`; `none` is (nan, nan). -/
noncomputable def UV.samples (x : List ℝ) : Option UV :=
  if x.length < 1 then none
  else
    let m := x.sum / x.length
    some ⟨m, Real.sqrt ((x.map fun v => (v - m) * (v - m)).sum / x.length)⟩

/-- `__add__`, `stats.py:214-221`, uncertain operand. -/
noncomputable def UV.add (a b : UV) : UV := ⟨a.value + b.value, Real.sqrt (a.stddev ^ 2 + b.stddev ^ 2)⟩
/-- `__add__`, `stats.py:214-221`, plain number. -/
noncomputable def UV.addC (a : UV) (b : ℝ) : UV := ⟨a.value + b, a.stddev⟩
/-- `__sub__`, `stats.py:223-230`, uncertain operand. -/
noncomputable def UV.sub (a b : UV) : UV := ⟨a.value - b.value, Real.sqrt (a.stddev ^ 2 + b.stddev ^ 2)⟩
/-- `__sub__`, `stats.py:223-230`, plain number. -/
noncomputable def UV.subC (a : UV) (b : ℝ) : UV := ⟨a.value - b, a.stddev⟩
open Classical in
/-- `__mul__`, `stats.py:232-240`, uncertain operand.  Python numbers raise ZeroDivisionError on a zero value (numpy
scalars give nan / inf instead; not distinguished). -/
noncomputable def UV.mul (a b : UV) : Except PyErr UV :=
  let v := a.value * b.value
  if a.value = 0 ∨ b.value = 0 then .error .zeroDivision
  else .ok ⟨v, |v| * Real.sqrt ((a.stddev / a.value) ^ 2 + (b.stddev / b.value) ^ 2)⟩
/-- `__mul__`, `stats.py:232-240`, plain number. -/
noncomputable def UV.mulC (a : UV) (b : ℝ) : UV := ⟨a.value * b, a.stddev * |b|⟩
open Classical in
/-- `__truediv__`, `stats.py:242-250`, uncertain operand. -/
noncomputable def UV.div (a b : UV) : Except PyErr UV :=
  if b.value = 0 ∨ a.value = 0 then .error .zeroDivision
  else
    let v := a.value / b.value
    .ok ⟨v, |v| * Real.sqrt ((a.stddev / a.value) ^ 2 + (b.stddev / b.value) ^ 2)⟩
open Classical in
/-- `__truediv__`, `stats.py:242-250`, plain number. -/
noncomputable def UV.divC (a : UV) (b : ℝ) : Except PyErr UV :=
  if b = 0 then .error .zeroDivision else .ok ⟨a.value / b, a.stddev / |b|⟩

/-- `__lt__`, `stats.py:252-256`. -/
def UV.lt (a b : UV) : Prop := a.value < b.value
/-- `__le__`, `stats.py:258-262`. -/
def UV.le (a b : UV) : Prop := a.value ≤ b.value
/-- `__eq__`, `stats.py:264-268`. -/
def UV.eq (a b : UV) : Prop := a.value = b.value
/-- `__ne__`, `stats.py:270-274`. -/
def UV.ne (a b : UV) : Prop := a.value ≠ b.value
/-- `__ge__`, `stats.py:276-280`. -/
def UV.ge (a b : UV) : Prop := b.value ≤ a.value
/-- `__gt__`, `stats.py:282-286`. -/
def UV.gt (a b : UV) : Prop := b.value < a.value

open Classical in
/-- `log`, `stats.py:288-293`; `none` is (nan, nan). -/
noncomputable def UV.log (a : UV) : Option UV :=
  if a.value ≤ 0 then none else some ⟨Real.log a.value, |a.stddev / a.value|⟩
open Classical in
/-- `log10`, `stats.py:295-300`. -/
noncomputable def UV.log10 (a : UV) : Option UV :=
  if a.value ≤ 0 then none else some ⟨Real.logb 10 a.value, |a.stddev / (a.value * Real.log 10)|⟩

end Verif.Stats
