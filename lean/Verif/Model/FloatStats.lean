import Verif.Model.Float
import Verif.Model.Stats

/-!
`bin_linear` and `downsample` of `hardware_tools/math/stats.py` in rounded arithmetic (see `Verif.Model.Float`).
-/

namespace Verif.Float

open Verif Verif.Stats

/-- A rounding to the nearest element of a set of floats (`stats.py` uses IEEE doubles): it keeps the order and the floats themselves,
among them one. -/
structure Floats extends Rounding where
  mono : ∀ x y, x ≤ y → fl x ≤ fl y
  idem : ∀ x, fl (fl x) = fl x
  neg : ∀ x, fl (-x) = -fl x
  one : fl 1 = 1

/-- Element `i` of `np.linspace(lo, hi, n + 1)` (numpy): `arange * step + lo`, the last one is set to `hi`. -/
def gridF (R : Rounding) (lo hi : ℚ) (n i : ℕ) : ℚ :=
  if i < n then R.fl (R.fl (i * R.fl (R.fl (hi - lo) / n)) + lo) else if n = 0 then lo else hi

/-- `np.linspace(lo, hi, n + 1)` (numpy) in floats, used at `stats.py:63`. -/
def linspaceF (R : Rounding) (lo hi : ℚ) (n : ℕ) : List ℚ := (List.range (n + 1)).map (gridF R lo hi n)

/-- No edge is larger than the next one: the test of `np.histogram` (numpy), `stats.py:64`. -/
def ordered : List ℚ → Bool
  | a :: b :: l => decide (a ≤ b) && ordered (b :: l)
  | _ => true

/-- The range used for the edges in floats, `stats.py:53-62`. -/
def linearRangeF (R : Rounding) (y : List ℚ) : Except PyErr (ℚ × ℚ) := do
  let yMin ← minimum y
  let yMax ← maximum y
  if yMin = yMax then
    if yMin = 0 then return (-1, 1)
    else return (R.fl (yMin - R.fl (|yMin| * R.fl (5 / 100))), R.fl (yMin + R.fl (|yMin| * R.fl (5 / 100))))
  else return (yMin, yMax)

/-- `bin_linear` with `density` false in floats, `stats.py:40-64`.  `np.histogram` raises ValueError for edges that are not
ordered; its counting only compares. -/
def binLinearF (R : Rounding) (y : List ℚ) (binCount : ℕ) : Except PyErr (List ℤ × List ℚ) := do
  let (lo, hi) ← linearRangeF R y
  let edges := linspaceF R lo hi binCount
  if ordered edges then return (histogram y edges, edges) else .error .valueError

/-- Bin centres in floats, `stats.py:163`. -/
def midpointsF (R : Rounding) : List ℚ → List ℚ
  | a :: b :: l => R.fl (R.fl (a + b) / 2) :: midpointsF R (b :: l)
  | _ => []

/-- Undo the binning in floats, `stats.py:166-170`. -/
def expandF (R : Rounding) (scale : ℚ) (counts : List ℤ) (bins : List ℚ) : List ℚ :=
  (List.zip counts bins).flatMap fun cb => List.replicate ⌊R.fl (cb.1 * scale)⌋.toNat cb.2

/-- `downsample` in floats, `stats.py:142-170`. -/
def downsampleF (R : Rounding) (y : List ℚ) (nMax : ℚ) (binCount : Option ℕ) : Except PyErr (List ℚ) :=
  if y.length = 0 then .error .zeroDivision
  else
    let scale := R.fl (nMax / y.length)
    if 1 ≤ scale then .ok y
    else
      match binCount with
      | some n => do
        let (counts, edges) ← binLinearF R y n
        return expandF R scale counts (midpointsF R edges)
      | none => do
        let (counts, bins) ← binExact y
        return expandF R scale (counts.map Int.ofNat) bins

end Verif.Float
