import Verif.Model.Base
import Mathlib.Analysis.SpecialFunctions.Exp
import Mathlib.Analysis.SpecialFunctions.Trigonometric.Basic
import Mathlib.Analysis.SpecialFunctions.Sqrt
import Mathlib.Data.EReal.Operations

/-!
Model of `hardware_tools/math/gaussian.py` (`fit_pdf` and `fit_mix_samples` are in `GaussianFit`).
Values are extended reals because a zero deviation gives an infinite impulse.
-/

namespace Verif.Gaussian

open Verif

/-- `Gaussian`, `gaussian.py:14-37`. -/
structure Comp where
  amplitude : ℝ
  mean : ℝ
  stddev : ℝ

/-- The closed form, `gaussian.py:133-134`. -/
noncomputable def density (c : Comp) (x : ℝ) : ℝ :=
  c.amplitude * Real.exp (-((x - c.mean) / c.stddev) ^ 2 / 2) / Real.sqrt (2 * Real.pi * c.stddev ^ 2)

/-- `f` at a single float, `gaussian.py:110-134`. -/
noncomputable def f (c : Comp) (x : ℝ) : EReal :=
  if c.stddev = 0 then (if x = c.mean then ⊤ else 0) else (density c x : ℝ)

/-- `argmin` / `argmax` of numpy: the first index whose entry is not improved by any other. -/
noncomputable def argBest {α : Type} [LinearOrder α] (better : α → α → Prop) [DecidableRel better] :
    List α → Option ℕ
  | [] => none
  | a :: l => some ((l.zipIdx 1).foldl (fun (acc : ℕ × α) p => if better p.1 acc.2 then (p.2, p.1) else acc) (0, a)).1

/-- `argmax`, numpy. -/
noncomputable def argmax {α : Type} [LinearOrder α] (l : List α) : Option ℕ := argBest (fun a b => b < a) l
/-- `argmin`, numpy. -/
noncomputable def argmin {α : Type} [LinearOrder α] (l : List α) : Option ℕ := argBest (fun a b => a < b) l

/-- `f` on an array, `gaussian.py:125-134`: for a zero deviation an impulse at the position closest to the mean
(`argmin` of an empty array raises ValueError). -/
noncomputable def fArr (c : Comp) (x : List ℝ) : Except PyErr (List EReal) :=
  if c.stddev = 0 then
    match argmin (x.map fun v => |v - c.mean|) with
    | none => .error .valueError
    | some i => .ok ((List.range x.length).map fun k => if k = i then (⊤ : EReal) else 0)
  else .ok (x.map fun v => ((density c v : ℝ) : EReal))

/-- `GaussianMix.compute` on an array, `gaussian.py:76-87`: the sum over the components. -/
noncomputable def compute (cs : List Comp) (x : List ℝ) : Except PyErr (List EReal) := do
  let ys ← cs.mapM (fun c => fArr c x)
  return (List.range x.length).map fun k => (ys.map fun y => y.getD k 0).sum

/-- `np.linspace(a, b, 1000)`. -/
noncomputable def linspace1000 (a b : ℝ) : List ℝ := (List.range 1000).map fun (k : ℕ) => a + k * ((b - a) / 999)

/-- One grid search, `gaussian.py:101-103` and `104-107`. -/
noncomputable def search (cs : List Comp) (a b : ℝ) : Except PyErr ℝ := do
  let x := linspace1000 a b
  let y ← compute cs x
  match argmax y with
  | none => .error .valueError
  | some i => pyGet x i

/-- `GaussianMix.center`, `gaussian.py:89-107`. -/
noncomputable def center (cs : List Comp) : Except PyErr ℝ :=
  match cs with
  | [] => .error .valueError
  | [c] => .ok c.mean
  | c :: rest => do
    let xMin := (rest.map Comp.mean).foldl min c.mean
    let xMax := (rest.map Comp.mean).foldl max c.mean
    let x ← search cs xMin xMax
    search cs (x - (xMax - xMin) / 1000) (x + (xMax - xMin) / 1000)

/-- `sample_error`, `gaussian.py:202-221`, for a given `special.erfc`. -/
noncomputable def sampleError (erfc : ℝ → ℝ) (n : ℕ) (threshold : ℝ) : ℝ := erfc (threshold * Real.sqrt n)

/-- `sample_error_inv`, `gaussian.py:224-242`, for a given `special.erfcinv`. -/
noncomputable def sampleErrorInv (erfcinv : ℝ → ℝ) (n : ℕ) (p : ℝ) : ℝ := erfcinv p / Real.sqrt n

end Verif.Gaussian
