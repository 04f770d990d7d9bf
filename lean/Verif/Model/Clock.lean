import Verif.Model.Base
import Mathlib.Analysis.SpecialFunctions.Trigonometric.Basic

/-!
Model of `hardware_tools/signal/clock.py`.  The random numbers drawn are arguments of the model.
-/

namespace Verif.Clock

open Verif

/-- The random draws: phase of the sinusoidal jitter, gaussian jitter and uniform jitter per edge,
`clock.py:32-35`. -/
structure Draws where
  phase : ℝ
  normal : ℕ → ℝ
  uniform : ℕ → ℝ

/-- Edge `k`, `clock.py:31-35`. -/
noncomputable def edge (tSym tSj fSj dcd : ℝ) (d : Draws) (k : ℕ) : ℝ :=
  let e0 := (k : ℝ) * tSym
  let e1 := e0 + Real.sin (2 * Real.pi * fSj * e0 + d.phase) * tSj
  let e2 := if k % 2 = 0 then e1 + dcd * tSym else e1
  e2 + d.normal k + d.uniform k

/-- `edges`, `clock.py:9-36`, for an integral `n` (`int(n)` is applied first); `np.linspace` rejects a negative count,
`normal` a negative scale.  `linspace(0, t_sym * (n - 1), n)` is `k * t_sym`. -/
noncomputable def edges (tSym tRj tSj fSj dcd : ℝ) (n : ℤ) (d : Draws) : Except PyErr (List ℝ) :=
  if n < 0 then .error .valueError
  else if tRj < 0 then .error .valueError
  else .ok ((List.range n.toNat).map (edge tSym tSj fSj dcd d))

/-- The draws respect the requested distributions: no gaussian jitter at scale 0, uniform jitter within its width. -/
def Draws.Fits (d : Draws) (tRj tUj : ℝ) : Prop :=
  (tRj = 0 → ∀ k, d.normal k = 0) ∧ ∀ k, |d.uniform k| ≤ tUj / 2

end Verif.Clock
