import Verif.Model.FloatStats

/-!
`edges` of `hardware_tools/signal/clock.py` in rounded arithmetic (see `Verif.Model.Float`).  The random numbers drawn and the values of the sine are
arguments of the model.
-/

namespace Verif.Float

open Verif

/-- What is drawn and computed outside: the sine of the sinusoidal jitter at a time (its phase is drawn), the gaussian and the uniform jitter per edge,
`clock.py:32-35`. -/
structure DrawsF where
  sine : ℚ → ℚ
  normal : ℕ → ℚ
  uniform : ℕ → ℚ

/-- Edge `k` of `n` in floats, `clock.py:31-35`. -/
def edgeF (R : Rounding) (tSym tSj dcd : ℚ) (d : DrawsF) (n k : ℕ) : ℚ :=
  let e0 := gridF R 0 (R.fl (tSym * ((n : ℚ) - 1))) (n - 1) k
  let e1 := R.fl (e0 + R.fl (d.sine e0 * tSj))
  let e2 := if k % 2 = 0 then R.fl (e1 + R.fl (dcd * tSym)) else e1
  R.fl (R.fl (e2 + d.normal k) + d.uniform k)

/-- `edges` in floats, `clock.py:9-36`, for an integral `n` (`int(n)` is applied first); `np.linspace` rejects a negative count, `normal` a negative
scale. -/
def clockEdgesF (R : Rounding) (tSym tRj tSj dcd : ℚ) (n : ℤ) (d : DrawsF) : Except PyErr (List ℚ) :=
  if n < 0 then .error .valueError
  else if tRj < 0 then .error .valueError
  else .ok ((List.range n.toNat).map (edgeF R tSym tSj dcd d n.toNat))

/-- The draws respect the requested distributions, `clock.py:32-35`: no gaussian jitter at scale 0, uniform jitter within its width, a sine within one. -/
def DrawsF.Fits (d : DrawsF) (tRj tUj : ℚ) : Prop :=
  (tRj = 0 → ∀ k, d.normal k = 0) ∧ (∀ k, |d.uniform k| ≤ tUj / 2) ∧ ∀ x, |d.sine x| ≤ 1

end Verif.Float
