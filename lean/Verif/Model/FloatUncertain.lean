import Verif.Model.FloatCdr

/-!
`UncertainValue` of `hardware_tools/math/stats.py` in rounded arithmetic (see `Verif.Model.Float`).  Comparisons are exact in floats: `UV.lt` and the
others of `Verif.Stats` apply as they are.
-/

namespace Verif.Float

open Verif

/-- `UncertainValue` of floats, `stats.py:173-183`. -/
structure UVF where
  value : ℚ
  stddev : ℚ
  deriving DecidableEq

/-- A function that is `np.sqrt` (numpy), `stats.py:199, 217, 226, 235, 245`: relative error at most `u`, which is written without irrational
numbers. -/
def IsRoot (R : Rounding) (root : ℚ → ℚ) : Prop :=
  ∀ x, 0 ≤ x → 0 ≤ root x ∧ (1 - R.u) ^ 2 * x ≤ root x ^ 2 ∧ root x ^ 2 ≤ (1 + R.u) ^ 2 * x

/-- What `np.dot(c, c)` (BLAS) may give, `stats.py:199`: the squares are added in any order and with any brackets at most `d` deep, a square may be
added without being rounded before (fused multiply-add). -/
inductive SumSq (R : Rounding) : ℕ → List ℚ → ℚ → Prop
  | one (d : ℕ) (x : ℚ) : SumSq R d [x] (R.fl (x * x))
  | add {d : ℕ} {l m k : List ℚ} {s t : ℚ} : SumSq R d l s → SumSq R d m t → (l ++ m).Perm k → SumSq R (d + 1) k (R.fl (s + t))
  | fma {d : ℕ} {l k : List ℚ} {s : ℚ} (x : ℚ) : SumSq R d l s → (l ++ [x]).Perm k → SumSq R (d + 1) k (R.fl (s + x * x))

/-- A function that is `np.dot(c, c)`, `stats.py:199`, for at most `n` numbers. -/
def IsDot (R : Rounding) (d n : ℕ) (dot : List ℚ → ℚ) : Prop := ∀ l : List ℚ, l ≠ [] → l.length ≤ n → SumSq R d l (dot l)

/-- Adding one square after the other: one of the possible results of `np.dot(c, c)` (`stats.py:199`). -/
def dotF (R : Rounding) : List ℚ → ℚ
  | [] => 0
  | a :: l => l.foldl (fun s x => R.fl (s + x * x)) (R.fl (a * a))

/-- `UncertainValue.samples` in floats, `stats.py:185-199`; `none` is (nan, nan). -/
def UVF.samples (R : Rounding) (mean dot : List ℚ → ℚ) (root : ℚ → ℚ) (x : List ℚ) : Option UVF :=
  if x.length < 1 then none
  else
    let m := mean x
    let c := x.map fun v => R.fl (v - m)
    some ⟨m, root (R.fl (dot c / x.length))⟩

/-- `self.stddev**2 + b.stddev**2` in floats, `stats.py:217, 226`. -/
def varF (R : Rounding) (s t : ℚ) : ℚ := R.fl (R.fl (s ^ 2) + R.fl (t ^ 2))

/-- `__add__` in floats, `stats.py:214-221`, uncertain operand. -/
def UVF.add (R : Rounding) (root : ℚ → ℚ) (a b : UVF) : UVF := ⟨R.fl (a.value + b.value), root (varF R a.stddev b.stddev)⟩

/-- `__add__` in floats, `stats.py:214-221`, plain number. -/
def UVF.addC (R : Rounding) (a : UVF) (b : ℚ) : UVF := ⟨R.fl (a.value + b), a.stddev⟩

/-- `__sub__` in floats, `stats.py:223-230`, uncertain operand. -/
def UVF.sub (R : Rounding) (root : ℚ → ℚ) (a b : UVF) : UVF := ⟨R.fl (a.value - b.value), root (varF R a.stddev b.stddev)⟩

/-- `__sub__` in floats, `stats.py:223-230`, plain number. -/
def UVF.subC (R : Rounding) (a : UVF) (b : ℚ) : UVF := ⟨R.fl (a.value - b), a.stddev⟩

/-- `np.sqrt((self.stddev / self.value)**2 + (b.stddev / b.value)**2)` in floats, `stats.py:235-236, 245-246`. -/
def relF (R : Rounding) (root : ℚ → ℚ) (a b : UVF) : ℚ := root (varF R (R.fl (a.stddev / a.value)) (R.fl (b.stddev / b.value)))

/-- `__mul__` in floats, `stats.py:232-240`, uncertain operand; a zero value is a ZeroDivisionError (python floats). -/
def UVF.mul (R : Rounding) (root : ℚ → ℚ) (a b : UVF) : Except PyErr UVF :=
  let v := R.fl (a.value * b.value)
  if a.value = 0 ∨ b.value = 0 then .error .zeroDivision else .ok ⟨v, R.fl (|v| * relF R root a b)⟩

/-- `__mul__` in floats, `stats.py:232-240`, plain number. -/
def UVF.mulC (R : Rounding) (a : UVF) (b : ℚ) : UVF := ⟨R.fl (a.value * b), R.fl (a.stddev * |b|)⟩

/-- `__truediv__` in floats, `stats.py:242-250`, uncertain operand. -/
def UVF.div (R : Rounding) (root : ℚ → ℚ) (a b : UVF) : Except PyErr UVF :=
  if b.value = 0 ∨ a.value = 0 then .error .zeroDivision
  else
    let v := R.fl (a.value / b.value)
    .ok ⟨v, R.fl (|v| * relF R root a b)⟩

/-- `__truediv__` in floats, `stats.py:242-250`, plain number. -/
def UVF.divC (R : Rounding) (a : UVF) (b : ℚ) : Except PyErr UVF :=
  if b = 0 then .error .zeroDivision else .ok ⟨R.fl (a.value / b), R.fl (a.stddev / |b|)⟩

end Verif.Float
