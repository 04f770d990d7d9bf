import Verif.Model.Float
import Mathlib.Data.Sign.Defs

/-!
`Point2D` and `Line2D` of `hardware_tools/math/lines.py` with rounding: as in `Verif.Line2D`, but the coordinates are floats (rationals) and
every operation on them is rounded.
-/

namespace Verif.Float

open Verif

/-- `Point2D`, `lines.py:35-51`, with floats as coordinates. -/
structure PointQ where
  x : ℚ
  y : ℚ
deriving DecidableEq

/-- The powers taken in `Point2D.orientation`, `lines.py:101`: `square x` for `x**2` and `root x` for `x**(1 / 3)`.  They are computed by the
C library, which does not promise correct rounding, and `1 / 3` is not exactly a third: the square may be off by two units of
rounding, the cube of the root by 600 (the exponent alone costs up to 120 units of the root for the largest double).
Simplification: no overflow and no underflow. -/
structure Powers (R : Rounding) where
  square : ℚ → ℚ
  root : ℚ → ℚ
  square_err : ∀ x, |square x - x ^ 2| ≤ 2 * R.u * x ^ 2
  root_zero : root 0 = 0
  root_nonneg : ∀ x, 0 ≤ x → 0 ≤ root x
  root_err : ∀ x, 0 ≤ x → |root x ^ 3 - x| ≤ 600 * R.u * x

/-- `Point2D.in_rect`, `lines.py:56-69`: comparisons only, no rounding. -/
def inRectF (s start stop : PointQ) : Bool :=
  decide (s.x ≤ max start.x stop.x) && decide (min start.x stop.x ≤ s.x) &&
    (decide (s.y ≤ max start.y stop.y) && decide (min start.y stop.y ≤ s.y))

/-- `val` of `Point2D.orientation`, `lines.py:100`. -/
def orientValF (R : Rounding) (p q r : PointQ) : ℚ :=
  R.fl (R.fl (R.fl (q.y - p.y) * R.fl (r.x - q.x)) - R.fl (R.fl (q.x - p.x) * R.fl (r.y - q.y)))

/-- `norm` of `Point2D.orientation`, `lines.py:101`. -/
def orientNormF (R : Rounding) (W : Powers R) (p q r : PointQ) : ℚ :=
  W.root (R.fl (R.fl (R.fl (W.square p.x + W.square p.y) * R.fl (W.square q.x + W.square q.y)) * R.fl (W.square r.x + W.square r.y)))

/-- `Point2D.orientation`, `lines.py:71-105`, with `np.finfo(float).eps * 10` for doubles.  `val / norm` raises ZeroDivisionError for python
floats when the norm is 0. -/
def orientationF (R : Rounding) (W : Powers R) (p q r : PointQ) : Except PyErr SignType :=
  if orientNormF R W p q r = 0 then .error .zeroDivision
  else
    let v := R.fl (orientValF R p q r / orientNormF R W p q r)
    if |v| < 10 / 2 ^ 52 then .ok 0 else .ok (SignType.sign v)

/-- `Line2D.intersecting_points`, `lines.py:144-184`, for `self = (a, b)`. -/
def intersectingF (R : Rounding) (W : Powers R) (a b p q : PointQ) : Except PyErr Bool := do
  let o1 ← orientationF R W a b p
  let o2 ← orientationF R W a b q
  let o3 ← orientationF R W p q a
  let o4 ← orientationF R W p q b
  if o1 ≠ o2 ∧ o3 ≠ o4 then return true
  else if o1 = 0 ∧ inRectF p a b then return true
  else if o2 = 0 ∧ inRectF q a b then return true
  else if o3 = 0 ∧ inRectF a p q then return true
  else if o4 = 0 ∧ inRectF b p q then return true
  else return false

/-- `line_params`, `lines.py:208-221`. -/
def lineParamsF (R : Rounding) (p q : PointQ) : ℚ × ℚ × ℚ :=
  (R.fl (p.y - q.y), R.fl (q.x - p.x), -R.fl (R.fl (p.x * q.y) - R.fl (q.x * p.y)))

/-- `Line2D.intersection_points`, `lines.py:197-230`, for `self = (a, b)`. -/
def intersectionPointsF (R : Rounding) (a b p q : PointQ) : Option PointQ :=
  let l1 := lineParamsF R a b
  let l2 := lineParamsF R p q
  let det := R.fl (R.fl (l1.1 * l2.2.1) - R.fl (l1.2.1 * l2.1))
  if det = 0 then none
  else
    let detX := R.fl (R.fl (l2.2.1 * l1.2.2) - R.fl (l2.2.2 * l1.2.1))
    let detY := R.fl (R.fl (l1.1 * l2.2.2) - R.fl (l1.2.2 * l2.1))
    some ⟨R.fl (detX / det), R.fl (detY / det)⟩

end Verif.Float
