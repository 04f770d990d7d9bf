import Verif.Model.Base
import Mathlib.Analysis.SpecialFunctions.Pow.Real
import Mathlib.Data.Sign.Defs

/-!
Model of `hardware_tools/math/lines.py` (`Point2D`, `Line2D`).
Coordinates are real numbers because of the cube root in `orientation`.
-/

namespace Verif.Line2D

open Verif

/-- `Point2D`, `lines.py:35-51`. -/
structure Point where
  x : ℝ
  y : ℝ

/-- `Point2D.in_rect`, `lines.py:56-69`. -/
def Point.inRect (s start stop : Point) : Prop :=
  s.x ≤ max start.x stop.x ∧ min start.x stop.x ≤ s.x ∧ s.y ≤ max start.y stop.y ∧ min start.y stop.y ≤ s.y

/-- `val` of `Point2D.orientation`, `lines.py:100`. -/
def orientVal (p q r : Point) : ℝ := ((q.y - p.y) * (r.x - q.x)) - ((q.x - p.x) * (r.y - q.y))

/-- `norm` of `Point2D.orientation`, `lines.py:101`. -/
noncomputable def orientNorm (p q r : Point) : ℝ :=
  ((p.x ^ 2 + p.y ^ 2) * (q.x ^ 2 + q.y ^ 2) * (r.x ^ 2 + r.y ^ 2)) ^ (1 / 3 : ℝ)

/-- `np.finfo(type(val)).eps * 10`, `lines.py:103`, for float64. -/
noncomputable def tol : ℝ := 10 * (2 : ℝ)⁻¹ ^ 52

/-- `Point2D.orientation`, `lines.py:71-105`.  `val / norm` raises ZeroDivisionError for python numbers when a
point is the origin (numpy numbers give nan with a warning; not modelled). -/
noncomputable def orientation (p q r : Point) : Except PyErr SignType :=
  if orientNorm p q r = 0 then .error .zeroDivision
  else
    let v := orientVal p q r / orientNorm p q r
    if |v| < tol then .ok 0 else .ok (SignType.sign v)

open Classical in
/-- `Line2D.intersecting_points`, `lines.py:144-184`, for `self = (a, b)`. -/
noncomputable def intersecting (a b p q : Point) : Except PyErr Bool := do
  let o1 ← orientation a b p
  let o2 ← orientation a b q
  let o3 ← orientation p q a
  let o4 ← orientation p q b
  if o1 ≠ o2 ∧ o3 ≠ o4 then return true
  else if o1 = 0 ∧ p.inRect a b then return true
  else if o2 = 0 ∧ q.inRect a b then return true
  else if o3 = 0 ∧ a.inRect p q then return true
  else if o4 = 0 ∧ b.inRect p q then return true
  else return false

/-- `line_params`, `lines.py:208-221`. -/
def lineParams (p q : Point) : ℝ × ℝ × ℝ := (p.y - q.y, q.x - p.x, -(p.x * q.y - q.x * p.y))

open Classical in
/-- `Line2D.intersection_points`, `lines.py:197-230`, for `self = (a, b)`. -/
noncomputable def intersectionPoints (a b p q : Point) : Option Point :=
  let l1 := lineParams a b
  let l2 := lineParams p q
  let det := l1.1 * l2.2.1 - l1.2.1 * l2.1
  if det = 0 then none
  else
    let detX := l2.2.1 * l1.2.2 - l2.2.2 * l1.2.1
    let detY := l1.1 * l2.2.2 - l1.2.2 * l2.1
    some ⟨detX / det, detY / det⟩

end Verif.Line2D
