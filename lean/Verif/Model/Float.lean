import Verif.Model.Lines
import Mathlib.Data.Int.Log
import Mathlib.Data.Rat.Floor
import Mathlib.Algebra.Order.Round

/-!
The arithmetic of `hardware_tools/math/_lines_fb.py` with rounding: `crossing`, `edges_np`, `intersection`, `hits`,
`is_hitting` as in `Verif.Lines`, but every `+ - * /` on floats is followed by a rounding.  Comparisons of floats are
exact.
-/

namespace Verif.Float

open Verif Verif.Lines

/-- The standard model of floating point arithmetic: the result of every operation (`_lines_fb.py` uses IEEE doubles) is the
exact result with a relative error of at most `u`.  Simplification: no overflow and no underflow. -/
structure Rounding where
  /-- the float delivered for an exact result -/
  fl : ℚ → ℚ
  /-- the relative error, `2 ^ -53` for doubles -/
  u : ℚ
  u_nonneg : 0 ≤ u
  u_small : u ≤ 1 / 100
  err : ∀ x, |fl x - x| ≤ u * |x|

/-- Exact arithmetic: the model of `Verif.Lines` (`_lines_fb.py`). -/
def exact : Rounding where
  fl := id
  u := 0
  u_nonneg := le_rfl
  u_small := by norm_num
  err := by simp

/-- The nearest integer, the even one of two: the rounding mode of the floats used in `_lines_fb.py`. -/
def roundEven (x : ℚ) : ℤ :=
  if x - ⌊x⌋ < 1 / 2 then ⌊x⌋
  else if x - ⌊x⌋ > 1 / 2 then ⌊x⌋ + 1
  else if ⌊x⌋ % 2 = 0 then ⌊x⌋ else ⌊x⌋ + 1

/-- The nearest number with 53 significant bits: the floats (IEEE doubles) used in `_lines_fb.py`.  Simplification: the exponent
is not limited. -/
def nearest (x : ℚ) : ℚ :=
  roundEven (x * 2 ^ (52 - Int.log 2 |x|)) / 2 ^ (52 - Int.log 2 |x|)

theorem roundEven_near (x : ℚ) : |(roundEven x : ℚ) - x| ≤ 1 / 2 := by
  have h1 := Int.floor_le x
  have h2 := Int.lt_floor_add_one x
  unfold roundEven
  split_ifs <;> push_cast <;> rw [abs_le] <;> constructor <;> linarith

theorem nearest_near (x : ℚ) : |nearest x - x| ≤ 1 / 2 ^ 53 * |x| := by
  by_cases hx : x = 0
  · subst hx; simp [nearest, roundEven]
  · have hx' : 0 < |x| := abs_pos.2 hx
    have hl : (2:ℚ) ^ Int.log 2 |x| ≤ |x| := Int.zpow_log_le_self (by norm_num) hx'
    unfold nearest
    set e := Int.log 2 |x|
    have hs : (0:ℚ) < 2 ^ (52 - e) := zpow_pos (by norm_num) _
    have h1 : (roundEven (x * 2 ^ (52 - e)) : ℚ) / 2 ^ (52 - e) - x =
        (roundEven (x * 2 ^ (52 - e)) - x * 2 ^ (52 - e)) / 2 ^ (52 - e) := by field_simp
    rw [h1, abs_div, abs_of_pos hs, div_le_iff₀ hs]
    refine (roundEven_near _).trans ?_
    have h2 : (2:ℚ) ^ e * 2 ^ (52 - e) = 2 ^ (52:ℤ) := by
      rw [← zpow_add₀ (by norm_num)]; congr 1; ring
    have h3 : (2:ℚ) ^ (52:ℤ) ≤ |x| * 2 ^ (52 - e) := by
      rw [← h2]; exact mul_le_mul_of_nonneg_right hl hs.le
    have h4 : (2:ℚ) ^ (52:ℤ) = 4503599627370496 := by norm_num
    rw [h4] at h3
    rw [mul_assoc]
    norm_num
    linarith

/-- IEEE doubles, the floats of `_lines_fb.py`. -/
def double : Rounding where
  fl := nearest
  u := 1 / 2 ^ 53
  u_nonneg := by positivity
  u_small := by norm_num
  err := nearest_near

/-- `v = (x2 - x1) / (y2 - y1) * (value - y1) + x1` in floats, `_lines_fb.py:134`. -/
def interpF (R : Rounding) (x1 x2 y1 y2 value : ℚ) : ℚ :=
  R.fl (R.fl (R.fl (R.fl (x2 - x1) / R.fl (y2 - y1)) * R.fl (value - y1)) + x1)

/-- `crossing` in floats, `_lines_fb.py:92-135`.  The search (lines 124-125) only compares.  The division raises
ZeroDivisionError for lists of Python floats if `y2 - y1` is rounded to zero. -/
def crossingF (R : Rounding) (ret srch : List ℚ) (i : ℤ) (value : ℚ) (fwd : Bool := false) (n : ℕ := 0) :
    Except PyErr (Option ℚ × ℤ) := do
  let n := if n = 0 then srch.length else n
  let i ← crossLoop srch value fwd n (n + 1) i
  if i < 1 ∨ i ≥ n then
    return (none, i)
  else do
    let x1 ← pyGet ret (i.toNat - 1)
    let x2 ← pyGet ret i.toNat
    let y1 ← pyGet srch (i.toNat - 1)
    let y2 ← pyGet srch i.toNat
    if R.fl (y2 - y1) = 0 then .error .zeroDivision
    else return (some (interpF R x1 x2 y1 y2 value), i)

/-- Body of the loop of `edges` / `edges_np` in floats, `_lines_fb.py:157-167,200-212`. -/
def edgeStepF (R : Rounding) (t y : List ℚ) (yRise yHalf yFall : ℚ) (n : ℕ) (s : EdgeState) (i : ℕ) :
    Except PyErr EdgeState := do
  let v ← pyGet y i
  if s.low then
    if v > yRise then do
      let c ← crossingF R t y i yHalf false n
      return { s with low := false, rise := s.rise ++ [c.1] }
    else return s
  else
    if v < yFall then do
      let c ← crossingF R t y i yHalf false n
      return { s with low := true, fall := s.fall ++ [c.1] }
    else return s

/-- `edges_np` in floats, `_lines_fb.py:172-214`. -/
def edgesNpF (R : Rounding) (t y : List ℚ) (yRise yHalf yFall : ℚ) :
    Except PyErr (List (Option ℚ) × List (Option ℚ)) := do
  let y0 ← pyGet y 0
  let s ← (List.range' 1 (t.length - 1)).foldlM (edgeStepF R t y yRise yHalf yFall t.length)
    ⟨decide (y0 < yFall), [], []⟩
  return (s.rise, s.fall)

/-- `(a - b) * (c - d) - (e - f) * (g - h)` in floats, `_lines_fb.py:243,246,247`. -/
def detF (R : Rounding) (a b c d : ℚ) (e f g h : ℚ) : ℚ :=
  R.fl (R.fl (R.fl (a - b) * R.fl (c - d)) - R.fl (R.fl (e - f) * R.fl (g - h)))

/-- `p + t * (q - p)` in floats, `_lines_fb.py:256-257`. -/
def alongF (R : Rounding) (p q t : ℚ) : ℚ := R.fl (p + R.fl (t * R.fl (q - p)))

/-- `intersection` of segments in floats, `_lines_fb.py:217-258` with `segments=True` (the way `hits` and `is_hitting` call
it). -/
def intersectionF (R : Rounding) (p q r s : Pt) : Option Pt :=
  let d := detF R p.1 q.1 r.2 s.2 p.2 q.2 r.1 s.1
  if d = 0 then none
  else
    let tn := detF R p.1 r.1 r.2 s.2 p.2 r.2 r.1 s.1
    let un := detF R p.1 r.1 p.2 q.2 p.2 r.2 p.1 q.1
    if (if d > 0 then tn < 0 ∨ un < 0 ∨ tn > d ∨ un > d else tn > 0 ∨ un > 0 ∨ tn < d ∨ un < d) then none
    else
      let t := R.fl (tn / d)
      some (alongF R p.1 q.1 t, alongF R p.2 q.2 t)

/-- Body of the loop over the paths in `hits` in floats, `_lines_fb.py:276-296`.  The bounding box tests only compare. -/
def hitsPathF (R : Rounding) (w : List Pt) (path : List Pt) : Except PyErr (List Pt) := do
  let b ← bbox path
  return (segs w).flatMap (fun s =>
    if skipSeg b.1 b.2.1 b.2.2.1 b.2.2.2 s.1 s.2 then []
    else (segs path).filterMap (fun e => intersectionF R s.2 s.1 e.2 e.1))

/-- `hits` in floats, `_lines_fb.py:261-297`. -/
def hitsF (R : Rounding) (w : List Pt) : List (List Pt) → Except PyErr (List Pt)
  | [] => .ok []
  | path :: rest => do
    let h ← hitsPathF R w path
    let hs ← hitsF R w rest
    return h ++ hs

/-- Body of the loop over the paths in `is_hitting` in floats, `_lines_fb.py:330-350`. -/
def isHittingPathF (R : Rounding) (w : List Pt) (path : List Pt) : Except PyErr Bool := do
  let b ← bbox path
  return (segs w).any (fun s =>
    !skipSeg b.1 b.2.1 b.2.2.1 b.2.2.2 s.1 s.2 &&
      (segs path).any (fun e => (intersectionF R s.2 s.1 e.2 e.1).isSome))

/-- `is_hitting` in floats, `_lines_fb.py:318-351`. -/
def isHittingF (R : Rounding) (w : List Pt) : List (List Pt) → Except PyErr Bool
  | [] => .ok false
  | path :: rest => do
    let h ← isHittingPathF R w path
    if h then return true else isHittingF R w rest

end Verif.Float
