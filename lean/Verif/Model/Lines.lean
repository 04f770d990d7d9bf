import Verif.Model.Base

/-!
Model of `hardware_tools/math/_lines_fb.py` (rasterisation, crossings, edges, intersections).
-/

namespace Verif.Lines

open Verif

/-! ### Rasterisation -/

/-- A numpy 2D integer array of shape `(nx, ny)`; `cell` is only meaningful inside the shape.
Simplification: cell values are unbounded naturals (numpy: int32). -/
structure Grid where
  nx : ℕ
  ny : ℕ
  cell : ℤ → ℤ → ℕ

/-- `(0 <= x < grid.shape[0]) and (0 <= y < grid.shape[1])`, `_lines_fb.py:47,73,88`. -/
def Grid.inRange (g : Grid) (x y : ℤ) : Bool :=
  decide (0 ≤ x) && decide (x < g.nx) && (decide (0 ≤ y) && decide (y < g.ny))

/-- `if in range: grid[x, y] += 1`, `_lines_fb.py:47-48,73-74,88-89`. -/
def Grid.incr (g : Grid) (x y : ℤ) : Grid :=
  if g.inRange x y then
    { g with cell := fun a b => if a = x ∧ b = y then g.cell a b + 1 else g.cell a b }
  else g

/-- Local variables of the loop of `_draw_segment`, `_lines_fb.py:39-56`. -/
structure SegState where
  x : ℤ
  y : ℤ
  err : ℤ

/-- Lines 50-56 of `_lines_fb.py`: one Bresenham step. -/
def segStep (dx dy sx sy : ℤ) (s : SegState) : SegState :=
  let e2 := 2 * s.err
  let s1 : SegState := if e2 > -dy then { s with err := s.err - dy, x := s.x + sx } else s
  if e2 < dx then { s1 with err := s1.err + dx, y := s1.y + sy } else s1

/-- The `while True` loop of `_draw_segment`, `_lines_fb.py:41-56`, with fuel. -/
def segLoop (dx dy sx sy x2 y2 : ℤ) : ℕ → SegState → Grid → Except PyErr Grid
  | 0, _, _ => .error .nonTermination
  | fuel + 1, s, g =>
    if s.x = x2 ∧ s.y = y2 then .ok g
    else segLoop dx dy sx sy x2 y2 fuel (segStep dx dy sx sy s) (g.incr s.x s.y)

/-- `_draw_segment`, `_lines_fb.py:10-56` (and `_lines.pyx:15-75`), run with the given fuel. -/
def drawSegmentFuel (fuel : ℕ) (x1 y1 x2 y2 : ℤ) (g : Grid) : Except PyErr Grid :=
  let dx := |x2 - x1|
  let dy := |y2 - y1|
  let sx := if x1 < x2 then 1 else -1
  let sy := if y1 < y2 then 1 else -1
  segLoop dx dy sx sy x2 y2 fuel ⟨x1, y1, dx - dy⟩ g

/-- `_draw_segment`, `_lines_fb.py:10-56`, with a fuel that the theorems of C01 show to be sufficient. -/
def drawSegment (x1 y1 x2 y2 : ℤ) (g : Grid) : Except PyErr Grid :=
  drawSegmentFuel ((x2 - x1).natAbs + (y2 - y1).natAbs + 1) x1 y1 x2 y2 g

/-- The `for` loop of `draw`, `_lines_fb.py:67-72`, and the final point, lines 73-74.  `x.size < 2` leaves
`x2` unbound, so line 73 raises `UnboundLocalError`.  Simplification: the arrays `x` and `y` are one list of points
(equal lengths). -/
def draw : List (ℤ × ℤ) → Grid → Except PyErr Grid
  | [], _ => .error .unboundLocal
  | [_], _ => .error .unboundLocal
  | [p, q], g => do
    let g ← drawSegment p.1 p.2 q.1 q.2 g
    return g.incr q.1 q.2
  | p :: q :: r :: rest, g => do
    let g ← drawSegment p.1 p.2 q.1 q.2 g
    draw (q :: r :: rest) g

/-- `draw_points`, `_lines_fb.py:77-89`. -/
def drawPoints (ps : List (ℤ × ℤ)) (g : Grid) : Grid :=
  ps.foldl (fun g p => g.incr p.1 p.2) g

/-! ### Crossings and edges -/

/-- The `while` loop of `crossing`, `_lines_fb.py:124-125`, with fuel.  `value` side test is `>`. -/
def crossLoop (srch : List ℚ) (value : ℚ) (fwd : Bool) (n : ℕ) : ℕ → ℤ → Except PyErr ℤ
  | 0, _ => .error .nonTermination
  | fuel + 1, i =>
    if 0 < i ∧ i < n then do
      let a ← pyGet srch i.toNat
      let b ← pyGet srch (i.toNat - 1)
      if decide (a > value) == decide (b > value) then
        crossLoop srch value fwd n fuel (if fwd then i + 1 else i - 1)
      else return i
    else return i

/-- `crossing`, `_lines_fb.py:92-135`; `none` is `nan`.  `n = 0` means `len(axis_search)` (line 123). -/
def crossing (ret srch : List ℚ) (i : ℤ) (value : ℚ) (fwd : Bool := false) (n : ℕ := 0) :
    Except PyErr (Option ℚ × ℤ) := do
  let n := if n = 0 then srch.length else n
  let i ← crossLoop srch value fwd n (n + 1) i
  if i < 1 ∨ i ≥ n then
    return (none, i)
  else do
    let x1 ← pyGet ret (i.toNat - 1)
    let x2 ← pyGet ret i.toNat
    let y1 ← pyGet srch (i.toNat - 1)
    let y2 ← pyGet srch i.toNat
    return (some ((x2 - x1) / (y2 - y1) * (value - y1) + x1), i)

/-- Loop variables of `edges`, `_lines_fb.py:152-167`. -/
structure EdgeState where
  low : Bool
  rise : List (Option ℚ)
  fall : List (Option ℚ)
  deriving DecidableEq, Repr

/-- Body of the loop of `edges` / `edges_np`, `_lines_fb.py:157-167,200-212`; `n` is the length passed to
`crossing` (0 in `edges`, `len(t)` in `edges_np`). -/
def edgeStep (t y : List ℚ) (yRise yHalf yFall : ℚ) (n : ℕ) (s : EdgeState) (i : ℕ) : Except PyErr EdgeState := do
  let v ← pyGet y i
  if s.low then
    if v > yRise then do
      let c ← crossing t y i yHalf false n
      return { s with low := false, rise := s.rise ++ [c.1] }
    else return s
  else
    if v < yFall then do
      let c ← crossing t y i yHalf false n
      return { s with low := true, fall := s.fall ++ [c.1] }
    else return s

/-- `edges`, `_lines_fb.py:138-169`: iterates over `range(1, len(y))`. -/
def edges (t y : List ℚ) (yRise yHalf yFall : ℚ) : Except PyErr (List (Option ℚ) × List (Option ℚ)) := do
  let y0 ← pyGet y 0
  let s ← (List.range' 1 (y.length - 1)).foldlM (edgeStep t y yRise yHalf yFall 0) ⟨decide (y0 < yFall), [], []⟩
  return (s.rise, s.fall)

/-- `edges_np`, `_lines_fb.py:172-214`: iterates over `range(1, len(t))` and passes `n = len(t)`.
Simplification: the preallocated result arrays with fill counters are lists. -/
def edgesNp (t y : List ℚ) (yRise yHalf yFall : ℚ) : Except PyErr (List (Option ℚ) × List (Option ℚ)) := do
  let y0 ← pyGet y 0
  let s ← (List.range' 1 (t.length - 1)).foldlM (edgeStep t y yRise yHalf yFall t.length)
    ⟨decide (y0 < yFall), [], []⟩
  return (s.rise, s.fall)

/-! ### Intersections -/

/-- Points and segments in the plane. -/
abbrev Pt := ℚ × ℚ

/-- `intersection`, `_lines_fb.py:217-258`; coordinates `p = (p1, p2)` and so on. -/
def intersection (p q r s : Pt) (segments : Bool := true) : Option Pt :=
  let d := (p.1 - q.1) * (r.2 - s.2) - (p.2 - q.2) * (r.1 - s.1)
  if d = 0 then none
  else
    let tn := (p.1 - r.1) * (r.2 - s.2) - (p.2 - r.2) * (r.1 - s.1)
    let un := (p.1 - r.1) * (p.2 - q.2) - (p.2 - r.2) * (p.1 - q.1)
    if segments ∧ (if d > 0 then tn < 0 ∨ un < 0 ∨ tn > d ∨ un > d else tn > 0 ∨ un > 0 ∨ tn < d ∨ un < d) then
      none
    else
      let t := tn / d
      some (p.1 + t * (q.1 - p.1), p.2 + t * (q.2 - p.2))

/-- Consecutive pairs `(previous, current)` of a list of points: the segments visited by
`for i in range(1, len(..))`. -/
def segs : List Pt → List (Pt × Pt)
  | a :: b :: rest => (a, b) :: segs (b :: rest)
  | _ => []

/-- `min(path_t), max(path_t), min(path_y), max(path_y)`, `_lines_fb.py:276-281`; `min([])` raises
`ValueError`. -/
def bbox : List Pt → Except PyErr (ℚ × ℚ × ℚ × ℚ)
  | [] => .error .valueError
  | p :: ps => .ok
      (ps.foldl (fun m q => min m q.1) p.1, ps.foldl (fun m q => max m q.1) p.1,
       ps.foldl (fun m q => min m q.2) p.2, ps.foldl (fun m q => max m q.2) p.2)

/-- The bounding box tests leading to `continue`, `_lines_fb.py:283-290,337-344`. `prev = (t[i-1], y[i-1])`,
`cur = (t[i], y[i])`. -/
def skipSeg (minT maxT minY maxY : ℚ) (prev cur : Pt) : Bool :=
  if cur.1 < minT ∨ prev.1 > maxT then true
  else if cur.2 > prev.2 then decide (cur.2 < minY ∨ prev.2 > maxY)
  else decide (cur.2 > maxY ∨ prev.2 < minY)

/-- Innermost loop of `hits`, `_lines_fb.py:292-296`. -/
def hitsSeg (path : List Pt) (prev cur : Pt) : List Pt :=
  (segs path).filterMap (fun e => intersection cur prev e.2 e.1)

/-- Body of the loop over the paths in `hits`, `_lines_fb.py:276-296`. -/
def hitsPath (w : List Pt) (path : List Pt) : Except PyErr (List Pt) := do
  let b ← bbox path
  return (segs w).flatMap (fun s =>
    if skipSeg b.1 b.2.1 b.2.2.1 b.2.2.2 s.1 s.2 then [] else hitsSeg path s.1 s.2)

/-- `hits`, `_lines_fb.py:261-297`.  Simplification: the lists `t`, `y` are one list of points (equal
lengths). -/
def hits (w : List Pt) : List (List Pt) → Except PyErr (List Pt)
  | [] => .ok []
  | path :: rest => do
    let h ← hitsPath w path
    let hs ← hits w rest
    return h ++ hs

/-- Body of the loop over the paths in `is_hitting`, `_lines_fb.py:330-350`. -/
def isHittingPath (w : List Pt) (path : List Pt) : Except PyErr Bool := do
  let b ← bbox path
  return (segs w).any (fun s =>
    !skipSeg b.1 b.2.1 b.2.2.1 b.2.2.2 s.1 s.2 &&
      (segs path).any (fun e => (intersection s.2 s.1 e.2 e.1).isSome))

/-- `is_hitting`, `_lines_fb.py:318-351`: returns at the first hit, so later paths are not looked at. -/
def isHitting (w : List Pt) : List (List Pt) → Except PyErr Bool
  | [] => .ok false
  | path :: rest => do
    let h ← isHittingPath w path
    if h then return true else isHitting w rest

end Verif.Lines
