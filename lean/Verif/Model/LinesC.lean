import Verif.Model.Float

/-!
Model of `hardware_tools/math/_lines.pyx`, the compiled version of the helpers of `_lines_fb.py`.  The functions are compiled with
`boundscheck(False)` and `wraparound(False)`: reading outside of an array or list gives what happens to be in memory, a parameter here.
Simplification: such a read does not crash the interpreter.
-/

namespace Verif.LinesC

open Verif Verif.Lines

/-! ### Rasterisation -/

/-- The value stored by an assignment to an `np.int32_t` variable.  Simplification: overflow wraps around (in C it is undefined for signed
integers). -/
def i32 (x : ℤ) : ℤ := x.bmod (2 ^ 32)

/-- Lines 70-75 of `_lines.pyx`: one step, all variables are `np.int32_t`. -/
def segStepC (dx dy sx sy : ℤ) (s : SegState) : SegState :=
  let e2 := i32 (2 * s.err)
  let s1 : SegState := if e2 > i32 (-dy) then { s with err := i32 (s.err - dy), x := i32 (s.x + sx) } else s
  if e2 < dx then { s1 with err := i32 (s1.err + dx), y := i32 (s1.y + sy) } else s1

/-- The `while True` loop, `_lines.pyx:60-75`, with fuel. -/
def segLoopC (dx dy sx sy x2 y2 : ℤ) : ℕ → SegState → Grid → Except PyErr Grid
  | 0, _, _ => .error .nonTermination
  | fuel + 1, s, g =>
    if s.x = x2 ∧ s.y = y2 then .ok g
    else segLoopC dx dy sx sy x2 y2 fuel (segStepC dx dy sx sy s) (g.incr s.x s.y)

/-- `_draw_segment_c`, `_lines.pyx:15-75`, with the fuel of the fallback version.  Simplification: the counts are unbounded. -/
def drawSegmentC (x1 y1 x2 y2 : ℤ) (g : Grid) : Except PyErr Grid :=
  let dx := if x2 > x1 then i32 (x2 - x1) else i32 (x1 - x2)
  let dy := if y2 > y1 then i32 (y2 - y1) else i32 (y1 - y2)
  let sx := if x1 < x2 then 1 else -1
  let sy := if y1 < y2 then 1 else -1
  segLoopC dx dy sx sy x2 y2 ((x2 - x1).natAbs + (y2 - y1).natAbs + 1) ⟨x1, y1, i32 (dx - dy)⟩ g

/-- The `for` loop of `draw_c`, `_lines.pyx:96-101`: returns the grid and the variables `x2, y2`, whose values are `last` before. -/
def drawLoopC : List (ℤ × ℤ) → ℤ × ℤ → Grid → Except PyErr (Grid × (ℤ × ℤ))
  | p :: q :: rest, _, g => do
    let g ← drawSegmentC p.1 p.2 q.1 q.2 g
    drawLoopC (q :: rest) q g
  | _, last, g => .ok (g, last)

/-- `draw_c`, `_lines.pyx:80-103`; `junk` is what the uninitialised variables `x2, y2` hold. -/
def drawC (junk : ℤ × ℤ) (ps : List (ℤ × ℤ)) (g : Grid) : Except PyErr Grid := do
  let r ← drawLoopC ps junk g
  return r.1.incr r.2.1 r.2.2

/-- `draw_points_c`, `_lines.pyx:113-133`: an index loop. -/
def drawPointsC (ps : List (ℤ × ℤ)) (g : Grid) : Grid :=
  (List.range ps.length).foldl (fun g i => g.incr (ps.getD i (0, 0)).1 (ps.getD i (0, 0)).2) g

/-! ### Crossings and edges -/

/-- `l[i]` without bounds check: outside of the list it is what is in memory. -/
def peek (mem : ℤ → ℚ) (l : List ℚ) (i : ℤ) : ℚ := if 0 ≤ i ∧ i < l.length then l.getD i.toNat 0 else mem i

/-- The `while` loops of `crossing_c`, `_lines.pyx:176-185`, with fuel: whether the crossing is found and the index. -/
def crossLoopC (mem : ℤ → ℚ) (srch : List ℚ) (value : ℚ) (fwd : Bool) (n : ℤ) : ℕ → ℤ → Except PyErr (Bool × ℤ)
  | 0, _ => .error .nonTermination
  | fuel + 1, i =>
    if decide (peek mem srch i > value) == decide (peek mem srch (i - 1) > value) then
      if fwd then
        if i + 1 ≥ n then .ok (false, i + 1) else crossLoopC mem srch value fwd n fuel (i + 1)
      else
        if i - 1 < 1 then .ok (false, i - 1) else crossLoopC mem srch value fwd n fuel (i - 1)
    else .ok (true, i)

/-- `crossing_c`, `_lines.pyx:142-192`.  `crossing_c_v` (196-246) and `crossing_c_v_np` (250-300) are copies that return the value only. -/
def crossingC (mem : ℤ → ℚ) (ret srch : List ℚ) (i : ℤ) (value : ℚ) (fwd : Bool) (n : ℤ) : Except PyErr (Option ℚ × ℤ) :=
  if i < 1 ∨ i ≥ n then .ok (none, i)
  else do
    let r ← crossLoopC mem srch value fwd n (n.toNat + 1) i
    if r.1 then
      let x1 := peek mem ret (r.2 - 1)
      let x2 := peek mem ret r.2
      let y1 := peek mem srch (r.2 - 1)
      let y2 := peek mem srch r.2
      return (some ((x2 - x1) / (y2 - y1) * (value - y1) + x1), r.2)
    else return (none, r.2)

/-- The value of a parameter declared `float`, a single precision number in C, `_lines.pyx:305, 360-362, 414-416`: the nearest number with 24
significant bits.  Simplification: the exponent is not limited. -/
def single (x : ℚ) : ℚ := Float.roundEven (x * 2 ^ (23 - Int.log 2 |x|)) / 2 ^ (23 - Int.log 2 |x|)

/-- `crossing`, `_lines.pyx:302-309`.  Simplification: `i` and `n` are not limited to 32 bits. -/
def crossingPyx (mem : ℤ → ℚ) (ret srch : List ℚ) (i : ℤ) (value : ℚ) (fwd : Bool := false) (n : ℕ := 0) : Except PyErr (Option ℚ × ℤ) :=
  crossingC mem ret srch i (single value) fwd (if n = 0 then srch.length else n)

/-- The variables of `edges_c`: the preallocated lists and the number of edges in them, `_lines.pyx:331-339`. -/
structure EdgeArr where
  low : Bool
  rise : List (Option ℚ)
  fall : List (Option ℚ)
  iRise : ℕ
  iFall : ℕ

/-- An unchecked write.  Outside of the list it corrupts memory: an error here. -/
def poke {α : Type} (l : List α) (i : ℕ) (v : α) : Except PyErr (List α) := if i < l.length then .ok (l.set i v) else .error .indexError

/-- The body of the loop of `edges_c`, `_lines.pyx:341-353`, and of `edges_np_c`, 395-407. -/
def edgeStepC (mem : ℤ → ℚ) (t y : List ℚ) (yRise yHalf yFall : ℚ) (s : EdgeArr) (i : ℕ) : Except PyErr EdgeArr :=
  if s.low then
    if peek mem y i > yRise then do
      let c ← crossingC mem t y i yHalf false t.length
      let l ← poke s.rise s.iRise c.1
      return { s with low := false, rise := l, iRise := s.iRise + 1 }
    else .ok s
  else
    if peek mem y i < yFall then do
      let c ← crossingC mem t y i yHalf false t.length
      let l ← poke s.fall s.iFall c.1
      return { s with low := true, fall := l, iFall := s.iFall + 1 }
    else .ok s

/-- `edges_c`, `_lines.pyx:313-355`, and `edges_np_c`, 367-409, which does the same with arrays. -/
def edgesC (mem : ℤ → ℚ) (t y : List ℚ) (yRise yHalf yFall : ℚ) : Except PyErr (List (Option ℚ) × List (Option ℚ)) := do
  let zeros := List.replicate t.length (some 0)
  let s ← (List.range' 1 (t.length - 1)).foldlM (edgeStepC mem t y yRise yHalf yFall)
    ⟨decide (peek mem y 0 < yFall), zeros, zeros, 0, 0⟩
  return (s.rise.take s.iRise, s.fall.take s.iFall)

/-- `edges`, `_lines.pyx:357-363`, and `edges_np`, 411-417. -/
def edgesPyx (mem : ℤ → ℚ) (t y : List ℚ) (yRise yHalf yFall : ℚ) : Except PyErr (List (Option ℚ) × List (Option ℚ)) :=
  edgesC mem t y (single yRise) (single yHalf) (single yFall)

/-! ### Intersections -/

/-- `intersection_c`, `_lines.pyx:441-483`. -/
def intersectionC (p1 p2 q1 q2 r1 r2 s1 s2 : ℚ) (segments : Bool) : Option Pt :=
  let d := (p1 - q1) * (r2 - s2) - (p2 - q2) * (r1 - s1)
  if d = 0 then none
  else
    let tn := (p1 - r1) * (r2 - s2) - (p2 - r2) * (r1 - s1)
    let un := (p1 - r1) * (p2 - q2) - (p2 - r2) * (p1 - q1)
    if segments && (if d > 0 then decide (tn < 0 ∨ un < 0 ∨ tn > d ∨ un > d) else decide (tn > 0 ∨ un > 0 ∨ tn < d ∨ un < d)) then none
    else some (p1 + tn / d * (q1 - p1), p2 + tn / d * (q2 - p2))

/-- The limits of a path. -/
structure Box where
  minT : ℚ
  maxT : ℚ
  minY : ℚ
  maxY : ℚ

/-- The body of the loop over the points of a path, `_lines.pyx:539-549` (also 618-628, 696-706, 769-779). -/
def boxStep (b : Box) (p : Pt) : Box :=
  let b := if p.1 > b.maxT then { b with maxT := p.1 } else if p.1 < b.minT then { b with minT := p.1 } else b
  if p.2 > b.maxY then { b with maxY := p.2 } else if p.2 < b.minY then { b with minY := p.2 } else b

/-- The limits of a path, `_lines.pyx:532-551`; `junk` is read as the first point of an empty path. -/
def boxC (junk : Pt) (path : List Pt) : Box :=
  let p := path.headD junk
  path.tail.foldl boxStep ⟨p.1, p.1, p.2, p.2⟩

/-- `continue`, `_lines.pyx:554-561` (also 633-640, 711-718, 784-791). -/
def skipC (b : Box) (prev cur : Pt) : Bool :=
  if cur.1 < b.minT ∨ prev.1 > b.maxT then true
  else if cur.2 > prev.2 then decide (cur.2 < b.minY ∨ prev.2 > b.maxY)
  else decide (cur.2 > b.maxY ∨ prev.2 < b.minY)

/-- The intersection of a segment of the waveform with one of the path, `_lines.pyx:564-565` (also 643-644, 721-722, 794-795). -/
def crossAt (s e : Pt × Pt) : Option Pt := intersectionC s.2.1 s.2.2 s.1.1 s.1.2 e.2.1 e.2.2 e.1.1 e.1.2 true

/-- `if point is not None: intersections.append(..)`, `_lines.pyx:566-567`. -/
def addHit (acc : List Pt) : Option Pt → List Pt
  | some p => acc ++ [p]
  | none => acc

/-- `hits_c`, `_lines.pyx:501-568`: three loops that append to one list.  Simplification: `t` and `y` are one list of points. -/
def hitsC (junk : Pt) (w : List Pt) (paths : List (List Pt)) : List Pt :=
  paths.foldl (fun acc path => (segs w).foldl (fun acc s =>
    if skipC (boxC junk path) s.1 s.2 then acc
    else (segs path).foldl (fun acc e => addHit acc (crossAt s e)) acc) acc) []

/-- The array of `hits_np_c` and the number of intersections in it; its number of rows is `n_intersections`. -/
structure HitArr where
  rows : List Pt
  count : ℕ

/-- `_lines.pyx:646-651`: enlarges the array if it is full, and writes a row. -/
def HitArr.push (n : ℕ) (a : HitArr) (p : Pt) : Except PyErr HitArr := do
  let rows := if a.count ≥ a.rows.length then a.rows ++ List.replicate n (0, 0) else a.rows
  return ⟨← poke rows a.count p, a.count + 1⟩

/-- `if point is not None`, `_lines.pyx:645`. -/
def HitArr.add (n : ℕ) (a : HitArr) : Option Pt → Except PyErr HitArr
  | some p => a.push n p
  | none => .ok a

/-- `hits_np_c`, `_lines.pyx:575-652`. -/
def hitsNpC (junk : Pt) (w : List Pt) (paths : List (List Pt)) : Except PyErr (List Pt) := do
  let a ← paths.foldlM (fun acc path => (segs w).foldlM (fun acc s =>
    if skipC (boxC junk path) s.1 s.2 then .ok acc
    else (segs path).foldlM (fun acc e => acc.add w.length (crossAt s e)) acc) acc)
    (⟨List.replicate w.length (0, 0), 0⟩ : HitArr)
  return a.rows.take a.count

/-- `is_hitting_c`, `_lines.pyx:661-725`, and `is_hitting_np_c`, 732-798: returns at the first intersection. -/
def isHittingC (junk : Pt) (w : List Pt) (paths : List (List Pt)) : Bool :=
  paths.any fun path => (segs w).any fun s => !skipC (boxC junk path) s.1 s.2 && (segs path).any fun e => (crossAt s e).isSome

/-! ### Arrays returned by `hits_np` -/

/-- A numpy array of points: its shape and its rows. -/
structure PtArr where
  shape : List ℕ
  rows : List Pt
  deriving DecidableEq

/-- `hits_np` of the fallback, `_lines_fb.py:300-315`: `np.array` of a list of pairs, which is one-dimensional if the list is empty. -/
def hitsNp (w : List Pt) (paths : List (List Pt)) : Except PyErr PtArr := do
  let h ← hits w paths
  return ⟨if h = [] then [0] else [h.length, 2], h⟩

/-- `hits_np` of the compiled version, `_lines.pyx:654-657`: a slice of a two-dimensional array. -/
def hitsNpPyx (junk : Pt) (w : List Pt) (paths : List (List Pt)) : Except PyErr PtArr := do
  let h ← hitsNpC junk w paths
  return ⟨[h.length, 2], h⟩

end Verif.LinesC
