import Verif.Model.Eye

/-!
Model of `hardware_tools/measurement/eyediagram/cdr.py`, `_cdr_fb.py` and `_cdr.pyx`: clock data recovery.

Times are exact rationals; `none` is nan.  `np.mod`, `np.floor_divide` by a period of zero (nan) are not modelled: the search is only used
with positive bounds.
-/

namespace Verif.Cdr

open Verif Verif.Eye

/-- `np.floor_divide(x, t)`. -/
def floorDiv (x t : ℚ) : ℤ := ⌊x / t⌋

/-- The slope of the linear regression of `ys` by `xs`: `cov / var` of `np.cov(xs, ys, bias=1).flat`, _cdr_fb.py:25-26, 151-152; nan without
variance. -/
def slope (xs ys : List ℚ) : Option ℚ :=
  let mx := xs.sum / xs.length
  let my := ys.sum / ys.length
  let sxx := (xs.map fun x => (x - mx) * (x - mx)).sum / xs.length
  let sxy := ((xs.zip ys).map fun p => (p.1 - mx) * (p.2 - my)).sum / xs.length
  if sxx = 0 then none else some (sxy / sxx)

/-- The number of jumps over more than half a period, _cdr_fb.py:22, _cdr.pyx:41-47. -/
def disjoints (ties : List ℚ) (t : ℚ) : ℕ := (diffs ties).countP fun d => decide (t / 2 < |d|)

/-- The score of one period, _cdr_fb.py:20-28, _cdr.pyx:38-57. -/
def tieScore (edges : List ℚ) (t : ℚ) : Option ℚ :=
  let ties := edges.map fun e => pyMod (e + t / 2) t
  let d := disjoints ties t
  if d < 1 then (slope (edges.map fun e => (floorDiv (e + t / 2) t : ℚ)) ties).map fun s => -(1 - |s|)
  else some (d : ℚ)

/-- A score. -/
abbrev Scored := ℚ × Option ℚ

/-- `_calculate_tie_scores`, _cdr_fb.py:8-29; `sort` is python's `sorted` (stable), respectively numpy's `argsort` (not stable),
by score.  What happens to the order in the presence of nan is not specified. -/
def tieScores (sort : List Scored → List Scored) (edges span : List ℚ) : List Scored := sort (span.map fun t => (t, tieScore edges t))

/-- `score < tol`; nan is not. -/
def scoreLt (s : Option ℚ) (tol : ℚ) : Bool := match s with
  | none => false
  | some x => decide (x < tol)

/-- One of the finer searches: number of edges, of periods to test, and of steps between the bounds for the new bounds. -/
structure Finer where
  edges : ℕ
  points : ℕ
  steps : ℕ

/-- The finer searches, _cdr_fb.py:83-96. -/
def finerFb : List Finer := [⟨100000, 20, 19⟩, ⟨10000, 100, 99⟩, ⟨1000, 1000, 999⟩, ⟨100, 10000, 9999⟩]

/-- The finer searches of the compiled version, _cdr.pyx:98-128: the steps of the first one differ. -/
def finerC : List Finer := [⟨100000, 20, 9⟩, ⟨10000, 100, 99⟩, ⟨1000, 1000, 999⟩, ⟨100, 10000, 9999⟩]

/-- The bounds of the next round, _cdr_fb.py:83-98: of the first finer search with a period without disjoints. -/
def nextBounds (sort : List Scored → List Scored) (edges : List ℚ) (tMin tMax : ℚ) : List Finer → Except PyErr (ℚ × ℚ)
  | [] => .error .arithmeticError
  | f :: fs => do
    let scores := tieScores sort (edges.take f.edges) (Stats.linspace tMin tMax (f.points - 1))
    match (scores.filter fun s => scoreLt s.2 1).map Prod.fst with
    | [] => nextBounds sort edges tMin tMax fs
    | lower =>
      let step := (tMax - tMin) / f.steps
      return (max tMin ((← Stats.minimum lower) - step), min tMax ((← Stats.maximum lower) + step))

/-- The number of periods tested first, _cdr_fb.py:65, _cdr.pyx:91. -/
def firstPoints (n : ℕ) : ℕ := max 20 (1000000 / n)

/-- `minimize_tie_disjoints` with bounds, _cdr_fb.py:60-117, by the number of iterations left.  `data_edges` is not empty. -/
def search (sort : List Scored → List Scored) (finer : List Finer) (dataEdges : List ℚ) (tol : ℚ) : ℕ → ℚ → ℚ → Except PyErr ℚ
  | left, tMin, tMax => do
    let first ← pyGet dataEdges 0
    let edges := dataEdges.map fun e => e - first
    match tieScores sort edges (Stats.linspace tMin tMax (firstPoints edges.length - 1)) with
    | [] => .error .indexError
    | best :: _ =>
      if scoreLt best.2 tol then return best.1
      else match left with
        | 0 => .error .arithmeticError
        | left + 1 => do
          let (lo, hi) ← nextBounds sort edges tMin tMax finer
          search sort finer dataEdges tol left lo hi

/-- `minimize_tie_disjoints`, _cdr_fb.py:32-117. -/
def minimizeTieDisjoints (sort : List Scored → List Scored) (finer : List Finer) (dataEdges : List ℚ) (tSym tMin tMax : Option ℚ) (tol : ℚ)
    (maxIter : ℤ) : Except PyErr ℚ :=
  match tSym, tMin, tMax with
  | some t, _, _ => search sort finer dataEdges tol maxIter.toNat (t * (9 / 10)) (t * (11 / 10))
  | none, some lo, some hi => search sort finer dataEdges tol maxIter.toNat lo hi
  | none, _, _ => .error .valueError

/-- One score of the compiled version, _cdr.pyx:36-57: the slope is a division of C doubles, which raises ZeroDivisionError if all edges are in the
same period. -/
def tieScoreC (edges : List ℚ) (t : ℚ) : Except PyErr Scored :=
  match tieScore edges t with
  | none => .error .zeroDivision
  | some s => .ok (t, some s)

/-- `_calculate_tie_scores_c`, _cdr.pyx:14-58. -/
def tieScoresC (sort : List Scored → List Scored) (edges span : List ℚ) : Except PyErr (List Scored) := do
  return sort (← span.mapM (tieScoreC edges))

/-- The bounds of the next round, _cdr.pyx:98-130. -/
def nextBoundsC (sort : List Scored → List Scored) (edges : List ℚ) (tMin tMax : ℚ) : List Finer → Except PyErr (ℚ × ℚ)
  | [] => .error .arithmeticError
  | f :: fs => do
    let scores ← tieScoresC sort (edges.take f.edges) (Stats.linspace tMin tMax (f.points - 1))
    match (scores.filter fun s => scoreLt s.2 1).map Prod.fst with
    | [] => nextBoundsC sort edges tMin tMax fs
    | lower =>
      let step := (tMax - tMin) / f.steps
      return (max tMin ((← Stats.minimum lower) - step), min tMax ((← Stats.maximum lower) + step))

/-- `minimize_tie_disjoints_c`, _cdr.pyx:61-132; nan, which the caller turns into an ArithmeticError, is that error here.  ZeroDivisionError is passed
on by Cython 3; older versions print it and return 0. -/
def searchC (sort : List Scored → List Scored) (dataEdges : List ℚ) (tol : ℚ) : ℕ → ℚ → ℚ → Except PyErr ℚ
  | left, tMin, tMax => do
    let first ← pyGet dataEdges 0
    let edges := dataEdges.map fun e => e - first
    match ← tieScoresC sort edges (Stats.linspace tMin tMax (firstPoints edges.length - 1)) with
    | [] => .error .indexError
    | best :: _ =>
      if scoreLt best.2 tol then return best.1
      else match left with
        | 0 => .error .arithmeticError
        | left + 1 => do
          let (lo, hi) ← nextBoundsC sort edges tMin tMax finerC
          searchC sort dataEdges tol left lo hi

/-- The compiled `minimize_tie_disjoints`, _cdr.pyx:135-149. -/
def minimizeTieDisjointsC (sort : List Scored → List Scored) (dataEdges : List ℚ) (tSym tMin tMax : Option ℚ) (tol : ℚ) (maxIter : ℤ) :
    Except PyErr ℚ :=
  match tSym, tMin, tMax with
  | some t, _, _ => searchC sort dataEdges tol maxIter.toNat (t * (9 / 10)) (t * (11 / 10))
  | none, some lo, some hi => searchC sort dataEdges tol maxIter.toNat lo hi
  | none, _, _ => .error .valueError

/-- One iteration of the loop over disjoints, _cdr_fb.py:140-145: `d` is the index and the difference; states are bits and ties. -/
def fixStep (t : ℚ) (s : List (ℤ × ℚ)) (d : ℚ × ℕ) : List (ℤ × ℚ) :=
  s.zipIdx.map fun p =>
    let offset : ℤ := if p.2 < d.2 + 1 then 0 else if 0 < d.1 then -1 else 1
    (p.1.1 - offset, p.1.2 + offset * t)

/-- Bits and ties of `detrend_ties`, _cdr_fb.py:132-145. -/
def unwrap (edges : List ℚ) (first t : ℚ) : List (ℤ × ℚ) :=
  let s := edges.map fun e => (floorDiv (e - first + t / 2) t, pyMod (e - first + t / 2) t - t / 2)
  ((diffs (s.map Prod.snd)).zipIdx.filter fun d => decide (t / 2 < |d.1|)).foldl (fixStep t) s

/-- `detrend_ties`, _cdr_fb.py:120-154; nan if all edges are in the same period. -/
def detrendTies (edges : List ℚ) (t : ℚ) : Except PyErr (Option ℚ) := do
  let s := unwrap edges (← pyGet edges 0) t
  return (slope (s.map fun p => (p.1 : ℚ)) (s.map Prod.snd)).map fun m => t + m

/-- The loop of the compiled `detrend_ties_c`, _cdr.pyx:180-195, for the edges after the first one. -/
def unwrapC (first t : ℚ) : List ℚ → ℚ → ℤ → ℚ → List (ℤ × ℚ)
  | [], _, _, _ => []
  | e :: es, prevTie, bitOffset, tieOffset =>
    let edge := e - first
    let bits := floorDiv (edge + t / 2) t
    let tie := edge - bits * t
    let diff := tie - prevTie
    let o : ℤ × ℚ := if diff < -(t / 2) then (bitOffset - 1, tieOffset + t)
      else if t / 2 < diff then (bitOffset + 1, tieOffset - t) else (bitOffset, tieOffset)
    (bits + o.1, tie + o.2) :: unwrapC first t es tie o.1 o.2

/-- `detrend_ties` compiled, _cdr.pyx:154-205; without edges the first one is read unchecked, but not used. -/
def detrendTiesC (edges : List ℚ) (t : ℚ) : Option ℚ :=
  let s := match edges with
    | [] => []
    | first :: rest => (0, 0) :: unwrapC first t rest 0 0 0
  (slope (s.map fun p => (p.1 : ℚ)) (s.map Prod.snd)).map fun m => t + m

/-- `mean()`. -/
def avg (l : List ℚ) : ℚ := l.sum / l.length

/-- `interp1d(..., kind="previous", fill_value=(ties[0], ties[-1]))`, cdr.py:109-113 (scipy), for sorted edges: the value of the last edge that is not
after `x`, of the first one before all. -/
def previous (edges ties : List ℚ) (x : ℚ) : ℚ := ties.getD ((edges.countP fun e => decide (e ≤ x)) - 1) 0

/-- `CDR`, cdr.py:24-37.  The other attributes are constant. -/
structure Config where
  tSym : Option ℚ
  fixedPeriod : Bool

/-- Steps 1 to 3 of `CDR.run`, cdr.py:63-90: the period (nan is `none`); `minimize`, `detrend` are the helpers.  An initial period of zero makes
numpy divide by zero, which for increasing edges is infinity, so it is rejected like here, where the quotient is zero. -/
def period (minimize : List ℚ → ℚ → ℚ → ℚ → Except PyErr ℚ) (detrend : List ℚ → ℚ → Except PyErr (Option ℚ)) (c : Config) (edges : List ℚ) :
    Except PyErr (Option ℚ) :=
  if edges.length < 2 then .error .valueError
  else match c.tSym with
    | none => .error .valueError
    | some t =>
      let numSym := (diffs edges).map fun p => (⌊p / t + 1 / 2⌋ : ℚ)
      if avg numSym < 9 / 10 ∨ 5 < avg numSym then .error .arithmeticError
      else if c.fixedPeriod then .ok (some t)
      else do
        let t ← minimize edges (t * (1 - 1 / 100)) (t * (1 + 1 / 100)) 100
        detrend edges t

/-- Steps 4 and 5 of `CDR.run`, cdr.py:92-106: clock edges and time interval errors.  A period of nan makes `int(nan)` raise ValueError, of zero
`int(inf)` OverflowError, a negative one `np.linspace` ValueError. -/
def clock (edges : List ℚ) (first last : ℚ) : Option ℚ → Except PyErr (List ℚ × List ℚ)
  | none => .error .valueError
  | some t =>
    if t = 0 then .error .arithmeticError
    else
      let ties := edges.map fun e => pyMod (e - first + t / 2) t - t / 2
      let tStart := first + avg ties
      let ties := ties.map fun x => x - avg ties
      if (diffs ties).any fun d => decide (t / 2 < |d|) then .error .arithmeticError
      else
        let n := ⌈(last - first) / t⌉
        if n < 0 then .error .valueError
        else
          let clk := if n = 0 then [] else (Stats.linspace 0 (t * (n - 1)) (n.toNat - 1)).map fun x => x + tStart + t / 2
          .ok (clk, ties)

/-- `CDR.run`, cdr.py:39-116. -/
def run (minimize : List ℚ → ℚ → ℚ → ℚ → Except PyErr ℚ) (detrend : List ℚ → ℚ → Except PyErr (Option ℚ)) (c : Config) (edges : List ℚ)
    (resample : Bool) : Except PyErr (List ℚ × List ℚ) := do
  let first ← pyGet edges 0
  let t ← period minimize detrend c edges
  let last ← pyGet edges (edges.length - 1)
  let (clk, ties) ← clock edges first last t
  if resample then return (clk, clk.map (previous edges ties))
  else return (clk, ties)

/-- `CDR.run` with the fallback helpers and a list of finer searches, cdr.py:81-90. -/
def runWith (sort : List Scored → List Scored) (finer : List Finer) : Config → List ℚ → Bool → Except PyErr (List ℚ × List ℚ) :=
  run (fun e lo hi tol => minimizeTieDisjoints sort finer e none (some lo) (some hi) tol 10) detrendTies

/-- `CDR.run` with the fallback helpers, cdr.py:81-90. -/
def runFb (sort : List Scored → List Scored) : Config → List ℚ → Bool → Except PyErr (List ℚ × List ℚ) := runWith sort finerFb

/-- `CDR.run` with the compiled helpers, cdr.py:81-90. -/
def runC (sort : List Scored → List Scored) : Config → List ℚ → Bool → Except PyErr (List ℚ × List ℚ) :=
  run (fun e lo hi tol => minimizeTieDisjointsC sort e none (some lo) (some hi) tol 10) fun e t => .ok (detrendTiesC e t)

end Verif.Cdr
