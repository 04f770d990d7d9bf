import Verif.Model.FloatCdr
import Verif.Model.FloatFormat

/-!
The search and the fit of the period, `_cdr_fb.py` and `_cdr.pyx` of `hardware_tools/measurement/eyediagram`, in rounded arithmetic (see
`Verif.Model.Float`): the same functions as in `Verif.Cdr`, with a rounding after every operation on floats.  A C compiler may contract `a - b * c` into
one operation with one rounding; that is not modelled.
-/

namespace Verif.Float

open Verif Verif.Eye Verif.Cdr

/-- The sums of products that rounded additions give, in any order and with any brackets, at most `d` deep, each product rounded or added with a fused
operation: what `np.cov` computes with `np.dot`, _cdr_fb.py:25, 151, _cdr.pyx:54, 197, is one of them. -/
inductive SumProd (R : Rounding) : ℕ → List (ℚ × ℚ) → ℚ → Prop
  | one (d : ℕ) (p : ℚ × ℚ) : SumProd R d [p] (R.fl (p.1 * p.2))
  | add {d : ℕ} {l m k : List (ℚ × ℚ)} {s t : ℚ} : SumProd R d l s → SumProd R d m t → (l ++ m).Perm k → SumProd R (d + 1) k (R.fl (s + t))
  | fma {d : ℕ} {l k : List (ℚ × ℚ)} {s : ℚ} (p : ℚ × ℚ) : SumProd R d l s → (l ++ [p]).Perm k → SumProd R (d + 1) k (R.fl (s + p.1 * p.2))

/-- A function that is `np.dot` of two vectors of at most `n` numbers, in `np.cov`, _cdr_fb.py:25, 151, _cdr.pyx:54, 197. -/
def IsProd (R : Rounding) (d n : ℕ) (dot : List (ℚ × ℚ) → ℚ) : Prop := ∀ l : List (ℚ × ℚ), l ≠ [] → l.length ≤ n → SumProd R d l (dot l)

/-- Adding one product after the other: one of the possible results of `np.dot`, _cdr_fb.py:25, 151. -/
def prodF (R : Rounding) : List (ℚ × ℚ) → ℚ
  | [] => 0
  | p :: l => l.foldl (fun s q => R.fl (s + R.fl (q.1 * q.2))) (R.fl (p.1 * p.2))

/-- One entry of `np.cov(xs, ys, bias=1)` (numpy) in floats, _cdr_fb.py:25, 151, _cdr.pyx:54, 197: the means are subtracted, the dot product is multiplied
by `1 / n`. -/
def covF (R : Rounding) (mean : List ℚ → ℚ) (dot : List (ℚ × ℚ) → ℚ) (xs ys : List ℚ) : ℚ :=
  R.fl (dot ((xs.map fun x => R.fl (x - mean xs)).zip (ys.map fun y => R.fl (y - mean ys))) * R.fl (1 / xs.length))

/-- The slope in floats, _cdr_fb.py:25-26, 151-152, _cdr.pyx:54-55, 197-198; nan without variance. -/
def slopeF (R : Rounding) (mean : List ℚ → ℚ) (dot : List (ℚ × ℚ) → ℚ) (xs ys : List ℚ) : Option ℚ :=
  if covF R mean dot xs xs = 0 then none else some (R.fl (covF R mean dot xs ys / covF R mean dot xs xs))

/-- `np.floor_divide` of floats, _cdr_fb.py:24, 134, _cdr.pyx:53. -/
def floorDivF (R : Rounding) (x t : ℚ) : ℚ := (divmodF R x t).1

/-- The number of jumps over more than half a period in floats, _cdr_fb.py:22, _cdr.pyx:41-47. -/
def disjointsF (R : Rounding) (ties : List ℚ) (t : ℚ) : ℕ := (diffsF R ties).countP fun d => decide (R.fl (t / 2) < |d|)

/-- The score of one period in floats, _cdr_fb.py:20-28, _cdr.pyx:38-57; the edges start at zero. -/
def tieScoreF (R : Rounding) (mean : List ℚ → ℚ) (dot : List (ℚ × ℚ) → ℚ) (edges : List ℚ) (t : ℚ) : Option ℚ :=
  let a := edges.map fun e => R.fl (e + R.fl (t / 2))
  let ties := a.map fun x => pyModF R x t
  if disjointsF R ties t < 1 then (slopeF R mean dot (a.map fun x => floorDivF R x t) ties).map fun s => -R.fl (1 - |s|)
  else some (disjointsF R ties t : ℚ)

/-- `_calculate_tie_scores` in floats, _cdr_fb.py:8-29, and `_calculate_tie_scores_c`, _cdr.pyx:14-58, where the slope is a division of C doubles, which
raises ZeroDivisionError. -/
def tieScoresF (R : Rounding) (mean : List ℚ → ℚ) (dot : List (ℚ × ℚ) → ℚ) (sort : List Scored → List Scored) (compiled : Bool) (edges span : List ℚ) :
    Except PyErr (List Scored) :=
  let scores := span.map fun t => (t, tieScoreF R mean dot edges t)
  if compiled ∧ scores.any (fun s => s.2.isNone) then .error .zeroDivision else .ok (sort scores)

/-- The `n` periods tested between the bounds, _cdr_fb.py:67, 87 (`np.linspace`), _cdr.pyx:32-38. -/
def spanF (R : Rounding) (compiled : Bool) (tMin tMax : ℚ) (n : ℕ) : List ℚ :=
  if compiled then (List.range n).map fun i : ℕ => R.fl (tMin + R.fl (i * R.fl (R.fl (tMax - tMin) / (n - 1 : ℕ))))
  else linspaceF R tMin tMax (n - 1)

/-- `t_step` of the next bounds in floats, _cdr_fb.py:96 (the difference of the first two periods), _cdr.pyx:128. -/
def stepF (R : Rounding) (compiled : Bool) (tMin tMax : ℚ) (f : Finer) : ℚ :=
  if compiled then R.fl (R.fl (tMax - tMin) / f.steps)
  else R.fl ((linspaceF R tMin tMax (f.points - 1)).getD 1 0 - (linspaceF R tMin tMax (f.points - 1)).getD 0 0)

/-- The bounds of the next round in floats, _cdr_fb.py:83-98, _cdr.pyx:98-130. -/
def nextBoundsF (R : Rounding) (mean : List ℚ → ℚ) (dot : List (ℚ × ℚ) → ℚ) (sort : List Scored → List Scored) (compiled : Bool) (edges : List ℚ)
    (tMin tMax : ℚ) : List Finer → Except PyErr (ℚ × ℚ)
  | [] => .error .arithmeticError
  | f :: fs => do
    let scores ← tieScoresF R mean dot sort compiled (edges.take f.edges) (spanF R compiled tMin tMax f.points)
    match (scores.filter fun s => scoreLt s.2 1).map Prod.fst with
    | [] => nextBoundsF R mean dot sort compiled edges tMin tMax fs
    | lower =>
      let step := stepF R compiled tMin tMax f
      return (max tMin (R.fl ((← Stats.minimum lower) - step)), min tMax (R.fl ((← Stats.maximum lower) + step)))

/-- `minimize_tie_disjoints` in floats by the number of iterations left, _cdr_fb.py:60-117, _cdr.pyx:61-149. -/
def searchF (R : Rounding) (mean : List ℚ → ℚ) (dot : List (ℚ × ℚ) → ℚ) (sort : List Scored → List Scored) (compiled : Bool) (dataEdges : List ℚ) (tol : ℚ) :
    ℕ → ℚ → ℚ → Except PyErr ℚ
  | left, tMin, tMax => do
    let first ← pyGet dataEdges 0
    let edges := dataEdges.map fun e => R.fl (e - first)
    match ← tieScoresF R mean dot sort compiled edges (spanF R compiled tMin tMax (firstPoints edges.length)) with
    | [] => .error .indexError
    | best :: _ =>
      if scoreLt best.2 tol then return best.1
      else match left with
        | 0 => .error .arithmeticError
        | left + 1 => do
          let (lo, hi) ← nextBoundsF R mean dot sort compiled edges tMin tMax (if compiled then finerC else finerFb)
          searchF R mean dot sort compiled dataEdges tol left lo hi

/-- One iteration of the loop over disjoints in floats, _cdr_fb.py:140-145: `d` is the difference and the index; states are bits and ties. -/
def fixStepF (R : Rounding) (t : ℚ) (s : List (ℚ × ℚ)) (d : ℚ × ℕ) : List (ℚ × ℚ) :=
  s.zipIdx.map fun p =>
    let offset : ℚ := if p.2 < d.2 + 1 then 0 else if 0 < d.1 then -1 else 1
    (R.fl (p.1.1 + -offset), R.fl (p.1.2 + R.fl (offset * t)))

/-- Bits and ties of `detrend_ties` in floats, _cdr_fb.py:132-145. -/
def unwrapF (R : Rounding) (edges : List ℚ) (first t : ℚ) : List (ℚ × ℚ) :=
  let a := edges.map fun e => R.fl (R.fl (e - first) + R.fl (t / 2))
  let s := a.map fun x => (floorDivF R x t, R.fl (pyModF R x t - R.fl (t / 2)))
  ((diffsF R (s.map Prod.snd)).zipIdx.filter fun d => decide (R.fl (t / 2) < |d.1|)).foldl (fixStepF R t) s

/-- The loop of the compiled `detrend_ties_c` in floats, _cdr.pyx:180-195, for the edges after the first one; `//` of C doubles in Cython is the floor of
the quotient. -/
def unwrapCF (R : Rounding) (first t : ℚ) : List ℚ → ℚ → ℚ → ℚ → List (ℚ × ℚ)
  | [], _, _, _ => []
  | e :: es, prevTie, bitOffset, tieOffset =>
    let edge := R.fl (e - first)
    let bits : ℚ := ⌊R.fl (R.fl (edge + R.fl (t / 2)) / t)⌋
    let tie := R.fl (edge - R.fl (bits * t))
    let diff := R.fl (tie - prevTie)
    let o : ℚ × ℚ := if diff < -R.fl (t / 2) then (R.fl (bitOffset + -1), R.fl (tieOffset + t))
      else if R.fl (t / 2) < diff then (R.fl (bitOffset + 1), R.fl (tieOffset + -t)) else (bitOffset, tieOffset)
    (R.fl (bits + o.1), R.fl (tie + o.2)) :: unwrapCF R first t es tie o.1 o.2

/-- `detrend_ties` in floats, _cdr_fb.py:120-154, _cdr.pyx:154-205; nan if all edges are in the same period. -/
def detrendF (R : Rounding) (mean : List ℚ → ℚ) (dot : List (ℚ × ℚ) → ℚ) (compiled : Bool) (edges : List ℚ) (t : ℚ) : Except PyErr (Option ℚ) := do
  let first ← pyGet edges 0
  let s := if compiled then (0, 0) :: unwrapCF R first t edges.tail 0 0 0 else unwrapF R edges first t
  return (slopeF R mean dot (s.map Prod.fst) (s.map Prod.snd)).map fun m => R.fl (t + m)

/-- `CDR.run` in floats with the period searched and fitted, cdr.py:39-116, and at most 10 iterations (the default), cdr.py:81-90. -/
def recoverF (R : Rounding) (mean : List ℚ → ℚ) (dot : List (ℚ × ℚ) → ℚ) (sort : List Scored → List Scored) (compiled : Bool) (c : Config) :
    List ℚ → Bool → Except PyErr (List ℚ × List ℚ) :=
  runF R mean (fun e lo hi tol => searchF R mean dot sort compiled e tol 10 lo hi) (detrendF R mean dot compiled) c

end Verif.Float
