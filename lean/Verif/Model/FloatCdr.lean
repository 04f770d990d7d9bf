import Verif.Model.Cdr
import Verif.Model.FloatEye

/-!
`CDR.run` of `hardware_tools/measurement/eyediagram/cdr.py` in rounded arithmetic (see `Verif.Model.Float`): the same functions as in `Verif.Cdr`, with
a rounding after every operation on floats.  The search and the fit of the period (steps 2 and 3) are parameters.
-/

namespace Verif.Float

open Verif Verif.Eye Verif.Cdr

/-- The sums that rounded additions of the numbers give, in any order and with any brackets, at most `d` deep: what `ndarray.mean` (numpy) does at
cdr.py:69, 94, 95 is one of them (it adds in blocks). -/
inductive Summed (R : Rounding) : ℕ → List ℚ → ℚ → Prop
  | one (d : ℕ) (x : ℚ) : Summed R d [x] x
  | add {d : ℕ} {l m k : List ℚ} {s t : ℚ} : Summed R d l s → Summed R d m t → (l ++ m).Perm k → Summed R (d + 1) k (R.fl (s + t))

/-- A function that is `ndarray.mean` (numpy), cdr.py:69, 94, 95, for at most `n` numbers: a rounded sum divided by their number. -/
def IsMean (R : Rounding) (d n : ℕ) (mean : List ℚ → ℚ) : Prop :=
  ∀ l : List ℚ, l ≠ [] → l.length ≤ n → ∃ s, Summed R d l s ∧ mean l = R.fl (s / l.length)

/-- The mean by adding one number after the other: one of the possible means (cdr.py:69, 94, 95). -/
def meanF (R : Rounding) : List ℚ → ℚ
  | [] => 0
  | a :: l => R.fl (l.foldl (fun s x => R.fl (s + x)) a / (a :: l).length)

/-- `np.diff` in floats, cdr.py:65, 97. -/
def diffsF (R : Rounding) : List ℚ → List ℚ
  | a :: b :: rest => R.fl (b - a) :: diffsF R (b :: rest)
  | _ => []

/-- Step 1 of `CDR.run` in floats, cdr.py:63-74, and the choice of the period, cdr.py:76-90; see `Cdr.period`. -/
def periodF (R : Rounding) (mean : List ℚ → ℚ) (minimize : List ℚ → ℚ → ℚ → ℚ → Except PyErr ℚ) (detrend : List ℚ → ℚ → Except PyErr (Option ℚ))
    (c : Config) (edges : List ℚ) : Except PyErr (Option ℚ) :=
  if edges.length < 2 then .error .valueError
  else match c.tSym with
    | none => .error .valueError
    | some t =>
      let numSym := (diffsF R edges).map fun p => (⌊R.fl (R.fl (p / t) + 1 / 2)⌋ : ℚ)
      if mean numSym < R.fl (9 / 10) ∨ 5 < mean numSym then .error .arithmeticError
      else if c.fixedPeriod then .ok (some t)
      else do
        let e := R.fl (1 / 100)
        let t ← minimize edges (R.fl (t * R.fl (1 - e))) (R.fl (t * R.fl (1 + e))) 100
        detrend edges t

/-- The error of one data edge before the mean is removed, cdr.py:93, in floats. -/
def tieF (R : Rounding) (first t e : ℚ) : ℚ :=
  R.fl (pyModF R (R.fl (R.fl (e - first) + R.fl (t / 2))) t - R.fl (t / 2))

/-- Steps 4 and 5 of `CDR.run` in floats, cdr.py:92-106.  Simplification: periods that are not positive are not modelled (ArithmeticError here). -/
def clockF (R : Rounding) (mean : List ℚ → ℚ) (edges : List ℚ) (first last : ℚ) : Option ℚ → Except PyErr (List ℚ × List ℚ)
  | none => .error .valueError
  | some t =>
    if t ≤ 0 then .error .arithmeticError
    else
      let raw := edges.map (tieF R first t)
      let tStart := R.fl (first + mean raw)
      let ties := raw.map fun x => R.fl (x - mean raw)
      if (diffsF R ties).any fun d => decide (R.fl (t / 2) < |d|) then .error .arithmeticError
      else
        let n := ⌈R.fl (R.fl (last - first) / t)⌉
        if n < 0 then .error .valueError
        else
          let clk := if n = 0 then [] else
            (linspaceF R 0 (R.fl (t * (n - 1))) (n.toNat - 1)).map fun x => R.fl (R.fl (x + tStart) + R.fl (t / 2))
          .ok (clk, ties)

/-- `CDR.run` in floats, cdr.py:39-116.  Step 6 only compares. -/
def runF (R : Rounding) (mean : List ℚ → ℚ) (minimize : List ℚ → ℚ → ℚ → ℚ → Except PyErr ℚ) (detrend : List ℚ → ℚ → Except PyErr (Option ℚ))
    (c : Config) (edges : List ℚ) (resample : Bool) : Except PyErr (List ℚ × List ℚ) := do
  let first ← pyGet edges 0
  let t ← periodF R mean minimize detrend c edges
  let last ← pyGet edges (edges.length - 1)
  let (clk, ties) ← clockF R mean edges first last t
  if resample then return (clk, clk.map (previous edges ties))
  else return (clk, ties)

end Verif.Float
