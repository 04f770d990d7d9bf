import Verif.Model.Cdr
import Mathlib.Analysis.Complex.Basic
import Mathlib.Analysis.Real.Sqrt
import Mathlib.Analysis.SpecialFunctions.Complex.Circle

/-!
Model of `CDRWithFFTFilter` in `hardware_tools/measurement/eyediagram/cdr.py`.

The filter is stated for any pair of transforms; numpy's are `rfft`, `irfft`.  Numbers are exact reals.
-/

namespace Verif.CdrFft

open Verif Verif.Cdr

noncomputable section

/-- One gain of `high_pass_butter`, cdr.py:149-152.  A bandwidth of zero (division by zero) is not modelled. -/
def butter (f bandwidth : ℝ) (order : ℤ) : ℝ := if f = 0 then 0 else 1 / Real.sqrt (1 + (f / bandwidth) ^ (-2 * order))

/-- `CDRWithFFTFilter.high_pass_butter`, cdr.py:133-152. -/
def highPassButter (freqs : List ℝ) (bandwidth : ℝ) (order : ℤ) : List ℝ := freqs.map fun f => butter f bandwidth order

/-- `np.fft.rfftfreq(n, d)`, cdr.py:168 (numpy), for even `n`. -/
def rfftFreq (n : ℕ) (d : ℝ) : List ℝ := (List.range (n / 2 + 1)).map fun i : ℕ => i / (n * d)

/-- The phase `2 π m / n` on the unit circle. -/
def turn (n : ℕ) (m : ℝ) : ℂ := Complex.exp ((2 * Real.pi * m / n : ℝ) * Complex.I)

/-- `np.fft.rfft(x, norm="forward")`, cdr.py:167 (numpy): the discrete Fourier transform up to half the sample rate. -/
def rfft (x : List ℝ) : List ℂ :=
  (List.range (x.length / 2 + 1)).map fun j : ℕ => (∑ i ∈ Finset.range x.length, (x.getD i 0 : ℂ) * turn x.length (-(i * j))) / x.length

/-- `np.fft.irfft(s, norm="forward")`, cdr.py:172 (numpy): the inverse, always with an even number of samples. -/
def irfft (s : List ℂ) : List ℝ :=
  let h := s.length - 1
  (List.range (2 * h)).map fun i : ℕ =>
    ∑ j ∈ Finset.range s.length, (if j = 0 ∨ j = h then 1 else 2) * (s.getD j 0 * turn (2 * h) (i * j)).re

/-- `l[n:-n]` for `n > 0`, cdr.py:176. -/
def trim (n : ℕ) (l : List ℝ) : List ℝ := (l.drop n).take (l.length - n - n)

/-- The filter, cdr.py:158-174: the edges and errors before they are trimmed.  `fft`, `ifft` are `np.fft.rfft`, `np.fft.irfft` with
`norm="forward"`; numpy raises ValueError for an empty array; the period is nan or infinite with one edge, but then there is nothing to transform. -/
def filtered (fft : List ℝ → List ℂ) (ifft : List ℂ → List ℝ) (ojtf : List ℝ → List ℂ) (clk ties : List ℝ) : Except PyErr (List ℝ × List ℝ) :=
  match clk with
  | [] => .error .indexError
  | first :: rest =>
    let period := ((first :: rest).getLastD first - first) / ((first :: rest).length - 1)
    let n := (first :: rest).length / 2 * 2
    if n = 0 then .error .valueError
    else
      let clk := (first :: rest).take n
      let ties := ties.take n
      let g := ojtf (rfftFreq n period)
      let adj := ifft (List.zipWith (fun (s : ℂ) (g : ℂ) => s * (1 - (‖g‖ : ℝ))) (fft ties) g)
      .ok (List.zipWith (· + ·) clk adj, List.zipWith (· - ·) ties adj)

/-- The better of two edges for `kind="next"`: the earlier one that is not before `x`. -/
def nextOf (x : ℝ) (best : Option (ℝ × ℝ)) (p : ℝ × ℝ) : Option (ℝ × ℝ) :=
  open Classical in
  if p.1 < x then best
  else match best with
    | none => some p
    | some b => if p.1 < b.1 then some p else some b

/-- `interp1d(..., kind="next", fill_value=(ties[0], ties[-1]))`, cdr.py:181-186 (scipy), for increasing
clock edges: the error of the next clock edge, of the last one after all. -/
def next (clk ties : List ℝ) (x : ℝ) : ℝ := match (clk.zip ties).foldl (nextOf x) none with
  | some p => p.2
  | none => ties.getLastD 0

/-- `CDRWithFFTFilter.run`, cdr.py:154-188; `base` is `CDR.run` resampled. -/
def runFft (base : List ℚ → Except PyErr (List ℚ × List ℚ)) (fft : List ℝ → List ℂ) (ifft : List ℂ → List ℝ) (ojtf : List ℝ → List ℂ)
    (edges : List ℚ) (resample : Bool) : Except PyErr (List ℝ × List ℝ) := do
  let (clk, ties) ← base edges
  let (outF, tiesF) ← filtered fft ifft ojtf (clk.map fun x : ℚ => (x : ℝ)) (ties.map fun x : ℚ => (x : ℝ))
  if resample then return (trim 100 outF, trim 100 tiesF)
  else return (trim 100 outF, edges.map fun x : ℚ => next outF tiesF x)

end

end Verif.CdrFft
