import Verif.Model.FloatStats
import Verif.Model.Wfm

/-!
`parse_waveform_query` and `parse_wfm_file`, `hardware_tools/equipment/tektronix/common.py:187-525`, in rounded arithmetic (see
`Verif.Model.Float`): the same functions as in `Verif.Wave` and `Verif.Wfm`, with a rounding after every operation on floats.

The random numbers are a parameter: `r k` is the `k`-th number of `random()`, a double from 0 to below 1.
-/

namespace Verif.Float

open Verif Verif.Scpi Verif.Wave
open Verif.Tek (lit)

/-- `_rng.uniform(-0.5 * (2**lsb), 0.5 * (2**lsb))` (numpy: `low + (high - low) * random()`), common.py:284, 486-487.  The limits and
their difference are powers of two and exact. -/
def uniformF (R : Rounding) (lsb : ℕ) (r : ℚ) : ℚ := R.fl (-(2 ^ lsb / 2) + R.fl (2 ^ lsb * r))

/-- common.py:284-287, 486-490 for one sample: `minV` and `maxV` are the limits as floats. -/
def ditherOneF (R : Rounding) (minV maxV : ℚ) (lsb : ℕ) (code r : ℚ) : ℚ :=
  let w := R.fl (code + uniformF R lsb r)
  let w := if R.fl (maxV - 1 / 2) ≤ w then maxV else w
  if w < R.fl (minV + 1 / 2) then minV else w

/-- common.py:277-287, 479-490 in floats: the codes with noise.  The codes are converted to floats before. -/
def ditherF (R : Rounding) (minV maxV : ℚ) (bits : ℕ) (float : ℤ → ℚ) (codes : List ℤ) (r : ℕ → ℚ) : List ℚ :=
  let lsb := lsbLoop codes bits 0
  codes.mapIdx fun k c => ditherOneF R minV maxV lsb (float c) (r k)

/-- The use of an entry as a float: `float` rounds the decimal number, common.py:118. -/
def asNumF (R : Rounding) (v : Val TekVal) : Except PyErr ℚ := do return R.fl (← asNum v)

/-- `(wave - y_off) * y_mult + y_zero` in floats, common.py:296, 298-299. -/
def voltF (R : Rounding) (off mult zero w : ℚ) : ℚ := R.fl (R.fl (R.fl (w - off) * mult) + zero)

/-- common.py:289-304 in floats, see `Wave.convert`. -/
def convertF (R : Rounding) (t : DTree TekVal) (root : Str) (raw : Bool) (points : ℤ) (x wave : List ℚ) (m : ℤ) (info : Info) :
    Except PyErr Result :=
  if raw then
    if (wave.length : ℤ) = points then .ok ⟨x, wave, info⟩ else .error .valueError
  else do
    let yMult ← asNumF R (← headerKey t root (lit "YMULT"))
    let yZero ← asNumF R (← headerKey t root (lit "YZERO"))
    let yOff ← asNumF R (← headerKey t root (lit "YOFF"))
    let yUnit ← asText (← headerKey t root (lit "YUNIT"))
    if (wave.length : ℤ) = points then
      .ok ⟨x, wave.map (voltF R yOff yMult yZero),
        { info with
          clipMin := voltF R yOff yMult yZero (-m : ℤ)
          clipMax := voltF R yOff yMult yZero m
          yUnit := yUnit
          yIncr := yMult }⟩
    else .error .valueError

/-- common.py:233-304 in floats, see `Wave.decodeCurve`.  Codes of at most two bytes are exact as floats, so are the indices of the
samples. -/
def decodeCurveF (R : Rounding) (t : DTree TekVal) (root : Str) (curve : List UInt8) (raw noise : Bool) (r : ℕ → ℚ) :
    Except PyErr Result := do
  let points ← asInt (← headerKey t root (lit "NR_PT"))
  let xIncr ← asNumF R (← headerKey t root (lit "XINCR"))
  let xZero ← asNumF R (← headerKey t root (lit "XZERO"))
  let xUnit ← asText (← headerKey t root (lit "XUNIT"))
  let config ← asText (← headerKey t root (lit "WFID"))
  let b1 ← match curve[1]? with
    | some b => pure b
    | none => .error .indexError
  let n ← hexByte b1
  let order ← asText (← headerKey t root (lit "BYT_OR"))
  let fmt ← asText (← headerKey t root (lit "BN_FMT"))
  let size ← asInt (← headerKey t root (lit "BYT_NR"))
  let codes ← samples (order = lit "MSB") (fmt = lit "RI") size points curve (2 + n)
  let m ← limit size
  if codes = [] then .error .valueError
  else if noise ∧ (codes.length : ℤ) ≠ points then .error .valueError
  else
    let wave := if noise then ditherF R (-m) m (8 * size.toNat) (fun c => c) codes r else codes.map fun c : ℤ => (c : ℚ)
    let x := (List.range points.toNat).map fun k : ℕ => R.fl (xZero + R.fl (xIncr * k))
    convertF R t root raw points x wave m
      { config := config, xUnit := xUnit, yUnit := lit "ADC Counts", xIncr := xIncr, yIncr := 1, clipMin := (-m : ℤ),
        clipMax := m, top := codes.any fun c => m ≤ c, bottom := codes.any fun c => c ≤ -m }

/-- `parse_waveform_query` in floats, common.py:187-304. -/
def parseQueryF (R : Rounding) (dec : List UInt8 → Option Str) (data : List UInt8) (raw noise : Bool) (r : ℕ → ℚ) :
    Except PyErr Result := do
  let (hdr, curve) ← splitCurve data
  let text ← match dec hdr with
    | some t => pure t
    | none => .error .valueError
  let s ← parse (fixQuote none text) false (some tekTypes)
  let root ← lastRoot s.order
  decodeCurveF R s.tree root curve raw noise r

/-! ### Files -/

open Verif.Wfm

/-- `x + y` in floats. -/
def oaddF (R : Rounding) (x y : Option ℚ) : Option ℚ := do return R.fl ((← x) + (← y))

/-- `x * y` in floats. -/
def omulF (R : Rounding) (x y : Option ℚ) : Option ℚ := do return R.fl ((← x) * (← y))

/-- The time axis in floats, common.py:441-442, 511-512. -/
def timesF (R : Rounding) (h : Head) (tt : Option ℚ) : List (Option ℚ) :=
  (List.range (h.samples + h.post - -h.post).toNat).map fun k : ℕ =>
    oaddF R (omulF R (oaddF R (some ((-h.post + (k : ℤ) : ℤ) : ℚ)) tt) h.xScale) h.xOffset

/-- `y * exp_dim_scale + exp_dim_offset` in floats, common.py:491-496, unless raw. -/
def fileVoltF (R : Rounding) (h : Head) (raw : Bool) (y : ℚ) : Option ℚ :=
  if raw then some y else oaddF R (omulF R (some y) h.yScale) h.yOffset

/-- common.py:479-490 in floats: the noise.  Without noise the codes become floats when they are converted, raw ones when
they are put into an array with the times (line 519). -/
def noisyF (R : Rounding) (h : Head) (noise : Bool) (codes : List ℤ) (r : ℕ → ℚ) : Except PyErr (List ℚ) :=
  if noise then
    if h.all * (h.ff + 1) < 0 then .error .valueError
    else .ok (ditherF R (R.fl h.minV) (R.fl h.maxV) (8 * h.bytes) (fun c => R.fl c) codes r)
  else .ok (codes.map fun c : ℤ => R.fl c)

/-- The information in floats, common.py:465-477, 493-496, 524. -/
def fileInfoF (R : Rounding) (h : Head) (raw prepost : Bool) (codes : List ℤ) (times : List ℤ) : FileInfo :=
  { h.info raw prepost codes times with
    clipMin := if raw then some (h.minV : ℚ) else fileVoltF R h raw (R.fl h.minV)
    clipMax := if raw then some (h.maxV : ℚ) else fileVoltF R h raw (R.fl h.maxV) }

/-- common.py:456-525 in floats, see `Wfm.body`. -/
def bodyF (R : Rounding) (h : Head) (data : List UInt8) (raw noise prepost : Bool) (r : ℕ → ℚ) :
    Except PyErr (List Frame × FileInfo) := do
  let codes ← h.buffer data
  let ys ← noisyF R h noise codes r
  let ys := ys.map (fileVoltF R h raw)
  let parts ← splitEqual ys (h.ff + 1)
  let heads ← (List.range h.ff).mapM (frameHead data)
  let heads := (h.tt, h.time) :: heads
  let frames := List.zipWith (fun (x : Option ℚ × ℤ) y => (⟨timesF R h x.1, y⟩ : Frame)) heads parts
  rectangular frames
  return (frames.map (h.trim prepost), fileInfoF R h raw prepost codes (heads.map Prod.snd))

/-- `parse_wfm_file` in floats, common.py:305-525. -/
def parseWfmF (R : Rounding) (dec : List UInt8 → Option Str) (data : List UInt8) (raw noise prepost : Bool) (r : ℕ → ℚ) :
    Except PyErr (List Frame × FileInfo) := do
  let h ← head dec data
  bodyF R h data raw noise prepost r

end Verif.Float
