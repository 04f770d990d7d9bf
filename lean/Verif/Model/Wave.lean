import Verif.Model.Tek

/-!
Model of `TEK_TYPES` and `parse_waveform_query`, `hardware_tools/equipment/tektronix/common.py:113-304`.

Floats are exact rationals.  The utf-8 decoder is a parameter.  The random numbers are a parameter: `u k` is the `k`-th
number of `random()` minus one half, so that `uniform(-w/2, w/2)` is `w * u k`.
-/

namespace Verif.Wave

open Verif Verif.Scpi Verif.Decimal Verif.Tek

/-- What the callables of `TEK_TYPES` return. -/
inductive TekVal where
  | int (n : ℤ)
  | num (q : ℚ)
  | text (s : Str)
  | pol (p : Parsed Polarity)
  | cmp (c : Parsed Comparison)
  deriving DecidableEq

/-- `float`, common.py:118. -/
def cFloat : Ty TekVal := .conv fun s => do return .num (← pyFloat s)

/-- `int`, common.py:156. -/
def cInt : Ty TekVal := .conv fun s => do return .int (← pyInt s)

/-- `str.upper`, common.py:123. -/
def cUpper : Ty TekVal := .conv fun s => .ok (.text (upper s))

/-- `str.strip(s, '"')`, common.py:161. -/
def stripQuote (s : Str) : Str := ((s.dropWhile (· = '"')).reverse.dropWhile (· = '"')).reverse

/-- `lambda s: str.strip(s, '"')`, common.py:161. -/
def cStrip : Ty TekVal := .conv fun s => .ok (.text (stripQuote s))

/-- `parse_polarity`, common.py:124. -/
def cPol : Ty TekVal := .conv fun s => .ok (.pol (parsePolarity s))

/-- `parse_comparison`, common.py:144. -/
def cCmp : Ty TekVal := .conv fun s => .ok (.cmp (parseComparison s))

/-- `parse_threshold`, common.py:131. -/
def cThr : Ty TekVal := .conv fun s => do return .num (← parseThreshold s)

/-- common.py:155-183. -/
def wfmTypes : List (Str × Ty TekVal) :=
  [(lit "BYT_Nr", cInt), (lit "BIT_Nr", cInt), (lit "ENCdg", cUpper), (lit "BN_Fmt", cUpper), (lit "BYT_Or", cUpper),
   (lit "WFId", cStrip), (lit "NR_Pt", cInt), (lit "PT_Fmt", cUpper), (lit "XUNit", cStrip), (lit "XINcr", cFloat),
   (lit "XZEro", cFloat), (lit "PT_Off", cInt), (lit "PT_ORder", cUpper), (lit "YUNit", cStrip), (lit "YMUlt", cFloat),
   (lit "YOFf", cFloat), (lit "YZEro", cFloat), (lit "VSCALE", cFloat), (lit "HSCALE", cFloat), (lit "VPOS", cFloat),
   (lit "VOFFSET", cFloat), (lit "HDELAY", cFloat), (lit "DOMain", cUpper), (lit "WFMTYPe", cUpper),
   (lit "CENTERFREQuency", cFloat), (lit "SPAN", cFloat), (lit "REFLEvel", cFloat)]

/-- common.py:114-154. -/
def trigTypes : List (Str × Ty TekVal) :=
  [(lit "A", .dict
    [(lit "BANDWidth", .dict [(lit "RF", .dict [(lit "HIGH", cFloat), (lit "LOW", cFloat)])]),
     (lit "EDGE", .dict [(lit "COUPling", cUpper), (lit "SLOpe", cPol), (lit "SOUrce", cUpper)]),
     (lit "HOLDoff", .dict [(lit "TIMe", cFloat)]),
     (lit "LEVel", .dict [(lit "AUXin", cThr), (lit "CH<1-4>", cThr), (lit "D<0-15>", cThr)]),
     (lit "MODe", cUpper),
     (lit "PULse", .dict [(lit "CLAss", cUpper)]),
     (lit "PULSEWidth", .dict [(lit "HIGHLimit", cFloat), (lit "LOWLimit", cFloat), (lit "POLarity", cPol),
       (lit "SOUrce", cUpper), (lit "WHEn", cCmp), (lit "WIDth", cFloat)]),
     (lit "TIMEOut", .dict [(lit "POLarity", cPol), (lit "SOUrce", cUpper), (lit "TIMe", cFloat)]),
     (lit "TYPe", cUpper)])]

/-- `TEK_TYPES`, common.py:113-184. -/
def tekTypes : Ty TekVal :=
  .dict [(lit "TRIGger", .dict trigTypes), (lit "WFMOutpre|WFMInpre|WFMPre", .dict wfmTypes)]

/-! ### Splitting -/

/-- `bytes.split(sep)`: at a match the bytes of the separator are skipped (`skip` counts down). -/
def splitAux (sep : List UInt8) : ℕ → List UInt8 → List (List UInt8)
  | _, [] => [[]]
  | k + 1, _ :: s => splitAux sep k s
  | 0, x :: s =>
    if sep.isPrefixOf (x :: s) then [] :: splitAux sep (sep.length - 1) s
    else match splitAux sep 0 s with
      | [] => [[x]]
      | p :: ps => (x :: p) :: ps

/-- `data.split(sep)`, common.py:214. -/
def splitSub (sep s : List UInt8) : List (List UInt8) := splitAux sep 0 s

/-- ASCII text as bytes. -/
def ascii (s : String) : List UInt8 := s.toList.map fun c => UInt8.ofNat c.toNat

/-- `b";:CURVE "` -/
def markLong : List UInt8 := ascii ";:CURVE "

/-- `b";:CURV "` -/
def markShort : List UInt8 := ascii ";:CURV "

/-- common.py:214-224: header and curve. -/
def splitCurve (data : List UInt8) : Except PyErr (List UInt8 × List UInt8) :=
  match splitSub markLong data with
  | [a, b] => .ok (a, b)
  | _ => match splitSub markShort data with
    | [a, b] => .ok (a, b)
    | _ => .error .valueError

/-- `re.sub(r'(?<!["])(;NR_PT)', r'"\1', text)`, common.py:229; the first argument is the preceding character. -/
def fixQuote : Option Char → Str → Str
  | _, [] => []
  | prev, c :: s =>
    if (lit ";NR_PT").isPrefixOf (c :: s) ∧ prev ≠ some '"' then '"' :: c :: fixQuote (some c) s
    else c :: fixQuote (some c) s

/-! ### Header -/

/-- `header[k]` after `header = header.popitem()[1]`, common.py:231-236: KeyError when missing, TypeError when the item is a
text and not a dictionary. -/
def headerKey (t : DTree TekVal) (root k : Str) : Except PyErr (Val TekVal) :=
  match t [root] with
  | some .dir =>
    match t [root, k] with
    | some (.file v) => .ok v
    | some .dir => .error .typeError
    | none => .error .keyError
  | some (.file _) => .error .typeError
  | none => .error .keyError

/-- The use of an entry as an integer. -/
def asInt : Val TekVal → Except PyErr ℤ
  | .conv (.int n) => .ok n
  | _ => .error .typeError

/-- The use of an entry as a float. -/
def asNum : Val TekVal → Except PyErr ℚ
  | .conv (.num q) => .ok q
  | _ => .error .typeError

/-- The use of an entry as a text. -/
def asText : Val TekVal → Except PyErr Str
  | .conv (.text s) => .ok s
  | .raw s => .ok s
  | _ => .error .typeError

/-- `int(chr(b), 16)`, common.py:246. -/
def hexByte (b : UInt8) : Except PyErr ℕ :=
  let n := b.toNat
  if 48 ≤ n ∧ n ≤ 57 then .ok (n - 48)
  else if 65 ≤ n ∧ n ≤ 70 then .ok (n - 55)
  else if 97 ≤ n ∧ n ≤ 102 then .ok (n - 87)
  else .error .valueError

/-- `l[start:stop]` for `start ≥ 0`. -/
def pySlice {α : Type} (l : List α) (start : ℕ) (stop : ℤ) : List α :=
  let stop := if stop < 0 then (stop + l.length).toNat else stop.toNat
  (l.take stop).drop start

/-! ### Samples -/

/-- The number stored in some bytes. -/
def word (msb signed : Bool) (bs : List UInt8) : ℤ :=
  let v : ℕ := (if msb then bs.reverse else bs).foldr (fun b a => b.toNat + 256 * a) 0
  if signed ∧ 2 ^ (8 * bs.length - 1) ≤ v then (v : ℤ) - 2 ^ (8 * bs.length) else v

/-- `np.frombuffer(bytes, dtype)`: a ValueError unless the length is a multiple of the item size. -/
def fromBuffer (msb signed : Bool) (size : ℕ) (bs : List UInt8) : Except PyErr (List ℤ) :=
  if bs.length % size = 0 then
    .ok ((List.range (bs.length / size)).map fun i : ℕ => word msb signed ((bs.drop (i * size)).take size))
  else .error .valueError

/-- Bit `j` of `np.bitwise_or.reduce(codes)`, common.py:279-281: set when it is set in one of the codes (two's
complement, `>>` is the arithmetic shift). -/
def orBit (codes : List ℤ) (j : ℕ) : Bool := codes.any fun c => c / 2 ^ j % 2 = 1

/-- The `while` loop of common.py:280-282 with `fuel = 8 * byte_size - lsb` steps left. -/
def lsbLoop (codes : List ℤ) : ℕ → ℕ → ℕ
  | 0, lsb => lsb
  | fuel + 1, lsb => if orBit codes lsb then lsb else lsbLoop codes fuel (lsb + 1)

/-- common.py:284-287 for one sample. -/
def ditherOne (minV maxV : ℤ) (lsb : ℕ) (code : ℤ) (u : ℚ) : ℚ :=
  let w : ℚ := code + 2 ^ lsb * u
  let w := if (maxV : ℚ) - 1 / 2 ≤ w then (maxV : ℚ) else w
  if w < (minV : ℚ) + 1 / 2 then (minV : ℚ) else w

/-- common.py:277-287: the codes with noise. -/
def dither (minV maxV : ℤ) (bits : ℕ) (codes : List ℤ) (u : ℕ → ℚ) : List ℚ :=
  let lsb := lsbLoop codes bits 0
  codes.mapIdx fun k c => ditherOne minV maxV lsb c (u k)

/-- The dictionary of sampling information, common.py:238-244, 272-275, 298-302. -/
structure Info where
  config : Str
  xUnit : Str
  yUnit : Str
  xIncr : ℚ
  yIncr : ℚ
  clipMin : ℚ
  clipMax : ℚ
  top : Bool
  bottom : Bool
  deriving DecidableEq

/-- The two rows and the information. -/
structure Result where
  x : List ℚ
  y : List ℚ
  info : Info
  deriving DecidableEq

/-- `max_val`, common.py:259-268. -/
def limit (size : ℤ) : Except PyErr ℤ :=
  if size = 1 then .ok 127 else if size = 2 then .ok (32768 * 127 / 128) else .error .valueError

/-- common.py:251-254: the samples.  numpy knows integers of 1, 2, 4 and 8 bytes, others are a TypeError. -/
def samples (msb signed : Bool) (size points : ℤ) (curve : List UInt8) (start : ℕ) : Except PyErr (List ℤ) :=
  if size ∈ [(1 : ℤ), 2, 4, 8] then fromBuffer msb signed size.toNat (pySlice curve start (start + points * size))
  else .error .typeError

/-- common.py:289-304: conversion.  `np.stack` of rows of different length is a ValueError. -/
def convert (t : DTree TekVal) (root : Str) (raw : Bool) (points : ℤ) (x wave : List ℚ) (m : ℤ) (info : Info) :
    Except PyErr Result :=
  if raw then
    if (wave.length : ℤ) = points then .ok ⟨x, wave, info⟩ else .error .valueError
  else do
    let yMult ← asNum (← headerKey t root (lit "YMULT"))
    let yZero ← asNum (← headerKey t root (lit "YZERO"))
    let yOff ← asNum (← headerKey t root (lit "YOFF"))
    let yUnit ← asText (← headerKey t root (lit "YUNIT"))
    if (wave.length : ℤ) = points then
      .ok ⟨x, wave.map fun w => (w - yOff) * yMult + yZero,
        { info with
          clipMin := ((-m : ℤ) - yOff) * yMult + yZero
          clipMax := (m - yOff) * yMult + yZero
          yUnit := yUnit
          yIncr := yMult }⟩
    else .error .valueError

/-- common.py:233-304, from the parsed header and the curve on. -/
def decodeCurve (t : DTree TekVal) (root : Str) (curve : List UInt8) (raw noise : Bool) (u : ℕ → ℚ) :
    Except PyErr Result := do
  let points ← asInt (← headerKey t root (lit "NR_PT"))
  let xIncr ← asNum (← headerKey t root (lit "XINCR"))
  let xZero ← asNum (← headerKey t root (lit "XZERO"))
  let xUnit ← asText (← headerKey t root (lit "XUNIT"))
  let config ← asText (← headerKey t root (lit "WFID"))
  let b1 ← match curve[1]? with
    | some b => pure b
    | none => .error .indexError
  let n ← hexByte b1
  let order ← asText (← headerKey t root (lit "BYT_OR"))
  let fmt ← asText (← headerKey t root (lit "BN_FMT"))
  let size ← asInt (← headerKey t root (lit "BYT_NR"))
  let codes ← samples (order = lit "MSB") (fmt = lit "RI") size points curve (2 + n)
  let m ← limit size
  if codes = [] then .error .valueError
  else if noise ∧ (codes.length : ℤ) ≠ points then .error .valueError
  else
    let wave := if noise then dither (-m) m (8 * size.toNat) codes u else codes.map fun c : ℤ => (c : ℚ)
    let x := (List.range points.toNat).map fun k : ℕ => xZero + xIncr * k
    convert t root raw points x wave m
      { config := config, xUnit := xUnit, yUnit := lit "ADC Counts", xIncr := xIncr, yIncr := 1, clipMin := (-m : ℤ),
        clipMax := m, top := codes.any fun c => m ≤ c, bottom := codes.any fun c => c ≤ -m }

/-- `header.popitem()`, common.py:231: the item inserted last. -/
def lastRoot (order : List Str) : Except PyErr Str :=
  match order.getLast? with
  | some r => .ok r
  | none => .error .keyError

/-- `parse_waveform_query`, common.py:187-304. -/
def parseQuery (dec : List UInt8 → Option Str) (data : List UInt8) (raw noise : Bool) (u : ℕ → ℚ) :
    Except PyErr Result := do
  let (hdr, curve) ← splitCurve data
  let text ← match dec hdr with
    | some t => pure t
    | none => .error .valueError
  let s ← parse (fixQuote none text) false (some tekTypes)
  let root ← lastRoot s.order
  decodeCurve s.tree root curve raw noise u

end Verif.Wave
