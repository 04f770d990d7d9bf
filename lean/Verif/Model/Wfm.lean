import Verif.Model.Wave

/-!
Model of `parse_wfm_file`, `hardware_tools/equipment/tektronix/common.py:305-525`.

Floats are exact rationals once they are read: `none` stands for an infinite or undefined one (`inf`, `nan`), which every
sum and product with it is, too.  Overflow and rounding of the arithmetic are not modelled, nor is running out of memory.
The utf-8 decoder and the random numbers are parameters as in `Verif.Model.Wave`.  `np.array` of rows of different lengths is
a ValueError (numpy 1.24 and later).  Shifting a `uint64` by an integer is possible (numpy 2).
-/

namespace Verif.Wfm

open Verif Verif.Scpi Verif.Wave
open Verif.Tek (lit)

/-- A double as it is read from the file. -/
inductive Dbl where
  | fin (q : ℚ)
  | inf
  | nan
  deriving DecidableEq

/-- `len_header`, common.py:344. -/
def lenHeader : ℕ := 0x346

/-- `struct.unpack_from("<…", data, offset)` of an unsigned integer of `n` bytes, common.py:356-357. -/
def uN (n : ℕ) (data : List UInt8) (offset : ℕ) : ℕ := (word false false ((data.drop offset).take n)).toNat

/-- `unpack("L", offset)` (four bytes: standard sizes because of `<`). -/
def u32 (data : List UInt8) (offset : ℕ) : ℕ := uN 4 data offset

/-- `unpack("l", offset)` -/
def s32 (data : List UInt8) (offset : ℕ) : ℤ := word false true ((data.drop offset).take 4)

/-- `unpack("b", offset)` -/
def s8 (data : List UInt8) (offset : ℕ) : ℤ := word false true ((data.drop offset).take 1)

/-- `unpack("d", offset)`: IEEE 754 binary64. -/
def dbl (data : List UInt8) (offset : ℕ) : Dbl :=
  let b : ℕ := uN 8 data offset
  let neg := b / 2 ^ 63 % 2 = 1
  let e : ℕ := b / 2 ^ 52 % 2 ^ 11
  let m : ℕ := b % 2 ^ 52
  if e = 2047 then (if m = 0 then .inf else .nan)
  else
    let a : ℚ := if e = 0 then m * 2 ^ (-1074 : ℤ) else (2 ^ 52 + m : ℚ) * 2 ^ ((e : ℤ) - 1075)
    .fin (if neg then -a else a)

/-- The double as a number, `none` when it is not one. -/
def Dbl.val : Dbl → Option ℚ
  | .fin q => some q
  | _ => none

/-- `x + y` -/
def oadd (x y : Option ℚ) : Option ℚ := do return (← x) + (← y)

/-- `x * y` -/
def omul (x y : Option ℚ) : Option ℚ := do return (← x) * (← y)

/-- ASCII white space for `int(bytes)`. -/
def isSpace (b : UInt8) : Bool := b = 32 || (9 ≤ b && b ≤ 13)

/-- The digits of `int(bytes)`: single underscores may stand between digits. -/
def digitsOf : List UInt8 → Option ℕ → Bool → Option ℕ
  | [], acc, under => if under then none else acc
  | b :: bs, acc, under =>
    if 48 ≤ b ∧ b ≤ 57 then digitsOf bs (some (10 * acc.getD 0 + (b.toNat - 48))) false
    else if b = 95 ∧ acc.isSome ∧ ¬ under then digitsOf bs acc true
    else none

/-- `int(bytes)`, common.py:359; `none` is the ValueError. -/
def intBytes (bs : List UInt8) : Option ℤ :=
  let bs := ((bs.dropWhile isSpace).reverse.dropWhile isSpace).reverse
  match bs with
  | 43 :: r => (digitsOf r none false).map fun n : ℕ => (n : ℤ)
  | 45 :: r => (digitsOf r none false).map fun n : ℕ => -(n : ℤ)
  | r => (digitsOf r none false).map fun n : ℕ => (n : ℤ)

/-- `str_raw.split(b"\x00", maxsplit=1)[0].decode("utf-8")`, common.py:364-365, 381-382, 393-394: UnicodeDecodeError is a ValueError. -/
def text (dec : List UInt8 → Option Str) (data : List UInt8) (offset n : ℕ) : Except PyErr Str :=
  match dec (((data.drop offset).take n).takeWhile (· ≠ 0)) with
  | some s => .ok s
  | none => .error .valueError

/-- Rounding half to even. -/
def roundEven (q : ℚ) : ℤ :=
  let f := q.floor
  let d := q - f
  if d < 1 / 2 then f else if 1 / 2 < d then f + 1 else if f % 2 = 0 then f else f + 1

/-- `datetime.fromtimestamp(gmt_sec + frac_sec, tz=utc)`, common.py:406-409, in microseconds since 1970: an OverflowError
(`arithmeticError`) when the seconds do not fit into 64 bits, an OSError when the year does not fit into 32 bits, a ValueError when
the year is not in 1…9999 or the time is not a number.  The year of the 32 bit limit is taken as 365.2425 days on average. -/
def timestamp (sec : ℤ) (frac : Dbl) : Except PyErr ℤ :=
  match frac with
  | .nan => .error .valueError
  | .inf => .error .arithmeticError
  | .fin q =>
    let us := roundEven ((sec + q) * 1000000)
    let s := us / 1000000
    if s < -2 ^ 63 ∨ 2 ^ 63 ≤ s then .error .arithmeticError
    else if s < -(2 ^ 31 * 31556952) ∨ 2 ^ 31 * 31556952 ≤ s then .error .osError
    else if s < -62135596800 ∨ 253402300800 ≤ s then .error .valueError
    else .ok us

/-- `codes`, common.py:418-429: signed, bits, smallest and largest value. -/
def formats (fmt : ℕ) : Option (Bool × ℕ × ℤ × ℤ) :=
  match fmt with
  | 0 => some (true, 16, -(2 ^ 15 - 1), 2 ^ 15 - 1)
  | 1 => some (true, 32, -(2 ^ 31 - 1), 2 ^ 31 - 1)
  | 2 => some (false, 32, 0, 2 ^ 32 - 1)
  | 3 => some (false, 64, 0, 2 ^ 64 - 1)
  | 6 => some (false, 8, 0, 2 ^ 8 - 1)
  | 7 => some (true, 8, -(2 ^ 7 - 1), 2 ^ 7 - 1)
  | _ => none

/-- What is read from the header and checked before the samples are read. -/
structure Head where
  bytes : ℕ
  signed : Bool
  minV : ℤ
  maxV : ℤ
  label : Str
  ff : ℕ
  yScale : Option ℚ
  yOffset : Option ℚ
  yUnit : Str
  xScale : Option ℚ
  xOffset : Option ℚ
  xUnit : Str
  tt : Option ℚ
  time : ℤ
  pre : ℤ
  samples : ℤ
  post : ℤ
  deriving DecidableEq

/-- `len_expected`, common.py:445. -/
def lenExpected (data : List UInt8) : ℕ := lenHeader + 54 * u32 data 0x048 + u32 data 0x342 * (u32 data 0x048 + 1) + 8

/-- `checksum`, common.py:450-451. -/
def byteSum (bs : List UInt8) : ℕ := (bs.map UInt8.toNat).sum

/-- The length and the checksum, common.py:445-454. -/
def checkSum (data : List UInt8) : Except PyErr Unit :=
  let n := lenExpected data
  if data.length < n then .error .valueError
  else if byteSum (data.take (n - 8)) ≠ uN 8 data (n - 8) then .error .valueError
  else .ok ()

/-- The number format, common.py:430-434. -/
def checkFormat (data : List UInt8) : Except PyErr (Bool × ℕ × ℤ × ℤ) :=
  match formats (u32 data 0x0F0) with
  | none => .error .valueError
  | some f => if (f.2.1 : ℤ) ≠ s8 data 0x00F * 8 then .error .valueError else .ok f

/-- The first checks, common.py:343-361. -/
def checkStart (data : List UInt8) : Except PyErr Unit :=
  if data.length < lenHeader then .error .valueError
  else if data.take 2 ≠ [0x0F, 0x0F] then .error .valueError
  else if intBytes ((data.drop 0x007).take 3) ≠ some 3 then .error .valueError
  else .ok ()

/-- common.py:370-375. -/
def checkDims (data : List UInt8) : Except PyErr Unit :=
  if u32 data 0x072 ≠ 1 ∨ u32 data 0x076 ≠ 1 ∨ u32 data 0x07A ≠ 2 then .error .valueError else .ok ()

/-- common.py:384, 386-387. -/
def checkStorage (data : List UInt8) : Except PyErr Unit :=
  if u32 data 0x0F4 ≠ 0 then .error .valueError else .ok ()

/-- common.py:343-454. -/
def head (dec : List UInt8 → Option Str) (data : List UInt8) : Except PyErr Head := do
  checkStart data
  let label ← text dec data 0x028 20
  checkDims data
  let yUnit ← text dec data 0x0BC 20
  checkStorage data
  let xUnit ← text dec data 0x1FC 20
  let time ← timestamp (s32 data 0x324) (dbl data 0x31C)
  let f ← checkFormat data
  checkSum data
  let b : ℕ := f.2.1 / 8
  return {
    bytes := b
    signed := f.1
    minV := f.2.2.1
    maxV := f.2.2.2
    label := label
    ff := u32 data 0x048
    yScale := (dbl data 0x0A8).val
    yOffset := (dbl data 0x0B0).val
    yUnit := yUnit
    xScale := (dbl data 0x1E8).val
    xOffset := (dbl data 0x1F0).val
    xUnit := xUnit
    tt := (dbl data 0x314).val
    time := time
    pre := ((u32 data 0x336 : ℤ) - u32 data 0x332) / (b : ℤ)
    samples := ((u32 data 0x33A : ℤ) - u32 data 0x336) / (b : ℤ)
    post := ((u32 data 0x33E : ℤ) - u32 data 0x33A) / (b : ℤ) }

/-- `n_samples_all`, common.py:440. -/
def Head.all (h : Head) : ℤ := h.pre + h.samples + h.post

/-- The time axis for a trigger offset, common.py:441-442, 511-512; `np.arange` of integers. -/
def Head.times (h : Head) (tt : Option ℚ) : List (Option ℚ) :=
  (List.range (h.samples + h.post - -h.post).toNat).map fun k : ℕ =>
    oadd (omul (oadd (some ((-h.post + (k : ℤ) : ℤ) : ℚ)) tt) h.xScale) h.xOffset

/-- `np.frombuffer(data, dtype, offset, count)`, common.py:456-460: a negative count means everything that is there. -/
def Head.buffer (h : Head) (data : List UInt8) : Except PyErr (List ℤ) :=
  let offset := lenHeader + 54 * h.ff
  let count := h.all * (h.ff + 1)
  let rest := data.drop offset
  if data.length < offset then .error .valueError
  else if count < 0 then fromBuffer false h.signed h.bytes rest
  else if rest.length < count.toNat * h.bytes then .error .valueError
  else fromBuffer false h.signed h.bytes (rest.take (count.toNat * h.bytes))

/-- common.py:479-490: the noise; a ValueError when the number of samples is negative. -/
def Head.noisy (h : Head) (noise : Bool) (codes : List ℤ) (u : ℕ → ℚ) : Except PyErr (List ℚ) :=
  if noise then
    if h.all * (h.ff + 1) < 0 then .error .valueError
    else .ok (dither h.minV h.maxV (8 * h.bytes) codes u)
  else .ok (codes.map fun c : ℤ => (c : ℚ))

/-- `y * exp_dim_scale + exp_dim_offset`, common.py:491-492, unless raw. -/
def Head.conv (h : Head) (raw : Bool) (y : ℚ) : Option ℚ :=
  if raw then some y else oadd (omul (some y) h.yScale) h.yOffset

/-- An index of a slice, made non-negative. -/
def sliceIndex (n : ℕ) (i : ℤ) : ℕ := if i < 0 then (i + n).toNat else min i.toNat n

/-- `l[a:b]` -/
def slice {α : Type} (l : List α) (a b : ℤ) : List α := (l.take (sliceIndex l.length b)).drop (sliceIndex l.length a)

/-- One frame: time axis and samples. -/
structure Frame where
  t : List (Option ℚ)
  y : List (Option ℚ)
  deriving DecidableEq

/-- The columns without pre- and postcharge, common.py:516-517, 521-522. -/
def Head.trim (h : Head) (prepost : Bool) (f : Frame) : Frame :=
  if prepost then f else ⟨slice f.t h.pre (h.pre + h.samples), slice f.y h.pre (h.pre + h.samples)⟩

/-- Trigger offset and time of a fast frame, common.py:503-509. -/
def frameHead (data : List UInt8) (i : ℕ) : Except PyErr (Option ℚ × ℤ) := do
  let offset := 0x346 + i * 24
  let time ← timestamp (s32 data (offset + 20)) (dbl data (offset + 12))
  return ((dbl data (offset + 4)).val, time)

/-- `np.split(y, n)`, common.py:500: a ValueError unless the parts are equally long. -/
def splitEqual {α : Type} (y : List α) (n : ℕ) : Except PyErr (List (List α)) :=
  if y.length % n ≠ 0 then .error .valueError
  else .ok ((List.range n).map fun i : ℕ => (y.drop (i * (y.length / n))).take (y.length / n))

/-- The sampling information, common.py:465-477, 493-496, 524. -/
structure FileInfo where
  config : Str
  xUnit : Str
  yUnit : Str
  xIncr : Option ℚ
  yIncr : Option ℚ
  clipMin : Option ℚ
  clipMax : Option ℚ
  top : Bool
  bottom : Bool
  times : List ℤ
  deriving DecidableEq

/-- `config_string`, common.py:466-468. -/
def Head.config (h : Head) (prepost : Bool) : Str :=
  lit "Label: " ++ h.label ++ lit ", " ++ (toString (if prepost then h.all else h.samples)).toList ++ lit " points, " ++
    (toString (h.ff + 1)).toList ++ lit " frame" ++ (if 1 < h.ff + 1 then lit "s" else [])

/-- The information, common.py:465-477, 493-496, 524. -/
def Head.info (h : Head) (raw prepost : Bool) (codes : List ℤ) (times : List ℤ) : FileInfo :=
  { config := h.config prepost
    xUnit := h.xUnit
    yUnit := if raw then lit "ADC Counts" else h.yUnit
    xIncr := h.xScale
    yIncr := if raw then some 1 else h.yScale
    clipMin := h.conv raw h.minV
    clipMax := h.conv raw h.maxV
    top := codes.any fun c => h.maxV ≤ c
    bottom := codes.any fun c => c ≤ h.minV
    times := times }

/-- `np.array` of the frames: all rows must have the same length, common.py:515, 519. -/
def rectangular (fs : List Frame) : Except PyErr Unit :=
  match fs with
  | [] => .ok ()
  | f :: _ => if fs.all fun g => g.t.length = f.t.length ∧ g.y.length = f.t.length then .ok () else .error .valueError

/-- common.py:456-525: the frames and the information. -/
def body (h : Head) (data : List UInt8) (raw noise prepost : Bool) (u : ℕ → ℚ) : Except PyErr (List Frame × FileInfo) := do
  let codes ← h.buffer data
  let ys ← h.noisy noise codes u
  let ys := ys.map (h.conv raw)
  let parts ← splitEqual ys (h.ff + 1)
  let heads ← (List.range h.ff).mapM (frameHead data)
  let heads := (h.tt, h.time) :: heads
  let frames := List.zipWith (fun (x : Option ℚ × ℤ) y => (⟨h.times x.1, y⟩ : Frame)) heads parts
  rectangular frames
  return (frames.map (h.trim prepost), h.info raw prepost codes (heads.map Prod.snd))

/-- `parse_wfm_file`, common.py:305-525.  The result is a list of frames, in python a single frame is not wrapped in a list
(neither is its time). -/
def parseWfm (dec : List UInt8 → Option Str) (data : List UInt8) (raw noise prepost : Bool) (u : ℕ → ℚ) :
    Except PyErr (List Frame × FileInfo) := do
  let h ← head dec data
  body h data raw noise prepost u

end Verif.Wfm
