import Verif.Model.Scpi
import Mathlib.Data.Int.Log
import Mathlib.Data.Nat.Digits.Defs

/-!
Numbers as text: what `f"{float(value):.6E}"` (used by every numeric setter of
`hardware_tools/equipment/tektronix/family_mso4000.py` and `family_mso456.py`), `f"{int(value)}"`, `float(text)` and
`int(text)` do.  Floats are exact rationals; negative zero, infinities and NaN are not modelled, nor are the underscores
and non-ASCII digits that python accepts in numbers.
-/

namespace Verif.Decimal

open Verif Verif.Scpi

/-- The character of a decimal digit. -/
def digitChar (d : ℕ) : Char := Char.ofNat (48 + d)

/-- Decimal digits, padded with zeros to a width. -/
def digitsText (width n : ℕ) : Str :=
  let l := (Nat.digits 10 n).reverse.map digitChar
  List.replicate (width - l.length) '0' ++ l

/-- Rounding to an integer, ties to even (how python rounds when it formats a float). -/
def roundEven (x : ℚ) : ℤ :=
  let f := ⌊x⌋
  let r := x - f
  if r < 1 / 2 then f else if 1 / 2 < r then f + 1 else if f % 2 = 0 then f else f + 1

/-- Mantissa (seven digits) and exponent of a positive number as printed by `.6E`. -/
def mantExp (a : ℚ) : ℕ × ℤ :=
  let e := Int.log 10 a
  let m := (roundEven (a * 10 ^ (6 - e))).toNat
  if m = 10 ^ 7 then (10 ^ 6, e + 1) else (m, e)

/-- `f"{float(value):.6E}"`, e.g. family_mso4000.py:33. -/
def fmtE6 (q : ℚ) : Str :=
  let (m, e) := if q = 0 then (0, 0) else mantExp |q|
  let d := digitsText 7 m
  (if q < 0 then ['-'] else []) ++ d.take 1 ++ '.' :: d.drop 1 ++ 'E' :: (if e < 0 then '-' else '+') ::
    digitsText 2 e.natAbs

/-- `f"{int(value)}"`, e.g. family_mso4000.py:243. -/
def fmtInt (n : ℤ) : Str := (if n < 0 then ['-'] else []) ++ digitsText 1 n.natAbs

/-- `str.strip()`, ASCII blanks. -/
def strip (s : Str) : Str :=
  let blank := fun c : Char => c = ' ' || c = '\t' || c = '\n' || c = '\r'
  ((s.dropWhile blank).reverse.dropWhile blank).reverse

/-- An optional sign. -/
def sign : Str → Bool × Str
  | '-' :: r => (true, r)
  | '+' :: r => (false, r)
  | r => (false, r)

/-- The integer and the fraction digits, and what follows. -/
def mantissa (s : Str) : Str × Str × Str :=
  match s.dropWhile isDig with
  | '.' :: r => (s.takeWhile isDig, r.takeWhile isDig, r.dropWhile isDig)
  | r => (s.takeWhile isDig, [], r)

/-- The exponent part. -/
def exponent : Str → Except PyErr ℤ
  | [] => .ok 0
  | c :: r =>
    if c = 'e' ∨ c = 'E' then
      let (neg, d) := sign r
      if d ≠ [] ∧ d.all isDig then .ok (if neg then -(digitsVal d : ℤ) else digitsVal d) else .error .valueError
    else .error .valueError

/-- `float(text)`. -/
def pyFloat (s : Str) : Except PyErr ℚ :=
  let (neg, s) := sign (strip s)
  let (i, f, r) := mantissa s
  if i = [] ∧ f = [] then .error .valueError
  else
    match exponent r with
    | .error e => .error e
    | .ok e =>
      let v : ℚ := digitsVal (i ++ f) * 10 ^ (e - f.length)
      .ok (if neg then -v else v)

/-- `int(text)`. -/
def pyInt (s : Str) : Except PyErr ℤ :=
  let (neg, d) := sign (strip s)
  if d ≠ [] ∧ d.all isDig then .ok (if neg then -(digitsVal d : ℤ) else digitsVal d) else .error .valueError

end Verif.Decimal
