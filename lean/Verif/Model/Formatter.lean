import Mathlib.Data.Rat.Floor
import Verif.Model.PyStr

/-! Model of `/repo/svgpy/formatter.py`, with the part of Python's `format` it uses.

A float is a sign and a magnitude (an exact rational), so that `-0.0` is represented;
infinities and NaN are not. -/

namespace SvgPy.Formatter

/-- A decimal digit as a character. -/
def digit (n : Nat) : Char := Char.ofNat (48 + n % 10)

/-- Decimal digits of a natural number, with enough fuel. -/
def decimalN : Nat → Nat → Str
  | 0, _ => []
  | k + 1, n => if n < 10 then [digit n] else decimalN k (n / 10) ++ [digit n]

/-- `str(n)` of a natural number. -/
def decimal (n : Nat) : Str := decimalN (n + 1) n

/-- The last `p` decimal digits, zero padded. -/
def padded : Nat → Nat → Str
  | 0, _ => []
  | p + 1, n => padded p (n / 10) ++ [digit n]

/-- Round a non-negative number to the nearest integer, ties to even: what `format`
does with the exact value of the float. -/
def roundEven (q : ℚ) : Nat :=
  let f := ⌊q⌋.toNat
  let r := q - f
  if r < 1 / 2 then f else if 1 / 2 < r then f + 1 else if f % 2 = 0 then f else f + 1

/-- `'{:.{p}f}'.format(x)` for the float with this sign and magnitude; the sign is
kept even when the number rounds to zero. -/
def formatF (p : Nat) (neg : Bool) (mag : ℚ) : Str :=
  let m := roundEven (mag * 10 ^ p)
  (if neg then ['-'] else []) ++ decimal (m / 10 ^ p) ++ (if p = 0 then [] else '.' :: padded p (m % 10 ^ p))

/-- `s.rstrip(c)`. -/
def rstripChar (c : Char) (s : Str) : Str := (s.reverse.dropWhile (· == c)).reverse

/-- One number of `format_number_sequence`, formatter.py 23-29. -/
def formatSigned (p : Nat) (neg : Bool) (mag : ℚ) : Str :=
  let t := rstripChar '.' (rstripChar '0' (formatF p neg mag))
  if t ≠ ['-', '0'] then t else ['0']

/-- The same for a rational number. -/
def formatNum (p : Nat) (x : ℚ) : Str := formatSigned p (decide (x < 0)) |x|

/-- `format_number_sequence`, formatter.py 23-29. -/
def formatSeq (p : Nat) (s : List ℚ) : List Str := s.map (formatNum p)

/-- `format_coordinate_pair_sequence`, formatter.py 32-41. -/
def formatPairs (p : Nat) (s : List (ℚ × ℚ)) : Str :=
  PyStr.join [' '] (s.map fun xy => formatNum p xy.1 ++ [','] ++ formatNum p xy.2)

/-- `to_coordinate_pair_sequence`, formatter.py 44-47. -/
def toPairs {K : Type} : List K → List (K × K)
  | x :: y :: r => (x, y) :: toPairs r
  | _ => []

end SvgPy.Formatter
