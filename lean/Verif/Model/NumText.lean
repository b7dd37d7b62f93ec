import Mathlib.Data.Rat.Defs
import Mathlib.Algebra.Order.Field.Rat
import Verif.Model.PyStr

/-! Numbers in attribute texts: the regular expression shared by transform.py 28-31 and
path.py 1178-1181, used with `finditer`, and `float()` of what it matches.

`\d` also matches the decimal digits of other scripts; the model has ASCII digits only.
`float()` is exact: rounding, overflow to infinity and underflow are not modelled. -/

namespace SvgPy.NumText

/-- `\d`, ASCII. -/
def isDigit (c : Char) : Bool := decide (48 ≤ c.toNat) && decide (c.toNat ≤ 57)

/-- Value of a run of digits. -/
def natOf (ds : Str) : Nat := ds.foldl (fun a c => 10 * a + (c.toNat - 48)) 0

/-- An optional sign: `true` for a minus. -/
def signAt : Str → Bool × Str
  | [] => (false, [])
  | c :: r => if c = '-' then (true, r) else if c = '+' then (false, r) else (false, c :: r)

/-- `([Ee][+-]?\d+)?`: the exponent and the rest. -/
def expAt : Str → Int × Str
  | [] => (0, [])
  | c :: r =>
    if c = 'e' ∨ c = 'E' then
      let s := signAt r
      let ds := s.2.takeWhile isDigit
      if ds = [] then (0, c :: r)
      else (if s.1 then -(natOf ds : Int) else natOf ds, s.2.dropWhile isDigit)
    else (0, c :: r)

/-- `(\.\d*)?`: the digits behind the point and the rest. -/
def fracAt : Str → Str × Str
  | [] => ([], [])
  | c :: r => if c = '.' then (r.takeWhile isDigit, r.dropWhile isDigit) else ([], c :: r)

/-- `float()` of an integer part, decimals and exponent. -/
def valueOf (i f : Str) (e : Int) : ℚ := (natOf i + natOf f / 10 ^ f.length) * 10 ^ e

/-- The number without sign at the start of a text: the two alternatives of the
regular expression. -/
def unsignedAt (s : Str) : Option (ℚ × Str) :=
  let i := s.takeWhile isDigit
  let f := fracAt (s.dropWhile isDigit)
  let e := expAt f.2
  if i = [] ∧ f.1 = [] then none
  else some (valueOf i f.1 e.1, e.2)

/-- The number at the start of a text, if there is one, and the rest.  The separator
the expression also takes is not removed: no number starts in it, so `finditer` skips it. -/
def numAt (s : Str) : Option (ℚ × Str) :=
  let sg := signAt s
  match unsignedAt sg.2 with
  | none => none
  | some (v, r) => some (if sg.1 then -v else v, r)

/-- `finditer`: all numbers of a text, from the left; what is between them is skipped.
The first argument bounds the number of steps. -/
def numsN : Nat → Str → List ℚ
  | 0, _ => []
  | _ + 1, [] => []
  | k + 1, c :: s => match numAt (c :: s) with
    | some (v, r) => v :: numsN k r
    | none => numsN k s

/-- All numbers of a text. -/
def nums (s : Str) : List ℚ := numsN (s.length + 1) s

end SvgPy.NumText
