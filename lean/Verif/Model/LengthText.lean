import Verif.Model.NumText
import Verif.Model.Formatter
import Verif.Model.Py

/-! The text of lengths: `SVGLength.parse`, `_normalize` and `tostring`, `/repo/svgpy/core.py` 956-1314. -/

namespace SvgPy.LengthText

open SvgPy.NumText SvgPy.Formatter

/-- `SUPPORTED_UNITS`, core.py 980-986. -/
def supportedUnits : List Str :=
  ["%", "em", "ex", "cap", "ch", "ic", "rem", "vw", "vh", "vmin", "vmax", "cm", "mm", "q", "in", "pt", "pc", "px",
    "dpi", "dpcm", "dppx"].map String.toList

/-- `(?P<unit>%|[a-z]+)?` with `IGNORECASE`, core.py 995-996, at the start of what follows the number.  The two
letters outside ASCII which `re` takes for `k` and `s` are left out. -/
def unitAt (r : Str) : Option Str :=
  if r.head? = some '%' then some ['%']
  else if r.takeWhile Char.isAlpha = [] then none
  else some (r.takeWhile Char.isAlpha)

/-- `_normalize`, core.py 1217-1226.  `Decimal` is exact here, and every text the expression finds is a number for it. -/
def normalize (number : ℚ) (unit : Option Str) : Py (ℚ × Option Str) :=
  match unit with
  | none => .ok (number, none)
  | some u =>
    if u.map Char.toLower ∈ supportedUnits then .ok (number, some (u.map Char.toLower)) else .error .valueError

/-- `RE_LENGTH.match(text)`, core.py 992-997: the number and the unit. -/
def matchLength (s : Str) : Option (ℚ × Option Str) :=
  match numAt s with
  | none => none
  | some (v, r) => some (v, unitAt r)

/-- `parse` of a text or None, core.py 1270-1283. -/
def parse (text : Option Str) : Py (ℚ × Option Str) :=
  match text with
  | none => .ok (0, none)
  | some s => match matchLength (PyStr.strip s) with
    | none => .error .valueError
    | some (v, u) => normalize v u

/-- `tostring()` in the unit of the length, core.py 1310-1314 and 1335-1336; `p` is `formatter.precision`. -/
def tostring (p : Nat) (number : ℚ) (unit : Option Str) : Str := formatNum p number ++ unit.getD []

end SvgPy.LengthText
