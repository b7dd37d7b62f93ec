import Verif.Model.NumText
import Verif.Model.Formatter

/-! The `points` attribute: `SVGAnimatedPoints.points`, `/repo/svgpy/base.py` 93-125. -/

namespace SvgPy.Points

open SvgPy.NumText SvgPy.Formatter

/-- `points` (getter), base.py 108-120; floats are exact. -/
def getPoints (attr : Option Str) : List (ℚ × ℚ) :=
  match attr with
  | none => []
  | some s =>
    let ns := nums (PyStr.strip s)
    if ns.length % 2 ≠ 0 then [] else toPairs ns

/-- `points` (setter), base.py 122-125: the new value of the attribute; `p` is `formatter.precision`. -/
def setPoints (p : Nat) (pts : List (ℚ × ℚ)) : Option Str := some (formatPairs p pts)

end SvgPy.Points
