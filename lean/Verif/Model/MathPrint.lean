import Verif.Model.SumValue
import Mathlib.Data.Real.Basic

/-! Texts of math values, `tostring`, `/repo/svgpy/css/types.py` 1245-1253, 1287-1299, 1344-1353,
1398-1407, 1435-1448, 1496-1517, 1576-1597. -/

namespace SvgPy.MathPrint

open SvgPy.UnitValue (U UV)
open SvgPy.SumValue (Expr)

/-- Function names. -/
inductive Fn
  | min | max | clamp
deriving DecidableEq

/-- Pieces of the text: the text of a unit value (C69); `(`; `calc(`; `min(`, `max(` or `clamp(`;
`, `; `)`; ` + `; ` - `; ` * `; ` / `; `-` without spaces.  The number 1 of `1 / ` is `num`. -/
inductive W
  | num (x : UV)
  | paren
  | calc
  | fn (f : Fn)
  | comma
  | close
  | plus
  | minus
  | times
  | over
  | neg

/-- `'(' if nested else 'calc('`, or nothing. -/
def left (nested less : Bool) : List W := if less then [] else if nested then [.paren] else [.calc]

/-- `)` or nothing. -/
def right (less : Bool) : List W := if less then [] else [.close]

mutual

/-- `tostring(nested=..., paren_less=...)` of values without a text from parsing (`_css_text` is
`None`, see C69). -/
noncomputable def text (nested less : Bool) : Expr → List W
  | .unit x => [.num x]
  | .sum l => left nested less ++ sumText less l ++ right less
  | .prod l => left nested less ++ prodText less l ++ right less
  | .negate e => left nested less ++ .neg :: text nested less e ++ right less
  | .invert e => left nested less ++ .num ⟨1, .number⟩ :: .over :: text nested less e ++ right less
  | .max l => .fn .max :: argText l ++ [.close]
  | .min l => .fn .min :: argText l ++ [.close]
  | .clamp a b c => .fn .clamp :: text nested less a ++ .comma :: text nested less b ++ .comma :: text nested less c ++ [.close]

/-- The values of a sum, types.py 1585-1594.  (There is at least one, 1528-1529.) -/
noncomputable def sumText (less : Bool) : List Expr → List W
  | [] => []
  | e :: l => text true less e ++ moreSum less l

/-- The values after the first, types.py 1588-1594. -/
noncomputable def moreSum (less : Bool) : List Expr → List W
  | [] => []
  | .negate e :: l => .minus :: text true less e ++ moreSum less l
  | e :: l => .plus :: text true less e ++ moreSum less l

/-- The values of a product, types.py 1505-1514. -/
noncomputable def prodText (less : Bool) : List Expr → List W
  | [] => []
  | e :: l => text true less e ++ moreProd less l

/-- The values after the first, types.py 1508-1514. -/
noncomputable def moreProd (less : Bool) : List Expr → List W
  | [] => []
  | .invert e :: l => .over :: text true less e ++ moreProd less l
  | e :: l => .times :: text true less e ++ moreProd less l

/-- The arguments of `max()` and `min()`, types.py 1347-1352. -/
noncomputable def argText : List Expr → List W
  | [] => []
  | [e] => text true true e
  | e :: l => text true true e ++ .comma :: argText l

end

/-- `tostring()`. -/
noncomputable def tostring (e : Expr) : List W := text false false e

end SvgPy.MathPrint
