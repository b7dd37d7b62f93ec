import Verif.Model.Unparsed
import Verif.Model.Formatter

/-! Typed CSS values that can be changed, and the text remembered from parsing them,
`/repo/svgpy/css/types.py`: `CSSStyleValue` 462-482, 578-579, 805-808, `CSSKeywordValue` 815-832,
`CSSNumericValue.parse` 1112-1130, `CSSUnitValue` 1602-1622, 1680-1692, 1743-1751,
`CSSUnparsedValue` 1757-1815. -/

namespace SvgPy.CachedText

open SvgPy.Unparsed

/-- What a value object holds apart from the remembered text. -/
inductive Body
  | keyword (value : Str)
  | unit (value : ℚ) (unit : Str)
  | unparsed (items : List Member)

/-- A value object: its content and `_css_text`. -/
structure Value where
  body : Body
  cssText : Option Str

/-- Constructors leave `_css_text` empty, types.py 468-472; units are in lower case, 1620. -/
def construct (b : Body) : Value :=
  { body := match b with
      | .unit x u => .unit x (u.map Char.toLower)
      | b => b
    cssText := none }

/-- A value that was parsed from a text, types.py 578-579, 1126-1130.  What the parser makes of the
text is the argument `b`. -/
def parsed (b : Body) (text : Str) : Value := { construct b with cssText := some text }

/-- Changes: the `value` setters, types.py 828-832, 1690-1692, and the item operations of unparsed
values 1772-1803. -/
inductive Change
  | setKeyword (s : Option Str)
  | setNumber (x : ℚ)
  | setItem (i : Int) (m : Member)
  | delItem (i : Int)

/-- The content after a change; an error is raised for an operation that the object does not
have. -/
def change (v : Value) (c : Change) : Py Value :=
  match v.body, c with
  | .keyword _, .setKeyword (some s) => if s.length = 0 then .error .valueError else .ok { v with body := .keyword s }
  | .keyword _, .setKeyword none => .error .valueError
  | .unit _ u, .setNumber x => .ok { v with body := .unit x u }
  | .unparsed l, .setItem i m => match setItem l i (some m) with
    | .ok l' => .ok { v with body := .unparsed l' }
    | .error e => .error e
  | .unparsed l, .delItem i => match PyList.delAt l i with
    | .ok l' => .ok { v with body := .unparsed l' }
    | .error e => .error e
  | _, _ => .error .attributeError

/-- The text of a unit, types.py 1746-1751. -/
def suffix (u : Str) : Str :=
  if u = "number".toList then [] else if u = "percent".toList then ['%'] else u

/-- `tostring`, types.py 805-808, 1743-1751, 1805-1815, with `p` decimals. -/
def tostring (p : Nat) (v : Value) : Str :=
  match v.cssText with
  | some t => t
  | none => match v.body with
    | .keyword s => s
    | .unit x u => Formatter.formatNum p x ++ suffix u
    | .unparsed l => sers l

/-- Several changes; those that raise an error are skipped. -/
def run (v : Value) : List Change → Value
  | [] => v
  | c :: cs => match change v c with
    | .ok v' => run v' cs
    | .error _ => run v cs

end SvgPy.CachedText
