import Verif.Model.Syntax

/-!
Parsing of style values: `CSSStyleValue._parse_css_style_value`, `_reify_css_style_value`, `parse`,
`parse_all` and `tostring`, `/repo/svgpy/css/types.py` 486-581, 630-808.

Simplifications: the value comes as the tokens of tinycss2 with their texts; `str.lower`, the test for a
real number and whether `CSSNumericValue.parse` takes a text (C87) are parameters, and so are the two lists of
names in lines 645-716 and 726-743.  Values with `var()` and custom properties that are not registered
become unparsed values (C43) and are left out.  A token is a CSS-wide keyword if it is an identifier with such a
value (the code compares its text, which differs for identifiers with escapes only).
-/

namespace SvgPy.StyleParse

open SvgPy.PyStr SvgPy.Syntax

/-- A token with its text `tinycss2.serialize([token]).replace('/**/', '')`. -/
structure Part where
  tok : Tok
  text : Str
  deriving DecidableEq

/-- A component: text and type, css/types.py 561. -/
abbrev Component := Str × Option Ty

/-- The classes of values. -/
inductive Kind
  | keyword | style | image | url | numeric
  deriving DecidableEq

/-- A value: its class, its text, its property and the text it was parsed from, css/types.py 469-472. -/
structure Val where
  kind : Kind
  text : Str
  associated : Option Str
  cssText : Option Str
  deriving DecidableEq

/-- What is not modelled here. -/
structure Env where
  low : Str → Str
  isReal : Str → Bool
  isNumeric : Str → Bool
  keywordProps : Str → Bool
  rawProps : Str → Bool

/-- `single_multi_valued_properties`, css/types.py 51-56. -/
def multiValued : List Str :=
  ["d", "font", "font-family", "font-feature-settings", "font-variation-settings", "mask", "mask-clip",
   "mask-composite", "mask-image", "mask-mode", "mask-origin", "mask-position", "mask-repeat", "mask-size",
   "shape-inside", "stroke-dasharray"].map String.toList

/-- `token.type == 'literal' and token.value == ','`. -/
def isComma (t : Part) : Bool := t.tok = .literal [',']

/-- The text of a component, css/types.py 556-560. -/
def withUnit (E : Env) (text : Str) (ty : Option Ty) : Str :=
  if (ty = some .length ∨ ty = some .lengthPercentage) ∧ E.isReal text then text ++ "px".toList else text

/-- The loop of css/types.py 543-564: the groups between commas and the number of CSS-wide keywords. -/
def groups (E : Env) (sup : Tok → Py (Bool × Option Ty)) :
    List (List Component) → List Component → Nat → List Part → Py (List (List Component) × Nat)
  | vs, cs, k, [] => .ok (if cs.length > 0 then vs ++ [cs] else vs, k)
  | vs, cs, k, t :: l =>
    if isComma t then groups E sup (vs ++ [cs]) [] k l
    else
      let k := if isWide t.tok then k + 1 else k
      match sup t.tok with
      | .error e => .error e
      | .ok (false, _) => .error .valueError
      | .ok (true, ty) => groups E sup vs (cs ++ [(withUnit E t.text ty, ty)]) k l

/-- The loop of css/types.py 523-534: the types and the number of CSS-wide keywords. -/
def types (sup : Tok → Py (Bool × Option Ty)) : List (Option Ty) → Nat → List Part → Py (List (Option Ty) × Nat)
  | tys, k, [] => .ok (tys, k)
  | tys, k, t :: l =>
    if isComma t then types sup tys k l
    else
      let k := if isWide t.tok then k + 1 else k
      match sup t.tok with
      | .error e => .error e
      | .ok (false, _) => .error .valueError
      | .ok (true, ty) => types sup (tys ++ [ty]) k l

/-- css/types.py 536-539. -/
def oneType : List (Option Ty) → Option Ty
  | [ty] => ty
  | _ => none

/-- `CSSKeywordValue(text)`, css/types.py 819-832. -/
def keyword (text : Str) : Py (Kind × Str) := if text = [] then .error .valueError else .ok (.keyword, text)

/-- `len(set(...)) == 1` and the element, css/types.py 741-747. -/
def single : List (Option Ty) → Option (Option Ty)
  | [] => none
  | t :: l => if l.all (· = t) then some t else none

/-- `_reify_css_style_value`, css/types.py 630-771. -/
def reify (E : Env) (name : Str) (cs : List Component) : Py (Kind × Str) :=
  let text := join [' '] (cs.map Prod.fst)
  let text := if E.low text ∈ colorKeywords ++ wideKeywords then E.low text else text
  if text ∈ wideKeywords then keyword text
  else if E.keywordProps name then keyword text
  else if E.rawProps name then .ok (.style, text)
  else match single (cs.map Prod.snd) with
    | none => if name = "text-indent".toList ∨ name = "vertical-align".toList then keyword text else .ok (.style, text)
    | some none =>
      if name = "height".toList ∨ name = "width".toList then keyword text else .ok (.style, text)
    | some (some .color) => .ok (.style, text)
    | some (some .customIdent) => keyword text
    | some (some .image) => .ok (.image, text)
    | some (some .url) => .ok (.url, text)
    | some (some .transformFunction) | some (some .transformList) | some (some .any) | some (some .string) =>
      .error .valueError
    | some (some _) => if E.isNumeric text then .ok (.numeric, text) else .error .valueError

/-- `for components in values: ...`, css/types.py 566-569. -/
def reifyAll (E : Env) (name : Str) : List (List Component) → Py (List (Kind × Str))
  | [] => .ok []
  | cs :: l =>
    match reify E name cs with
    | .error e => .error e
    | .ok v =>
      match reifyAll E name l with
      | .error e => .error e
      | .ok vs => .ok (v :: vs)

/-- `_parse_css_style_value` for a name in lower case, css/types.py 486-581; `sup` is `desc.support` of the
descriptor of the name. -/
def parseAll (E : Env) (sup : Tok → Py (Bool × Option Ty)) (name cssText : Str) (ts : List Part) : Py (List Val) :=
  let ts := ts.filter fun t => t.tok ≠ .whitespace
  let values : Py (List (List Component) × Nat) :=
    if name ∈ multiValued then
      match types sup [] 0 ts with
      | .error e => .error e
      | .ok (tys, k) => .ok ([[(cssText, oneType tys)]], k)
    else groups E sup [] [] 0 ts
  match values with
  | .error e => .error e
  | .ok (vs, k) =>
    match reifyAll E name vs with
    | .error e => .error e
    | .ok rs =>
      if k > 0 ∧ ts.length > 1 then .error .valueError
      else .ok (rs.map fun r => ⟨r.1, r.2, some name, if rs.length = 1 then some cssText else none⟩)

/-- `CSSStyleValue.parse`, css/types.py 773-787. -/
def parse (E : Env) (sup : Tok → Py (Bool × Option Ty)) (name cssText : Str) (ts : List Part) : Py (Option Val) :=
  (parseAll E sup name cssText ts).map List.head?

/-- `tostring`, css/types.py 805-808. -/
def toString (v : Val) : Str := match v.cssText with
  | some t => t
  | none => v.text

end SvgPy.StyleParse
