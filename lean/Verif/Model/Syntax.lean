import Verif.Model.Py
import Verif.Model.PyStr
import Verif.Model.PyDict

/-!
Property descriptors: `PropertyDescriptor`, `/repo/svgpy/css/props.py` 20-369.  A descriptor is built
from the text of a syntax and tells which tokens and values the property supports.

Simplifications: tokens are what tinycss2 makes of a value, with the attributes that are used here;
`str.lower` and the test of tinycss2 for named colours are parameters; letters beyond ASCII that
`re.IGNORECASE` counts as ASCII letters, and a line feed before the end of a syntax, are left out.
-/

namespace SvgPy.Syntax

open SvgPy.PyStr

/-- The tokens of tinycss2 by their types.  Units and names of functions are in lower case
(`lower_unit`, `lower_name`); `low` is `value.lower()`. -/
inductive Tok
  | dimension (unit : Str)
  | func (name : Str)
  | hash (value : Str)
  | ident (value low : Str)
  | string (value low : Str)
  | literal (value : Str)
  | number (isInteger : Bool)
  | percentage
  | url
  | whitespace
  | error
  | another
  deriving DecidableEq

/-- `_RE_SYNTAX_COMBINATOR.split`, css/props.py 27, 69: `cur` is the part before. -/
def split : Str → Str → List Str
  | cur, [] => [cur]
  | cur, '|' :: '|' :: l => cur :: split [] l
  | cur, '&' :: '&' :: l => cur :: split [] l
  | cur, c :: l => if c = ' ' ∨ c = '|' ∨ c = '[' ∨ c = ']' then cur :: split [] l else split (cur ++ [c]) l

/-- `[*+?#!]`, css/props.py 29-30. -/
def isSign (c : Char) : Bool := c = '*' || c = '+' || c = '?' || c = '#' || c = '!'

/-- `[0-9]`, css/props.py 30. -/
def isDigit (c : Char) : Bool := '0' ≤ c && c ≤ '9'

/-- `\{[0-9]+(,([0-9]+)?)?\}`, css/props.py 30. -/
def isRange : Str → Bool
  | '{' :: r => !(r.takeWhile isDigit).isEmpty &&
    (match r.dropWhile isDigit with
     | '}' :: l => l.isEmpty
     | ',' :: l => l.dropWhile isDigit == ['}']
     | _ => false)
  | _ => false

/-- The second group of `_RE_SYNTAX_MULTIPLIERS`, css/props.py 30. -/
def isTail : Str → Bool
  | [] => true
  | [c] => isSign c
  | s => isRange s

/-- `_RE_SYNTAX_MULTIPLIERS.fullmatch(x) is not None`, css/props.py 29-30. -/
def isMultiplier : Str → Bool
  | [] => true
  | c :: l => isTail (c :: l) || (isSign c && isTail l)

/-- `_RE_SYNTAX_MULTIPLIERS.sub('', x)`, css/props.py 127: the first place from where on the rest is a
multiplier. -/
def stripMultiplier : Str → Str
  | [] => []
  | c :: l => if isMultiplier (c :: l) then [] else c :: stripMultiplier l

/-- The components of a syntax, css/props.py 69-72; a list instead of a set. -/
def components (syn : Str) : List Str :=
  ((split [] syn).filter fun x => !(["", "*", "+", "?", "#", "!"].map String.toList).contains x).filter
    fun x => !isMultiplier x

/-- The keys of `_syntax_components`, css/props.py 41-58. -/
inductive Ty
  | length | number | percentage | lengthPercentage | color | image | url | integer | angle | time
  | resolution | transformFunction | customIdent | transformList | any | string
  deriving DecidableEq

/-- `PropertySyntax`, css/props.py 41-58. -/
def Ty.text : Ty → Str
  | .length => "<length>".toList
  | .number => "<number>".toList
  | .percentage => "<percentage>".toList
  | .lengthPercentage => "<length-percentage>".toList
  | .color => "<color>".toList
  | .image => "<image>".toList
  | .url => "<url>".toList
  | .integer => "<integer>".toList
  | .angle => "<angle>".toList
  | .time => "<time>".toList
  | .resolution => "<resolution>".toList
  | .transformFunction => "<transform-function>".toList
  | .customIdent => "<custom-ident>".toList
  | .transformList => "<transform-list>".toList
  | .any => "*".toList
  | .string => "<string>".toList

/-- The types that are looked for, css/props.py 78-125. -/
def types : List Ty :=
  [.length, .number, .percentage, .lengthPercentage, .color, .image, .url, .integer, .angle, .time,
   .resolution, .transformFunction, .customIdent, .transformList, .string]

/-- `_syntax_components`, css/props.py 73-126. -/
def typeMap (syn : Str) : Dict Ty Bool :=
  if syn = "*".toList then [(.any, true)]
  else (.any, false) :: types.map fun t => (t, (components syn).any fun x => t.text.isPrefixOf x)

/-- `[a-z0-9_\-]` without case, css/props.py 20-21. -/
def isNameChar (c : Char) : Bool :=
  ('a' ≤ c && c ≤ 'z') || ('A' ≤ c && c ≤ 'Z') || isDigit c || c = '_' || c = '-'

/-- `_RE_FUNCTION.fullmatch(item)`, the group `name`, css/props.py 20-21. -/
def functionName : Str → Option Str
  | '<' :: r =>
    let name := r.takeWhile isNameChar
    match name, r.dropWhile isNameChar with
    | c :: _, '(' :: a =>
      if isDigit c then none
      else if a.dropWhile (· ≠ ')') = [')', '>'] then some name else none
    | _, _ => none
  | _ => none

/-- `css_wide_keyword_set`, css/props.py 36-38. -/
def wideKeywords : List Str := ["default", "inherit", "initial", "revert", "unset"].map String.toList

/-- `css_color_keyword_set`, css/props.py 32-34. -/
def colorKeywords : List Str := ["currentcolor", "transparent"].map String.toList

/-- A descriptor, css/props.py 63-141. -/
structure Descriptor where
  syn : Str
  map : Dict Ty Bool
  functions : List Str
  identifiers : List Str

/-- `PropertyDescriptor.__init__`, css/props.py 63-141. -/
def build (low : Str → Str) (syn : Str) : Descriptor :=
  let cs := (components syn).map stripMultiplier
  ⟨syn, typeMap syn,
   "var".toList :: cs.filterMap fun x => (functionName x).map low,
   cs.filter fun x => x.head? ≠ some '<' ∧ x.getLast? ≠ some '>' ∧ low x ∉ colorKeywords ++ wideKeywords⟩

/-- `self._syntax_components[k]`. -/
def look (m : Dict Ty Bool) (k : Ty) : Py Bool :=
  match Dict.get? m k with
  | some b => .ok b
  | none => .error .keyError

/-- `self._syntax_components[ANY] or self._syntax_components[k]`. -/
def anyOr (m : Dict Ty Bool) (k : Ty) : Py Bool :=
  match look m .any with
  | .ok true => .ok true
  | .ok false => look m k
  | .error e => .error e

/-- `if c: return r` with the rest of the branches. -/
def branch (c : Py Bool) (r : Bool × Option Ty) (rest : Py (Bool × Option Ty)) : Py (Bool × Option Ty) :=
  match c with
  | .ok true => .ok r
  | .ok false => rest
  | .error e => .error e

/-- css/props.py 165. -/
def angleUnits : List Str := ["deg", "grad", "rad", "turn"].map String.toList

/-- css/props.py 171. -/
def timeUnits : List Str := ["s", "ms"].map String.toList

/-- css/props.py 177. -/
def resolutionUnits : List Str := ["dpi", "dpcm", "dppx"].map String.toList

/-- css/props.py 183-190. -/
def lengthUnits : List Str := ["em", "ex", "cap", "ch", "ic", "rem", "lh", "rlh", "vw", "vh", "vi", "vb", "vmin",
  "vmax", "cm", "mm", "q", "in", "pt", "pc", "px", "deg", "grad", "rad", "turn", "s", "ms", "hz", "khz", "dpi",
  "dpcm", "dppx", "fr"].map String.toList

/-- css/props.py 206-207. -/
def colorFunctions : List Str := ["rgb", "rgba", "hsl", "hsla", "hwb", "gray", "device-cmyk"].map String.toList

/-- css/props.py 213-218. -/
def imageFunctions : List Str := ["cross-fade", "image", "image-set", "conic-gradient", "linear-gradient",
  "radial-gradient", "repeating-conic-gradient", "repeating-linear-gradient",
  "repeating-radial-gradient"].map String.toList

/-- css/props.py 224. -/
def mathFunctions : List Str := ["calc", "min", "max", "clamp"].map String.toList

/-- css/props.py 231-235. -/
def transformFunctions : List Str := ["matrix", "translate", "translatex", "translatey", "scale", "scalex",
  "scaley", "rotate", "skew", "skewx", "skewy"].map String.toList

/-- A digit of `_RE_HEX_COLOR`, css/props.py 23-25. -/
def isHexDigit (c : Char) : Bool := isDigit c || ('a' ≤ c && c ≤ 'f') || ('A' ≤ c && c ≤ 'F')

/-- `_RE_HEX_COLOR.fullmatch(value) is not None`, css/props.py 23-25. -/
def isHexColor (s : Str) : Bool := s.all isHexDigit && [8, 6, 4, 3].contains s.length

/-- `return False, None`, css/props.py 200, 247, 258. -/
def no : Py (Bool × Option Ty) := .ok (false, none)

/-- `PropertyDescriptor.support`, css/props.py 159-346; `named` tells whether
`tinycss2.color3.parse_color(value)` is a colour. -/
def support (named : Str → Bool) (d : Descriptor) : Tok → Py (Bool × Option Ty)
  | .dimension u =>
    if u ∈ angleUnits then branch (anyOr d.map .angle) (true, some .angle) no
    else if u ∈ timeUnits then branch (anyOr d.map .time) (true, some .time) no
    else if u ∈ resolutionUnits then branch (anyOr d.map .resolution) (true, some .resolution) no
    else if u ∈ lengthUnits then
      branch (anyOr d.map .length) (true, some .length)
        (branch (look d.map .lengthPercentage) (true, some .lengthPercentage) no)
    else no
  | .func n =>
    if n ∈ colorFunctions then branch (anyOr d.map .color) (true, some .color) no
    else if n ∈ imageFunctions then branch (anyOr d.map .image) (true, some .image) no
    else if n ∈ mathFunctions then branch (anyOr d.map .lengthPercentage) (true, some .lengthPercentage) no
    else if n ∈ transformFunctions then
      branch (anyOr d.map .transformFunction) (true, some .transformFunction)
        (branch (look d.map .transformList) (true, some .transformList) no)
    else if n ∈ d.functions then .ok (true, none)
    else no
  | .hash v => branch (anyOr d.map .color) (if isHexColor v then (true, some .color) else (false, none)) no
  | .ident v low | .string v low =>
    let rest := branch (anyOr d.map .customIdent) (true, some .customIdent)
      (branch (look d.map .string) (true, some .customIdent) no)
    if low ∈ wideKeywords then .ok (true, none)
    else if v ∈ d.identifiers then .ok (true, some .customIdent)
    else match anyOr d.map .color with
      | .ok true =>
        if low = "currentcolor".toList then .ok (true, some .customIdent)
        else if named v then .ok (true, some .color)
        else rest
      | .ok false => rest
      | .error e => .error e
  | .literal v =>
    if v ∈ d.identifiers then .ok (true, some .customIdent)
    else branch (anyOr d.map .customIdent) (true, some .customIdent) no
  | .number i =>
    let rest := branch (anyOr d.map .number) (true, some .number)
      (branch (look d.map .length) (true, some .length)
        (branch (look d.map .lengthPercentage) (true, some .lengthPercentage)
          (branch (look d.map .customIdent) (true, some .customIdent)
            (branch (look d.map .string) (true, some .customIdent) no))))
    if i then branch (anyOr d.map .integer) (true, some .integer) rest else rest
  | .percentage =>
    branch (anyOr d.map .percentage) (true, some .percentage)
      (branch (look d.map .lengthPercentage) (true, some .lengthPercentage) no)
  | .url =>
    branch (anyOr d.map .url) (true, some .url) (branch (look d.map .image) (true, some .image) no)
  | .error => .error .valueError
  | .whitespace | .another => .error .notImplemented

/-- `text.lower() in css_wide_keyword_set`, css/props.py 359-360: only identifiers are written like
this. -/
def isWide : Tok → Bool
  | .ident _ low => wideKeywords.contains low
  | _ => false

/-- The loop of `supports`, css/props.py 353-365: `none` for `return False`, else the number of CSS-wide
keywords. -/
def scan (named : Str → Bool) (d : Descriptor) : Nat → List Tok → Py (Option Nat)
  | k, [] => .ok (some k)
  | k, t :: l =>
    if t = .literal [','] then
      if '#' ∈ d.syn ∨ [','] ∈ d.identifiers then scan named d k l else .ok none
    else if isWide t then scan named d (k + 1) l
    else match support named d t with
      | .ok (true, _) => scan named d k l
      | .ok (false, _) => .ok none
      | .error e => .error e

/-- `PropertyDescriptor.supports`, css/props.py 348-369, for the tokens of the value. -/
def supports (named : Str → Bool) (d : Descriptor) (ts : List Tok) : Py Bool :=
  let ts := ts.filter (· ≠ .whitespace)
  match scan named d 0 ts with
  | .ok none => .ok false
  | .ok (some k) => .ok (!(k > 0 && ts.length > 1))
  | .error e => .error e

end SvgPy.Syntax
