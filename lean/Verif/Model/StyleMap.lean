import Verif.Model.Decl
import Verif.Model.PyStr

/-!
Maps of style values: `StylePropertyMapReadOnly` and `StylePropertyMap`, `/repo/svgpy/css/types.py`
1880-1992, on a declaration block (`Verif.Model.Decl`).

Simplifications: the block is not an inline style; `CSSStyleValue.parse_all` is the parameter `parse` of
the functions that read values; of a value only its text, its associated property and whether it is an
unparsed value or a reference to a variable are kept.
-/

namespace SvgPy.StyleMap

open SvgPy.PyStr SvgPy.Decl

/-- An argument of `set`: a string, a style value, or any other object. -/
inductive Value
  | str (text : Str)
  | style (associated : Option Str) (isVar : Bool) (text : Str)
  | other
  deriving DecidableEq

/-- The names in `list_valued_properties`, css/types.py 39-47. -/
def listValued : List Str :=
  ["animation", "animation-delay", "animation-direction", "animation-duration", "animation-fill-mode",
   "animation-iteration-count", "animation-name", "animation-play-state", "animation-timing-function",
   "background-attachment", "background-clip", "background-image", "background-origin", "background-repeat",
   "background-size", "font-family", "mask", "mask-clip", "mask-composite", "mask-image", "mask-mode",
   "mask-origin", "mask-position", "mask-repeat", "mask-size"].map String.toList

/-- The loop over the arguments, css/types.py 1959-1973: the exception it raises, or the number of
references to variables. -/
def check (n : Str) : Nat → List Value → Py Nat
  | k, [] => .ok k
  | k, .str _ :: l => check n k l
  | _, .other :: _ => .error .typeError
  | k, .style a v _ :: l =>
    if a ≠ none ∧ a ≠ some n then .error .valueError
    else check n (if v then k + 1 else k) l

/-- `value.tostring()`, or the string itself, css/types.py 1984-1989. -/
def Value.text : Value → Str
  | .str t => t
  | .style _ _ t => t
  | .other => []

/-- `StylePropertyMap.set`, css/types.py 1955-1992: the exception and the block afterwards. -/
def set (low : Str → Str) (SH : Shorthands) (clean : Str → Option Str) (b : Block) (n : Str) (vs : List Value) :
    Option PyErr × Block :=
  let n := canon low n
  match check n 0 vs with
  | .error e => (some e, b)
  | .ok k =>
    if vs.length > 1 ∧ k > 0 then (some .typeError, b)
    else
      let removed := if contains low b n then (removeProperty low SH b n).map Prod.snd else .ok b
      match removed with
      | .error e => (some e, b)
      | .ok b' =>
        let delimiter := if n ∈ listValued then [',', ' '] else [' ']
        match setProperty low SH clean b' n (join delimiter (vs.map Value.text)) none with
        | .error e => (some e, b')
        | .ok b'' => (none, b'')

/-- `StylePropertyMap.delete` (also `__delitem__`), css/types.py 1947-1953, 1937-1938. -/
def delete (low : Str → Str) (SH : Shorthands) (b : Block) (n : Str) : Option PyErr × Block :=
  let n := canon low n
  if contains low b n then
    match removeProperty low SH b n with
    | .error e => (some e, b)
    | .ok (_, b') => (none, b')
  else (none, b)

/-- `StylePropertyMap.append`, css/types.py 1943-1945. -/
def append (b : Block) (_n : Str) (_vs : List Value) : Option PyErr × Block := (none, b)

/-- `StylePropertyMapReadOnly.get_all` (also `__getitem__`), css/types.py 1891-1892, 1911-1921. -/
def getAll {α : Type} (low : Str → Str) (SH : Shorthands) (parse : Str → Str → Py (List α)) (b : Block) (n : Str) :
    Py (List α) :=
  let n := canon low n
  if contains low b n then parse n (getValue low SH b n) else .ok []

/-- `StylePropertyMapReadOnly.get`, css/types.py 1907-1909. -/
def get {α : Type} (low : Str → Str) (SH : Shorthands) (parse : Str → Str → Py (List α)) (b : Block) (n : Str) :
    Py (Option α) :=
  (getAll low SH parse b n).map List.head?

/-- `StylePropertyMapReadOnly.has`, css/types.py 1923-1928. -/
def has (low : Str → Str) (b : Block) (n : Str) : Bool := contains low b (canon low n)

/-- `name in map`, which is `Mapping.__contains__` of collections.abc on `__getitem__`, css/types.py
1880, 1891-1892. -/
def mem {α : Type} (low : Str → Str) (SH : Shorthands) (parse : Str → Str → Py (List α)) (b : Block) (n : Str) :
    Py Bool :=
  match getAll low SH parse b n with
  | .ok _ => .ok true
  | .error .keyError => .ok false
  | .error e => .error e

/-- `map.pop(name)`, which is `MutableMapping.pop` of collections.abc on `__getitem__` and `__delitem__`,
css/types.py 1937-1938. -/
def pop {α : Type} (low : Str → Str) (SH : Shorthands) (parse : Str → Str → Py (List α)) (b : Block) (n : Str) :
    Py (List α) × Block :=
  match getAll low SH parse b n with
  | .error e => (.error e, b)
  | .ok v =>
    match delete low SH b n with
    | (some e, b') => (.error e, b')
    | (none, b') => (.ok v, b')

/-- `keys` and `__iter__`, css/types.py 1894-1895, 1930-1931. -/
def keys (b : Block) : List Str := Decl.keys b

/-- `size` and `__len__`, css/types.py 1897-1905. -/
def size (b : Block) : Nat := Decl.length b

end SvgPy.StyleMap
