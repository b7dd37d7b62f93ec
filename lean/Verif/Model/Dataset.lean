import Verif.Model.Py
import Verif.Model.PyStr
import Verif.Model.PyDict

/-!
Model of `DOMStringMap`, `/repo/svgpy/dom.py` 91-173, with the prefix `data-` it is
always given (base.py 35).  The attributes of the element are a dictionary from
names to values; the `Attr` objects of `NamedNodeMap` are modelled elsewhere.
Case mapping is a parameter acting on one character at a time.
-/

namespace SvgPy.Dataset

open PyStr

/-- Character-wise `str.isupper`, `str.lower`, `str.upper`. -/
structure Case where
  isUpper : Char → Bool
  lower : Char → Char
  upper : Char → Char

/-- The prefix of the attribute names, base.py 35. -/
def dataPrefix : Str := "data-".toList

/-- `re.search('-[a-z]', key)`, dom.py 33. -/
def badSyntax : Str → Bool
  | [] => false
  | c :: s => (c = '-' && (match s with
      | [] => false
      | d :: _ => 'a'.toNat ≤ d.toNat && d.toNat ≤ 'z'.toNat)) || badSyntax s

/-- The loop of `_convert_name`, dom.py 156-159. -/
def hyphenate (C : Case) : Str → Str
  | [] => []
  | c :: s => if C.isUpper c then '-' :: c :: hyphenate C s else c :: hyphenate C s

/-- `_convert_name`, dom.py 152-160. -/
def convertName (C : Case) (key : Str) : Py Str :=
  if badSyntax key then .error .valueError
  else .ok ((dataPrefix ++ hyphenate C key).map C.lower)

/-- `str.capitalize`. -/
def capitalize (C : Case) : Str → Str
  | [] => []
  | c :: s => C.upper c :: s.map C.lower

/-- The `while` loop of `_convert_key`, dom.py 138-149, over the pieces between
hyphens: `first` holds for the piece at `start = 0`, and an empty last piece is never
visited because then `start = length`. -/
def convertPieces (C : Case) (first : Bool) : List Str → Str
  | [] => []
  | [p] => if p = [] then [] else if first then p else capitalize C p
  | p :: q :: ps => (if p = [] then ['-'] else if first then p else capitalize C p) ++
      convertPieces C false (q :: ps)

/-- `_convert_key`, dom.py 133-150. -/
def convertKey (C : Case) (name : Str) : Str :=
  convertPieces C true (splitOn '-' (name.drop dataPrefix.length))

/-- The attributes of the owner element. -/
abbrev Attrs := Dict Str Str

/-- `__getitem__`, dom.py 109-112. -/
def get (C : Case) (d : Attrs) (key : Str) : Py Str :=
  match convertName C key with
  | .error e => .error e
  | .ok n => match Dict.get? d n with
    | none => .error .keyError
    | some v => .ok v

/-- `__delitem__`, dom.py 105-107. -/
def del (C : Case) (d : Attrs) (key : Str) : Py Attrs :=
  match convertName C key with
  | .error e => .error e
  | .ok n => if Dict.contains d n then .ok (Dict.del d n) else .error .keyError

/-- `__setitem__`, dom.py 122-131; `xmlName` is `_validate_name` (162-167). -/
def set (C : Case) (xmlName : Str → Bool) (d : Attrs) (key value : Str) : Py Attrs :=
  if value = [] then del C d key
  else match convertName C key with
    | .error e => .error e
    | .ok n => if xmlName n then .ok (Dict.set d n value)
      else .error (.dom "InvalidCharacterError")

/-- `keys`, dom.py 169-173; `name.islower()` holds for a name that starts with
`data-` when it has no upper-case character. -/
def keys (C : Case) (d : Attrs) : List Str :=
  ((Dict.keys d).filter (fun n => dataPrefix.isPrefixOf n && n.all (fun c => !C.isUpper c))).map (convertKey C)

end SvgPy.Dataset
