import Verif.Model.Py
import Verif.Model.PyStr
import Verif.Model.PyList
import Verif.Model.CssText

/-!
Model of `MediaList`, `/repo/svgpy/css/__init__.py` 798-902, as the list `_items`.
`low` is `str.lower`, taken to act on one character at a time.
-/

namespace SvgPy.MediaList

open PyStr

/-- `_parse_media_query_list`, css/__init__.py 845-848. -/
def parseList (s : Str) : List Str := (splitOn ',' s).map strip

/-- `_parse_media_query`, css/__init__.py 840-843. -/
def parseOne (s : Str) : Option Str :=
  match parseList s with
  | [m] => some m
  | _ => none

/-- `insert`, css/__init__.py 883-891. -/
def insert (items : List Str) (i : Int) (m : Str) : List Str :=
  PyList.insertAt items i (strip m)

/-- `append`/`append_medium`, css/__init__.py 850-869. -/
def append (items : List Str) (m : Str) : List Str :=
  match parseOne m with
  | none => items
  | some x => if x ∈ items then items else insert items items.length x

/-- `del self[self.index(m)]`: removes the first occurrence. -/
def delFirst (m : Str) : List Str → Py (List Str)
  | [] => .error .valueError
  | x :: xs =>
    if x = m then .ok xs
    else match delFirst m xs with
      | .error e => .error e
      | .ok ys => .ok (x :: ys)

/-- `delete_medium`, css/__init__.py 871-881. -/
def delete (items : List Str) (m : Str) : Py (List Str) :=
  match parseOne m with
  | none => .ok items
  | some x => delFirst x items

/-- The getter of `media_text`, css/__init__.py 824-829. -/
def getText (low : Char → Char) (items : List Str) : Str := (join [',', ' '] items).map low

/-- The setter of `media_text`, css/__init__.py 831-838. -/
def setText (s : Str) : List Str := if CssText.normalizeText s = [] then [] else parseList s

end SvgPy.MediaList
