import Verif.Model.PyStr
import Verif.Model.PyList

/-!
Model of `DOMTokenList`, `/repo/svgpy/dom.py` 176-350.  The state is the value of
the attribute the list reflects (`none` when the element does not have it).
The mixin methods of `collections.abc.MutableSequence` (`append`, `extend`,
`index`, `remove`) are modelled as documented.
-/

namespace SvgPy.TokenList

open PyStr

/-- The attribute. -/
abbrev Attr := Option Str

/-- `_tokens`, dom.py 222-227. -/
def tokens (a : Attr) : List Str := splitWs (a.getD [])

/-- `value`, dom.py 234-237. -/
def value (a : Attr) : Str := join [' '] (tokens a)

/-- `_set_tokens`, dom.py 239-245. -/
def setTokens (ts : List Str) : Attr :=
  if strip (join [' '] ts) = [] then none else some (strip (join [' '] ts))

/-- `is_ascii_whitespace`, utils.py 28 and 173-176. -/
def hasAsciiSpace (t : Str) : Bool :=
  t.any (fun c => c = '\t' || c = '\n' || c = '\x0c' || c = '\r' || c = ' ')

/-- `_validate_token`, dom.py 247-253. -/
def valid (t : Str) : Bool := !t.isEmpty && !hasAsciiSpace t

/-- `insert`, dom.py 281-289 with `__setitem__` for a slice and a list of one
token (204-219). -/
def insert (a : Attr) (i : Int) (t : Str) : Py Attr :=
  if valid t then
    if t ∈ tokens a then .ok a else .ok (setTokens (PyList.insertAt (tokens a) i t))
  else .error .valueError

/-- `extend` of `MutableSequence`: `append`, that is `insert` at the end, of each. -/
def extend (a : Attr) : List Str → Py Attr
  | [] => .ok a
  | t :: ts =>
    match insert a (tokens a).length t with
    | .error e => .error e
    | .ok a' => extend a' ts

/-- `add`, dom.py 260-267. -/
def add (a : Attr) (ts : List Str) : Py Attr :=
  if ts.all valid then extend a ts else .error .valueError

/-- `contains`, dom.py 269-279. -/
def contains (a : Attr) (t : Str) : Bool := t ∈ tokens a

/-- `del self[index]`, dom.py 191-194. -/
def delItem (a : Attr) (i : Int) : Py Attr :=
  match PyList.delAt (tokens a) i with
  | .error e => .error e
  | .ok ts => .ok (setTokens ts)

/-- The loop of `remove`, dom.py 308-311. -/
def removeLoop (a : Attr) : List Str → Py Attr
  | [] => .ok a
  | t :: ts =>
    match PyList.indexOf t (tokens a) with
    | none => removeLoop a ts
    | some k =>
      match delItem a k with
      | .error e => .error e
      | .ok a' => removeLoop a' ts

/-- `remove`, dom.py 301-311. -/
def remove (a : Attr) (ts : List Str) : Py Attr :=
  if ts.all valid then removeLoop a ts else .error .valueError

/-- `self[index] = token`, dom.py 205-220. -/
def setItem (a : Attr) (i : Int) (t : Str) : Py Attr :=
  if t ∈ tokens a then .ok a
  else match PyList.setAt (tokens a) i t with
    | .error e => .error e
    | .ok ts => .ok (setTokens ts)

/-- `replace`, dom.py 313-328. -/
def replace (a : Attr) (t new : Str) : Py (Bool × Attr) :=
  if [t, new].all valid then
    if t ∉ tokens a ∨ new ∈ tokens a then .ok (false, a)
    else match PyList.indexOf t (tokens a) with
      | none => .error .valueError
      | some k =>
        match setItem a k new with
        | .error e => .error e
        | .ok a' => .ok (true, a')
  else .error .valueError

/-- `toggle`, dom.py 330-350. -/
def toggle (a : Attr) (t : Str) (force : Option Bool) : Py (Bool × Attr) :=
  if t ∈ tokens a then
    if force = none ∨ force = some false then
      match remove a [t] with
      | .error e => .error e
      | .ok a' => .ok (false, a')
    else .ok (true, a)
  else if force = none ∨ force = some true then
    match add a [t] with
    | .error e => .error e
    | .ok a' => .ok (true, a')
  else .ok (false, a)

end SvgPy.TokenList
