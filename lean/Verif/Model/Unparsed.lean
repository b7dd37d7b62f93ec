import Verif.Model.PyStr
import Verif.Model.PyList

/-! Unparsed CSS values, `/repo/svgpy/css/types.py`: `_reify_component_values` 582-627,
`CSSUnparsedValue` 1757-1815, `CSSVariableReferenceValue` 1841-1877. -/

namespace SvgPy.Unparsed

/-- Component values as tinycss2 delivers them: functions with their arguments, commas, and
anything else (words, numbers, white space, blocks in brackets) with the text it serialises to. -/
inductive Tok
  | text (s : Str)
  | comma
  | func (name : Str) (args : List Tok)

mutual
/-- `tinycss2.serialize([token])`. -/
def Tok.flat : Tok → Str
  | .text s => s
  | .comma => [',']
  | .func n args => n ++ '(' :: (flats args ++ [')'])

def flats : List Tok → Str
  | [] => []
  | t :: l => t.flat ++ flats l
end

/-- Members of a `CSSUnparsedValue`: texts and `CSSVariableReferenceValue`s with their variable
and fallback. -/
inductive Member
  | str (s : Str)
  | var (name : Str) (fallback : Option (List Member))

/-- `token.lower_name == 'var'`. -/
def isVar (n : Str) : Bool := n.map Char.toLower == "var".toList

/-- The text of the arguments before the first comma, types.py 594-599. -/
def varName : List Tok → Str
  | [] => []
  | .comma :: _ => []
  | t :: l => t.flat ++ varName l

/-- `if len(single_string) > 0: members.append(single_string)`, types.py 590-592, 625-626. -/
def flush (members : List Member) (s : Str) : List Member := if s.length > 0 then members ++ [.str s] else members

/-- `unparsed_value.pop(0)` if this is a text, types.py 612-614. -/
def popFirst : List Member → Str × List Member
  | .str s :: l => (s, l)
  | l => ([], l)

/-- `unparsed_value.pop(-1)` if this is a text, types.py 617-619. -/
def popLast (l : List Member) : Str × List Member :=
  match l.getLast? with
  | some (.str s) => (s, l.dropLast)
  | _ => ([], l)

mutual
/-- The loop of `_reify_component_values`, types.py 583-628. -/
def loop (members : List Member) (s : Str) : List Tok → List Member
  | [] => flush members s
  | .text x :: l => loop members (s ++ x) l
  | .comma :: l => loop members (s ++ [',']) l
  | .func n args :: l =>
    if isVar n then loop (flush members s ++ [.var (PyStr.strip (varName args)) (varRest args)]) [] l
    else
      let u := popFirst (loop [] [] args)
      let v := popLast u.2
      loop (members ++ [.str (s ++ (n ++ '(' :: u.1))] ++ v.2) (v.1 ++ [')']) l

/-- The fallback: what follows the first comma, if anything does, types.py 594-605. -/
def varRest : List Tok → Option (List Member)
  | [] => none
  | .comma :: l => if l.isEmpty then none else some (loop [] [] l)
  | .text _ :: l => varRest l
  | .func _ _ :: l => varRest l
end

/-- `_reify_component_values`, types.py 583-628. -/
def reify (ts : List Tok) : List Member := loop [] [] ts

mutual
/-- `CSSVariableReferenceValue.tostring`, types.py 1868-1877; texts are taken as they are. -/
def Member.ser : Member → Str
  | .str s => s
  | .var n none => "var(".toList ++ n ++ [')']
  | .var n (some f) => "var(".toList ++ n ++ [','] ++ sers f ++ [')']

/-- `CSSUnparsedValue.tostring`, types.py 1807-1816. -/
def sers : List Member → Str
  | [] => []
  | m :: l => m.ser ++ sers l
end

/-- `CSSUnparsedValue.__setitem__` with an integer, types.py 1784-1797; `none` is a value of
another type. -/
def setItem (l : List Member) (i : Int) (x : Option Member) : Py (List Member) :=
  match x with
  | none => .error .typeError
  | some m => .ok (PyList.insertAt l i m)

/-- `CSSUnparsedValue.__setitem__` with a slice `i:j`, types.py 1784-1797. -/
def setSlice (l : List Member) (i j : Int) (xs : List (Option Member)) : Py (List Member) :=
  if xs.all Option.isSome then
    let a := PyList.clamp l.length i
    .ok (l.take a ++ xs.filterMap id ++ l.drop (max a (PyList.clamp l.length j)))
  else .error .typeError

/-- `CSSUnparsedValue.insert`, types.py 1804-1805. -/
def insert (l : List Member) (i : Int) (x : Option Member) : Py (List Member) := setItem l i x

/-- `append`, of `MutableSequence`. -/
def append (l : List Member) (x : Option Member) : Py (List Member) := insert l l.length x

/-- `CSSUnparsedValue(members)`, by `extend`, types.py 1760-1770. -/
def extend (l : List Member) : List (Option Member) → Py (List Member)
  | [] => .ok l
  | x :: xs => match append l x with
    | .ok l' => extend l' xs
    | .error e => .error e

end SvgPy.Unparsed
