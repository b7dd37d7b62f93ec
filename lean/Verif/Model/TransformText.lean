import Verif.Model.Transform
import Verif.Model.NumText
import Verif.Model.Formatter

/-! Model of parsing and printing transform lists, `/repo/svgpy/transform.py`. -/

namespace SvgPy.TransformText

open PyStr SvgPy.Transform

/-- The function names of `_RE_TRANSFORM_LIST`, transform.py 24-26. -/
inductive Fn
  | matrix | translate | scale | rotate | skewX | skewY
  deriving DecidableEq

/-- transform.py 24, 552-561. -/
def fnName : Fn → Str
  | .matrix => ['m', 'a', 't', 'r', 'i', 'x']
  | .translate => ['t', 'r', 'a', 'n', 's', 'l', 'a', 't', 'e']
  | .scale => ['s', 'c', 'a', 'l', 'e']
  | .rotate => ['r', 'o', 't', 'a', 't', 'e']
  | .skewX => ['s', 'k', 'e', 'w', 'X']
  | .skewY => ['s', 'k', 'e', 'w', 'Y']

/-- The alternatives in the order of the expression, transform.py 24. -/
def fns : List Fn := [.matrix, .translate, .scale, .rotate, .skewX, .skewY]

/-- The text behind a prefix. -/
def after : Str → Str → Option Str
  | [], s => some s
  | _ :: _, [] => none
  | c :: cs, d :: s => if c = d then after cs s else none

/-- `($|\s+|\s*,\s*)`, transform.py 25; `$` is the end (the text is stripped, so there
is no line break before the end). -/
def sepAt : Str → Option Str
  | [] => some []
  | c :: r =>
    if isSpace c then some (r.dropWhile isSpace)
    else if c = ',' then some (r.dropWhile isSpace)
    else none

/-- `\s*\((?P<values>[^)]+)\)` and the separator, transform.py 25. -/
def argsAt (s : Str) : Option (Str × Str) :=
  match s.dropWhile isSpace with
  | [] => none
  | c :: r =>
    if c ≠ '(' then none
    else
      let v := r.takeWhile (· ≠ ')')
      if v = [] then none
      else match r.dropWhile (· ≠ ')') with
        | [] => none
        | _ :: r2 => match sepAt r2 with
          | none => none
          | some r3 => some (v, r3)

/-- One alternative at the start of a text. -/
def fnAt1 (s : Str) (f : Fn) : Option (Fn × Str × Str) :=
  match after (fnName f) s with
  | none => none
  | some r => match argsAt r with
    | none => none
    | some (v, r2) => some (f, v, r2)

/-- A match of `_RE_TRANSFORM_LIST` at the start of a text: function, values, rest. -/
def fnAt (s : Str) : Option (Fn × Str × Str) := fns.findSome? (fnAt1 s)

/-- `finditer`, transform.py 503: what does not match is skipped. -/
def findN : Nat → Str → List (Fn × Str)
  | 0, _ => []
  | _ + 1, [] => []
  | k + 1, c :: s => match fnAt (c :: s) with
    | some (f, v, r) => (f, v) :: findN k r
    | none => findN k s

/-- All matches in a text. -/
def find (s : Str) : List (Fn × Str) := findN (s.length + 1) s

/-- `SVGTransform(type, *values)`: `set` and the setters, transform.py 118-130, 147-234;
a wrong number of values is a `TypeError`. -/
def mkItem {K : Type} [Zero K] : Fn → List K → Py (Item K)
  | .matrix, [a, b, c, d, e, f] => .ok (.matrix a b c d e f)
  | .rotate, [t] => .ok (.rotate t 0 0)
  | .rotate, [t, cx] => .ok (.rotate t cx 0)
  | .rotate, [t, cx, cy] => .ok (.rotate t cx cy)
  | .scale, [sx] => .ok (.scale sx sx)
  | .scale, [sx, sy] => .ok (.scale sx sy)
  | .skewX, [t] => .ok (.skewX t)
  | .skewY, [t] => .ok (.skewY t)
  | .translate, [tx] => .ok (.translate tx 0)
  | .translate, [tx, ty] => .ok (.translate tx ty)
  | _, _ => .error .typeError

/-- The loop of `parse`, transform.py 502-515. -/
def parseAll : List (Fn × Str) → Py (List (Item ℚ))
  | [] => .ok []
  | (f, v) :: r => match mkItem f (NumText.nums (strip v)) with
    | .error e => .error e
    | .ok t => match parseAll r with
      | .error e => .error e
      | .ok ts => .ok (t :: ts)

/-- `SVGTransformList.parse`, transform.py 485-515. -/
def parse (text : Str) : Py (List (Item ℚ)) := parseAll (find (strip text))

/-- The function and the values of an item. -/
def parts : Item ℚ → Option (Fn × List ℚ)
  | .unknown => none
  | .matrix a b c d e f => some (.matrix, [a, b, c, d, e, f])
  | .translate tx ty => some (.translate, [tx, ty])
  | .scale sx sy => some (.scale, [sx, sy])
  | .rotate t cx cy => some (.rotate, [t, cx, cy])
  | .skewX t => some (.skewX, [t])
  | .skewY t => some (.skewY, [t])

/-- Leaving out values, transform.py 240-252. -/
def shorten : Fn → List Str → List Str
  | .rotate, [t, cx, cy] => if cx = ['0'] ∧ cy = ['0'] then [t] else [t, cx, cy]
  | .scale, [sx, sy] => if sx = sy then [sx] else [sx, sy]
  | .translate, [tx, ty] => if ty = ['0'] then [tx] else [tx, ty]
  | _, l => l

/-- `SVGTransform.tostring`, transform.py 236-256; an absent delimiter is an empty one. -/
def itemText (p : Nat) (delim : Str) (t : Item ℚ) : Str :=
  match parts t with
  | none => []
  | some (f, vs) =>
    fnName f ++ '(' :: (join (if delim = [] then [',', ' '] else delim) (shorten f (Formatter.formatSeq p vs)) ++ [')'])

/-- `SVGTransformList.tostring`, transform.py 542-549. -/
def listText (p : Nat) (delim : Str) (l : List (Item ℚ)) : Str := join [' '] (l.map (itemText p delim))

end SvgPy.TransformText
