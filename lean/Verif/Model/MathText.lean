import Verif.Model.SumValue
import Verif.Model.PyStr

/-! Reading of math functions, `/repo/svgpy/css/types.py` 835-1050, 1113-1130. -/

namespace SvgPy.MathText

open SvgPy.UnitValue (U UV)
open SvgPy.SumValue (Expr)

/-- The tokens of tinycss2 that matter: numbers, percentages and dimensions (with the units of
`UnitType`); literals; functions with their arguments, without white space (types.py 889) and
comments; any other token. -/
inductive Tok
  | num (x : UV)
  | lit (c : Char)
  | func (name : Str) (args : List Tok)
  | other

/-- `CSSMathOperator`. -/
inductive Op
  | clamp | invert | max | min | negate | product | sum
deriving DecidableEq

/-- A member of `_values`: a unit value or a reference to a `_MathExpression`. -/
inductive Val
  | unit (x : UV)
  | node (i : Nat)

/-- A `_MathExpression` object, types.py 835-866; objects are numbered in the order of their
creation. -/
structure Node where
  parent : Option Nat
  op : Option Op
  vals : List Val

/-- All `_MathExpression` objects. -/
abbrev Heap := List Node

/-- The object of a number. -/
def nodeAt (h : Heap) (i : Nat) : Node := h.getD i ⟨none, none, []⟩

/-- `node.operator = op`. -/
def setOp (h : Heap) (i : Nat) (op : Op) : Heap := h.set i { nodeAt h i with op := some op }

/-- `node.parent = p`. -/
def setParent (h : Heap) (i p : Nat) : Heap := h.set i { nodeAt h i with parent := some p }

/-- `node.values.append(v)`. -/
def push (h : Heap) (i : Nat) (v : Val) : Heap := h.set i { nodeAt h i with vals := (nodeAt h i).vals ++ [v] }

/-- `node.values.pop(-1)`, the list that is left. -/
def drop (h : Heap) (i : Nat) : Heap := h.set i { nodeAt h i with vals := (nodeAt h i).vals.dropLast }

/-- `node.values.pop(-1)`, the result. -/
def last (h : Heap) (i : Nat) : Py Val :=
  match (nodeAt h i).vals.getLast? with
  | none => .error .indexError
  | some v => .ok v

/-- The loop over parents, types.py 917-921.  (The parents form no cycle, so the number of objects
is a bound for the number of steps.) -/
def climb : Nat → Heap → Nat → Nat
  | 0, _, i => i
  | n + 1, h, i =>
    match (nodeAt h i).parent with
    | none => i
    | some p => climb n h p

/-- The last loop over parents, types.py 996-1003. -/
def climbTo (root : Option Nat) : Nat → Heap → Nat → Nat
  | 0, _, i => i
  | n + 1, h, i =>
    match (nodeAt h i).parent with
    | none => i
    | some p => if root = some p then i else climbTo root n h p

/-- A new object `k` takes the place of the last value of `i`, of which it gets hold. -/
def wrapLast (h : Heap) (i k : Nat) : Heap := push (drop h i) i (.node k)

/-- `*`, types.py 902-912. -/
def star (h : Heap) (cur : Nat) : Py (Heap × Nat) :=
  match (nodeAt h cur).op with
  | none => .ok (setOp h cur .product, cur)
  | some .product => .ok (h, cur)
  | some _ => (last h cur).map fun v => (wrapLast h cur h.length ++ [⟨some cur, some .product, [v]⟩], h.length)

/-- `+`, types.py 913-927. -/
def plus (h : Heap) (cur : Nat) : Py (Heap × Nat) :=
  match (nodeAt h cur).op with
  | none => .ok (setOp h cur .sum, cur)
  | some .sum => .ok (h, cur)
  | some _ =>
    let top := climb h.length h cur
    .ok (setParent h top h.length ++ [⟨(nodeAt h top).parent, some .sum, [.node top]⟩], h.length)

/-- `/` and the value after it, types.py 928-951; `op` is the operator of the current object
before the value was read. -/
def slash (h : Heap) (cur : Nat) (op : Option Op) (v : Val) : Py (Heap × Nat) :=
  let h1 := h ++ [⟨some cur, some .invert, [v]⟩]
  if op = some .product then .ok (push h1 cur (.node h.length), cur)
  else if (nodeAt h1 cur).vals.length = 1 then .ok (push (setOp h1 cur .product) cur (.node h.length), cur)
  else (last h1 cur).map fun p =>
    (wrapLast h1 cur (h.length + 1) ++ [⟨some cur, some .product, [p, .node h.length]⟩], cur)

/-- `-` and the value after it, types.py 952-986. -/
def minus (h : Heap) (cur : Nat) (op : Option Op) (v : Val) : Py (Heap × Nat) :=
  let h1 := h ++ [⟨some cur, some .negate, [v]⟩]
  if op = some .sum then .ok (push h1 cur (.node h.length), cur)
  else if (nodeAt h1 cur).vals.length = 1 then .ok (push (setOp h1 cur .sum) cur (.node h.length), cur)
  else match (nodeAt h1 cur).parent with
    | none => .ok (setParent (setParent h1 cur (h.length + 1)) h.length (h.length + 1) ++
        [⟨none, some .sum, [.node cur, .node h.length]⟩], h.length + 1)
    | some q => (last h1 q).map fun p =>
        (wrapLast h1 q (h.length + 1) ++ [⟨some cur, some .sum, [p, .node h.length]⟩], cur)

/-- The operator of a function, types.py 877-887; `none` stands for an error. -/
def operatorOf (name : Str) : Option (Option Op) :=
  if name = "calc".toList then some none
  else if name = "clamp".toList then some (some .clamp)
  else if name = "max".toList then some (some .max)
  else if name = "min".toList then some (some .min)
  else none

/-- Operators for which a comma is skipped, types.py 898-901. -/
def isList (op : Option Op) : Bool := op = some .clamp || op = some .max || op = some .min

mutual

/-- `_parse_numeric_value`, types.py 1006-1023, and `_parse_math_expression`, 876-1004, for a
function. -/
def parseVal (h : Heap) (root : Option Nat) : Tok → Py (Heap × Val)
  | .num x => .ok (h, .unit x)
  | .func name args =>
    match operatorOf name with
    | none => .error .valueError
    | some op =>
      if args.isEmpty then .error .valueError
      else (loop (h ++ [⟨root, op, []⟩]) h.length args).map fun r =>
        (r.1, .node (climbTo root r.1.length r.1 r.2))
  | .lit _ => .error .valueError
  | .other => .error .valueError

/-- The loop over the arguments, types.py 893-994. -/
def loop (h : Heap) (cur : Nat) : List Tok → Py (Heap × Nat)
  | [] => .ok (h, cur)
  | .lit c :: l =>
    if c = ',' && isList (nodeAt h cur).op then loop h cur l
    else if c = '*' then (star h cur).bind fun r => loop r.1 r.2 l
    else if c = '+' then (plus h cur).bind fun r => loop r.1 r.2 l
    else if c = '/' then
      match l with
      | [] => .error .valueError
      | t :: l => (parseVal h (some cur) t).bind fun r =>
          (slash r.1 cur (nodeAt h cur).op r.2).bind fun r => loop r.1 r.2 l
    else if c = '-' then
      match l with
      | [] => .error .valueError
      | t :: l => (parseVal h (some cur) t).bind fun r =>
          (minus r.1 cur (nodeAt h cur).op r.2).bind fun r => loop r.1 r.2 l
    else .error .valueError
  | t :: l => (parseVal h (some cur) t).bind fun r => loop (push r.1 cur r.2) cur l

end

/-- The constructors of the classes, types.py 1029-1050; the tests for compatible types (C39) are
left out. -/
def build (op : Option Op) (l : List Expr) : Py Expr :=
  match op with
  | none => if l.isEmpty then .error .valueError else .ok (.sum l)
  | some .sum => if l.isEmpty then .error .valueError else .ok (.sum l)
  | some .product => if l.isEmpty then .error .valueError else .ok (.prod l)
  | some .max => if l.isEmpty then .error .valueError else .ok (.max l)
  | some .min => if l.isEmpty then .error .valueError else .ok (.min l)
  | some .clamp => match l with | [a, b, c] => .ok (.clamp a b c) | _ => .error .typeError
  | some .invert => match l with | [a] => .ok (.invert a) | _ => .error .typeError
  | some .negate => match l with | [a] => .ok (.negate a) | _ => .error .typeError

/-- `for arg in ...: args.append(f(arg))`. -/
def each {α β : Type} (f : α → Py β) : List α → Py (List β)
  | [] => .ok []
  | a :: l => (f a).bind fun b => (each f l).map fun r => b :: r

/-- `_reify_math_expression`, types.py 1025-1050; the number is the recursion limit. -/
def reify : Nat → Heap → Val → Py Expr
  | 0, _, _ => .error (.dom "RecursionError")
  | _ + 1, _, .unit x => .ok (.unit x)
  | n + 1, h, .node i => (each (reify n h) (nodeAt h i).vals).bind (build (nodeAt h i).op)

/-- `CSSNumericValue.parse`, types.py 1113-1130. -/
def parse (limit : Nat) (t : Tok) : Py Expr := (parseVal [] none t).bind fun r => reify limit r.1 r.2

end SvgPy.MathText
