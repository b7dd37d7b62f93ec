import Verif.Model.Py
import Verif.Model.PyStr
import Mathlib.Order.Defs.LinearOrder

/-!
Model of the evaluation of media queries, `/repo/svgpy/css/mediaquery.py` 100-270
and of the interpretation of `min-`/`max-` prefixes (423-461).

Not modelled: the regular expressions that split the query text into a tree
(273-421, 464-521), logging, and the second component of the results (the name of
the matching media type), which `MediaQueryList.matches` ignores.
-/

namespace SvgPy.MediaQuery

/-- The operators stored under `MQ_OP`/`MQ_OPS`. -/
inductive BoolOp
  | and
  | or
deriving DecidableEq, Repr

/-- A query tree: `UnaryOp` (`not`), `BoolOp` with its operator, the list of all
operators and its children, or a leaf (`Name` or `Compare`), mediaquery.py 65-78. -/
inductive Node (α : Type)
  | unary (operand : Node α)
  | boolOp (op : Option BoolOp) (ops : List BoolOp) (children : List (Node α))
  | leaf (a : α)

variable {α : Type}

/-- `not result` under exceptions. -/
def negate : Py Bool → Py Bool
  | .ok b => .ok (!b)
  | .error e => .error e

/-- The test that ends the loop, mediaquery.py 154-162. -/
def stops (op : BoolOp) (notOp result : Bool) : Bool :=
  (op = .and && !notOp && !result) || (op = .and && notOp && result) ||
    (op = .or && !notOp && result) || (op = .or && notOp && !result)

mutual
/-- `_match_node`, mediaquery.py 117-163.  `ev` is the result of
`_eval_expr_name`/`_eval_expr_compare` on a leaf.  A leaf at this place fails the
`assert` of line 126 (here `PyErr.dom "AssertionError"`). -/
def matchNode (ev : α → Bool) : Bool → Node α → Py Bool
  | _, .unary n => negate (matchNode ev true n)
  | _, .leaf _ => .error (.dom "AssertionError")
  | notOp, .boolOp op ops children =>
    if ops ≠ [] ∧ BoolOp.and ∈ ops ∧ BoolOp.or ∈ ops then .ok false
    else matchChildren ev (op.getD .or) notOp true children
/-- The loop over the children, mediaquery.py 133-163, with the running `result`.
For a `UnaryOp` child `_match_node(child, not_op=True)` (146-151) is written out. -/
def matchChildren (ev : α → Bool) (op : BoolOp) (notOp : Bool) : Bool → List (Node α) → Py Bool
  | result, [] => .ok result
  | _, .leaf a :: rest =>
    if stops op notOp (ev a) then .ok (ev a) else matchChildren ev op notOp (ev a) rest
  | _, .unary n :: rest =>
    match negate (matchNode ev true n) with
    | .error e => .error e
    | .ok r => if stops op notOp r then .ok r else matchChildren ev op notOp r rest
  | _, .boolOp _ _ _ :: _ => .error .notImplemented
end

/-- `match`, mediaquery.py 100-114. -/
def matchList (ev : α → Bool) : List (Node α) → Py Bool
  | [] => .ok false
  | n :: ns =>
    match matchNode ev false n with
    | .error e => .error e
    | .ok true => .ok true
    | .ok false => matchList ev ns

/-! ### Comparisons -/

/-- The comparison operators `<`, `<=`, `>`, `>=`, `==`. -/
inductive Cmp
  | lt | le | gt | ge | eq
deriving DecidableEq, Repr

/-- `op[0]`. -/
def Cmp.first : Cmp → Char
  | .lt | .le => '<'
  | .gt | .ge => '>'
  | .eq => '='

/-- `op[-1]`. -/
def Cmp.last : Cmp → Char
  | .lt => '<'
  | .gt => '>'
  | .le | .ge | .eq => '='

/-- An operand: a value or the name of a feature (`MQ_EXPR_NUM`/`MQ_EXPR_NAME`). -/
inductive Operand (V : Type)
  | num (v : V)
  | name (n : String)

/-- `DISCRETE_FEATURES`, mediaquery.py 27-31. -/
def discreteFeatures : List String :=
  ["orientation", "scan", "grid", "update", "overflow-block", "overflow-inline", "color-gamut",
   "pointer", "hover", "any-pointer", "any-hover"]

/-- What the evaluation needs to know about values: `compare_func` (with `none`
for `ValueError`), `Fraction(value)`, whether the text contains a dash and its
part before the first dash. -/
structure Values (V K : Type) where
  cmp : V → V → Option Int
  ratio : V → K
  hasDash : V → Bool
  base : V → V

variable {V K : Type} [DecidableEq V] [LinearOrder K]

/-- `conditions.get(name)` or the literal. -/
def Operand.value (cond : String → Option V) : Operand V → Option V
  | .num v => some v
  | .name n => cond n

/-- Is the operand a feature name? -/
def Operand.isName : Operand V → Bool
  | .num _ => false
  | .name _ => true

/-- The variable `name` after looking at the operand (mediaquery.py 176, 184). -/
def Operand.nameOr (old : Option String) : Operand V → Option String
  | .num _ => old
  | .name n => some n

/-- One step of the loop, mediaquery.py 188-241: `none` means `return False`,
otherwise the new `left_value` (line 198 changes `right_value`). -/
def compareStep (E : Values V K) (anyName : Bool) (name : Option String) (l r : V) (op : Cmp) :
    Option V :=
  if anyName ∧ name ≠ some "grid" ∧ (∃ n ∈ discreteFeatures, name = some n) then
    -- mediaquery.py 194-206
    let (l, r) :=
      if name = some "orientation" then
        if E.hasDash l ∧ ¬ E.hasDash r then (E.base l, r)
        else if ¬ E.hasDash l ∧ E.hasDash r then (l, E.base r)
        else (l, r)
      else (l, r)
    if op.last ≠ '=' ∨ l ≠ r then none else some r
  else if anyName ∧ name = some "aspect-ratio" then
    -- mediaquery.py 211-221
    let lr := E.ratio l
    let rr := E.ratio r
    if op.last = '=' ∧ lr = rr then some r
    else
      let cmp : Bool := decide (lr > rr)
      if (op.first = '>' ∧ cmp = false) ∨ (op.first = '<' ∧ cmp = true) then none else some r
  else
    -- mediaquery.py 226-239
    match E.cmp l r with
    | none => none
    | some c =>
      if (c = 0 ∧ op.last = '=') ∨ (c > 0 ∧ op.first = '>') ∨ (c < 0 ∧ op.first = '<') then some r
      else none

/-- The loop of `_eval_expr_compare`, mediaquery.py 179-242. -/
def compareLoop (E : Values V K) (cond : String → Option V) :
    Bool → Option String → V → List (Cmp × Operand V) → Bool
  | _, _, _, [] => true
  | leftIsName, name, l, (op, right) :: rest =>
    match right.value cond with
    | none => false
    | some r =>
      match compareStep E (leftIsName || right.isName) (right.nameOr name) l r op with
      | none => false
      | some r' => compareLoop E cond right.isName (right.nameOr name) r' rest

/-- `_eval_expr_compare`, mediaquery.py 166-242. -/
def evalCompare (E : Values V K) (cond : String → Option V) (left : Operand V)
    (rest : List (Cmp × Operand V)) : Bool :=
  match left.value cond with
  | none => false
  | some l =>
    compareLoop E cond left.isName (left.nameOr none) l rest

/-- `_parse_mf_plain`, mediaquery.py 440-451: the operator and feature name of
`(name: value)`. -/
def plainOp (name : Str) : Cmp × Str :=
  let isMax := name.take 4 = "max-".toList
  let isMin := name.take 4 = "min-".toList
  if (isMax ∨ isMin) ∧ String.ofList (name.drop 4) ∈ discreteFeatures then (.eq, name)
  else if isMax then (.le, name.drop 4)
  else if isMin then (.ge, name.drop 4)
  else (.eq, name)

end SvgPy.MediaQuery
