import Verif.Model.Py
import Verif.Model.Regex
import Verif.Model.MediaQuery

/-! The parsing of media queries, `/repo/svgpy/css/mediaquery.py` 33-65, 83-94 and 273-521, and the
evaluation of the parsed list (100-114).  The texts are those after `lower()` (85), for which
`IGNORECASE` makes no difference; `MULTILINE` concerns only `^` in `_RE_NUMBER`, which is matched at
the start of a single-word text. -/

namespace SvgPy.MediaParse

open SvgPy.Regex SvgPy.MediaQuery

/-- The named alternatives of the patterns. -/
inductive Tag
  | mnot | parens | query | plain | boolean | range | op
deriving DecidableEq, Repr

/-- `not\s+\(.+\)`, mediaquery.py 35 and 45. -/
def reNot : Re := .cat [.lit "not".toList, .plus sp, .c '(', .plus dot, .c ')']

/-- `\(.+\)`, mediaquery.py 36 and 46. -/
def reParens : Re := .cat [.c '(', .plus dot, .c ')']

/-- `[^ \n\t]+`, mediaquery.py 37. -/
def typeChar (x : Char) : Bool := x ≠ ' ' && x ≠ '\n' && x ≠ '\t'

/-- `(not\s+|only\s+)?[^ \n\t]+(\s+and\s+(\(.+\))+)?`, mediaquery.py 37. -/
def reQuery : Re :=
  .cat [.opt (.alt (.seq (.lit "not".toList) (.plus sp)) (.seq (.lit "only".toList) (.plus sp))),
    .plus typeChar,
    .opt (.cat [.plus sp, .lit "and".toList, .plus sp, .loop reParens])]

/-- `_RE_MEDIA_QUERY`, mediaquery.py 34-38. -/
def mediaQueryRe : List (Tag × Re) := [(.mnot, reNot), (.parens, reParens), (.query, reQuery)]

/-- `_RE_MF_PLAIN`, mediaquery.py 50-52; 1 is `mf_name`, 2 is `mf_value`.  Line 41 is the same without
the groups. -/
def rePlain : Re :=
  .cat [.c '(', .star sp, .group 1 (.plus nsp), .star sp, .c ':', .star sp, .group 2 (.plus nsp), .star sp,
    .c ')']

/-- `mf_boolean`, mediaquery.py 42. -/
def reBoolean : Re := .cat [.c '(', .star sp, .plus nsp, .star sp, .c ')']

/-- `[^<> ]`. -/
def leftChar (x : Char) : Bool := x ≠ '<' && x ≠ '>' && x ≠ ' '

/-- `[^<>) ]`. -/
def rightChar (x : Char) : Bool := x ≠ '<' && x ≠ '>' && x ≠ ')' && x ≠ ' '

/-- `[<>]=?`. -/
def reCmp : Re := .seq (.chr fun x => x == '<' || x == '>') (.opt (.c '='))

/-- `_RE_MF_RANGE`, mediaquery.py 54-57; 1 is `left`, 2 `op`, 3 `right`, 4 `op2`, 5 `right2`.  Lines
43-44 are the same without the groups. -/
def reRange : Re :=
  .cat [.c '(', .star sp, .group 1 (.plus leftChar), .star sp, .group 2 reCmp, .star sp,
    .group 3 (.plus rightChar), .star sp,
    .opt (.cat [.group 4 reCmp, .star sp, .group 5 (.plus rightChar), .star sp]), .c ')']

/-- `\s+(and|or)\s+`, mediaquery.py 47. -/
def reOp : Re := .cat [.plus sp, .group 1 (.alt (.lit "and".toList) (.lit "or".toList)), .plus sp]

/-- `_RE_MEDIA_IN_PARENS`, mediaquery.py 40-48. -/
def inParensRe : List (Tag × Re) :=
  [(.plain, rePlain), (.boolean, reBoolean), (.range, reRange), (.mnot, reNot), (.parens, reParens),
   (.op, reOp)]

/-- `[0-9]`; the other decimal digits of Unicode are left out. -/
def digit (x : Char) : Bool := x.isDigit

/-- `_RE_NUMBER`, mediaquery.py 61-63. -/
def reNumber : Re :=
  .cat [.opt (.chr fun x => x == '+' || x == '-'),
    .alt (.cat [.star digit, .c '.', .plus digit]) (.cat [.plus digit, .opt (.c '.'), .star digit]),
    .opt (.cat [.chr (fun x => x == 'e' || x == 'E'), .opt (.chr fun x => x == '+' || x == '-'), .plus digit])]

/-- A child of a node: a name or a comparison. -/
inductive Leaf
  | name (n : Str)
  | compare (left : Operand Str) (rest : List (Cmp × Operand Str))

/-- The entries `op`, `ops` and `values` of a `BoolOp` node; missing `ops` are as empty ones (129). -/
structure Cond where
  op : Option BoolOp
  ops : List BoolOp
  values : Option (List Leaf)

/-- The dictionary `parent`: without `expr`, a `BoolOp`, or a `UnaryOp` with its operand (the other
entries are not looked at then, 119-125). -/
inductive Tree
  | empty
  | bool (c : Cond)
  | unary (c : Cond)

/-- A node without entries. -/
def Cond.new : Cond := ⟨none, [], none⟩

/-- `values.append(node)` with `setdefault`. -/
def Cond.add (c : Cond) (l : Leaf) : Cond := { c with values := some (c.values.getD [] ++ [l]) }

/-- The start of `_parse_media_type` and `_parse_mf_*`, mediaquery.py 341-353, 409-419, 425-436 and
464-477.  The operand of a `UnaryOp` has `values` from the start. -/
def Tree.add (t : Tree) (l : Leaf) : Tree :=
  match t with
  | .empty => .bool (Cond.new.add l)
  | .bool c => .bool (c.add l)
  | .unary c => .unary (c.add l)

/-- `_RE_WHITESPACE.search`, mediaquery.py 59: the text before the first white space and the text
behind it. -/
def cutWs : Str → Option (Str × Str)
  | [] => none
  | x :: s =>
    if PyStr.isSpace x then some ([], s.dropWhile PyStr.isSpace)
    else (cutWs s).map fun (a, b) => (x :: a, b)

/-- `and` and `or`. -/
def opOf (s : Str) : Option BoolOp :=
  if s = "and".toList then some .and else if s = "or".toList then some .or else none

/-- Results: `none` while the number of nested calls does not suffice. -/
abbrev Run (α : Type) := Option (Py α)

/-- One after the other. -/
def andThen {α β : Type} (r : Run α) (f : α → Run β) : Run β :=
  match r with
  | none => none
  | some (.error e) => some (.error e)
  | some (.ok a) => f a

/-- A new operand, mediaquery.py 294-301 and 357-363. -/
def newOperand : Tree := .unary ⟨none, [], some []⟩

/-- `_parse_media_not`, mediaquery.py 356-367; `rec` is `_parse_media_query`. -/
def parseNot (rec : Str → Tree → Run Tree) (q : Str) : Run Tree :=
  match cutWs q with
  | none => some (.error .attributeError)
  | some (_, rest) => rec rest newOperand

/-- `_parse_mf_boolean`, mediaquery.py 407-420: `query.strip('()')`. -/
def booleanLeaf (q : Str) : Leaf :=
  .name (((q.dropWhile fun x => x == '(' || x == ')').reverse.dropWhile fun x => x == '(' || x == ')').reverse)

/-- `_parse_mf_plain`, mediaquery.py 438-461. -/
def plainLeaf (q : Str) : Py Leaf :=
  match matchAt rePlain q with
  | none => .error .attributeError
  | some (_, c, _) =>
    let p := plainOp ((groupOf c 1).getD [])
    .ok (.compare (.name (String.ofList p.2)) [(p.1, .num ((groupOf c 2).getD []))])

/-- A number or a name, e.g. mediaquery.py 483-492. -/
def operandOf (s : Str) : Operand Str :=
  if (matchAt reNumber s).isSome then .num s else .name (String.ofList s)

/-- The operators of `[<>]=?`. -/
def cmpOf (s : Str) : Cmp :=
  if s = ['<'] then .lt else if s = ['>'] then .gt else if s = ['<', '='] then .le else .ge

/-- The second operator and operand, mediaquery.py 505-520. -/
def range2Of (c : Caps) : List (Cmp × Operand Str) :=
  match groupOf c 5 with
  | some r => if r = [] then [] else [(cmpOf ((groupOf c 4).getD []), operandOf r)]
  | none => []

/-- `_parse_mf_range`, mediaquery.py 478-521. -/
def rangeLeaf (q : Str) : Py Leaf :=
  match matchAt reRange q with
  | none => .error .attributeError
  | some (_, c, _) =>
    .ok (.compare (operandOf ((groupOf c 1).getD []))
      ((cmpOf ((groupOf c 2).getD []), operandOf ((groupOf c 3).getD [])) :: range2Of c))

/-- `if node.get(MQ_OP) is None: …` and `node[MQ_OPS].append(op)`, mediaquery.py 401-403. -/
def Cond.addOp (c : Cond) (o : BoolOp) : Cond := { c with op := c.op.or (some o), ops := c.ops ++ [o] }

/-- The same on the dictionary. -/
def Tree.addOp (t : Tree) (o : BoolOp) : Tree :=
  match t with
  | .empty => .empty
  | .bool c => .bool (c.addOp o)
  | .unary c => .unary (c.addOp o)

/-- The operator in the text of a match of `\s+(and|or)\s+`. -/
def opText (s : Str) : BoolOp := (opOf (PyStr.strip s)).getD .or

/-- A leaf or an exception. -/
def addLeaf (t : Tree) (l : Py Leaf) : Run Tree :=
  match l with
  | .error e => some (.error e)
  | .ok l => some (.ok (t.add l))

/-- The loop of `_parse_media_in_parens`, mediaquery.py 377-404.  `live` tells whether `node` is still
the node that the values are added to: after a `media_not` (398) it is not, and the operators go to a
node that nobody looks at.  Matches of `media_in_parens` are passed over. -/
def parensLoop (rec : Str → Tree → Run Tree) : List (Tag × Str) → Bool → Tree → Run Tree
  | [], _, t => some (.ok t)
  | (tag, q) :: ms, live, t =>
    match tag with
    | .plain => andThen (addLeaf t (plainLeaf q)) (parensLoop rec ms live)
    | .boolean => parensLoop rec ms live (t.add (booleanLeaf q))
    | .range => andThen (addLeaf t (rangeLeaf q)) (parensLoop rec ms live)
    | .mnot => andThen (parseNot rec q) (parensLoop rec ms false)
    | .op => parensLoop rec ms live (if live then t.addOp (opText q) else t)
    | _ => parensLoop rec ms live t

/-- `parent.setdefault(MQ_EXPR, MQ_EXPR_BOOL_OP)`. -/
def Tree.start (t : Tree) : Tree :=
  match t with
  | .empty => .bool Cond.new
  | t => t

/-- `_parse_media_in_parens`, mediaquery.py 370-404. -/
def parseParens (rec : Str → Tree → Run Tree) (q : Str) (t : Tree) : Run Tree :=
  parensLoop rec (findAll inParensRe q) true t.start

/-- `and`/`or` behind a media type, mediaquery.py 302-317. -/
def Tree.segOp (t : Tree) (s : Str) (o : BoolOp) : Tree :=
  match t with
  | .empty => t.add (.name s)
  | .bool c => .bool { c with op := c.op.or (some o) }
  | .unary c => .unary (c.addOp o)

/-- The loop over the white space of a `media_query` and its `else`, mediaquery.py 288-335, on the part
of the text from `start`.  The number bounds the steps. -/
def segLoop (rec : Str → Tree → Run Tree) : Nat → Str → Tree → Run Tree
  | 0, _, _ => none
  | n + 1, s, t =>
    match cutWs s with
    | none =>
      match s with
      | [] => some (.error .indexError)
      | x :: _ => if x = '(' then rec s t else some (.ok (t.add (.name s)))
    | some (seg, rest) =>
      if seg = "only".toList then segLoop rec n rest t
      else if seg = "not".toList then segLoop rec n rest newOperand
      else
        match opOf seg with
        | some o => segLoop rec n rest (t.segOp seg o)
        | none => if seg.head? = some '(' then rec s t else segLoop rec n rest (t.add (.name seg))

/-- The loop of `_parse_media_query`, mediaquery.py 274-335. -/
def queryLoop (rec : Str → Tree → Run Tree) : List (Tag × Str) → Tree → Run Tree
  | [], t => some (.ok t)
  | (tag, q) :: ms, t =>
    match tag with
    | .mnot => andThen (parseNot rec q) (queryLoop rec ms)
    | .parens => andThen (parseParens rec q t) (queryLoop rec ms)
    | _ => segLoop rec (q.length + 1) q t

/-- `_parse_media_query`, mediaquery.py 273-336; the number bounds the nesting of calls. -/
def parseQuery : Nat → Str → Tree → Run Tree
  | 0, _, _ => none
  | n + 1, q, t => queryLoop (parseQuery n) (findAll mediaQueryRe q) t

/-- The loop of `parse`, mediaquery.py 86-93. -/
def parseAll (n : Nat) : List Str → Run (List Tree)
  | [] => some (.ok [])
  | q :: qs =>
    if PyStr.strip q = [] then parseAll n qs
    else andThen (parseQuery n (PyStr.strip q) .empty) fun t =>
      andThen (parseAll n qs) fun ts => some (.ok (t :: ts))

/-- `parse`, mediaquery.py 83-94. -/
def parse (low : Str → Str) (n : Nat) (q : Str) : Run (List Tree) :=
  parseAll n (PyStr.splitOn ',' (low (PyStr.strip q)))

/-- The node as `_match_node` sees it: `KeyError` if `expr` or `values` is missing, mediaquery.py
118-132. -/
def Tree.node (t : Tree) : Py (Node Leaf) :=
  match t with
  | .empty => .error .keyError
  | .bool c => condNode c
  | .unary c => (condNode c).map .unary
where
  /-- A `BoolOp` node; mixed operators are found before the values are looked at (129-131). -/
  condNode (c : Cond) : Py (Node Leaf) :=
    match c.values with
    | none => if BoolOp.and ∈ c.ops ∧ BoolOp.or ∈ c.ops then .ok (.boolOp c.op c.ops []) else .error .keyError
    | some vs => .ok (.boolOp c.op c.ops (vs.map .leaf))

/-- `match`, mediaquery.py 100-114, on the parsed list. -/
def matchTrees (ev : Leaf → Bool) : List Tree → Py Bool
  | [] => .ok false
  | t :: ts =>
    match t.node with
    | .error e => .error e
    | .ok n =>
      match matchNode ev false n with
      | .error e => .error e
      | .ok true => .ok true
      | .ok false => matchTrees ev ts

end SvgPy.MediaParse
