import Verif.Model.Content

/-! The children of a document, `/repo/svgpy/window.py` 101-121, 237-276, 507-534, 568-660, and
`node_insert_before`, dom.py 59-77.

A `Document` keeps only its root element; its children are the top-level siblings of that element
in lxml's tree.  Nodes are numbers; all of them are elements, comments or processing
instructions, so that the checks of node types succeed.  An operation returns the state it leaves
behind and the exception it raises, if any. -/

namespace SvgPy.DocChildren

open SvgPy.Content (putBefore getnext)

/-- The root element of the document and, for every element that is top-level in some tree, the
top-level nodes of that tree (itself among them), in order. -/
structure St where
  isElem : Nat → Bool
  root : Option Nat
  sib : Nat → List Nat

/-- What an operation leaves behind. -/
abbrev Res := St × Option PyErr

/-- `Document.child_nodes`, window.py 111-121. -/
def childNodes (st : St) : List Nat :=
  match st.root with
  | none => []
  | some r => st.sib r

/-- Insertion directly after a node. -/
def putAfter (ref n : Nat) : List Nat → List Nat
  | [] => []
  | k :: l => if k = ref then k :: n :: l else k :: putAfter ref n l

/-- A node is taken out of the tree it is in. -/
def takeOut (st : St) (n : Nat) : St := { st with sib := fun e => (st.sib e).erase n }

/-- `ref.addnext(n)` for a top-level `ref` in the tree of `r`: lxml accepts only comments and
processing instructions there. -/
def addnext (st : St) (r ref n : Nat) : Res :=
  if st.isElem n then (st, some .typeError)
  else if ref = n then (st, none)
  else ({ st with sib := fun e => if e = r then putAfter ref n ((takeOut st n).sib e) else (takeOut st n).sib e }, none)

/-- `ref.addprevious(n)`, likewise. -/
def addprevious (st : St) (r ref n : Nat) : Res :=
  if st.isElem n then (st, some .typeError)
  else if ref = n then (st, none)
  else ({ st with sib := fun e => if e = r then putBefore ref n ((takeOut st n).sib e) else (takeOut st n).sib e }, none)

/-- The loop of `Document.append`, window.py 245-264; `last` is `last_child`. -/
def appendLoop (st : St) (last : Option Nat) : List Nat → Res
  | [] => (st, none)
  | n :: l =>
    match st.root with
    | none => if st.isElem n then appendLoop { st with root := some n } last l else (st, some (.dom "HierarchyRequestError"))
    | some r =>
      if n = r then appendLoop st last l
      else match last.orElse (fun _ => (childNodes st).getLast?) with
        | none => (st, some .attributeError)
        | some c => match addnext st r c n with
          | (st', some e) => (st', some e)
          | (st', none) => appendLoop st' (some n) l

/-- `Document.append`, window.py 237-264. -/
def append (st : St) (l : List Nat) : Res := appendLoop st none l

/-- The loop of `Document.prepend`, window.py 574-591; `first` is `first_child`. -/
def prependLoop (st : St) (first : Option Nat) : List Nat → Res
  | [] => (st, none)
  | n :: l =>
    match st.root with
    | none => match append st [n] with
      | (st', some e) => (st', some e)
      | (st', none) => prependLoop st' first l
    | some r =>
      if n = r then prependLoop st first l
      else match first.orElse (fun _ => (childNodes st).head?) with
        | none => (st, some .attributeError)
        | some c => match addprevious st r c n with
          | (st', some e) => (st', some e)
          | (st', none) => prependLoop st' (some c) l

/-- `Document.prepend`, window.py 568-591. -/
def prepend (st : St) (l : List Nat) : Res := prependLoop st none l

/-- `children[index]` of Python. -/
def pyIndex (l : List Nat) (i : Int) : Option Nat :=
  if 0 ≤ i then l[i.toNat]? else if -(l.length : Int) ≤ i then l[(l.length + i).toNat]? else none

/-- `Document.insert`, window.py 507-521. -/
def insert (st : St) (i : Int) (n : Nat) : Res :=
  match st.root with
  | none => append st [n]
  | some r =>
    if n = r then (st, none)
    else match pyIndex (childNodes st) i with
      | none => (st, some .indexError)
      | some c => addprevious st r c n

/-- `Document.remove`, window.py 597-609. -/
def remove (st : St) (n : Nat) : Res :=
  if n ∈ childNodes st then
    if st.root = some n then ({ st with root := none }, none) else (takeOut st n, none)
  else (st, some (.dom "NotFoundError"))

/-- `Document.replace`, window.py 622-639. -/
def replace (st : St) (old new : Nat) : Res :=
  if old ∈ childNodes st then
    match st.root with
    | none => (st, none)
    | some r =>
      if old = r then
        match remove st old with
        | (st', some e) => (st', some e)
        | (st', none) => append st' [new]
      else match addprevious st r old new with
        | (st', some e) => (st', some e)
        | (st', none) => remove st' old
  else (st, some (.dom "NotFoundError"))

/-- `Document.insert_before`, window.py 523-534, with `node_insert_before`, dom.py 59-77. -/
def insertBefore (st : St) (n : Nat) (child : Option Nat) : Res :=
  if (match child with | some c => decide (c ∈ childNodes st) | none => true) then
    match (if child = some n then getnext n (childNodes st) else child) with
    | none => append st [n]
    | some c => match st.root with
      | none => (st, none)
      | some r => addprevious st r c n
  else (st, some (.dom "NotFoundError"))

/-- The operations. -/
inductive Cmd
  | append (l : List Nat)
  | prepend (l : List Nat)
  | insert (i : Int) (n : Nat)
  | remove (n : Nat)
  | replace (old new : Nat)
  | insertBefore (n : Nat) (child : Option Nat)

/-- One operation; exceptions are caught by the caller. -/
def exec (st : St) : Cmd → St
  | .append l => (append st l).1
  | .prepend l => (prepend st l).1
  | .insert i n => (insert st i n).1
  | .remove n => (remove st n).1
  | .replace o n => (replace st o n).1
  | .insertBefore n c => (insertBefore st n c).1

end SvgPy.DocChildren
