import Verif.Model.Py
import Verif.Model.PyStr

/-! The content of an element: `append`, `prepend`, `insert`, `insert_before`, `replace`,
`remove` and `text_content`, `/repo/svgpy/dom.py` 48-88, 1529-1563, 1596-1630, 2146-2165,
2195-2228, 2238-2320.

As in lxml an element has a `text` (what precedes its first child) and every child a `tail`
(what follows it up to the next child); a node takes its tail along when it is moved.  `None`
and the empty string are not told apart here.  Nodes are numbers; all nodes are of the types
that may be inserted, and none is an ancestor of the element. -/

namespace SvgPy.Content

/-- The element, its children, and the tails of all nodes. -/
structure St where
  text : Str
  kids : List Nat
  tail : Nat → Str

/-- An argument of `append` and `prepend`. -/
inductive Arg
  | str (s : Str)
  | node (n : Nat)
  deriving DecidableEq

/-- Assignment to `node.tail`. -/
def setTail (st : St) (n : Nat) (s : Str) : St := { st with tail := fun m => if m = n then s else st.tail m }

/-- `node_append_data`, dom.py 48-56; `none` is the element itself with `tail=False`. -/
def appendData (st : St) (target : Option Nat) (data : Str) : St :=
  match target with
  | some n => setTail st n (st.tail n ++ data)
  | none => { st with text := st.text ++ data }

/-- `node_prepend_data`, dom.py 80-88. -/
def prependData (st : St) (target : Option Nat) (data : Str) : St :=
  match target with
  | some n => setTail st n (data ++ st.tail n)
  | none => { st with text := data ++ st.text }

/-- `lxml.etree.ElementBase.append`: a node that is a child already is moved. -/
def lxmlAppend (st : St) (n : Nat) : St := { st with kids := st.kids.erase n ++ [n] }

/-- Insertion directly before a child. -/
def putBefore (ref n : Nat) : List Nat → List Nat
  | [] => []
  | k :: l => if k = ref then n :: k :: l else k :: putBefore ref n l

/-- `lxml.etree.ElementBase.addprevious` of a child. -/
def addprevious (st : St) (ref n : Nat) : St :=
  if ref = n then st else { st with kids := putBefore ref n (st.kids.erase n) }

/-- The loop of `Element.append`, dom.py 1602-1619. -/
def appendLoop (st : St) (data : Str) (target : Option Nat) : List Arg → St
  | [] => if data.length > 0 then appendData st target data else st
  | .str s :: l => appendLoop st (data ++ s) target l
  | .node n :: l => appendLoop (lxmlAppend (if data.length > 0 then appendData st target data else st) n) [] (some n) l

/-- `Element.append`, dom.py 1596-1619. -/
def append (st : St) (l : List Arg) : St := appendLoop st [] none l

/-- One node in `Element.prepend`: `super().append` if there is no first child, otherwise
`first_child.addprevious`, dom.py 2217-2221; with the new `first_child`. -/
def prependNode (st : St) (first : Option Nat) (n : Nat) : St × Option Nat :=
  match first with
  | none => (lxmlAppend st n, some n)
  | some f => (addprevious st f n, some f)

/-- The loop of `Element.prepend` and what follows it, dom.py 2207-2228. -/
def prependLoop (text : Str) (st : St) (data : Str) (target first : Option Nat) : List Arg → St
  | [] =>
    let st1 := if data.length > 0 then prependData st target data else st
    if text.length > 0 then appendData st1 target text else st1
  | .str s :: l => prependLoop text st (data ++ s) target first l
  | .node n :: l =>
    let r := prependNode (if data.length > 0 then prependData st target data else st) first n
    prependLoop text r.1 [] (some n) r.2 l

/-- `Element.prepend`, dom.py 2195-2228. -/
def prepend (st : St) (l : List Arg) : St :=
  prependLoop st.text (if st.text.length > 0 then { st with text := [] } else st) [] none st.kids.head? l

/-- `self.remove(node)`, dom.py 2238-2251, with lxml's removal: the tail goes along. -/
def remove (st : St) (n : Nat) : Py St :=
  if n ∈ st.kids then .ok { st with kids := st.kids.erase n } else .error (.dom "NotFoundError")

/-- `getnext()` of a child. -/
def getnext (n : Nat) : List Nat → Option Nat
  | [] => none
  | k :: l => if k = n then l.head? else getnext n l

/-- `node_insert_before`, dom.py 59-77. -/
def insertBefore (st : St) (n : Nat) (child : Option Nat) : Py St :=
  if (match child with | some c => decide (c ∈ st.kids) | none => true) then
    match (if child = some n then getnext n st.kids else child) with
    | none => .ok (append st [.node n])
    | some r => .ok (addprevious st r n)
  else .error (.dom "NotFoundError")

/-- `lxml`'s `replace` of a child, which takes both tails along. -/
def swap (old new : Nat) : List Nat → List Nat
  | [] => []
  | k :: l => if k = old then new :: l else k :: swap old new l

/-- `Element.replace`, dom.py 2300-2308. -/
def replace (st : St) (old new : Nat) : Py St :=
  if old ∈ st.kids then
    if old = new then .ok st else .ok { st with kids := swap old new (st.kids.erase new) }
  else .error (.dom "NotFoundError")

/-- `lxml.etree.ElementBase.insert` at a position counted from 0, dom.py 2146-2153. -/
def insert (st : St) (i : Nat) (n : Nat) : St :=
  match st.kids[i]? with
  | none => lxmlAppend st n
  | some k => addprevious st k n

/-! ### Text content -/

mutual
/-- An element with its name, its text and its children. -/
inductive Tree
  | elem (name : String) (text : Option Str) (kids : Kids)

/-- Children, each with its tail: elements, and comments or processing instructions. -/
inductive Kids
  | nil
  | other (tail : Option Str) (rest : Kids)
  | cons (t : Tree) (tail : Option Str) (rest : Kids)
end

/-- The local name. -/
def Tree.name : Tree → String
  | .elem n _ _ => n

/-- `Element.DESCRIPTIVE_ELEMENTS`, dom.py 1354. -/
def descriptive : List String := ["desc", "metadata", "title"]

/-- `Element.TEXT_CONTENT_ELEMENTS`, dom.py 1383. -/
def textElements : List String := ["text", "tspan"]

/-- `Element.TEXT_CONTENT_CHILD_ELEMENTS`, dom.py 1386. -/
def textChildElements : List String := ["textPath", "tspan"]

mutual
/-- `Element._get_text_content`, dom.py 1547-1563. -/
def getText : Tree → List Str
  | .elem _ text kids => text.toList ++ getKids kids

/-- The loop over the children. -/
def getKids : Kids → List Str
  | .nil => []
  | .other _ rest => getKids rest
  | .cons t tail rest =>
    (if t.name ∈ textElements then
      getText t ++ (if t.name ∈ textChildElements then tail.toList else [])
    else []) ++ getKids rest
end

/-- `text_content`, dom.py 1529-1539. -/
def textContent : Tree → Option Str
  | .elem n text kids =>
    if n ∈ descriptive then text
    else if n ∈ textElements then some (getText (.elem n text kids)).flatten
    else none

/-- The loop of the `text_content` setter, dom.py 1543-1544; lxml's iterator has fetched the
next child before the current one is removed. -/
def removeAll : Kids → Kids
  | .nil => .nil
  | .other _ rest => removeAll rest
  | .cons _ _ rest => removeAll rest

/-- The `text_content` setter, dom.py 1541-1545. -/
def setTextContent (s : Option Str) : Tree → Tree
  | .elem n _ kids => .elem n s (removeAll kids)

end SvgPy.Content
