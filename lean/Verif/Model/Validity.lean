import Verif.Model.Py
import Verif.Model.PyStr

/-!
The checks before nodes are inserted or removed, and what the methods of
attributes, comments, processing instructions and elements do with them:
`/repo/svgpy/dom.py` 48-88, 694-723, 1012-1092, 1209-1330, 1566-1619, 1730-1739,
2146-2153, 2195-2228, 2238-2251, 2300-2308, 2511-2632; the exceptions of
`/repo/svgpy/exception.py` 16-82 and 193-213.

Simplified: nodes are numbers; of the tree the kinds, the lists of children,
the text of an element before its first child and the owner documents are
kept.  What lxml does when it is asked to move a node, to write into the tail
of a node, to insert or to remove is a parameter (`Lxml`), so that the theorems
hold whatever it does.  Messages of the exceptions are left out.
-/

namespace SvgPy.Validity

/-- `Node.node_type`, for the classes of nodes that the package has
(dom.py 558-562). -/
inductive Kind where
  | element | attr | pi | comment | document
deriving DecidableEq, Repr

/-- The part of the state of a tree that the methods touch. -/
structure Tree where
  kind : Nat → Kind
  kids : Nat → List Nat
  text : Nat → Str
  owner : Nat → Option Nat

/-- lxml's own methods, which the methods of the package call by `super()`,
and `node_append_data`/`node_prepend_data` on the tail of a node
(dom.py 48-57 and 80-88). -/
structure Lxml where
  append : Tree → Nat → Nat → Py Tree
  extend : Tree → Nat → List Nat → Py Tree
  insert : Tree → Nat → Int → Nat → Py Tree
  remove : Tree → Nat → Nat → Py Tree
  replace : Tree → Nat → Nat → Nat → Py Tree
  addnext : Tree → Nat → Nat → Py Tree
  addprevious : Tree → Nat → Nat → Py Tree
  parent : Tree → Nat → Option Nat
  next : Tree → Nat → Option Nat
  tailAppend : Tree → Nat → Str → Tree
  tailPrepend : Tree → Nat → Str → Tree

/-- What a method leaves: how it ended, and the tree. -/
abbrev Res := Py Unit × Tree

/-- The exception raised for operations that the tree does not allow. -/
def hierarchy : PyErr := .dom "HierarchyRequestError"

/-- The exception raised for a child that is not there. -/
def notFound : PyErr := .dom "NotFoundError"

/-- `Node.ensure_pre_insertion_validity`, dom.py 694-712.  `child not in self`
is lxml's membership test: the node is in the list of children. -/
def preInsert (t : Tree) (self node : Nat) (child : Option Nat) : Py Unit :=
  if t.kind self ∉ [Kind.document, Kind.element] then .error hierarchy
  else if child.any (fun c => decide (c ∉ t.kids self)) then .error notFound
  else if t.kind node ∉ [Kind.element, Kind.pi, Kind.comment] then .error hierarchy
  else .ok ()

/-- `Node.ensure_pre_remove_validity`, dom.py 714-723. -/
def preRemove (t : Tree) (self child : Nat) : Py Unit :=
  if t.kind self ∉ [Kind.document, Kind.element] then .error hierarchy
  else if child ∉ t.kids self then .error notFound
  else .ok ()

/-- `node.attach_document(self.owner_document)` as far as it is seen here:
the owner document of the node is that of this node. -/
def attach (t : Tree) (node : Nat) (doc : Option Nat) : Tree :=
  { t with owner := fun i => if i = node then doc else t.owner i }

/-- The methods of a node that take nodes in or out. -/
inductive Op where
  | append (node : Nat)
  | appendChild (node : Nat)
  | extend (nodes : List Nat)
  | insert (index : Int) (node : Nat)
  | insertBefore (node : Nat) (child : Option Nat)
  | remove (node : Nat)
  | removeChild (node : Nat)
  | replace (old new : Nat)
  | replaceChild (node child : Nat)

/-- The loop of `Comment.extend`, dom.py 1256-1262. -/
def checkAll (t : Tree) (self : Nat) : List Nat → Py Unit
  | [] => .ok ()
  | n :: ns =>
    match preInsert t self n none with
    | .error e => .error e
    | .ok _ => checkAll t self ns

/-- A check followed by another. -/
def both (a b : Py Unit) : Py Unit :=
  match a with
  | .error e => .error e
  | .ok _ => b

/-- The methods of `Comment` (dom.py 1239-1330), of `ProcessingInstruction`
(dom.py 2541-2632) and, as far as it has them, of `Attr`
(dom.py 1012-1092): they make the checks and nothing else. -/
def leaf (t : Tree) (self : Nat) : Op → Res
  | .append n => (preInsert t self n none, t)
  | .appendChild n => (preInsert t self n none, t)
  | .extend ns => (checkAll t self ns, t)
  | .insert _ n => (preInsert t self n none, t)
  | .insertBefore n c => (preInsert t self n c, t)
  | .remove n => (preRemove t self n, t)
  | .removeChild n => (preRemove t self n, t)
  | .replace o n => (both (preInsert t self n (some o)) (preRemove t self o), t)
  | .replaceChild n c => (both (preInsert t self n (some c)) (preRemove t self c), t)

/-- The outcome of a call of lxml. -/
def called (t : Tree) : Py Tree → Res
  | .error e => (.error e, t)
  | .ok t' => (.ok (), t')

/-- `addnext` of comments (dom.py 1209-1222), elements (1566-1579) and
processing instructions (2511-2524). -/
def addNext (lx : Lxml) (t : Tree) (self node : Nat) : Res :=
  if t.kind node ∉ [Kind.element, Kind.pi, Kind.comment] then (.error hierarchy, t)
  else
    let t := attach t node (t.owner self)
    called t (lx.addnext t self node)

/-- `addprevious`, dom.py 1224-1237, 1581-1594 and 2526-2539. -/
def addPrevious (lx : Lxml) (t : Tree) (self node : Nat) : Res :=
  if t.kind node ∉ [Kind.element, Kind.pi, Kind.comment] then (.error hierarchy, t)
  else
    let t := attach t node (t.owner self)
    called t (lx.addprevious t self node)

/-- An argument of `append` and `prepend`. -/
inductive Item where
  | str (s : Str)
  | node (n : Nat)

/-- `node_append_data(target, data, tail)`: into the text of this element when
no node has been added yet, else into the tail of the last one. -/
def appendData (lx : Lxml) (t : Tree) (self : Nat) (target : Option Nat) (data : Str) : Tree :=
  match target with
  | none => { t with text := fun i => if i = self then t.text i ++ data else t.text i }
  | some n => lx.tailAppend t n data

/-- `node_prepend_data(target, data, tail)`. -/
def prependData (lx : Lxml) (t : Tree) (self : Nat) (target : Option Nat) (data : Str) : Tree :=
  match target with
  | none => { t with text := fun i => if i = self then data ++ t.text i else t.text i }
  | some n => lx.tailPrepend t n data

/-- The loop of `Element.append`, dom.py 1604-1619. -/
def appendLoop (lx : Lxml) (self : Nat) : List Item → Str → Option Nat → Tree → Res
  | [], data, target, t =>
    (.ok (), if data.length > 0 then appendData lx t self target data else t)
  | .str s :: rest, data, target, t => appendLoop lx self rest (data ++ s) target t
  | .node n :: rest, data, target, t =>
    match preInsert t self n none with
    | .error e => (.error e, t)
    | .ok _ =>
      let t := if data.length > 0 then appendData lx t self target data else t
      let t := attach t n (t.owner self)
      match lx.append t self n with
      | .error e => (.error e, t)
      | .ok t' => appendLoop lx self rest [] (some n) t'

/-- `Element.append`, dom.py 1596-1619. -/
def append (lx : Lxml) (t : Tree) (self : Nat) (items : List Item) : Res :=
  appendLoop lx self items [] none t

/-- `Element.append_child`, dom.py 1621-1630. -/
def appendChild (lx : Lxml) (t : Tree) (self node : Nat) : Res :=
  append lx t self [.node node]

/-- The loop of `Element.prepend` and what follows it, dom.py 2207-2228:
`text` is the text that the element had. -/
def prependLoop (lx : Lxml) (self : Nat) (text : Str) :
    List Item → Str → Option Nat → Option Nat → Tree → Res
  | [], data, target, _, t =>
    let t := if data.length > 0 then prependData lx t self target data else t
    (.ok (), if text.length > 0 then appendData lx t self target text else t)
  | .str s :: rest, data, target, first, t =>
    prependLoop lx self text rest (data ++ s) target first t
  | .node n :: rest, data, target, first, t =>
    match preInsert t self n none with
    | .error e => (.error e, t)
    | .ok _ =>
      let t := if data.length > 0 then prependData lx t self target data else t
      let t := attach t n (t.owner self)
      match first with
      | none =>
        match lx.append t self n with
        | .error e => (.error e, t)
        | .ok t' => prependLoop lx self text rest [] (some n) (some n) t'
      | some f =>
        match addPrevious lx t f n with
        | (.error e, t') => (.error e, t')
        | (.ok _, t') => prependLoop lx self text rest [] (some n) (some f) t'

/-- `Element.prepend`, dom.py 2195-2228: the text of the element is taken away
before the first node is looked at. -/
def prepend (lx : Lxml) (t : Tree) (self : Nat) (items : List Item) : Res :=
  let first := (t.kids self).head?
  let text := t.text self
  let t := if text.length > 0 then
      { t with text := fun i => if i = self then [] else t.text i } else t
  prependLoop lx self text items [] none first t

/-- An iterable: its items, and whether it can be read only once, like a
generator. -/
structure Iter where
  items : List Nat
  once : Bool

/-- What a second loop over an iterable gives. -/
def Iter.again (i : Iter) : List Nat := if i.once then [] else i.items

/-- The loop of `Element.extend`, dom.py 1736-1738. -/
def extendLoop (self : Nat) (doc : Option Nat) : List Nat → Tree → Res
  | [], t => (.ok (), t)
  | n :: ns, t =>
    match preInsert t self n none with
    | .error e => (.error e, t)
    | .ok _ => extendLoop self doc ns (attach t n doc)

/-- `Element.extend`, dom.py 1730-1739. -/
def extend (lx : Lxml) (t : Tree) (self : Nat) (nodes : Iter) : Res :=
  match extendLoop self (t.owner self) nodes.items t with
  | (.error e, t) => (.error e, t)
  | (.ok _, t) => called t (lx.extend t self nodes.again)

/-- `Element.insert`, dom.py 2146-2153. -/
def insert (lx : Lxml) (t : Tree) (self : Nat) (index : Int) (node : Nat) : Res :=
  match preInsert t self node none with
  | .error e => (.error e, t)
  | .ok _ =>
    let t := attach t node (t.owner self)
    called t (lx.insert t self index node)

/-- `Element.insert_before`, dom.py 2155-2165, with `node_insert_before`,
dom.py 59-77. -/
def insertBefore (lx : Lxml) (t : Tree) (self node : Nat) (child : Option Nat) : Res :=
  match preInsert t self node child with
  | .error e => (.error e, t)
  | .ok _ =>
    let ref := if child = some node then lx.next t node else child
    match ref with
    | none => append lx t self [.node node]
    | some r => addPrevious lx t r node

/-- The last two lines of `Element.remove`, dom.py 2250-2251. -/
def removeNode (lx : Lxml) (t : Tree) (self node : Nat) : Res :=
  match preRemove t self node with
  | .error e => (.error e, t)
  | .ok _ => called t (lx.remove t self node)

/-- `Element.remove`, dom.py 2238-2251, and `remove_child`, 2289-2298, which
calls it: without a node the element itself is removed from its parent. -/
def remove (lx : Lxml) (t : Tree) (self : Nat) (node : Option Nat) : Res :=
  match node with
  | none =>
    match lx.parent t self with
    | none => (.ok (), t)
    | some p => removeNode lx t p self
  | some n => removeNode lx t self n

/-- `Element.replace`, dom.py 2300-2308, and `replace_child`, 2310-2320. -/
def replace (lx : Lxml) (t : Tree) (self old new : Nat) : Res :=
  match both (preInsert t self new (some old)) (preRemove t self old) with
  | .error e => (.error e, t)
  | .ok _ =>
    let t := attach t new (t.owner self)
    called t (lx.replace t self old new)

/-- The constants of `DOMException`, exception.py 19-43, by the names that
`_error_names_map` gives them, exception.py 193-213. -/
def errorNames : List (String × Nat) :=
  [("HierarchyRequestError", 3), ("WrongDocumentError", 4), ("InvalidCharacterError", 5),
   ("NoModificationAllowedError", 7), ("NotFoundError", 8), ("NotSupportedError", 9),
   ("InUseAttributeError", 10), ("InvalidStateError", 11), ("SyntaxError", 12),
   ("InvalidModificationError", 13), ("NamespaceError", 14), ("SecurityError", 18),
   ("NetworkError", 19), ("AbortError", 20), ("URLMismatchError", 21),
   ("QuotaExceededError", 22), ("TimeoutError", 23), ("InvalidNodeTypeError", 24),
   ("DataCloneError", 25)]

/-- The arguments of `DOMException(*args, message=…, name=…)`: the positional
ones already turned into strings, the class called (`none` for `DOMException`
itself) and the keywords. -/
structure Call where
  cls : Option String
  args : List String
  message : Option String
  name : Option String
  other : Bool

/-- What can be read of an exception: `name`, `code` and `message`. -/
structure Exc where
  name : String
  code : Nat
  message : String
deriving DecidableEq

/-- `DOMException.__init__`, exception.py 45-62. -/
def make (c : Call) : Py Exc :=
  let message := c.message.getD ""
  let name := c.name.getD "Error"
  if c.other then .error .typeError
  else
    let message := if message = "" ∧ c.args ≠ [] then " ".intercalate c.args else message
    let name := match c.cls with | some k => k | none => name
    .ok { name := name, code := (errorNames.lookup name).getD 0, message := message }

end SvgPy.Validity
