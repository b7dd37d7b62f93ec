import Verif.Model.Py

/-!
Moving about in the tree of a document: `child_nodes`, `children`, `first_child`, `last_child`, `next_sibling`,
`previous_sibling`, the same for elements only, `parent_node`, `parent_element`, `get_root_node` of `Node`, `Comment`,
`ProcessingInstruction`, `Element` (`/repo/svgpy/dom.py` 573-583, 629-635, 734-736, 823-844, 1111-1114, 1148-1198,
1264-1273, 1418-1428, 1462-1512, 2105-2114, 2450-2500, 2566-2575) and `Document` (`/repo/svgpy/window.py` 111-128,
172-175, 201-209, 499-505, 536-546).

Simplifications: the trees are those of lxml, where text is no node; entity references are left out.  A node is
given by the numbers of the children on the way from it to the top, its own number first; the document itself is
the empty list.  lxml keeps comments and processing instructions around the root element as its siblings.
-/

namespace SvgPy.TreeWalk

/-- A node of lxml with the nodes below it. -/
inductive Tree
  | element (tag : Nat) (kids : List Tree)
  | comment
  | pi

/-- The nodes directly below. -/
def Tree.kids : Tree → List Tree
  | .element _ ks => ks
  | .comment => []
  | .pi => []

/-- A document: the nodes at the top, and the number of the one that is `_document_element`, window.py 91-93. -/
structure Doc where
  top : List Tree
  root : Option Nat

/-- A node: the number of the child first, then that of its parent and so on. -/
abbrev Addr := List Nat

/-- The nodes below a node. -/
def below (d : Doc) : Addr → List Tree
  | [] => d.top
  | i :: p =>
    match (below d p)[i]? with
    | some t => t.kids
    | none => []

/-- The node at a place, `none` for the document and where there is none. -/
def nodeAt (d : Doc) : Addr → Option Tree
  | [] => none
  | i :: p => (below d p)[i]?

/-- lxml: `list(self)`, the children. -/
def listOf (d : Doc) (x : Addr) : List Addr := (List.range (below d x).length).map (· :: x)

/-- lxml: `getnext()`. -/
def getnext (d : Doc) : Addr → Option Addr
  | [] => none
  | i :: p => if i + 1 < (below d p).length then some ((i + 1) :: p) else none

/-- lxml: `getprevious()`. -/
def getprevious : Addr → Option Addr
  | [] => none
  | 0 :: _ => none
  | (i + 1) :: p => some (i :: p)

/-- lxml: `itersiblings()`. -/
def following (d : Doc) : Addr → List Addr
  | [] => []
  | i :: p => (List.range' (i + 1) ((below d p).length - (i + 1))).map (· :: p)

/-- lxml: `itersiblings(preceding=True)`, the nearest first. -/
def preceding : Addr → List Addr
  | [] => []
  | i :: p => (List.range i).reverse.map (· :: p)

/-- lxml: `getparent()`; nodes at the top have none. -/
def getparent : Addr → Option Addr
  | [] => none
  | [_] => none
  | _ :: p => some p

/-- `node_type == Node.ELEMENT_NODE`, dom.py 1168-1170, 1481-1484, 2469-2472, window.py 182-185. -/
def isElement (d : Doc) (x : Addr) : Bool :=
  match nodeAt d x with
  | some (.element _ _) => true
  | _ => false

/-- `child_nodes`, dom.py 1111-1114, 1418-1421, window.py 111-121. -/
def childNodes (d : Doc) (x : Addr) : List Addr :=
  match x with
  | [] =>
    match d.root with
    | none => []
    | some r => (preceding [r]).reverse ++ [[r]] ++ following d [r]
  | _ =>
    match nodeAt d x with
    | some (.element _ _) => listOf d x
    | _ => []

/-- `children`, dom.py 1423-1428, window.py 123-128. -/
def children (d : Doc) (x : Addr) : List Addr := (childNodes d x).filter (isElement d)

/-- `child_element_count`, dom.py 823-826. -/
def childElementCount (d : Doc) (x : Addr) : Nat := (children d x).length

/-- `first_child`, dom.py 573-577. -/
def firstChild (d : Doc) (x : Addr) : Option Addr :=
  let l := childNodes d x
  if l.length = 0 then none else l[0]?

/-- `last_child`, dom.py 579-583. -/
def lastChild (d : Doc) (x : Addr) : Option Addr :=
  let l := childNodes d x
  if l.length = 0 then none else l[l.length - 1]?

/-- `first_element_child`, dom.py 834-838. -/
def firstElementChild (d : Doc) (x : Addr) : Option Addr :=
  let l := children d x
  if l.length > 0 then l[0]? else none

/-- `last_element_child`, dom.py 840-844. -/
def lastElementChild (d : Doc) (x : Addr) : Option Addr :=
  let l := children d x
  if l.length > 0 then l[l.length - 1]? else none

/-- `has_child_nodes`, dom.py 734-736. -/
def hasChildNodes (d : Doc) (x : Addr) : Bool := decide ((childNodes d x).length > 0)

/-- `next_sibling`, dom.py 1157-1160, 1471-1474, 2459-2462, window.py 172-175. -/
def nextSibling (d : Doc) (x : Addr) : Option Addr :=
  match x with
  | [] => none
  | _ => getnext d x

/-- `previous_sibling`, dom.py 1195-1198, 1509-1512, 2497-2500, window.py 206-209. -/
def previousSibling (x : Addr) : Option Addr :=
  match x with
  | [] => none
  | _ => getprevious x

/-- The loop of `next_element_sibling` and `previous_element_sibling`, dom.py 1466-1469. -/
def firstElement (d : Doc) : List Addr → Option Addr
  | [] => none
  | y :: ys => if isElement d y then some y else firstElement d ys

/-- `next_element_sibling`, dom.py 1148-1155, 1462-1469, 2450-2457. -/
def nextElementSibling (d : Doc) (x : Addr) : Option Addr := firstElement d (following d x)

/-- `previous_element_sibling`, dom.py 1186-1193, 1500-1507, 2488-2495. -/
def previousElementSibling (d : Doc) (x : Addr) : Option Addr := firstElement d (preceding x)

/-- `parent_node`, dom.py 1181-1184, 1495-1498, 2483-2486, window.py 201-204. -/
def parentNode (x : Addr) : Option Addr :=
  match x with
  | [] => none
  | _ => getparent x

/-- `parent_element`, dom.py 629-635. -/
def parentElement (d : Doc) (x : Addr) : Option Addr :=
  match parentNode x with
  | some p => if isElement d p then some p else none
  | none => none

/-- `get_root_node`, dom.py 1264-1273, 2105-2114, 2566-2575, window.py 499-505. -/
def getRootNode (d : Doc) (x : Addr) : Addr :=
  match x with
  | [] => []
  | _ =>
    match d.root with
    | some r => [r]
    | none => x

mutual
/-- lxml: `iter()` without tag. -/
def iterTree (x : Addr) : Tree → List Addr
  | .element _ ks => x :: iterTrees x 0 ks
  | .comment => [x]
  | .pi => [x]

/-- lxml: `iter()` of the children from number `i` on. -/
def iterTrees (x : Addr) (i : Nat) : List Tree → List Addr
  | [] => []
  | t :: ts => iterTree (i :: x) t ++ iterTrees x (i + 1) ts
end

/-- lxml: `node.iter(tag=tag, *tags)`: the nodes with the tag, or all. With further tags the argument `tag` is given
twice, which raises TypeError. -/
def iterNode (d : Doc) (tag : Option Nat) (tags : List Nat) (x : Addr) : Py (List Addr) :=
  if tags ≠ [] then .error .typeError
  else
    match nodeAt d x with
    | none => .ok []
    | some t =>
      match tag with
      | none => .ok (iterTree x t)
      | some g => .ok ((iterTree x t).filter fun y =>
          match nodeAt d y with
          | some (.element g' _) => decide (g' = g)
          | _ => false)

/-- The loop of `Document.iter`, window.py 541-546. -/
def iterAll (d : Doc) (tag : Option Nat) (tags : List Nat) : List Addr → Py (List Addr)
  | [] => .ok []
  | x :: xs =>
    match iterNode d tag tags x with
    | .error e => .error e
    | .ok l =>
      match iterAll d tag tags xs with
      | .error e => .error e
      | .ok r => .ok (l ++ r)

/-- `Document.iter`, window.py 536-546. -/
def documentIter (d : Doc) (tag : Option Nat) (tags : List Nat) : Py (List Addr) :=
  iterAll d tag tags (childNodes d [])

end SvgPy.TreeWalk
