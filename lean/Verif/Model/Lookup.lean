import Verif.Model.PyStr

/-!
Lookups by id, class and name: `get_element_by_id`, `get_elements_by_class_name`,
`get_elements_by_tag_name` and `get_elements_by_tag_name_ns`, `/repo/svgpy/utils.py` 72-170,
`Element.get_elements_by_local_name`, `/repo/svgpy/dom.py` 2063-2074, and the methods that call them
(dom.py 2049-2103, element.py 890-952, window.py 428-497).

The functions put together an XPath expression and have lxml evaluate it. Of XPath the model has the
axes `descendant` and `descendant-or-self` with the test `*`, the comparisons, and `re:test`, which
lxml does with `re.search`. An element is known by its path, the list of the indexes of the children
that leads to it.
-/

namespace SvgPy.Lookup

/-- What the expressions ask of an element: `name()`, `namespace-uri()`, `local-name()`, `@id` and
`@class`. -/
structure Info where
  pfx : Option Str
  ns : Option Str
  name : Str
  id : Option Str
  cls : Option Str
  deriving DecidableEq

/-- The children of a node: an element with its children and the following ones, or a comment or
processing instruction and the following ones. -/
inductive Nodes
  | nil
  | elem (a : Info) (children next : Nodes)
  | other (next : Nodes)

/-- An element with its children. -/
structure Root where
  info : Info
  children : Nodes

/-- The axis `descendant::*` in document order; the nodes are the children of the node at `p`
from the index `i` on. It models libxml2, for utils.py 105-108. -/
def below (p : List Nat) (i : Nat) : Nodes → List (List Nat × Info)
  | .nil => []
  | .elem a ch next => (p ++ [i], a) :: (below (p ++ [i]) 0 ch ++ below p (i + 1) next)
  | .other next => below p (i + 1) next

/-- `descendant::*` or `descendant-or-self::*`, utils.py 105-108, 131-134 and 154-157. -/
def axis (self : Bool) (r : Root) : List (List Nat × Info) :=
  if self then ([], r.info) :: below [] 0 r.children else below [] 0 r.children

/-- `element.xpath('<axis>::*[<test>]')`. -/
def xpath (self : Bool) (test : Info → Bool) (r : Root) : List (List Nat) :=
  ((axis self r).filter (fun x => test x.2)).map (·.1)

/-- `name()`: the name with the prefix. -/
def qname (a : Info) : Str :=
  match a.pfx with
  | none => a.name
  | some p => p ++ ':' :: a.name

/-- `get_element_by_id`, utils.py 72-87. -/
def byId (id : Str) (r : Root) : Option (List Nat) :=
  (xpath true (fun a => a.id == some id) r).head?

/-- `get_elements_by_tag_name`, utils.py 117-139. -/
def byTagName (self : Bool) (q : Str) (r : Root) : List (List Nat) :=
  if q = ['*'] then xpath self (fun _ => true) r else xpath self (fun a => qname a == q) r

/-- `get_elements_by_tag_name_ns`, utils.py 142-170. The parts of the test that are left out count
as true. `namespace-uri()` of an element without namespace is empty. -/
def byTagNameNs (self : Bool) (ns : Option Str) (l : Str) (r : Root) : List (List Nat) :=
  xpath self (fun a =>
    (match ns with
      | none => true
      | some n => n == ['*'] || a.ns.getD [] == n) &&
    (l == ['*'] || a.name == l)) r

/-- `Element.get_elements_by_local_name`, dom.py 2063-2074. -/
def byLocalName (l : Str) (r : Root) : List (List Nat) := xpath false (fun a => a.name == l) r

/-! ### Classes -/

/-- Characters with a meaning in regular expressions or XPath strings other than `.`. -/
def special (c : Char) : Bool := "\\^$*+?{}[]|()\"".toList.contains c

/-- The class name as a part of the pattern, utils.py 109: a dot is any character but the line feed.
`none` for names with other special characters, which are not modelled. -/
def compile : Str → Option (List (Char → Bool))
  | [] => some []
  | c :: s =>
    if special c then none
    else
      match compile s with
      | none => none
      | some ps => some ((if c = '.' then fun x => x != '\n' else fun x => x == c) :: ps)

/-- Characters in a row; the rest of the text. -/
def eat : List (Char → Bool) → Str → Option Str
  | [], s => some s
  | _ :: _, [] => none
  | p :: ps, x :: s => if p x then eat ps s else none

/-- `($| )`: at the end, before a line feed at the end, or at a space. -/
def closes : Option Str → Bool
  | none => false
  | some [] => true
  | some (x :: s) => x == ' ' || (x == '\n' && s.isEmpty)

/-- `(^| )name($| )` at a position. -/
def testAt (ps : List (Char → Bool)) (start : Bool) (s : Str) : Bool :=
  (start && closes (eat ps s)) ||
    (match s with
      | [] => false
      | x :: s => x == ' ' && closes (eat ps s))

/-- `re.search`. -/
def search (ps : List (Char → Bool)) : Bool → Str → Bool
  | start, [] => testAt ps start []
  | start, x :: s => testAt ps start (x :: s) || search ps false s

/-- The patterns of all names, utils.py 109. -/
def compileAll : List Str → Option (List (List (Char → Bool)))
  | [] => some []
  | n :: ns =>
    match compile n, compileAll ns with
    | some p, some ps => some (p :: ps)
    | _, _ => none

/-- `get_elements_by_class_name`, utils.py 90-114; without the attribute `@class` is empty.
`none` if a name has special characters, see `compile`. -/
def byClassName (self : Bool) (names : Str) (r : Root) : Option (List (List Nat)) :=
  if PyStr.splitWs names = [] then some []
  else
    match compileAll (PyStr.splitWs names) with
    | none => none
    | some ps => some (xpath self (fun a => ps.all (fun p => search p true (a.cls.getD []))) r)

end SvgPy.Lookup
