/-! The documents that nodes belong to, `/repo/svgpy/dom.py` 614-628 and 671-692 (`Node`), 1209-1237,
1566-1619, 1632-1646, 1730-1739, 2146-2153, 2195-2228, 2238-2251 and 2300-2308 (`Comment`, `Element`) and
`/repo/svgpy/window.py` 237-264, 290-407, 507-521, 568-591 and 597-609 (`Document`).

Nodes, documents and files (the trees of lxml, with the comments beside their root) are numbers.  The
order of children, their types and texts are left out, since no owner depends on them.

lxml keeps nodes in C and makes a Python object for a node whenever it is reached; the object, with its
attribute `_owner_document`, lasts only as long as something refers to it.  `Step.forget` stands for this:
the next object for the node starts with `_owner_document = None` (`Node.__init__`, dom.py 564-566,
called by `_init`, 1395-1396). -/

namespace SvgPy.OwnerDoc

/-- All nodes and documents. -/
structure State where
  /-- `getparent()`. -/
  parent : Nat → Option Nat
  /-- The tree of lxml, for nodes without parent. -/
  file : Nat → Nat
  /-- `_owner_document`. -/
  stored : Nat → Option Nat
  /-- `_document_element` of the documents. -/
  root : Nat → Option Nat

/-- `x` is `y` or below it. -/
inductive Up (s : State) : Nat → Nat → Prop
  | refl (x : Nat) : Up s x x
  | step {x y z : Nat} : s.parent x = some y → Up s y z → Up s x z

/-- The loop of `owner_document`, dom.py 618-628, returns `o` for the node `x`. -/
inductive Owner (s : State) : Nat → Option Nat → Prop
  | own {x d : Nat} : s.stored x = some d → Owner s x (some d)
  | up {x y : Nat} {o : Option Nat} : s.stored x = none → s.parent x = some y → Owner s y o → Owner s x o
  | top {x : Nat} : s.stored x = none → s.parent x = none → Owner s x none

/-- `attach_document(o)` called on the node `n`, dom.py 679-682 and 1642-1646: all nodes below, with it,
are given the document, unless it is `None`. -/
def Attached (s : State) (n : Nat) (o : Option Nat) (stored : Nat → Option Nat) : Prop :=
  match o with
  | none => stored = s.stored
  | some d => ∀ x, (Up s x n → stored x = some d) ∧ (¬ Up s x n → stored x = s.stored x)

/-- A function with one value changed. -/
def set {α : Type} (f : Nat → α) (x : Nat) (v : α) : Nat → α := fun y => if y = x then v else f y

/-- No node is in the file. -/
def Fresh (s : State) (k : Nat) : Prop := ∀ x, s.file x ≠ k

/-- The operations. -/
inductive Op
  /-- `create_element`, `create_comment` and so on of a document. -/
  | create (d n : Nat)
  /-- `append`, `extend`, `insert`, `prepend` and `replace` of elements: the first node comes below the second. -/
  | into (n p : Nat)
  /-- `addnext` and `addprevious` of the second node, also by `insert_before` and the methods of documents
  that have a root (window.py 261-264, 520-521, 588-591). -/
  | beside (n m : Nat)
  /-- `remove`; also for the node replaced by `replace`. -/
  | remove (n : Nat)
  /-- `append` of a document without root. -/
  | setRoot (d n : Nat)
  /-- `remove` of the root of a document. -/
  | unsetRoot (d : Nat)
  /-- The Python object of a node is dropped. -/
  | forget (n : Nat)

/-- What the operations do. -/
inductive Step (s : State) : Op → State → Prop
  /-- window.py 339-340, 362-363, 390-391 and 406-407. -/
  | create {d n : Nat} (hp : s.parent n = none) (hc : ∀ x, s.parent x ≠ some n) (hr : ∀ d, s.root d ≠ some n) :
      Step s (.create d n) { s with stored := set s.stored n (some d) }
  /-- dom.py 1613-1614, 1737-1739, 2151-2153, 2217-2219 and 2306-2308. -/
  | into {n p : Nat} {o : Option Nat} {st : Nat → Option Nat} (h : ¬ Up s p n) (ho : Owner s p o)
      (hs : Attached s n o st) : Step s (.into n p) { s with stored := st, parent := set s.parent n (some p) }
  /-- The same with `p` below `n`: the document is attached, then lxml refuses the move. -/
  | cycle {n p : Nat} {o : Option Nat} {st : Nat → Option Nat} (h : Up s p n) (ho : Owner s p o)
      (hs : Attached s n o st) : Step s (.into n p) { s with stored := st }
  /-- dom.py 1221-1222, 1236-1237, 1578-1579 and 1593-1594. -/
  | beside {n m : Nat} {o : Option Nat} {st : Nat → Option Nat} (h : ¬ Up s m n) (ho : Owner s m o)
      (hs : Attached s n o st) :
      Step s (.beside n m)
        { s with stored := st, parent := set s.parent n (s.parent m), file := set s.file n (s.file m) }
  /-- dom.py 2238-2251. -/
  | remove {n k : Nat} (hk : Fresh s k) :
      Step s (.remove n) { s with parent := set s.parent n none, file := set s.file n k }
  /-- window.py 253-257. -/
  | setRoot {d n : Nat} {st : Nat → Option Nat} (h : s.root d = none) (hs : Attached s n (some d) st) :
      Step s (.setRoot d n) { s with stored := st, root := set s.root d (some n) }
  /-- window.py 604-607. -/
  | unsetRoot {d : Nat} : Step s (.unsetRoot d) { s with root := set s.root d none }
  /-- A document keeps the object of its root. -/
  | forget {n : Nat} (h : ∀ d, s.root d ≠ some n) : Step s (.forget n) { s with stored := set s.stored n none }

/-- Executions. -/
inductive Steps : State → List Op → State → Prop
  | nil (s : State) : Steps s [] s
  | cons {s t u : State} {op : Op} {ops : List Op} : Step s op t → Steps t ops u → Steps s (op :: ops) u

end SvgPy.OwnerDoc
