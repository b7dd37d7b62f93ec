import Verif.Model.TextContent
import Verif.Model.Py

/-! The characters of text elements:
`SVGTextContentElement._get_descendant_chars`, `_get_descendant_chars_info`, `get_chars` and
`get_number_of_chars`, `/repo/svgpy/text.py` 51-158, 610-657. -/

namespace SvgPy.TextChars

open SvgPy.TextContent

/-- What kind of node: the elements `text`, `tspan` and `textPath`, other elements, and comments
and processing instructions. -/
inductive Kind
  | text | tspan | textPath | other | nonElement
  deriving DecidableEq

/-- What the code asks of a node: `local_name` and `node_type`, `hash()`, `isdisplay()`, the
computed `white-space`, `text` and `tail`. -/
structure Info where
  kind : Kind
  id : Nat
  display : Bool
  ws : WhiteSpace
  text : Option Str
  tail : Option Str

/-- The children of a node: the first one with its children, and the following ones. -/
inductive Nodes
  | nil
  | cons (a : Info) (children next : Nodes)

/-- `TEXT_CONTENT_ELEMENTS`, dom.py 1383. -/
def istext (k : Kind) : Bool := k == .text || k == .tspan

/-- `TEXT_CONTENT_CHILD_ELEMENTS`, dom.py 1386. -/
def istextChild (k : Kind) : Bool := k == .textPath || k == .tspan

/-- Items of `chars_info`: the element and the text. -/
abbrev Chunk := Nat × Str

/-- `chars_info` so far, `prev_text` and `first`. -/
structure St where
  out : List Chunk
  prev : Option Str
  first : Bool

/-- Text that is added, text.py 83-98 and 115-130: `id` and `ws` are those of the element. -/
def emit (lib : Lib) (id : Nat) (ws : WhiteSpace) (t : Option Str) (s : St) : St :=
  match t with
  | none => s
  | some t =>
    let o := normalizeText lib ws t s.prev s.first false
    if o = [] then s else ⟨s.out ++ [(id, o)], some o, false⟩

/-- After the call for a child, text.py 108-114: `len(out_text)`, and what is taken over. -/
def adopt (s : St) (r : St) : Py St :=
  match r.prev with
  | none => .error .typeError
  | some o => if o = [] then .ok s else .ok ⟨s.out ++ r.out, some o, false⟩

/-- The loop over the children, text.py 100-130, of the element `id` with `ws`.  Comments and
processing instructions have no attribute `local_name`. -/
def loop (lib : Lib) (id : Nat) (ws : WhiteSpace) : Nodes → St → Py St
  | .nil, s => .ok s
  | .cons a ch next, s =>
    if a.kind = .nonElement then .error .attributeError
    else
      (if istext a.kind && a.display then
        (loop lib a.id a.ws ch (emit lib a.id a.ws a.text ⟨[], s.prev, s.first⟩)).bind (adopt s)
      else .ok s).bind fun s => loop lib id ws next (if istextChild a.kind then emit lib id ws a.tail s else s)

/-- `_get_descendant_chars` of the root, text.py 51-132. -/
def descendantChars (lib : Lib) (a : Info) (ch : Nodes) : Py St :=
  if istext a.kind && a.display then loop lib a.id a.ws ch (emit lib a.id a.ws a.text ⟨[], none, true⟩)
  else .ok ⟨[], none, true⟩

/-- The text of the last item without white space at its end, text.py 152-155. -/
def stripLast : List Chunk → List Chunk
  | [] => []
  | [(i, t)] => [(i, PyStr.rstrip t)]
  | c :: d :: l => c :: stripLast (d :: l)

/-- `_get_descendant_chars_info` as far as texts are concerned, text.py 134-155. -/
def charsInfo (lib : Lib) (a : Info) (ch : Nodes) : Py (List Chunk) :=
  match descendantChars lib a ch with
  | .error e => .error e
  | .ok s => .ok (stripLast s.out)

/-- `get_chars` of the `text` element `a`, text.py 618-627. -/
def getChars (lib : Lib) (a : Info) (ch : Nodes) : Py Str :=
  match charsInfo lib a ch with
  | .error e => .error e
  | .ok l => .ok (l.map (·.2)).flatten

/-- `get_chars` of the `tspan` or `textPath` element `id` in the `text` element `a`, text.py 618-636. -/
def getCharsOf (lib : Lib) (a : Info) (ch : Nodes) (id : Nat) : Py (Option Str) :=
  match charsInfo lib a ch with
  | .error e => .error e
  | .ok l => .ok (((l.filter fun c => c.1 = id).map (·.2)).head?)

/-- `get_number_of_chars` of a `tspan` or `textPath`, text.py 647-657. -/
def numberOfChars (lib : Lib) (a : Info) (ch : Nodes) (id : Nat) : Py Nat :=
  match getCharsOf lib a ch id with
  | .error e => .error e
  | .ok none => .ok 0
  | .ok (some s) => .ok s.length

end SvgPy.TextChars
