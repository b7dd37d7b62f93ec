import Verif.Model.Py
import Verif.Model.PyStr
import Verif.Model.PyDict

/-!
Custom properties registered with `CSS.register_property`, and the descriptor by which the value of a
property is parsed.
-/

namespace SvgPy.Registry

/-- svgpy/css/props.py 61-68 (`PropertyDescriptor.__init__`): the four arguments.  What the
constructor works out from the syntax (69-137) is the model of C109 and left out here. -/
structure Desc where
  name : Str
  inherits : Bool
  syn : Str
  initial : Option Str
deriving DecidableEq, Repr

/-- svgpy/window.py 99, 211-215 (`Document.registered_property_set`): the registered properties of each
document, by name.  Documents are numbers here. -/
abbrev State := Nat → Dict Str Desc

/-- svgpy/window.py 99: a new document has no registered properties. -/
def initial : State := fun _ => []

/-- One call `CSS.register_property(desc, context)`; `current` is `window.document` at the time of the
call. -/
structure Call where
  desc : Desc
  context : Option Nat
  current : Nat

/-- svgpy/css/__init__.py 521: `name.startswith('--')`. -/
def isCustom (n : Str) : Bool := ['-', '-'].isPrefixOf n

/-- svgpy/css/__init__.py 520-531 (`CSS.register_property`): the state afterwards and what was raised. -/
def register (s : State) (c : Call) : State × Option PyErr :=
  if !isCustom c.desc.name then (s, some .valueError)
  else
    let d := c.context.getD c.current
    if (s d).contains c.desc.name then (s, some .valueError)
    else (fun e => if e = d then (s d).set c.desc.name c.desc else s e, none)

/-- A sequence of calls: the state afterwards and what each call raised. -/
def run (s : State) : List Call → State × List (Option PyErr)
  | [] => (s, [])
  | c :: cs =>
    let r := register s c
    let q := run r.1 cs
    (q.1, r.2 :: q.2)

/-- svgpy/css/types.py 488-489 (`_parse_css_style_value`): names of custom properties keep their case.
`str.lower` on letters outside ASCII is left out. -/
def keyName (n : Str) : Str := if isCustom n then n else n.map Char.toLower

/-- svgpy/css/types.py 498-517 (`_parse_css_style_value`): the descriptor the tokens are checked against;
`none`: the tokens are kept as they are.  `hasVar`: the text has a `var(` (498); `table` is
`css_property_descriptor_map`. -/
def chosen (table registered : Dict Str Desc) (hasVar : Bool) (n : Str) : Option Desc :=
  let n := keyName n
  if hasVar || (isCustom n && !registered.contains n) then none
  else some ((table.get? n).getD ⟨n, false, ['*'], none⟩)

/-- svgpy/css/__init__.py 569-573 (`CSS.supports`), with `PropertyDescriptor.supports` as `sup`. -/
def supports (table : Dict Str Desc) (sup : Desc → Str → Bool) (n v : Str) : Bool :=
  match table.get? (n.map Char.toLower) with
  | none => false
  | some d => sup d v

end SvgPy.Registry
