import Verif.Model.Py
import Verif.Model.PyStr

/-! Attribute objects and attribute maps, `/repo/svgpy/dom.py` 353-552 (`NamedNodeMap`), 873-1051
(`Attr`), 1395-1416, 1760-1778, 2255-2384 (`Element`).

Elements and attribute objects are numbers.  Names are names of the form `local` or
`{namespace}local`, which `QualifiedName` leaves as they are, see `Verif/Model/QName.lean`.
Elements keep their map of attribute objects as long as they live (dom.py 1397).  The order of
attributes is not modelled. -/

namespace SvgPy.AttrMap

/-- An `Attr` object: `_qualified_name`, `_value`, `_owner_element`, dom.py 893-905. -/
structure Obj where
  name : Str
  value : Option Str
  owner : Option Nat

/-- The attribute objects (those below `next` exist), the attributes of the elements
(`element.attrib`) and the objects in their maps (`_attr_map`). -/
structure St where
  next : Nat
  obj : Nat → Obj
  attrib : Nat → Str → Option Str
  map : Nat → Str → Option Nat

/-- Assignment at one place of a function. -/
def upd {α β : Type} [DecidableEq α] (f : α → β) (a : α) (b : β) : α → β := fun x => if x = a then b else f x

/-- `element.set(name, value)` of lxml, or `del element.attrib[name]` for `none`. -/
def setAttrib (st : St) (e : Nat) (n : Str) (v : Option Str) : St :=
  { st with attrib := upd st.attrib e (upd (st.attrib e) n v) }

/-- An assignment to the fields of an object. -/
def setObj (st : St) (a : Nat) (o : Obj) : St := { st with obj := upd st.obj a o }

/-- An assignment to `_attr_map[name]`, or its removal. -/
def setMap (st : St) (e : Nat) (n : Str) (a : Option Nat) : St :=
  { st with map := upd st.map e (upd (st.map e) n a) }

/-- `Attr.value`, dom.py 994-999. -/
def getValue (st : St) (a : Nat) : Option Str :=
  match (st.obj a).owner with
  | some e => st.attrib e (st.obj a).name
  | none => (st.obj a).value

/-- `Attr.value` setter, dom.py 1001-1010. -/
def setValue (st : St) (a : Nat) (v : Option Str) : St :=
  match (st.obj a).owner with
  | some e =>
    match v with
    | none => setAttrib st e (st.obj a).name none
    | some s => if s.length = 0 then setAttrib st e (st.obj a).name none else setAttrib st e (st.obj a).name (some s)
  | none => setObj st a { st.obj a with value := v }

/-- `Attr.attach_element` for an object without an element, dom.py 1022-1038. -/
def attach (st : St) (a e : Nat) : St :=
  match (st.obj a).owner with
  | some _ => st
  | none =>
    match (st.obj a).value with
    | none => setObj st a { st.obj a with value := none, owner := some e }
    | some v => setValue (setObj st a { st.obj a with value := none, owner := some e }) a (some v)

/-- `Attr.detach_element`, dom.py 1040-1051. -/
def detach (st : St) (a : Nat) : St :=
  match (st.obj a).owner with
  | none => st
  | some _ => setObj st a { st.obj a with value := getValue st a, owner := none }

/-- The object of an entry is detached, if there is one, and the entry is removed. -/
def popEntry (st : St) (e : Nat) (n : Str) : St :=
  match st.map e n with
  | none => st
  | some a => detach (setMap st e n none) a

/-- `Attr(None, name, owner_element=element)`, dom.py 876-905, put into the map: dom.py 460-463. -/
def newEntry (st : St) (e : Nat) (n : Str) : St :=
  setMap (setObj { st with next := st.next + 1 } st.next ⟨n, none, some e⟩) e n (some st.next)

/-- `_set_default_named_item`, dom.py 453-464. -/
def setDefault (st : St) (e : Nat) (n : Str) : St :=
  match st.map e n with
  | some a => if st.attrib e n = none then setMap (detach st a) e n none else st
  | none => if st.attrib e n = none then st else newEntry st e n

/-- `NamedNodeMap.__getitem__`, dom.py 387-402: the object, or KeyError. -/
def getItem (st : St) (e : Nat) (n : Str) : St × Py Nat :=
  if st.attrib e n = none then (popEntry st e n, .error .keyError)
  else
    match (setDefault st e n).map e n with
    | some a => (setDefault st e n, .ok a)
    | none => (setDefault st e n, .error .keyError)

/-- `NamedNodeMap.get` of `MutableMapping`. -/
def get (st : St) (e : Nat) (n : Str) : St × Option Nat :=
  match getItem st e n with
  | (st', .ok a) => (st', some a)
  | (st', .error _) => (st', none)

/-- `NamedNodeMap.__delitem__`, dom.py 374-385. -/
def delItem (st : St) (e : Nat) (n : Str) : St × Option PyErr :=
  if st.attrib e n = none then (popEntry st e n, some .keyError)
  else (setAttrib (popEntry st e n) e n none, none)

/-- `NamedNodeMap.__setitem__` with a string or None, dom.py 421-427. -/
def setItemStr (st : St) (e : Nat) (n : Str) (v : Option Str) : St :=
  match v with
  | none => if st.attrib e n = none then st else (delItem st e n).1
  | some s =>
    if s.length = 0 then (if st.attrib e n = none then st else (delItem st e n).1)
    else setDefault (setAttrib st e n (some s)) e n

/-- `NamedNodeMap.__setitem__` with an attribute object, dom.py 428-444. -/
def setItemAttr (st : St) (e : Nat) (n : Str) (a : Nat) : St × Option PyErr :=
  if n ≠ (st.obj a).name then (st, some .valueError)
  else match (st.obj a).owner with
    | some e' => if e' ≠ e then (st, some (.dom "InUseAttributeError")) else (st, none)
    | none =>
      match getValue st a with
      | none => if st.attrib e n = none then (st, none) else delItem st e n
      | some s =>
        if s.length = 0 then (if st.attrib e n = none then (st, none) else delItem st e n)
        else
          match st.map e n with
          | none => (setMap (attach st a e) e n (some a), none)
          | some old => (setMap (attach (detach st old) a e) e n (some a), none)

/-- `set_named_item`, dom.py 531-552: what is returned is the former object. -/
def setNamedItem (st : St) (e a : Nat) : St × Option Nat × Option PyErr :=
  match get st e (st.obj a).name with
  | (st', old) =>
    match setItemAttr st' e (st'.obj a).name a with
    | (st'', err) => (st'', old, err)

/-- `remove_named_item`, dom.py 506-529. -/
def removeNamedItem (st : St) (e : Nat) (n : Str) : St × Py Nat :=
  match getItem st e n with
  | (st', .error err) => (st', .error err)
  | (st', .ok a) => ((delItem st' e n).1, .ok a)

/-- `Element.remove_attribute`, dom.py 2253-2259. -/
def removeAttribute (st : St) (e : Nat) (n : Str) : St :=
  match removeNamedItem st e n with
  | (st', .error _) => st'
  | (st', .ok a) => detach st' a

/-- `Element.toggle_attribute`, dom.py 2363-2384. -/
def toggleAttribute (st : St) (e : Nat) (n : Str) (force : Option Bool) : St × Bool :=
  if st.attrib e n ≠ none then
    if force = none ∨ force = some false then (removeAttribute st e n, false) else (st, true)
  else if force = none ∨ force = some true then (setAttrib st e n (some []), true)
  else (st, false)

/-- `Attr(None, name, value)`, dom.py 876-905. -/
def newAttr (st : St) (n : Str) (v : Str) : St :=
  setObj { st with next := st.next + 1 } st.next ⟨n, some v, none⟩

/-- `Attr(None, name, value, owner_element=element)`, dom.py 876-905: nothing is put into the
map of the element. -/
def newOwned (st : St) (e : Nat) (n : Str) (v : Str) : St :=
  setValue (setObj { st with next := st.next + 1 } st.next ⟨n, some v, some e⟩) st.next (some v)

/-- What programs can do with elements and attribute objects. -/
inductive Cmd
  | newAttr (n v : Str)
  | lxmlSet (e : Nat) (n v : Str)
  | lxmlDel (e : Nat) (n : Str)
  | setValue (a : Nat) (v : Option Str)
  | get (e : Nat) (n : Str)
  | setItemStr (e : Nat) (n : Str) (v : Option Str)
  | setItemAttr (e : Nat) (n : Str) (a : Nat)
  | delItem (e : Nat) (n : Str)
  | setNamedItem (e a : Nat)
  | removeNamedItem (e : Nat) (n : Str)
  | removeAttribute (e : Nat) (n : Str)
  | toggleAttribute (e : Nat) (n : Str) (force : Option Bool)

/-- One of them; exceptions are caught by the caller.  Objects that do not exist yet cannot be
used. -/
def exec (st : St) : Cmd → St
  | .newAttr n v => newAttr st n v
  | .lxmlSet e n v => setAttrib st e n (some v)
  | .lxmlDel e n => setAttrib st e n none
  | .setValue a v => if a < st.next then setValue st a v else st
  | .get e n => (get st e n).1
  | .setItemStr e n v => setItemStr st e n v
  | .setItemAttr e n a => if a < st.next then (setItemAttr st e n a).1 else st
  | .delItem e n => (delItem st e n).1
  | .setNamedItem e a => if a < st.next then (setNamedItem st e a).1 else st
  | .removeNamedItem e n => (removeNamedItem st e n).1
  | .removeAttribute e n => removeAttribute st e n
  | .toggleAttribute e n f => (toggleAttribute st e n f).1

/-- Elements straight from the parser: attributes, and no objects but those of the attributes,
which are made on demand here (`NamedNodeMap.__init__`, dom.py 363-369, makes them at once). -/
def initial (attrib : Nat → Str → Option Str) : St := ⟨0, fun _ => ⟨[], none, none⟩, attrib, fun _ _ => none⟩

end SvgPy.AttrMap
