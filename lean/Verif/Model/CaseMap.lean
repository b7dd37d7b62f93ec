import Verif.Model.Py
import Verif.Model.PyDict

/-!
Model of `CaseInsensitiveMapping`, `/repo/svgpy/utils.py` 258-303.

The keys are an arbitrary type `κ`; `low` stands for `_convert_key`
(utils.py 292-294: `str.lower()` on strings, identity on other keys), which only
needs to be some function.
-/

namespace SvgPy.CaseMap

variable {κ β : Type} [DecidableEq κ]

/-- The two dictionaries, utils.py 260-262. -/
structure CMap (κ β : Type) where
  data : Dict κ β
  keys : Dict κ κ

/-- An empty mapping, utils.py 260-263. -/
def CMap.empty : CMap κ β := ⟨[], []⟩

/-- `__contains__`, utils.py 265-267. -/
def CMap.contains (low : κ → κ) (m : CMap κ β) (k : κ) : Bool := Dict.contains m.keys (low k)

/-- `__getitem__`, utils.py 274-276. -/
def CMap.getitem (low : κ → κ) (m : CMap κ β) (k : κ) : Py β :=
  match Dict.get? m.keys (low k) with
  | none => .error .keyError
  | some o =>
    match Dict.get? m.data o with
    | none => .error .keyError
    | some v => .ok v

/-- `__delitem__`, utils.py 269-272. -/
def CMap.delitem (low : κ → κ) (m : CMap κ β) (k : κ) : Py (CMap κ β) :=
  match Dict.get? m.keys (low k) with
  | none => .error .keyError
  | some o =>
    if Dict.contains m.data o then .ok ⟨Dict.del m.data o, Dict.del m.keys (low k)⟩
    else .error .keyError

/-- `__setitem__`, utils.py 287-290 (`setdefault` on `_keys`). -/
def CMap.setitem (low : κ → κ) (m : CMap κ β) (k : κ) (v : β) : CMap κ β :=
  match Dict.get? m.keys (low k) with
  | some o => ⟨Dict.set m.data o v, m.keys⟩
  | none => ⟨Dict.set m.data k v, Dict.set m.keys (low k) k⟩

/-- `__iter__`/`keys`, utils.py 278-279 and 299-300. -/
def CMap.iter (m : CMap κ β) : List κ := Dict.keys m.data

/-- `__len__`, utils.py 281-282. -/
def CMap.len (m : CMap κ β) : Nat := m.data.length

/-- `items`, utils.py 296-297. -/
def CMap.items (m : CMap κ β) : List (κ × β) := m.data

/-- Inherited `MutableMapping.pop(key)` (no default). -/
def CMap.pop (low : κ → κ) (m : CMap κ β) (k : κ) : Py (β × CMap κ β) := do
  let v ← m.getitem low k
  let m' ← m.delitem low k
  pure (v, m')

/-- Inherited `MutableMapping.setdefault`. -/
def CMap.setdefault (low : κ → κ) (m : CMap κ β) (k : κ) (v : β) : β × CMap κ β :=
  match m.getitem low k with
  | .ok v' => (v', m)
  | .error _ => (v, m.setitem low k v)

/-- Inherited `MutableMapping.popitem`: takes the first key of the iteration. -/
def CMap.popitem (low : κ → κ) (m : CMap κ β) : Py ((κ × β) × CMap κ β) :=
  match m.iter with
  | [] => .error .keyError
  | k :: _ => do
    let v ← m.getitem low k
    let m' ← m.delitem low k
    pure ((k, v), m')

/-- Inherited `MutableMapping.update` with pairs (also used by the constructor,
utils.py 263). -/
def CMap.update (low : κ → κ) (m : CMap κ β) (ps : List (κ × β)) : CMap κ β :=
  ps.foldl (fun m p => m.setitem low p.1 p.2) m

/-- Inherited `MutableMapping.clear`: `popitem` until it raises `KeyError`.
The recursion counts the entries down; `popitem` removes exactly one. -/
def CMap.clear (low : κ → κ) : Nat → CMap κ β → CMap κ β
  | 0, m => m
  | n + 1, m =>
    match m.popitem low with
    | .ok (_, m') => CMap.clear low n m'
    | .error _ => m

end SvgPy.CaseMap
