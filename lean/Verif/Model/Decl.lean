import Verif.Model.Py
import Verif.Model.PyDict
import Verif.Model.CssText

/-!
Model of `CSSStyleDeclaration`, `/repo/svgpy/css/__init__.py` 1293-1583, for
blocks that are not the inline style of an element (`_inline_style` false, so
`_declarations()` is `_property_map`, lines 1370-1374).

Parameters: `low` is `str.lower`; `clean` is the passage of a value through the
tinycss2 parser and serialiser, `strip` and the lower-casing of keywords
(1433-1437, 1445-1449), with `none` when nothing is left; `SH` collects the
shorthand machinery of `css/shorthands.py`.
-/

namespace SvgPy.Decl

/-- A declaration block's contents: `{property: (value, priority)}`. -/
abbrev Decls := Dict Str (Str × Str)

/-- What the block needs from the shorthand machinery of css/shorthands.py:
`is_shorthand` (100-105), the longhands of a shorthand with nested shorthands
flattened (35-43, 107-113), `get_property_value` (73-98), `get_property_priority`
(55-71), and the longhand values a shorthand value expands to (the
`components_map` each `set_css_declaration` passes to `_set_css_declaration_map`,
in that order; exceptions of the expansion are not modelled here). -/
structure Shorthands where
  is : Str → Bool
  longhands : Str → List Str
  value : Decls → Str → Str
  priority : Decls → Str → Str
  expand : Str → Str → List (Str × Str)

/-- `Shorthand.remove_property`, css/shorthands.py 115-128. -/
def removeAll (d : Decls) : List Str → Decls
  | [] => d
  | n :: ns => removeAll (if Dict.contains d n then Dict.del d n else d) ns

/-- `_set_css_declaration_map`, css/shorthands.py 234-244. -/
def setAll (d : Decls) (p : Str) : List (Str × Str) → Decls
  | [] => d
  | (n, v) :: m => setAll (Dict.setEnd d n (v, p)) p m

/-- The block: its contents and its read-only flag, css/__init__.py 1307-1312. -/
structure Block where
  decls : Decls
  readonly : Bool

/-- `property_name.startswith('--')`. -/
def isCustom : Str → Bool
  | '-' :: '-' :: _ => true
  | _ => false

/-- The name under which a property is stored, e.g. css/__init__.py 1318-1319. -/
def canon (low : Str → Str) (n : Str) : Str := if isCustom n then n else low n

/-- `get_property_priority`, css/__init__.py 1473-1492. -/
def getPriority (low : Str → Str) (SH : Shorthands) (b : Block) (n : Str) : Str :=
  if isCustom n = false ∧ SH.is (low n) then SH.priority b.decls (low n)
  else match Dict.get? b.decls (canon low n) with
    | none => []
    | some (_, p) => p

/-- `get_property_value` (also `__getitem__`), css/__init__.py 1494-1513, 1325-1326. -/
def getValue (low : Str → Str) (SH : Shorthands) (b : Block) (n : Str) : Str :=
  if isCustom n = false ∧ SH.is (low n) then SH.value b.decls (low n)
  else match Dict.get? b.decls (canon low n) with
    | none => []
    | some (v, _) => v

/-- `__contains__`, css/__init__.py 1317-1320. -/
def contains (low : Str → Str) (b : Block) (n : Str) : Bool := Dict.contains b.decls (canon low n)

/-- `keys`/`__iter__`, css/__init__.py 1328-1329, 1522-1523. -/
def keys (b : Block) : List Str := Dict.keys b.decls

/-- `item(index)` for a non-negative index, css/__init__.py 1515-1517. -/
def item (b : Block) (i : Nat) : Py Str :=
  match (keys b)[i]? with
  | none => .error .indexError
  | some k => .ok k

/-- `__len__`/`length`, css/__init__.py 1331-1332, 1352-1355. -/
def length (b : Block) : Nat := b.decls.length

/-- `remove_property` (also `__delitem__`), css/__init__.py 1525-1547, 1322-1323: the removed
value and the new block. -/
def removeProperty (low : Str → Str) (SH : Shorthands) (b : Block) (n : Str) : Py (Str × Block) :=
  if b.readonly then .error (.dom "NoModificationAllowedError")
  else
    let v := getValue low SH b (canon low n)
    if SH.is (canon low n) then .ok (v, { b with decls := removeAll b.decls (SH.longhands (canon low n)) })
    else if Dict.contains b.decls (canon low n) then
      .ok (v, { b with decls := Dict.del b.decls (canon low n) })
    else .ok (v, b)

/-- The rest of `set_property` once the priority is known, css/__init__.py
1572-1580 with `_set_property_internal` and `_set_css_declaration` (1430-1465). -/
def setInternal (low : Str → Str) (SH : Shorthands) (clean : Str → Option Str) (b : Block) (n v p : Str) :
    Block :=
  if p ≠ [] ∧ p ≠ "important".toList then b
  else match clean v with
    | none => b
    | some v' =>
      if SH.is (canon low n) then { b with decls := setAll b.decls p (SH.expand (canon low n) v') }
      else { b with decls := Dict.setEnd b.decls (canon low n) (v', p) }

/-- The priority to store: the given one in lower case, or the present one,
css/__init__.py 1568-1571. -/
def prioOr (low : Str → Str) (cur : Str) : Option Str → Str
  | none => cur
  | some p => low p

/-- `set_property` (also `__setitem__`), css/__init__.py 1549-1580, 1337-1344. -/
def setProperty (low : Str → Str) (SH : Shorthands) (clean : Str → Option Str) (b : Block) (n v : Str)
    (prio : Option Str) : Py Block :=
  if b.readonly then .error (.dom "NoModificationAllowedError")
  else if CssText.normalizeText v = [] then
    match removeProperty low SH b n with
    | .error e => .error e
    | .ok (_, b') => .ok b'
  else
    .ok (setInternal low SH clean b n (CssText.normalizeText v) 
      (prioOr low (getPriority low SH b (canon low n)) prio))

end SvgPy.Decl
