import Verif.Model.Decl
import Verif.Model.StyleText

/-! The inline style of an element: `CSSStyleDeclaration` with `_inline_style` set,
`/repo/svgpy/css/__init__.py` 1370-1417 and 1430-1580, and `_StyleAttribute`, 50-213.

The model is for properties that are neither shorthands nor longhands of a shorthand (such as
`fill` or `opacity`), so that the branches of the code for these are left out.  `low` and `clean`
are as in `Verif.Model.Decl`. -/

namespace SvgPy.InlineStyle

open SvgPy.Decl SvgPy.StyleText

/-- The element: `_property_map` of its style object and the value of its `style` attribute. -/
structure El where
  decls : Decls
  attr : Option Str

/-- `style_to_dict` of the attribute, css/__init__.py 1377-1379 and 55-57. -/
def attrMap (e : El) : Dict Str Str := styleToDict (e.attr.getD [])

/-- The first loop of `_declarations`, css/__init__.py 1381-1394: what the block has already is
taken from the map. -/
def known : Decls → Dict Str Str → Dict Str Str
  | [], m => m
  | (n, (v, _)) :: d, m => known d (if Dict.get? m n = some v then Dict.del m n else m)

/-- `_set_property_internal`, css/__init__.py 1430-1465, and the block afterwards: the stored value,
or `none` if nothing was stored. -/
def setInternal (clean : Str → Option Str) (d : Decls) (n v p : Str) : Option Str × Decls :=
  match clean v with
  | none => (none, d)
  | some v => (some v, Dict.setEnd d n (v, p))

/-- One step of the second loop, css/__init__.py 1396-1415. -/
def renew (clean : Str → Option Str) (d : Decls) (n v : Str) : Decls :=
  match Dict.get? d n with
  | none => (setInternal clean d n v []).2
  | some (w, p) => if v ≠ w then (setInternal clean d n v p).2 else d

/-- The second loop of `_declarations`, css/__init__.py 1396-1415. -/
def renewAll (clean : Str → Option Str) (d : Decls) : Dict Str Str → Decls
  | [] => d
  | (n, v) :: m => renewAll clean (renew clean d n v) m

/-- `_declarations`, css/__init__.py 1370-1417, which changes `_property_map`. -/
def sync (clean : Str → Option Str) (e : El) : El :=
  { e with decls := renewAll clean e.decls (known e.decls (attrMap e)) }

/-- `get_property_value`, css/__init__.py 1494-1513: the value, and the element afterwards. -/
def getValue (low : Str → Str) (clean : Str → Option Str) (e : El) (n : Str) : Str × El :=
  (((Dict.get? (sync clean e).decls (canon low n)).map (·.1)).getD [], sync clean e)

/-- `get_property_priority`, css/__init__.py 1473-1492. -/
def getPriority (low : Str → Str) (clean : Str → Option Str) (e : El) (n : Str) : Str × El :=
  (((Dict.get? (sync clean e).decls (canon low n)).map (·.2)).getD [], sync clean e)

/-- `__contains__`, css/__init__.py 1317-1320. -/
def contains (low : Str → Str) (clean : Str → Option Str) (e : El) (n : Str) : Bool :=
  Dict.contains (sync clean e).decls (canon low n)

/-- `_update_style`, css/__init__.py 177-184. -/
def writeAttr (e : El) (m : Dict Str Str) : El :=
  if m = [] then { e with attr := none } else { e with attr := some (dictToStyle m) }

/-- `update` with a value, css/__init__.py 197-213 and 134-138. -/
def updateSet (e : El) (n v : Str) : El := if v = [] then e else writeAttr e (Dict.set (attrMap e) n v)

/-- `update` without a value, css/__init__.py 188-196 and 59-64. -/
def updateRemove (e : El) (n : Str) : El :=
  if Dict.contains (attrMap e) n then writeAttr e (Dict.del (attrMap e) n) else e

/-- `remove_property`, css/__init__.py 1525-1547: `get_property_value` and `_declarations` each
bring the block up to date. -/
def removeProperty (low : Str → Str) (clean : Str → Option Str) (e : El) (n : Str) : Str × El :=
  let n := canon low n
  let r := getValue low clean e n
  let e := sync clean r.2
  (r.1, if Dict.contains e.decls n then updateRemove { e with decls := Dict.del e.decls n } n else e)

/-- The rest of `set_property` once the priority is known, css/__init__.py 1572-1580. -/
def setWith (clean : Str → Option Str) (e : El) (n v p : Str) : El :=
  if p ≠ [] ∧ p ≠ "important".toList then e
  else
    let e := sync clean e
    let r := setInternal clean e.decls n v p
    match r.1 with
    | none => { e with decls := r.2 }
    | some w => updateSet { e with decls := r.2 } n w

/-- `set_property`, css/__init__.py 1549-1580. -/
def setProperty (low : Str → Str) (clean : Str → Option Str) (e : El) (n v : Str) (prio : Option Str) : El :=
  let v := CssText.normalizeText v
  if v = [] then (removeProperty low clean e n).2
  else
    let n := canon low n
    match prio with
    | none => setWith clean (getPriority low clean e n).2 n v (getPriority low clean e n).1
    | some p => setWith clean e n v (low p)

/-- The attribute is written or removed by other means, e.g. `set_attribute`. -/
def writeStyle (e : El) (t : Option Str) : El := { e with attr := t }

end SvgPy.InlineStyle
