import Verif.Model.InlineStyle
import Verif.Model.Shorthand

/-! The inline style of an element with shorthand properties: `CSSStyleDeclaration` with
`_inline_style` set, `/repo/svgpy/css/__init__.py` 1370-1417 and 1430-1580, and `_StyleAttribute`,
50-213.

The shorthands are those whose longhands belong to no other shorthand and are none themselves
(`white-space`, `overflow`, `text-decoration`, `font-synthesis`), so that `Longhand.shorthands` has
one element at most; the branches for `font`, `font-variant` and `mask` are left out.  Names have
their canonical form.  `low` and `clean` are as in `Verif.Model.Decl`. -/

namespace SvgPy.InlineShorthand

open SvgPy.Decl SvgPy.StyleText SvgPy.InlineStyle

/-- The shorthand properties: `Shorthand.longhands` (css/shorthands.py 108-114; `[]` for what is no
shorthand), `Longhand.shorthands` (css/longhands.py 25-28), the components that
`set_css_declaration` of a shorthand finds in a value (`none` if it returns `False` or raises),
`tostring` of a shorthand, and `PropertyDescriptor.supports`. -/
structure Family where
  longs : Str → List Str
  short : Str → Option Str
  parse : Str → Str → Option (List (Str × Str))
  tostring : Str → Dict Str Str → Str
  supports : Str → Str → Bool

/-- `Shorthand.is_shorthand`, css/shorthands.py 100-105. -/
def isShorthand (F : Family) (n : Str) : Bool := !(F.longs n).isEmpty

/-- `Shorthand(declarations).get_property_value`, css/shorthands.py 73-98. -/
def value (F : Family) (d : Decls) (s : Str) : Str :=
  Shorthand.getValue F.supports (F.longs s) (F.tostring s) d

/-! ### The style attribute -/

/-- `del style_map[name]` for the names in it, css/__init__.py 69-73 and 170-173. -/
def delAll (m : Dict Str Str) : List Str → Dict Str Str
  | [] => m
  | l :: ls => delAll (if Dict.contains m l then Dict.del m l else m) ls

/-- `_set_shorthand`, css/__init__.py 160-175: whether it was done, and the map. -/
def setShorthand (F : Family) (d : Decls) (m : Dict Str Str) (s : Str) : Bool × Dict Str Str :=
  if value F d s = [] then (false, m) else (true, delAll (Dict.set m s (value F d s)) (F.longs s))

/-- The longhands of the block are written to the map, css/__init__.py 91-96 and 146-151. -/
def longhandsOf (d : Decls) (m : Dict Str Str) : List Str → Dict Str Str
  | [] => m
  | l :: ls =>
    match Dict.get? d l with
    | none => longhandsOf d m ls
    | some (v, _) => longhandsOf d (Dict.set m l v) ls

/-- `_set_longhand_from_shorthand`, css/__init__.py 140-160; also 87-96. -/
def fromShorthand (F : Family) (d : Decls) (m : Dict Str Str) (s : Str) : Bool × Dict Str Str :=
  (Dict.contains m s || (F.longs s).any (Dict.contains d),
    longhandsOf d (if Dict.contains m s then Dict.del m s else m) (F.longs s))

/-- The shorthand if it can be written, its longhands otherwise, css/__init__.py 114-132 and 84-96. -/
def setFamily (F : Family) (d : Decls) (m : Dict Str Str) (s : Str) : Bool × Dict Str Str :=
  if (setShorthand F d m s).1 then setShorthand F d m s else fromShorthand F d (setShorthand F d m s).2 s

/-- The middle of `_set`, css/__init__.py 109-132. -/
def setRelated (F : Family) (d : Decls) (m : Dict Str Str) (n : Str) : Bool × Dict Str Str :=
  match F.short n with
  | some s => setFamily F d m s
  | none => if isShorthand F n then setFamily F d m n else (false, m)

/-- `_set`, css/__init__.py 101-138. -/
def setIn (F : Family) (d : Decls) (m : Dict Str Str) (n v : Str) : Bool × Dict Str Str :=
  let r := setRelated F d m n
  if !r.1 && !v.isEmpty then (true, Dict.set r.2 n v) else r

/-- The first half of `_remove`, css/__init__.py 60-73. -/
def removeOwn (F : Family) (m : Dict Str Str) (n : Str) : Bool × Dict Str Str :=
  let m1 := if Dict.contains m n then Dict.del m n else m
  (Dict.contains m n || (F.longs n).any (Dict.contains m1), delAll m1 (F.longs n))

/-- `_remove`, css/__init__.py 59-98. -/
def removeIn (F : Family) (d : Decls) (m : Dict Str Str) (n : Str) : Bool × Dict Str Str :=
  let r := removeOwn F m n
  match F.short n with
  | none => r
  | some s => (r.1 || (setFamily F d r.2 s).1, (setFamily F d r.2 s).2)

/-- `_update_style` if something was done, css/__init__.py 211-213. -/
def store (e : El) (r : Bool × Dict Str Str) : El := if r.1 then writeAttr e r.2 else e

/-- `update`, css/__init__.py 186-213. -/
def update (F : Family) (e : El) (n v : Str) : El :=
  if v = [] then store e (removeIn F e.decls (attrMap e) n) else store e (setIn F e.decls (attrMap e) n v)

/-! ### The style object -/

/-- `_set_property_internal`, css/__init__.py 1430-1465: the value read afterwards, or `none` if nothing
was stored, and the block. -/
def setInternal (F : Family) (clean : Str → Option Str) (d : Decls) (n v p : Str) : Option Str × Decls :=
  if isShorthand F n then
    match F.parse n v with
    | none => (none, d)
    | some ps => (some (value F (setAll d p ps) n), setAll d p ps)
  else InlineStyle.setInternal clean d n v p

/-- One step of the first loop of `_declarations`, css/__init__.py 1382-1394; `d` is the block. -/
def knownStep (F : Family) (d : Decls) (n v : Str) (m : Dict Str Str) : Dict Str Str :=
  match F.short n with
  | some s => if Dict.get? m s = some (value F d s) then Dict.del m s else m
  | none => if Dict.get? m n = some v then Dict.del m n else m

/-- The first loop of `_declarations`, css/__init__.py 1381-1394. -/
def known (F : Family) (d : Decls) : Decls → Dict Str Str → Dict Str Str
  | [], m => m
  | (n, (v, _)) :: ds, m => known F d ds (knownStep F d n v m)

/-- One step of the second loop, css/__init__.py 1396-1415. -/
def renew (F : Family) (clean : Str → Option Str) (d : Decls) (n v : Str) : Decls :=
  if isShorthand F n then
    if value F d n = v then d
    else (setInternal F clean d n v (Shorthand.getPriority (F.longs n) d)).2
  else
    match Dict.get? d n with
    | none => (setInternal F clean d n v []).2
    | some (w, p) => if v ≠ w then (setInternal F clean d n v p).2 else d

/-- The second loop of `_declarations`, css/__init__.py 1396-1415. -/
def renewAll (F : Family) (clean : Str → Option Str) (d : Decls) : Dict Str Str → Decls
  | [] => d
  | (n, v) :: m => renewAll F clean (renew F clean d n v) m

/-- `_declarations`, css/__init__.py 1370-1417, which changes `_property_map`. -/
def sync (F : Family) (clean : Str → Option Str) (e : El) : El :=
  { e with decls := renewAll F clean e.decls (known F e.decls e.decls (attrMap e)) }

/-- `get_property_value`, css/__init__.py 1494-1513: the value, and the element afterwards. -/
def getValue (F : Family) (low : Str → Str) (clean : Str → Option Str) (e : El) (n : Str) : Str × El :=
  let e := sync F clean e
  let n := canon low n
  (if isShorthand F n then value F e.decls n else ((Dict.get? e.decls n).map (·.1)).getD [], e)

/-- `get_property_priority`, css/__init__.py 1473-1492. -/
def getPriority (F : Family) (low : Str → Str) (clean : Str → Option Str) (e : El) (n : Str) : Str × El :=
  let e := sync F clean e
  let n := canon low n
  (if isShorthand F n then Shorthand.getPriority (F.longs n) e.decls
    else ((Dict.get? e.decls n).map (·.2)).getD [], e)

/-- The deletion in `remove_property`, css/__init__.py 1538-1545 and css/shorthands.py 116-129: whether
something was removed, and the block. -/
def removeDecl (F : Family) (d : Decls) (n : Str) : Bool × Decls :=
  if isShorthand F n then ((F.longs n).any (Dict.contains d), removeAll d (F.longs n))
  else (Dict.contains d n, removeAll d [n])

/-- `remove_property`, css/__init__.py 1525-1547. -/
def removeProperty (F : Family) (low : Str → Str) (clean : Str → Option Str) (e : El) (n : Str) : Str × El :=
  let n := canon low n
  let r := getValue F low clean e n
  let e := sync F clean r.2
  let q := removeDecl F e.decls n
  (r.1, if q.1 then update F { e with decls := q.2 } n [] else { e with decls := q.2 })

/-- The rest of `set_property` once the priority is known, css/__init__.py 1572-1580. -/
def setWith (F : Family) (clean : Str → Option Str) (e : El) (n v p : Str) : El :=
  if p ≠ [] ∧ p ≠ "important".toList then e
  else
    let e := sync F clean e
    let r := setInternal F clean e.decls n v p
    match r.1 with
    | none => { e with decls := r.2 }
    | some w => update F { e with decls := r.2 } n w

/-- `set_property`, css/__init__.py 1549-1580. -/
def setProperty (F : Family) (low : Str → Str) (clean : Str → Option Str) (e : El) (n v : Str)
    (prio : Option Str) : El :=
  let v := CssText.normalizeText v
  if v = [] then (removeProperty F low clean e n).2
  else
    let n := canon low n
    match prio with
    | none => setWith F clean (getPriority F low clean e n).2 n v (getPriority F low clean e n).1
    | some p => setWith F clean e n v (low p)

end SvgPy.InlineShorthand
