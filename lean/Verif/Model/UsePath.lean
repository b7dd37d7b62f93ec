import Verif.Model.Py
import Mathlib.Algebra.Field.Rat

/-!
The path data of groups and `use` elements: `get_path_data`, `get_descendant_path_data` and
`get_transformed_path_data`, `/repo/svgpy/base.py` 461-505, `/repo/svgpy/element.py` 161-167, 254-265,
370-389, 402-405, 474-485, 554-565, 954-972, 1002-1012, 1036-1138.

Simplifications: path data are lists of points in absolute coordinates, as they are after
normalisation, which `PathParser.transform` maps point by point (see `Verif.Model.PathGeom` for the
segments); numbers are rational; the matrix of a `transform` attribute is given. Elements are
numbers; `href` has been looked up (see `Verif.Model.Lookup`).
-/

namespace SvgPy.UsePath

/-- A point. -/
abbrev Pt := ℚ × ℚ

/-- A matrix of the plane. -/
structure Aff where
  a : ℚ
  b : ℚ
  c : ℚ
  d : ℚ
  e : ℚ
  f : ℚ
  deriving DecidableEq

/-- The image of a point. -/
def Aff.app (m : Aff) (p : Pt) : Pt := (m.a * p.1 + m.c * p.2 + m.e, m.b * p.1 + m.d * p.2 + m.f)

/-- `matrix *= other`: the map that first does `n`, then `m`. -/
def Aff.mul (m n : Aff) : Aff :=
  ⟨m.a * n.a + m.c * n.b, m.b * n.a + m.d * n.b, m.a * n.c + m.c * n.d, m.b * n.c + m.d * n.d,
   m.a * n.e + m.c * n.f + m.e, m.b * n.e + m.d * n.f + m.f⟩

/-- `transform.set_translate(x, y)`. -/
def Aff.translate (x y : ℚ) : Aff := ⟨1, 0, 0, 1, x, y⟩

/-- `transform.set_scale(x, y)`. -/
def Aff.scale (x y : ℚ) : Aff := ⟨x, 0, 0, y, 0, 0⟩

/-- Path data. -/
abbrev Data := List Pt

/-- `PathParser.transform(path_data, matrix)`. -/
def transform (m : Aff) (d : Data) : Data := d.map m.app

/-- An element. `t` is the matrix of the `transform` attribute, `none` if it is missing or `none`. -/
inductive El
  /-- Basic shapes, paths and text. -/
  | shape (t : Option Aff) (data : Data)
  /-- `g` and `svg`. -/
  | group (svg : Bool) (t : Option Aff) (children : List Nat)
  /-- `a`. -/
  | link (t : Option Aff) (children : List Nat)
  /-- `symbol`. -/
  | symbol (t : Option Aff) (children : List Nat)
  /-- `defs`, `pattern` and `mesh`. -/
  | defs (t : Option Aff) (children : List Nat)
  /-- `image`, `foreignObject`, `switch`, `marker` and `view`, whose classes do not define
  `get_path_data`. -/
  | undef (t : Option Aff)
  /-- `use`: `x`, `y`, `width` and `height`, and the element that is referred to. -/
  | use (t : Option Aff) (x y w h : ℚ) (ref : Option Nat)
  /-- Elements that are no graphics elements. -/
  | other

/-- A document. `hidden` are the elements with `display: none`, `box` gives the width and the height
of `PathParser.get_bbox`. -/
structure Doc where
  el : Nat → El
  hidden : Nat → Bool
  box : Data → ℚ × ℚ

/-- `isinstance(child, SVGGraphicsElement)`, base.py 464 and element.py 1099. -/
def graphics : El → Bool
  | .other => false
  | _ => true

/-- `root.local_name in ['svg', 'symbol']`, element.py 1114. -/
def isSvgOrSymbol : El → Bool
  | .group svg _ _ => svg
  | .symbol _ _ => true
  | _ => false

/-- The attribute `transform`, base.py 346-359. -/
def transformOf : El → Option Aff
  | .shape t _ => t
  | .group _ t _ => t
  | .link t _ => t
  | .symbol t _ => t
  | .defs t _ => t
  | .undef t => t
  | .use t _ _ _ _ _ => t
  | .other => none

/-- `get_descendant_path_data`, base.py 461-466. `none` is a recursion without end. -/
def childData (d : Doc) (rec : Nat → Option (Py Data)) : List Nat → Option (Py Data)
  | [] => some (.ok [])
  | c :: cs =>
    if graphics (d.el c) then
      match rec c with
      | none => none
      | some (.error e) => some (.error e)
      | some (.ok p) =>
        match childData d rec cs with
        | none => none
        | some (.error e) => some (.error e)
        | some (.ok q) => some (.ok (p ++ q))
    else childData d rec cs

/-- The scaling of `svg` and `symbol`, element.py 1114-1128. A box without extent is a division by
zero; where the box comes out of numpy the code goes on with an infinite number instead. -/
def sizing (d : Doc) (r : El) (w h : ℚ) (data : Data) : Py (List Aff) :=
  if isSvgOrSymbol r then
    if 0 < w ∨ 0 < h then
      if (d.box data).1 = 0 ∨ (d.box data).2 = 0 then .error .zeroDivision
      else .ok [Aff.scale (if w / (d.box data).1 = 0 then 1 else w / (d.box data).1)
        (if h / (d.box data).2 = 0 then 1 else h / (d.box data).2)]
    else .ok []
  else .ok []

/-- The matrix of a list of transforms; `none` if it is empty. -/
def listMatrix : List Aff → Option Aff
  | [] => none
  | [m] => some m
  | m :: ms => (listMatrix ms).map m.mul

/-- `PathParser.transform` if there is a matrix. -/
def moved (m : Option Aff) (p : Data) : Data :=
  match m with
  | none => p
  | some m => transform m p

/-- `SVGUseElement.get_path_data` once the data of the other element are there, element.py
1103-1132. -/
def useData (d : Doc) (r : El) (t : Option Aff) (x y w h : ℚ) (p : Data) : Py Data :=
  match sizing d r w h p with
  | .error e => .error e
  | .ok s => .ok (moved (listMatrix (t.toList ++ (if x ≠ 0 ∨ y ≠ 0 then [Aff.translate x y] else []) ++ s)) p)

/-- `get_path_data`; the first number bounds the depth of the recursion. -/
def pathData (d : Doc) : Nat → Nat → Option (Py Data)
  | 0, _ => none
  | k + 1, n =>
    match d.el n with
    | .shape _ data => some (.ok data)
    | .group _ _ cs => childData d (pathData d k) cs
    | .link _ _ => some (.ok [])
    | .symbol _ _ => some (.ok [])
    | .defs _ _ => some (.ok [])
    | .undef _ => some (.error .notImplemented)
    | .other => some (.error .attributeError)
    | .use _ _ _ _ _ none => some (.ok [])
    | .use t x y w h (some r) =>
      if graphics (d.el r) then
        match pathData d k r with
        | none => none
        | some (.error e) => some (.error e)
        | some (.ok p) => some (useData d (d.el r) t x y w h p)
      else some (.ok [])

/-- `get_transformed_path_data`, base.py 492-505. -/
def transformedData (d : Doc) (k n : Nat) : Option (Py Data) :=
  match pathData d k n with
  | none => none
  | some (.error e) => some (.error e)
  | some (.ok p) =>
    if p = [] then some (.ok p)
    else
      match d.el n with
      | .use t _ _ _ _ (some r) => some (.ok (moved t (moved (transformOf (d.el r)) p)))
      | e => some (.ok (moved (transformOf e) p))

end SvgPy.UsePath
