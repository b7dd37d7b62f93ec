import Verif.Model.PathGeom
import Verif.Model.PyDict

/-! Geometry and path data of the basic shapes, `/repo/svgpy/element.py` 171-243, 275-367,
416-474, 558-637, 648-795, and `CSSUtils.get_value`, `/repo/svgpy/core.py` 226-243.
Numbers are exact reals.  The text of an attribute has been parsed: what is modelled is which
attributes are read, in which order and with which defaults and directions. -/

namespace SvgPy.Shapes

open SvgPy.Path SvgPy.PathGeom SvgPy.Length

/-- The value of an attribute: the keywords `auto` and `inherit`, a number with a unit, or a
text `SVGLength` does not accept. -/
inductive Val
  | auto
  | inherit
  | len (n : ℝ) (u : LUnit)
  | bad

/-- `value == 'auto'`. -/
def Val.isAuto : Val → Bool
  | .auto => true
  | _ => false

/-- `value == 'inherit'`. -/
def Val.isInherit : Val → Bool
  | .inherit => true
  | _ => false

/-- An element: its local name, its attributes and what lengths read from it. -/
structure Node where
  name : Str
  attrs : Dict Str Val
  env : Env

/-- `element.get(key, default)`. -/
def Node.get (e : Node) (key : Str) (default : Val) : Val := (e.attrs.get? key).getD default

/-- The text `'0'`. -/
def zero : Val := .len 0 .noUnit

/-- `SVGLength(value, context=..., direction=...).value()`, core.py 1019-1051, 1270-1283,
1316-1568: a keyword is not a number. -/
noncomputable def px (e : Env) (d : Dir) : Val → Py ℝ
  | .len n u => convertNumber e (some d) n u .noUnit
  | _ => .error .valueError

/-- What `CSSUtils.get_value` returns for `auto`, core.py 231-239. -/
noncomputable def autoSize (e : Node) : Py (Val × Env) :=
  if e.name = "svg".toList then .ok (.len 100 .pct, e.env)
  else if e.name = "image".toList then .error .notImplemented
  else .ok (zero, e.env)

/-- `CSSUtils.get_value(element, key, 'auto')` for `width` and `height`, core.py 226-243, over
the element and its ancestors; at the end of the chain the value is `None`, which `SVGLength`
takes for 0 (core.py 1274-1275); `e0` is the element's own context. -/
noncomputable def getSize (key : Str) (e0 : Env) : List Node → Py (Val × Env)
  | [] => .ok (zero, e0)
  | e :: up =>
    if (e.get key .auto).isAuto then autoSize e
    else if (e.get key .auto).isInherit then getSize key e0 up
    else .ok (e.get key .auto, e.env)

/-! ### Circle and ellipse -/

/-- A centre and two radii. -/
structure Round where
  cx : ℝ
  cy : ℝ
  rx : ℝ
  ry : ℝ

/-- `SVGCircleElement.get_computed_geometry`, element.py 173-206. -/
noncomputable def circleGeometry (e : Node) : Py Round :=
  (px e.env .horizontal (e.get "cx".toList zero)).bind fun cx =>
  (px e.env .vertical (e.get "cy".toList zero)).bind fun cy =>
  (px e.env .unspecified (e.get "r".toList zero)).bind fun r => .ok ⟨cx, cy, r, r⟩

/-- `auto` takes the text of the other radius, element.py 292-295. -/
def sameText (rx ry : Val) : Val × Val :=
  if !rx.isAuto && ry.isAuto then (rx, rx) else if rx.isAuto && !ry.isAuto then (ry, ry) else (rx, ry)

/-- The radii of an ellipse, element.py 283-308. -/
noncomputable def ellipseRadii (e : Env) (rx ry : Val) : Py (ℝ × ℝ) :=
  if (sameText rx ry).1.isAuto && (sameText rx ry).2.isAuto then .ok (0, 0)
  else (px e .horizontal (sameText rx ry).1).bind fun a => (px e .vertical (sameText rx ry).2).bind fun b => .ok (a, b)

/-- `SVGEllipseElement.get_computed_geometry`, element.py 275-330. -/
noncomputable def ellipseGeometry (e : Node) : Py Round :=
  (ellipseRadii e.env (e.get "rx".toList .auto) (e.get "ry".toList .auto)).bind fun r =>
  (px e.env .horizontal (e.get "cx".toList zero)).bind fun cx =>
  (px e.env .vertical (e.get "cy".toList zero)).bind fun cy => .ok ⟨cx, cy, r.1, r.2⟩

/-- The path of a circle or ellipse, element.py 221-243, 348-367. -/
noncomputable def roundData (g : Round) : List (Seg ℝ) :=
  if g.rx ≤ 0 ∨ g.ry ≤ 0 then []
  else [.move false (g.cx + g.rx) g.cy,
    .arc false g.rx g.ry 0 0 1 g.cx (g.cy + g.ry),
    .arc false g.rx g.ry 0 0 1 (g.cx - g.rx) g.cy,
    .arc false g.rx g.ry 0 0 1 g.cx (g.cy - g.ry),
    .arc false g.rx g.ry 0 0 1 (g.cx + g.rx) g.cy,
    .close false]

/-! ### Rectangle -/

/-- Position, size and radii of the corners. -/
structure Box where
  x : ℝ
  y : ℝ
  w : ℝ
  h : ℝ
  rx : ℝ
  ry : ℝ

/-- `auto` takes the number of the other radius, element.py 707-710. -/
noncomputable def sameNumber (rx ry : Val) (a b : ℝ) : ℝ × ℝ :=
  if !rx.isAuto && ry.isAuto then (a, a) else if rx.isAuto && !ry.isAuto then (b, b) else (a, b)

/-- `if r > size / 2: r = size / 2`, element.py 712-715. -/
noncomputable def clampRadius (r size : ℝ) : ℝ := if size / 2 < r then size / 2 else r

/-- The radius from a text that may be `auto`, element.py 691-705. -/
noncomputable def radiusOf (e : Env) (d : Dir) (v : Val) : Py ℝ := if v.isAuto then .ok 0 else px e d v

/-- The radii of the corners, element.py 687-718. -/
noncomputable def rectRadii (e : Env) (rx ry : Val) (w h : ℝ) : Py (ℝ × ℝ) :=
  if rx.isAuto && ry.isAuto then .ok (0, 0)
  else (radiusOf e .horizontal rx).bind fun a => (radiusOf e .vertical ry).bind fun b =>
    .ok (clampRadius (sameNumber rx ry a b).1 w, clampRadius (sameNumber rx ry a b).2 h)

/-- `SVGRectElement.get_computed_geometry`, element.py 648-740; `up` are the ancestors. -/
noncomputable def rectGeometry (e : Node) (up : List Node) : Py Box :=
  (getSize "width".toList e.env (e :: up)).bind fun vw => (px vw.2 .horizontal vw.1).bind fun w =>
  (getSize "height".toList e.env (e :: up)).bind fun vh => (px vh.2 .vertical vh.1).bind fun h =>
  (rectRadii e.env (e.get "rx".toList .auto) (e.get "ry".toList .auto) w h).bind fun r =>
  (px e.env .horizontal (e.get "x".toList zero)).bind fun x =>
  (px e.env .vertical (e.get "y".toList zero)).bind fun y => .ok ⟨x, y, w, h, r.1, r.2⟩

/-- The path of a rectangle, element.py 757-795. -/
noncomputable def rectData (g : Box) : List (Seg ℝ) :=
  if g.w ≤ 0 ∨ g.h ≤ 0 then []
  else if g.rx ≤ 0 ∨ g.ry ≤ 0 then
    [.move false (g.x + 0) g.y, .horiz false (g.x + g.w - 0), .vert false (g.y + g.h - 0),
      .horiz false (g.x + 0), .vert false (g.y + 0), .close false]
  else
    [.move false (g.x + g.rx) g.y, .horiz false (g.x + g.w - g.rx),
      .arc false g.rx g.ry 0 0 1 (g.x + g.w) (g.y + g.ry), .vert false (g.y + g.h - g.ry),
      .arc false g.rx g.ry 0 0 1 (g.x + g.w - g.rx) (g.y + g.h), .horiz false (g.x + g.rx),
      .arc false g.rx g.ry 0 0 1 g.x (g.y + g.h - g.ry), .vert false (g.y + g.ry),
      .arc false g.rx g.ry 0 0 1 (g.x + g.rx) g.y, .close false]

/-! ### Lines -/

/-- `SVGLineElement.get_computed_geometry`, element.py 416-445. -/
noncomputable def lineGeometry (e : Node) : Py (Pt × Pt) :=
  (px e.env .horizontal (e.get "x1".toList zero)).bind fun x1 =>
  (px e.env .vertical (e.get "y1".toList zero)).bind fun y1 =>
  (px e.env .horizontal (e.get "x2".toList zero)).bind fun x2 =>
  (px e.env .vertical (e.get "y2".toList zero)).bind fun y2 => .ok ((x1, y1), (x2, y2))

/-- `SVGLineElement.get_path_data`, element.py 447-471; the comparison is that of two lengths
without units. -/
noncomputable def lineData (g : Pt × Pt) : List (Seg ℝ) :=
  if cmpNum .eq (g.2.1 - g.1.1) 0 && cmpNum .eq (g.2.2 - g.1.2) 0 then []
  else [.move false g.1.1 g.1.2, .line false g.2.1 g.2.2]

/-- `for x, y in iter(points): path_data.append(SVGPathSegment('L', x, y))`. -/
def linesTo (l : List Pt) : List (Seg ℝ) := l.map fun p => .line false p.1 p.2

/-- `SVGPolylineElement.get_path_data`, element.py 615-637. -/
def polylineData : List Pt → List (Seg ℝ)
  | [] => []
  | p :: l => .move false p.1 p.2 :: (if l.length > 0 then linesTo l else [])

/-- `SVGPolygonElement.get_path_data`, element.py 578-601. -/
def polygonData : List Pt → List (Seg ℝ)
  | [] => []
  | p :: l => .move false p.1 p.2 :: (if l.length > 0 then linesTo l ++ [.close false] else [])

/-! ### All shapes -/

/-- A basic shape in the tree: the element and its ancestors; `points` of a polygon or polyline
are the numbers read from its attribute. -/
inductive Shape
  | circle (e : Node)
  | ellipse (e : Node)
  | rect (e : Node) (up : List Node)
  | line (e : Node)
  | polyline (points : List Pt)
  | polygon (points : List Pt)

/-- `if settings.normalize: path_data = PathParser.normalize(path_data)`, element.py 236-242. -/
noncomputable def settle (norm : Bool) (d : List (Seg ℝ)) : Py (List (Seg ℝ)) :=
  if norm then normalize d else .ok d

/-- `get_path_data(settings)`; `norm` is `settings.normalize` (False without settings).  Lines
and polygons do not look at the settings. -/
noncomputable def Shape.data (norm : Bool) : Shape → Py (List (Seg ℝ))
  | .circle e => (circleGeometry e).bind fun g => if g.rx ≤ 0 then .ok [] else settle norm (roundData g)
  | .ellipse e => (ellipseGeometry e).bind fun g => if g.rx ≤ 0 ∨ g.ry ≤ 0 then .ok [] else settle norm (roundData g)
  | .rect e up => (rectGeometry e up).bind fun g => if g.w ≤ 0 ∨ g.h ≤ 0 then .ok [] else settle norm (rectData g)
  | .line e => (lineGeometry e).map lineData
  | .polyline l => .ok (polylineData l)
  | .polygon l => .ok (polygonData l)

end SvgPy.Shapes
