import Verif.Model.Shapes
import Verif.Model.Bezier
import Verif.Model.PathLength

/-! Lengths of shapes and bounding boxes of elements, `/repo/svgpy/base.py` 416-448, 475-479,
492-505, 629-638 and `/repo/svgpy/element.py` 379-389, 954-964, 1088-1132. -/

namespace SvgPy.Elements

open SvgPy.Path SvgPy.PathGeom SvgPy.Matrix SvgPy.Rect

/-- `SVGGeometryElement.get_total_length`, base.py 629-638. -/
noncomputable def shapeLength (s : Shapes.Shape) : Py ℝ :=
  (s.data false).bind fun d => if d = [] then .ok 0 else PathLength.totalLength d

/-- An element of the tree, as far as `get_bbox` looks at it.  `hidden` says that the attribute
`display` is `none`; `t` is the matrix of the `transform` attribute, if there is one that is not
`none`; `data` is the result of `get_path_data` with `settings.normalize`, without the
contribution of the element's own transform.  Simplifications: `use` refers to an element that is
neither `svg` nor `symbol`; text is a shape with path data; all matrices are matrices of the
plane. -/
inductive Elem
  /-- A `circle`, `path` etc. -/
  | shape (hidden : Bool) (t : Option Mat) (data : Py (List (Seg ℝ)))
  /-- A `use` element: its transform, `x` and `y`, then transform and path data of the element it
  refers to. -/
  | use (hidden : Bool) (t : Option Mat) (x y : ℝ) (rt : Option Mat) (data : Py (List (Seg ℝ)))
  /-- An element for which `iscontainer()` is true (dom.py 1361-1363, 2167-2169) and whose class
  derives from `SVGGraphicsElement`: `a`, `defs`, `g`, `marker`, `pattern`, `svg`, `switch`,
  `symbol`. -/
  | container (name : Str) (hidden : Bool) (t : Option Mat) (children : List Elem)
  /-- Any other node: `title`, `clipPath`, `linearGradient`, a comment etc. -/
  | other

/-- `child.get('display', 'inline') == 'none'`, or not an `SVGGraphicsElement`, base.py 432-435. -/
def skipped : Elem → Bool
  | .shape h .. => h
  | .use h .. => h
  | .container _ h .. => h
  | .other => true

/-- `path_data = PathParser.transform(path_data, matrix)` if there is a transform. -/
noncomputable def moved (t : Option Mat) (d : List (Seg ℝ)) : Py (List (Seg ℝ)) :=
  match t with
  | none => .ok d
  | some m => PathGeom.transform m d

/-- The matrix of the list of transforms of a `use` element, element.py 1103-1113, 1129-1131:
its own transform, then the translation by `x` and `y` (which is left out if both are 0). -/
noncomputable def useMatrix (t : Option Mat) (x y : ℝ) : Option Mat :=
  if x ≠ 0 ∨ y ≠ 0 then some (multiplySelf (t.getD Transform.newMatrix) (translateSelf Transform.newMatrix x y 0)) else t

/-- `SVGUseElement.get_path_data`, element.py 1088-1132. -/
noncomputable def useData (t : Option Mat) (x y : ℝ) (data : Py (List (Seg ℝ))) : Py (List (Seg ℝ)) :=
  data.bind (moved (useMatrix t x y))

/-- `get_transformed_path_data` of a shape, base.py 492-505; `if len(path_data) == 0` makes no
difference. -/
noncomputable def shapeData (t : Option Mat) (data : Py (List (Seg ℝ))) : Py (List (Seg ℝ)) :=
  data.bind fun d => if d = [] then .ok [] else moved t d

/-- `get_transformed_path_data` of a `use` element, base.py 492-505. -/
noncomputable def usedData (t : Option Mat) (x y : ℝ) (rt : Option Mat) (data : Py (List (Seg ℝ))) : Py (List (Seg ℝ)) :=
  (useData t x y data).bind fun d => if d = [] then .ok [] else (moved rt d).bind (moved t)

/-- `if len(path_data) > 0: bbox = PathParser.get_bbox(path_data, options)`, base.py 446-447. -/
noncomputable def dataBox (d : List (Seg ℝ)) : Py (DRect ℝ) := if d = [] then .ok DRect.new else Bezier.bbox d

/-- The map of a matrix of the plane as `DOMRect.transform_self` applies it. -/
noncomputable def affineOf (m : Mat) : Affine ℝ :=
  ⟨Matrix.get m .a, Matrix.get m .b, Matrix.get m .c, Matrix.get m .d, Matrix.get m .e, Matrix.get m .f⟩

/-- `if _depth > 1: ... bbox.transform_self(matrix)`, base.py 437-441. -/
noncomputable def placed (inner : Bool) (t : Option Mat) (r : DRect ℝ) : DRect ℝ :=
  if inner then match t with
    | none => r
    | some m => r.transform (affineOf m)
  else r

mutual

/-- `get_bbox`, base.py 416-448; `inner` says that `_depth > 1`. -/
noncomputable def getBBox (inner : Bool) : Elem → Py (DRect ℝ)
  | .shape _ t data => (shapeData t data).bind dataBox
  | .use _ t x y rt data => (usedData t x y rt data).bind dataBox
  | .container name _ t children =>
    if name = "defs".toList ∨ name = "symbol".toList then .ok DRect.new
    else (childBoxes DRect.new children).map (placed inner t)
  | .other => .error .attributeError

/-- The loop over the children, base.py 431-436: `bbox |= child.get_bbox(options, _depth)`. -/
noncomputable def childBoxes (r : DRect ℝ) : List Elem → Py (DRect ℝ)
  | [] => .ok r
  | e :: l => if skipped e then childBoxes r l else (getBBox true e).bind fun b => childBoxes (r.unite b) l

end

end SvgPy.Elements
