import Verif.Model.Transform
import Verif.Model.Viewport

/-! Searches along the ancestors of an element and the current transformation matrix,
`/repo/svgpy/base.py` 144-229 and 365-414. -/

namespace SvgPy.Ancestors

open SvgPy.Matrix SvgPy.Transform SvgPy.Viewport

/-- What the searches read of an element: its identity (`hash`), `local_name`, the parsed
`transform` attribute (base.py 346-358), the matrix of
`get_viewport_transformation_matrix(recursive=False)` (modelled in `Viewport`), the pair of
`view_box` and `preserve_aspect_ratio` as something opaque, and, of an `svg` element,
`current_scale` and `current_translate` (element.py 848-877). -/
structure El where
  id : Nat
  name : String
  transform : Option (List (Item ℝ)) := none
  vtm : Scaling := ⟨1, 1, 0, 0⟩
  viewBox : Option Nat := none
  scale : ℝ := 1
  tx : ℝ := 0
  ty : ℝ := 0

/-- An element together with its ancestors: the element itself, `getparent()`,
`getparent().getparent()` and so on up to the root.  The tree is lxml's; it is taken to be
free of cycles. -/
abbrev Chain := List El

/-- `element.local_name == 'svg'`. -/
def isSvg (e : El) : Bool := e.name == "svg"

/-- `element.local_name in ('svg', 'symbol')`. -/
def isView (e : El) : Bool := e.name == "svg" || e.name == "symbol"

/-- `Element.TRANSFORMABLE_ELEMENTS`, dom.py 1363-1366, 1388-1390. -/
def transformableNames : List String :=
  ["a", "defs", "foreignObject", "g", "svg", "switch", "use"] ++
  ["audio", "canvas", "circle", "ellipse", "foreignObject", "iframe", "image", "line", "mesh", "path", "polygon", "polyline",
    "rect", "text", "textPath", "tspan", "video"]

/-- `istransformable`, dom.py 2191-2193. -/
def istransformable (e : El) : Bool := transformableNames.contains e.name

/-- The loop of `get_nearest_svg_element` and `get_nearest_viewport_element`, base.py 190-204:
the element found and its ancestors. -/
def nearest (p : El → Bool) : Chain → Chain
  | [] => []
  | e :: c => if p e then e :: c else nearest p c

/-- The loop of `get_farthest_svg_element` and `get_farthest_viewport_element`,
base.py 167-188; the first argument is `root`. -/
def farthest (p : El → Bool) : Option El → Chain → Option El
  | root, [] => root
  | root, e :: c => farthest p (if p e then some e else root) c

/-- `get_nearest_svg_element`. -/
def nearestSvg (c : Chain) : Option El := (nearest isSvg c).head?

/-- `get_nearest_viewport_element`. -/
def nearestView (c : Chain) : Option El := (nearest isView c).head?

/-- `get_farthest_svg_element`. -/
def farthestSvg (c : Chain) : Option El := farthest isSvg none c

/-- `get_farthest_viewport_element`. -/
def farthestView (c : Chain) : Option El := farthest isView none c

/-- `farthest is not None and hash(farthest) == hash(self)`, base.py 150, 162. -/
def isOutermost (c : Chain) : Bool :=
  match farthestSvg c, c with
  | some f, e :: _ => f.id == e.id
  | _, _ => false

/-- `owner_svg_element`, base.py 144-153. -/
def ownerSvg (c : Chain) : Option El := if isOutermost c then none else nearestSvg c

/-- `viewport_element`, base.py 155-165. -/
def viewportElement (c : Chain) : Option El := if isOutermost c then none else nearestView c

/-- The loop of `get_view_box`, base.py 215-229; the first argument bounds the rounds. -/
def viewBoxN (recursive : Bool) : Nat → Chain → Option Nat
  | 0, _ => none
  | n + 1, c => match nearest isView c with
    | [] => none
    | r :: up => match r.viewBox with
      | some v => some v
      | none => if recursive then viewBoxN recursive n up else none

/-- `get_view_box`. -/
def getViewBox (recursive : Bool) (c : Chain) : Option Nat := viewBoxN recursive (c.length + 1) c

/-- The loop that collects `roots` in `_get_ctm`, base.py 379-391; the first argument bounds
the rounds. -/
def rootsN (nearestOnly selfIsView : Bool) : Nat → List El → Chain → List El
  | 0, roots, _ => roots
  | n + 1, roots, c => match nearest isView c with
    | [] => roots
    | r :: up =>
      if roots.any (fun x => x.id == r.id) then roots
      else if nearestOnly && (!selfIsView || decide (2 ≤ (r :: roots).length)) then r :: roots
      else rootsN nearestOnly selfIsView n (r :: roots) up

/-- A viewport matrix as a `DOMMatrix`. -/
def vtmMat (s : Scaling) : Mat := ⟨matrix2d s.a 0 0 s.d s.e s.f, true⟩

/-- The loop that collects `transform_list`, base.py 401-409. -/
def transformsUp : List (Item ℝ) → Chain → List (Item ℝ)
  | acc, [] => acc
  | acc, e :: c =>
    let acc' := if istransformable e then (match e.transform with | some t => t ++ acc | none => acc) else acc
    if isView e then acc' else transformsUp acc' c

/-- The matrices of the viewports, base.py 394-400. -/
noncomputable def viewports (nearestOnly : Bool) (outer : El) (roots : List El) : Mat :=
  roots.foldl (fun m r => multiplySelf m (vtmMat r.vtm))
    (if nearestOnly then newMatrix else multiplySelf newMatrix ⟨matrix2d outer.scale 0 0 outer.scale outer.tx outer.ty, true⟩)

/-- The transforms below, base.py 410-414. -/
noncomputable def withTransforms (m : Mat) (l : List (Item ℝ)) : Py Mat :=
  if l.length > 0 then
    match listMatrix l with
    | .error e => .error e
    | .ok none => .error .typeError
    | .ok (some t) => .ok (multiplySelf m t)
  else .ok m

/-- `_get_ctm`, base.py 365-414; `nearestOnly` for `NEAREST_VIEWPORT`. -/
noncomputable def getCtm (nearestOnly : Bool) (c : Chain) : Py Mat :=
  match farthestSvg c, c with
  | none, _ => .ok newMatrix
  | some _, [] => .ok newMatrix
  | some f, self :: _ =>
    let roots := if f.id == self.id then [f] else rootsN nearestOnly (isView self) (c.length + 1) [] c
    if roots.length = 0 then .ok newMatrix
    else withTransforms (viewports nearestOnly f roots) (transformsUp [] c)

end SvgPy.Ancestors
