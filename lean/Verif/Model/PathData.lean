import Verif.Model.PathText
import Verif.Model.PathGeom
import Verif.Model.PathLength
import Verif.Model.Rect

/-!
The path data of `<path>` and text elements: `/repo/svgpy/element.py` 511-547,
`/repo/svgpy/base.py` 627-649, `/repo/svgpy/text.py` 42-49, 506-523, 638-644
and 658-682.

Simplified: numbers read from text are rationals (`PathText`), those of the
geometry are reals (`PathGeom`); the characters of a text element come with
their path data and their box (`Piece`), which other modules model
(`TextChars`, `TextRuns`, `GlyphRun`).
-/

namespace SvgPy.PathData

open SvgPy.Path SvgPy.Rect

/-- A segment with its numbers as reals (`float`). -/
noncomputable def toReal : Seg ℚ → Seg ℝ
  | .arc r a b c d e f g => .arc r a b c d e f g
  | .bearing r a => .bearing r a
  | .curve r a b c d e f => .curve r a b c d e f
  | .horiz r a => .horiz r a
  | .line r a b => .line r a b
  | .move r a b => .move r a b
  | .quad r a b c d => .quad r a b c d
  | .smooth r a b c d => .smooth r a b c d
  | .tsmooth r a b => .tsmooth r a b
  | .vert r a => .vert r a
  | .close r => .close r

/-- The argument `settings` of `get_path_data`: none, an `SVGPathDataSettings`
with its `normalize`, or something else. -/
inductive Settings where
  | absent
  | given (normalize : Bool)
  | other

/-- The end of `get_path_data`, element.py 541-547 and text.py 676-682. -/
noncomputable def apply (s : Settings) (l : List (Seg ℝ)) : Py (List (Seg ℝ)) :=
  match s with
  | .absent => .ok l
  | .given true => PathGeom.normalize l
  | .given false => .ok l
  | .other => .error .typeError

/-- `SVGPathElement.get_computed_geometry`, element.py 511-524, from the
attribute `d`. -/
def geometry (d : Option Str) : Option Str :=
  let d := d.getD "none".toList
  if d = "none".toList ∨ d.length = 0 then none else some d

/-- `SVGPathElement.get_path_data`, element.py 526-547. -/
noncomputable def getPathData (d : Option Str) (s : Settings) : Py (List (Seg ℝ)) :=
  match geometry d with
  | none => .ok []
  | some d => apply s ((PathText.parse d).map toReal)

/-- `SVGPathData.set_path_data`, base.py 644-649: the new attribute `d`; `p` is
the precision of numbers. -/
def setPathData (p : Nat) (l : Option (List (Seg ℚ))) : Option Str :=
  match l with
  | none => some "none".toList
  | some l => if l.length = 0 then some "none".toList else some (PathText.pathText p l)

/-- `SVGGeometryElement.get_total_length`, base.py 627-636, of a path. -/
noncomputable def getTotalLength (d : Option Str) : Py ℝ :=
  match getPathData d .absent with
  | .error e => .error e
  | .ok l => if l.length = 0 then .ok 0 else PathLength.totalLength l

/-- One entry of the characters of a text element, text.py 181-190: the element
that they stand in, their path data and their box. -/
structure Piece where
  element : Nat
  path : List (Seg ℝ)
  box : DRect ℝ

/-- An element and the elements around it, from the inside out: a number for
each and whether it is a `<text>`. -/
abbrev Chain := List (Nat × Bool)

/-- `get_nearest_text_element`, text.py 638-644. -/
def nearest : Chain → Option Nat
  | [] => none
  | (n, isText) :: rest => if isText then some n else nearest rest

/-- `_get_chars_info`, text.py 42-49: `render` gives the characters of a
`<text>`. -/
def charsInfo (render : Nat → List Piece) (self : Chain) : List Piece :=
  match nearest self with
  | none => []
  | some root => render root

/-- `SVGTextContentElement.get_bbox`, text.py 506-523. -/
noncomputable def textBox (render : Nat → List Piece) (self : Chain) : DRect ℝ :=
  let info := charsInfo render self
  if info.length = 0 then DRect.new
  else info.foldl (fun b i => b.unite i.box) DRect.new

/-- `SVGTextContentElement.get_path_data`, text.py 658-682. -/
noncomputable def textPathData (render : Nat → List Piece) (self : Chain) (s : Settings) :
    Py (List (Seg ℝ)) :=
  let info := charsInfo render self
  if info.length = 0 then .ok []
  else apply s (info.foldl (fun l i => l ++ i.path) [])

end SvgPy.PathData
