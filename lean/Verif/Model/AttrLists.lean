import Verif.Model.LengthText
import Verif.Model.SeqSplit

/-!
Attributes that are lists of numbers or lengths: `SVGTextContentElement.get_computed_geometry`, `/repo/svgpy/text.py`
525-606, and `SVGFitToViewBox.view_box`, `/repo/svgpy/base.py` 583-607.

Simplification: the conversion of a length into pixels (`SVGLength.value`, see C34) is a parameter that does not
raise.
-/

namespace SvgPy.AttrLists

open SvgPy.NumText

/-- `SVGLength.DIRECTION_HORIZONTAL`, `SVGLength.DIRECTION_VERTICAL`, core.py 989-990. -/
inductive Dir
  | horizontal
  | vertical
  deriving DecidableEq

/-- `SVGLength(n, context=self, direction=…)`: number, unit and direction, core.py 1018-1048. -/
structure Len where
  number : ℚ
  unit : Option Str
  dir : Dir
  deriving DecidableEq

/-- The constructor with a text, core.py 1018-1048. -/
def newLength (dir : Dir) (s : Str) : Py Len :=
  match LengthText.parse (some s) with
  | .error e => .error e
  | .ok (n, u) => .ok ⟨n, u, dir⟩

/-- The list comprehension over the lengths, text.py 538-543. -/
def lengths (px : Len → ℚ) (dir : Dir) : List Str → Py (List ℚ)
  | [] => .ok []
  | s :: ss =>
    match newLength dir s with
    | .error e => .error e
    | .ok n =>
      match lengths px dir ss with
      | .error e => .error e
      | .ok ns => .ok (px n :: ns)

/-- `float(t)`; `inf`, `nan` and underscores, which Python also accepts, are left out. -/
def float (s : Str) : Py ℚ :=
  match numAt (PyStr.strip s) with
  | some (v, []) => .ok v
  | _ => .error .valueError

/-- The list comprehension over the angles, text.py 600-603. -/
def floats : List Str → Py (List ℚ)
  | [] => .ok []
  | s :: ss =>
    match float s with
    | .error e => .error e
    | .ok n =>
      match floats ss with
      | .error e => .error e
      | .ok ns => .ok (n :: ns)

/-- A list of lengths or None, text.py 533-544 and the like. -/
def lengthList (px : Len → ℚ) (dir : Dir) (attr : Option Str) : Py (Option (List ℚ)) :=
  match attr with
  | none => .ok none
  | some s =>
    match lengths px dir (SeqSplit.split s) with
    | .error e => .error e
    | .ok l => .ok (some l)

/-- `rotate`, text.py 593-604. -/
def rotateList (attr : Option Str) : Py (Option (List ℚ)) :=
  match attr with
  | none => .ok none
  | some s =>
    match floats (SeqSplit.split s) with
    | .error e => .error e
    | .ok l => .ok (some l)

/-- The attributes of a text element that place its characters. -/
inductive Attr
  | x
  | y
  | dx
  | dy
  | rotate
  deriving DecidableEq

/-- The values of `geometry`. -/
structure Geometry where
  x : Option (List ℚ)
  y : Option (List ℚ)
  dx : Option (List ℚ)
  dy : Option (List ℚ)
  rotate : Option (List ℚ)

/-- `self.get(name, default)` with the default of a `text` element, text.py 533-534, 550-551. -/
def orZero (isText : Bool) (a : Option Str) : Option Str :=
  match a with
  | some s => some s
  | none => if isText then some ['0'] else none

/-- `get_computed_geometry`, text.py 525-606. -/
def geometry (px : Len → ℚ) (isText : Bool) (get : Attr → Option Str) : Py Geometry :=
  match lengthList px .horizontal (orZero isText (get .x)) with
  | .error e => .error e
  | .ok x =>
    match lengthList px .vertical (orZero isText (get .y)) with
    | .error e => .error e
    | .ok y =>
      match lengthList px .horizontal (get .dx) with
      | .error e => .error e
      | .ok dx =>
        match lengthList px .vertical (get .dy) with
        | .error e => .error e
        | .ok dy =>
          match rotateList (get .rotate) with
          | .error e => .error e
          | .ok rotate => .ok ⟨x, y, dx, dy, rotate⟩

/-- `vb[i]` and the constructor, base.py 596-607. -/
def part (dir : Dir) (vb : List Str) (i : Nat) : Py Len :=
  match vb[i]? with
  | none => .error .indexError
  | some s => newLength dir s

/-- `view_box`, base.py 583-607. -/
def viewBox (attr : Option Str) : Py (Option (Len × Len × Len × Len)) :=
  match attr with
  | none => .ok none
  | some s =>
    let vb := SeqSplit.split s
    match part .horizontal vb 0 with
    | .error e => .error e
    | .ok a =>
      match part .vertical vb 1 with
      | .error e => .error e
      | .ok b =>
        match part .horizontal vb 2 with
        | .error e => .error e
        | .ok c =>
          match part .vertical vb 3 with
          | .error e => .error e
          | .ok d => .ok (some (a, b, c, d))

end SvgPy.AttrLists
