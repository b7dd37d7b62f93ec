import Verif.Model.Matrix

/-! Model of `SVGTransform` and `SVGTransformList`, `/repo/svgpy/transform.py`, without
the text (see `TransformText`). -/

namespace SvgPy.Transform

open SvgPy.Matrix

/-- An `SVGTransform`: type and values, transform.py 37-66, 118-234.  `angle` is the
first value of a rotation or skew and is left out. -/
inductive Item (K : Type)
  | unknown
  | matrix (a b c d e f : K)
  | translate (tx ty : K)
  | scale (sx sy : K)
  | rotate (angle cx cy : K)
  | skewX (angle : K)
  | skewY (angle : K)
  deriving DecidableEq

/-- `DOMMatrix()`, matrix.py 305-308. -/
def newMatrix : Mat := ⟨matrix2d 1 0 0 1 0 0, true⟩

/-- Move to the centre of a rotation, if it is not the origin, transform.py 88-89, 91-92. -/
noncomputable def about (m : Mat) (cx cy dx dy : ℝ) : Mat :=
  if cx ≠ 0 ∨ cy ≠ 0 then translateSelf m dx dy 0 else m

/-- `SVGTransform.matrix`, transform.py 75-104; `none` is `None`. -/
noncomputable def itemMatrix : Item ℝ → Option Mat
  | .unknown => none
  | .matrix a b c d e f => some ⟨matrix2d a b c d e f, true⟩
  | .rotate t cx cy => some (about (rotateSelf (about newMatrix cx cy cx cy) 0 0 t) cx cy (-cx) (-cy))
  | .scale sx sy => some (scaleSelf newMatrix sx (some sy) 1 0 0 0)
  | .skewX t => some (skewXSelf newMatrix t)
  | .skewY t => some (skewYSelf newMatrix t)
  | .translate tx ty => some (translateSelf newMatrix tx ty 0)

/-- The loop `matrix *= transform.matrix`; `matrix *= None` is a `TypeError`,
transform.py 357-362. -/
noncomputable def mulAll (m : Mat) : List (Item ℝ) → Py Mat
  | [] => .ok m
  | t :: ts => match itemMatrix t with
    | none => .error .typeError
    | some n => mulAll (multiplySelf m n) ts

/-- `SVGTransformList.matrix`, transform.py 350-362. -/
noncomputable def listMatrix (l : List (Item ℝ)) : Py (Option Mat) :=
  if l = [] then .ok none
  else match mulAll newMatrix l with
    | .error e => .error e
    | .ok m => .ok (some m)

/-- `SVGTransform.from_matrix`, transform.py 131-143, 164-173. -/
noncomputable def fromMatrix (m : Mat) : Py (Item ℝ) :=
  if m.is2d then
    match tolist m with
    | [a, b, c, d, e, f] => .ok (.matrix a b c d e f)
    | _ => .error .typeError
  else .error .valueError

/-- `consolidate`, transform.py 404-418: the result and the new list. -/
noncomputable def consolidate (l : List (Item ℝ)) : Py (Option (Item ℝ)) × List (Item ℝ) :=
  if l = [] then (.ok none, l)
  else match listMatrix l with
    | .error e => (.error e, l)
    | .ok none => (.ok none, l)
    | .ok (some m) => match fromMatrix m with
      | .error e => (.error e, l)
      | .ok t => (.ok (some t), [t])

end SvgPy.Transform
