import Verif.Model.Length

/-!
Model of `SVGGraphicsElement.get_viewport_transformation_matrix`,
`/repo/svgpy/base.py` 507-566, on top of the model of `SVGLength` arithmetic.
The viewport (`get_viewport_size`) and the view box (`get_view_box`) are arguments.
-/

namespace SvgPy.Viewport

open Length

/-- `SVGPreserveAspectRatio.align`, base.py 662-672. -/
inductive Align
  | unknown | none | xMinYMin | xMidYMin | xMaxYMin | xMinYMid | xMidYMid | xMaxYMid
  | xMinYMax | xMidYMax | xMaxYMax
  deriving DecidableEq

/-- `SVGPreserveAspectRatio.meet_or_slice`, base.py 674-676. -/
inductive MeetOrSlice
  | unknown | meet | slice
  deriving DecidableEq

/-- The scale factors as lengths, base.py 529-541. -/
noncomputable def fit (align : Align) (ms : MeetOrSlice) (sx sy : Len) : Py (Len × Len) :=
  if align = .none then .ok (sx, sy)
  else match ms with
    | .unknown => .ok (sx, sy)
    | .meet =>
      match cmp .lt sx sy with
      | .error e => .error e
      | .ok true => .ok (sx, sx)
      | .ok false =>
        match cmp .gt sx sy with
        | .error e => .error e
        | .ok true => .ok (sy, sy)
        | .ok false => .ok (sx, sy)
    | .slice =>
      match cmp .gt sx sy with
      | .error e => .error e
      | .ok true => .ok (sx, sx)
      | .ok false =>
        match cmp .lt sx sy with
        | .error e => .error e
        | .ok true => .ok (sy, sy)
        | .ok false => .ok (sx, sy)

/-- `a += b`, core.py 1093-1099. -/
noncomputable def iadd (a b : Len) : Py Len :=
  match adopt a b with
  | .error e => .error e
  | .ok x => match value b x.unit with
    | .error e => .error e
    | .ok n => .ok { x with num := x.num + n }

/-- `e - vb * s`, base.py 542-543. -/
noncomputable def offset (e vb s : Len) : Py Len :=
  match mul vb s with
  | .error x => .error x
  | .ok p => sub e p

/-- The part of the viewport not covered: `e - vb * s`, base.py 548, 553, 558 and 563. -/
noncomputable def free (e vb s : Len) : Py Len :=
  match mul vb s with
  | .error x => .error x
  | .ok p => sub e p

/-- `t += (e - vb * s) / 2`. -/
noncomputable def shiftMid (t e vb s : Len) : Py Len :=
  match free e vb s with
  | .error x => .error x
  | .ok r => match divNum r 2 with
    | .error x => .error x
    | .ok h => iadd t h

/-- `t += e - vb * s`. -/
noncomputable def shiftMax (t e vb s : Len) : Py Len :=
  match free e vb s with
  | .error x => .error x
  | .ok r => iadd t r

/-- The horizontal part of the alignment, base.py 544-553. -/
noncomputable def shiftX (align : Align) (t e vb s : Len) : Py Len :=
  if align ∈ [.xMidYMin, .xMidYMid, .xMidYMax] then shiftMid t e vb s
  else if align ∈ [.xMaxYMin, .xMaxYMid, .xMaxYMax] then shiftMax t e vb s
  else .ok t

/-- The vertical part of the alignment, base.py 554-563. -/
noncomputable def shiftY (align : Align) (t e vb s : Len) : Py Len :=
  if align ∈ [.xMinYMid, .xMidYMid, .xMaxYMid] then shiftMid t e vb s
  else if align ∈ [.xMinYMax, .xMidYMax, .xMaxYMax] then shiftMax t e vb s
  else .ok t

/-- A viewport or view box. -/
structure Box where
  x : Len
  y : Len
  w : Len
  h : Len

/-- The matrix `a b c d e f` with `b = c = 0`. -/
structure Scaling where
  a : ℝ
  d : ℝ
  e : ℝ
  f : ℝ

/-- `translate_self` then `scale_self`, base.py 564-565. -/
noncomputable def finish (tx ty sx sy : Len) : Py Scaling :=
  match value tx .noUnit, value ty .noUnit, value sx (unitProp tx), value sy (unitProp tx) with
  | .ok e, .ok f, .ok a, .ok d => .ok ⟨a, d, e, f⟩
  | .error x, _, _, _ => .error x
  | _, .error x, _, _ => .error x
  | _, _, .error x, _ => .error x
  | _, _, _, .error x => .error x

/-- From the scale factors to the matrix, base.py 542-566. -/
noncomputable def place (v b : Box) (align : Align) (sx sy : Len) : Py Scaling :=
  match offset v.x b.x sx, offset v.y b.y sy with
  | .ok tx, .ok ty =>
    match shiftX align tx v.w b.w sx, shiftY align ty v.h b.h sy with
    | .ok tx, .ok ty => finish tx ty sx sy
    | .error x, _ => .error x
    | _, .error x => .error x
  | .error x, _ => .error x
  | _, .error x => .error x

/-- `get_viewport_transformation_matrix` with a view box, base.py 522-566. -/
noncomputable def matrix (v b : Box) (align : Align) (ms : MeetOrSlice) : Py Scaling :=
  match divLen v.w b.w, divLen v.h b.h with
  | .ok sx, .ok sy =>
    match fit (if align = .unknown then .xMidYMid else align) (if ms = .unknown then .meet else ms) sx sy with
    | .error x => .error x
    | .ok (sx, sy) => place v b (if align = .unknown then .xMidYMid else align) sx sy
  | .error x, _ => .error x
  | _, .error x => .error x

/-- Without a view box, base.py 514-517. -/
noncomputable def matrixNoBox (v : Box) : Py Scaling :=
  match value v.x .noUnit, value v.y .noUnit with
  | .ok e, .ok f => .ok ⟨1, 1, e, f⟩
  | .error x, _ => .error x
  | _, .error x => .error x

end SvgPy.Viewport
