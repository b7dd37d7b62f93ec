import Verif.Model.Path
import Verif.Model.Length
import Verif.Model.Transform

/-! Geometry of path segments, `/repo/svgpy/path.py` 31-38, 297-346, 379-390, 622-746,
825-1166, 1400-1465, 1517-1567.  Numbers are exact reals; a coordinate that the code may
hold as `None` is an `Option`. -/

namespace SvgPy.PathGeom

open SvgPy.Matrix SvgPy.Path SvgPy.Transform

abbrev Pt := ℝ × ℝ

/-- A point whose coordinates may be `None`. -/
abbrev Pt? := Option ℝ × Option ℝ

/-- `if cpx is None: cpx = 0`, path.py 893-896, 1024-1027. -/
def orZero (p : Pt?) : Pt := (p.1.getD 0, p.2.getD 0)

/-- `start_x is not None and start_y is not None`, path.py 1449, 1561. -/
def known (p : Pt?) : Bool := p.1.isSome && p.2.isSome

/-- `x, y = matrix.transform_point(...)` for a matrix that stays in the plane; the second
case cannot happen then. -/
def pair : List ℝ → Pt
  | [a, b] => (a, b)
  | _ => (0, 0)

/-- `x, y = matrix.transform_point(...)` for any matrix: four values cannot be unpacked. -/
def unpack : List ℝ → Py Pt
  | [a, b] => .ok (a, b)
  | _ => .error .valueError

/-- `if bearing != 0: matrix.rotate_self(rot_z=bearing); x, y = matrix.transform_point(x, y)`,
path.py 1033-1036 and alike. -/
noncomputable def turn (b x y : ℝ) : Pt :=
  if b ≠ 0 then pair (transformPoint (rotateSelf newMatrix 0 0 b) x y 0 1) else (x, y)

/-- `x += cpx; y += cpy` after the rotation. -/
noncomputable def moveBy (cp : Pt?) (b x y : ℝ) : Pt :=
  ((turn b x y).1 + (orZero cp).1, (turn b x y).2 + (orZero cp).2)

/-- `PathSegment.toabsolute`, path.py 1009-1111. -/
noncomputable def toAbs (cp : Pt?) (b : ℝ) : Seg ℝ → Seg ℝ
  | .arc true rx ry rot fa fs x y =>
    .arc false rx ry (if b ≠ 0 then rot + b else rot) fa fs (moveBy cp b x y).1 (moveBy cp b x y).2
  | .bearing true a => .bearing false (b + a)
  | .curve true x1 y1 x2 y2 x y =>
    .curve false (moveBy cp b x1 y1).1 (moveBy cp b x1 y1).2 (moveBy cp b x2 y2).1 (moveBy cp b x2 y2).2
      (moveBy cp b x y).1 (moveBy cp b x y).2
  | .horiz true x => .line false (moveBy cp b x 0).1 (moveBy cp b x 0).2
  | .line true x y => .line false (moveBy cp b x y).1 (moveBy cp b x y).2
  | .move true x y => .move false (moveBy cp b x y).1 (moveBy cp b x y).2
  | .tsmooth true x y => .tsmooth false (moveBy cp b x y).1 (moveBy cp b x y).2
  | .quad true x1 y1 x y =>
    .quad false (moveBy cp b x1 y1).1 (moveBy cp b x1 y1).2 (moveBy cp b x y).1 (moveBy cp b x y).2
  | .smooth true x1 y1 x y =>
    .smooth false (moveBy cp b x1 y1).1 (moveBy cp b x1 y1).2 (moveBy cp b x y).1 (moveBy cp b x y).2
  | .vert true y => .line false (moveBy cp b 0 y).1 (moveBy cp b 0 y).2
  | .close true => .close false
  | .arc false rx ry rot fa fs x y => .arc false rx ry rot fa fs x y
  | .bearing false a => .bearing false a
  | .curve false x1 y1 x2 y2 x y => .curve false x1 y1 x2 y2 x y
  | .horiz false x => .horiz false x
  | .line false x y => .line false x y
  | .move false x y => .move false x y
  | .tsmooth false x y => .tsmooth false x y
  | .quad false x1 y1 x y => .quad false x1 y1 x y
  | .smooth false x1 y1 x y => .smooth false x1 y1 x y
  | .vert false y => .vert false y
  | .close false => .close false

/-- `SVGPathSegment.end`, path.py 310-346. -/
def endPt : Seg ℝ → Pt?
  | .arc _ _ _ _ _ _ x y => (some x, some y)
  | .bearing .. => (none, none)
  | .close _ => (none, none)
  | .curve _ _ _ _ _ x y => (some x, some y)
  | .horiz false x => (some x, none)
  | .horiz true x => (some x, some 0)
  | .line _ x y => (some x, some y)
  | .move _ x y => (some x, some y)
  | .tsmooth _ x y => (some x, some y)
  | .quad _ _ _ x y => (some x, some y)
  | .smooth _ _ _ x y => (some x, some y)
  | .vert false y => (none, some y)
  | .vert true y => (some 0, some y)

/-- `SVGPathSegment.get_bearing`, path.py 379-390. -/
def getBearing (b : ℝ) : Seg ℝ → ℝ
  | .bearing false a => a
  | .bearing true a => b + a
  | _ => b

/-! ### Arcs -/

/-- `get_angle`, path.py 31-38. -/
noncomputable def getAngle (y x : ℝ) : ℝ :=
  let d := degrees (atan2 y x)
  if 0 < y then 360 - d else if y < 0 then -d else d

/-- The result of `get_center_of_arc`: centre and angles (start, end, extent) are `None`
together, path.py 654-660. -/
structure Arc where
  centre : Option (Pt × ℝ × ℝ × ℝ)
  rx : ℝ
  ry : ℝ

/-- A radius close to 0 becomes 0, path.py 667-674. -/
noncomputable def radius (r : ℝ) : ℝ := if Length.isclose |r| 0 then 0 else |r|

/-- The extent from the angles and flags, path.py 730-744. -/
noncomputable def extent (d1 d2 : ℝ) (fa fs : Bool) : ℝ :=
  let d := |d2 - d1|
  let d := if fa then (if d < 180 then 360 - d else d) else (if 180 < d then 360 - d else d)
  if fs then -d else d

/-- From the radii on, path.py 688-746; `cp` is the start and `ep` the end point. -/
noncomputable def centreOf (rx ry rot : ℝ) (fa fs : Bool) (cp ep : Pt) : Arc :=
  let r := radians rot
  let x1p := Real.cos r * ((cp.1 - ep.1) / 2) + Real.sin r * ((cp.2 - ep.2) / 2)
  let y1p := -Real.sin r * ((cp.1 - ep.1) / 2) + Real.cos r * ((cp.2 - ep.2) / 2)
  let a := x1p ^ 2 / rx ^ 2 + y1p ^ 2 / ry ^ 2
  let rx' := if 1 < a then rx * √a else rx
  let ry' := if 1 < a then ry * √a else ry
  let fp := (rx' ^ 2 * ry' ^ 2 - rx' ^ 2 * y1p ^ 2 - ry' ^ 2 * x1p ^ 2) / (rx' ^ 2 * y1p ^ 2 + ry' ^ 2 * x1p ^ 2)
  let f := if fa = fs then -√(max fp 0) else √(max fp 0)
  let cxp := f * (rx' * y1p / ry')
  let cyp := f * (-ry' * x1p / rx')
  let cx := Real.cos r * cxp + -Real.sin r * cyp + (cp.1 + ep.1) / 2
  let cy := Real.sin r * cxp + Real.cos r * cyp + (cp.2 + ep.2) / 2
  let d1 := getAngle (cp.2 - cy) (cp.1 - cx)
  let d2 := getAngle (ep.2 - cy) (ep.1 - cx)
  let d1 := if rot ≠ 0 then d1 + rot else d1
  let d2 := if rot ≠ 0 then d2 + rot else d2
  ⟨some ((cx, cy), d1, d2, extent d1 d2 fa fs), rx', ry'⟩

/-- `PathSegment.get_center_of_arc` of an absolute arc, path.py 622-746. -/
noncomputable def arcCentre (rx ry rot fa fs : ℝ) (cp ep : Pt) : Arc :=
  if radius rx = 0 ∨ radius ry = 0 then ⟨none, radius rx, radius ry⟩
  else if Length.isclose cp.1 ep.1 ∧ Length.isclose cp.2 ep.2 then ⟨none, radius rx, radius ry⟩
  else centreOf (radius rx) (radius ry) rot (decide (fa ≠ 0)) (decide (fs ≠ 0)) cp ep

/-- The matrix from the unit circle to the ellipse, path.py 928-931. -/
noncomputable def arcMatrix (c : Pt) (rot rx ry : ℝ) : Mat :=
  scaleSelf (rotateSelf (translateSelf newMatrix c.1 (-c.2) 0) 0 0 (-rot)) rx (some ry) 1 0 0 0

/-- One Bezier curve of an arc, path.py 936-960. -/
noncomputable def arcPiece (m : Mat) (start inc len : ℝ) (n : Nat) (ep : Pt) (i : Nat) : Seg ℝ :=
  let t := start + i * inc
  let u := t + inc
  let p1 := pair (transformPoint m (Real.cos t - len * Real.sin t) (Real.sin t + len * Real.cos t) 0 1)
  let p2 := pair (transformPoint m (Real.cos u + len * Real.sin u) (Real.sin u - len * Real.cos u) 0 1)
  let p3 := if i + 1 = n then (ep.1, -ep.2) else pair (transformPoint m (Real.cos u) (Real.sin u) 0 1)
  .curve false p1.1 (-p1.2) p2.1 (-p2.2) p3.1 (-p3.2)

/-- An arc as Bezier curves, path.py 905-961. -/
noncomputable def arcCurves (rx ry rot fa fs : ℝ) (cp ep : Pt) : Py (List (Seg ℝ)) :=
  let arc := arcCentre rx ry rot fa fs cp ep
  match arc.centre with
  | none => if arc.rx = 0 ∨ arc.ry = 0 then .ok [.line false ep.1 ep.2] else .ok []
  | some (c, d1, _, ext) =>
    let n := ⌈|ext| / 90⌉₊
    let inc := radians ext / n
    if n = 0 then .error .zeroDivision
    else
      .ok ((List.range n).map
        (arcPiece (arcMatrix c rot arc.rx arc.ry) (radians d1) inc
          (4 / 3 * Real.sin (inc / 2) / (1 + Real.cos (inc / 2))) n ep))

/-! ### Normalisation -/

/-- A quadratic curve as a cubic one, path.py 973-985. -/
noncomputable def elevate (cp : Pt) (x1 y1 x y : ℝ) : Seg ℝ :=
  .curve false (cp.1 + 2 / 3 * (x1 - cp.1)) (cp.2 + 2 / 3 * (y1 - cp.2))
    (x + 2 / 3 * (x1 - x)) (y + 2 / 3 * (y1 - y)) x y

/-- The second half of `PathSegment.normalize`: an absolute segment, path.py 903-1006;
`q` are the keyword arguments `x1` and `y1`.  Simplification: for `S` the code puts a
`None` control point into the result, which fails in all uses of it; here that is an
error at once. -/
noncomputable def normalizeAbs (cp : Pt) (q : Pt?) : Seg ℝ → Py (List (Seg ℝ))
  | .arc _ rx ry rot fa fs x y => arcCurves rx ry rot fa fs cp (x, y)
  | .bearing .. => .ok []
  | .horiz _ x => .ok [.line false x cp.2]
  | .vert _ y => .ok [.line false cp.1 y]
  | .quad _ x1 y1 x y => .ok [elevate cp x1 y1 x y]
  | .smooth _ x2 y2 x y => match q with
    | (some x1, some y1) => .ok [.curve false x1 y1 x2 y2 x y]
    | _ => .error .typeError
  | .tsmooth _ x y => match q with
    | (some x1, some y1) => .ok [elevate cp x1 y1 x y]
    | _ => .error .typeError
  | s => .ok [s]

/-- `PathSegment.normalize`, path.py 870-1006. -/
noncomputable def normalizeSeg (cp : Pt?) (b : ℝ) (q : Pt?) (s : Seg ℝ) : Py (List (Seg ℝ)) :=
  if s.kind = .B then .ok []
  else if s.rel = false ∧ (s.kind = .C ∨ s.kind = .L ∨ s.kind = .M ∨ s.kind = .Z) then .ok [s]
  else normalizeAbs (orZero cp) q (toAbs cp b s)

/-- `2 * x - x1` with a coordinate that may be `None`. -/
noncomputable def mirror (x y : ℝ) : Pt? → Py Pt?
  | (some u, some v) => .ok (some (2 * x - u), some (2 * y - v))
  | _ => .error .typeError

/-- `PathSegment.get_next_control_point` of an absolute segment, path.py 837-867. -/
noncomputable def nextControlAbs (cp : Pt?) (last : Option Kind) (q : Pt?) : Seg ℝ → Py Pt?
  | .curve _ _ _ x2 y2 x y => mirror x y (some x2, some y2)
  | .smooth _ x2 y2 x y =>
    if last = some .C ∨ last = some .S then mirror x y (some x2, some y2) else mirror x y cp
  | .quad _ x1 y1 x y => mirror x y (some x1, some y1)
  | .tsmooth _ x y =>
    if last = some .Q ∨ last = some .T then mirror x y q else mirror x y cp
  | _ => .error .valueError

/-- `PathSegment.get_next_control_point`, path.py 825-867. -/
noncomputable def nextControl (cp : Pt?) (b : ℝ) (last : Option Kind) (q : Pt?) (s : Seg ℝ) : Py Pt? :=
  nextControlAbs cp last q (toAbs cp b s)

/-- The variables of the loops, path.py 1410-1418, 1519-1524. -/
structure State where
  start : Pt? := (none, none)
  cp : Pt? := (none, none)
  q : Pt? := (none, none)
  bearing : ℝ := 0
  last : Option Kind := none

/-- `normalized[-1].end`. -/
def lastEnd (n : List (Seg ℝ)) : Py Pt? :=
  match n.getLast? with
  | none => .error .indexError
  | some s => .ok (endPt s)

/-- Start and current point after a segment, path.py 1448-1460. -/
def movePoints (st : State) (k : Kind) (e : Pt?) : Pt? × Pt? :=
  if k = .Z then (st.start, if known st.start then st.start else st.cp)
  else (if (k = .M ∧ st.last ≠ some .M) ∨ known st.start = false then e else st.start, e)

/-- One iteration of `PathParser.normalize` for a drawing command, path.py 1436-1460. -/
noncomputable def normalizeStep (st : State) (s : Seg ℝ) : Py (List (Seg ℝ) × State) :=
  match normalizeSeg st.cp st.bearing st.q s with
  | .error e => .error e
  | .ok n =>
    match (if s.kind = .C ∨ s.kind = .Q ∨ s.kind = .S ∨ s.kind = .T then nextControl st.cp st.bearing st.last st.q s
      else lastEnd n), lastEnd n with
    | .ok q, .ok e =>
      .ok (n, ⟨(movePoints st s.kind e).1, (movePoints st s.kind e).2, q, st.bearing, some s.kind⟩)
    | .error e, _ => .error e
    | _, .error e => .error e

/-- The loop of `PathParser.normalize`, path.py 1419-1464. -/
noncomputable def normalizeFrom : State → List (Seg ℝ) → Py (List (Seg ℝ))
  | _, [] => .ok []
  | st, s :: l =>
    if s.kind = .B then normalizeFrom { st with bearing := getBearing st.bearing s, last := some .B } l
    else match normalizeStep st s with
      | .error e => .error e
      | .ok (n, st') => match normalizeFrom st' l with
        | .error e => .error e
        | .ok r => .ok (n ++ r)

/-- `PathParser.normalize`, path.py 1400-1465. -/
noncomputable def normalize (l : List (Seg ℝ)) : Py (List (Seg ℝ)) := normalizeFrom {} l

/-! ### Transformation -/

/-- `float(None)` is a `TypeError`. -/
def float : Option ℝ → Py ℝ
  | none => .error .typeError
  | some x => .ok x

/-- `x, y = matrix.transform_point(x, y)`. -/
noncomputable def image (m : Mat) (x y : ℝ) : Py Pt := unpack (transformPoint m x y 0 1)

/-- The second half of `PathSegment.transform`: an absolute segment, path.py 1128-1166. -/
noncomputable def transformAbs (cp : Pt?) (m : Mat) : Seg ℝ → Py (Seg ℝ)
  | .arc _ rx ry rot fa fs x y => (image m x y).map fun p => .arc false rx ry rot fa fs p.1 p.2
  | .curve _ x1 y1 x2 y2 x y =>
    (image m x1 y1).bind fun p1 => (image m x2 y2).bind fun p2 => (image m x y).map fun p =>
      .curve false p1.1 p1.2 p2.1 p2.2 p.1 p.2
  | .horiz _ x => (float cp.2).bind fun y => (image m x y).map fun p => .line false p.1 p.2
  | .vert _ y => (float cp.1).bind fun x => (image m x y).map fun p => .line false p.1 p.2
  | .line _ x y => (image m x y).map fun p => .line false p.1 p.2
  | .move _ x y => (image m x y).map fun p => .move false p.1 p.2
  | .tsmooth _ x y => (image m x y).map fun p => .tsmooth false p.1 p.2
  | .quad _ x1 y1 x y =>
    (image m x1 y1).bind fun p1 => (image m x y).map fun p => .quad false p1.1 p1.2 p.1 p.2
  | .smooth _ x1 y1 x y =>
    (image m x1 y1).bind fun p1 => (image m x y).map fun p => .smooth false p1.1 p1.2 p.1 p.2
  | .bearing .. => .error .notImplemented
  | .close r => .ok (.close r)

/-- `PathSegment.transform`, path.py 1114-1166. -/
noncomputable def transformSeg (cp : Pt?) (b : ℝ) (m : Mat) (s : Seg ℝ) : Py (Seg ℝ) :=
  if s.kind = .Z then .ok s else if s.kind = .B then .error .notImplemented else transformAbs cp m (toAbs cp b s)

/-- The loop of `PathParser.transform`, path.py 1525-1566. -/
noncomputable def transformFrom (m : Mat) : State → List (Seg ℝ) → Py (List (Seg ℝ))
  | _, [] => .ok []
  | st, s :: l =>
    if s.kind = .B then transformFrom m { st with bearing := getBearing st.bearing s, last := some .B } l
    else if s.kind = .Z then
      (transformFrom m { st with cp := if known st.start then st.start else st.cp, last := some .Z } l).map
        fun r => .close false :: r
    else match transformSeg st.cp st.bearing m s with
      | .error e => .error e
      | .ok t =>
        let e := endPt (toAbs st.cp st.bearing s)
        (transformFrom m { st with start := (movePoints st s.kind e).1, cp := e, last := some s.kind } l).map
          fun r => t :: r

/-- `PathParser.transform`, path.py 1517-1567. -/
noncomputable def transform (m : Mat) (l : List (Seg ℝ)) : Py (List (Seg ℝ)) := transformFrom m {} l

end SvgPy.PathGeom
