import Verif.Model.Bezier
import Mathlib.MeasureTheory.Integral.IntervalIntegral.Basic
import Mathlib.Analysis.SpecialFunctions.Trigonometric.Arctan

/-! Lengths of path segments, `/repo/svgpy/path.py` 60-64, 104-127, 178-249, 749-822 and
1324-1397.  Numbers are exact reals and the numerical integrals of SciPy are taken to be the
integrals they approximate. -/

namespace SvgPy.PathLength

open SvgPy.PathGeom SvgPy.Path SvgPy.Bezier SvgPy.Matrix

/-- `_get_length_integrand`, path.py 60-64. -/
noncomputable def integrand (c0 c1 c2 c3 c4 t : ℝ) : ℝ := √(c4 * t ^ 4 + c3 * t ^ 3 + c2 * t ^ 2 + c1 * t + c0)

/-- `CubicBezierCurve.get_length`, path.py 104-127; `quad` is the integral. -/
noncomputable def curveLength (k : Curve) : ℝ :=
  let a1 := coefC k.p0.1 k.p1.1
  let b1 := coefC k.p0.2 k.p1.2
  let a2 := coefB k.p0.1 k.p1.1 k.p2.1
  let b2 := coefB k.p0.2 k.p1.2 k.p2.2
  let a3 := coefA k.p0.1 k.p1.1 k.p2.1 k.p3.1
  let b3 := coefA k.p0.2 k.p1.2 k.p2.2 k.p3.2
  ∫ t in (0:ℝ)..1, integrand (a1 ^ 2 + b1 ^ 2) (4 * (a2 * a1 + b2 * b1))
    (6 * (a3 * a1 + b3 * b1) + 4 * (a2 ^ 2 + b2 ^ 2)) (12 * (a3 * a2 + b3 * b2)) (9 * (a3 ^ 2 + b3 ^ 2)) t

/-- `scipy.special.ellipeinc`, the incomplete elliptic integral of the second kind. -/
noncomputable def ellipeinc (phi m : ℝ) : ℝ := ∫ t in (0:ℝ)..phi, √(1 - m * Real.sin t ^ 2)

/-- `_get_arc_length`, path.py 189-206.  `math.tan(math.radians(90))` is a very large float
whose arc tangent is half of pi; as the real function has no value there, that case stands
apart. -/
noncomputable def quarterLength (rx ry angle : ℝ) : ℝ :=
  if rx = 0 ∨ ry = 0 then 0
  else
    let phi := if angle = 90 then Real.pi / 2 else Real.arctan (rx / ry * Real.tan (radians angle))
    ry * ellipeinc phi (1 - (rx / ry) ^ 2)

/-- `while x > 360: x -= 360`, path.py 212-213, 219-220; the first argument bounds the
number of rounds. -/
noncomputable def wrapDown : Nat → ℝ → ℝ
  | 0, x => x
  | n + 1, x => if 360 < x then wrapDown n (x - 360) else x

/-- `while x < 0: x += 360`, path.py 214-215, 221-222. -/
noncomputable def wrapUp : Nat → ℝ → ℝ
  | 0, x => x
  | n + 1, x => if x < 0 then wrapUp n (x + 360) else x

/-- Both loops. -/
noncomputable def wrap (x : ℝ) : ℝ := wrapUp ⌈|wrapDown ⌈|x|⌉₊ x|⌉₊ (wrapDown ⌈|x|⌉₊ x)

/-- The length from the angle 0 up to `e`, path.py 230-246 (the same for `start` and
`end`). -/
noncomputable def lengthUpTo (rx ry e : ℝ) : ℝ :=
  let n := ⌊e / 90⌋
  let a := e - 90 * n
  let s0 := quarterLength rx ry 90
  let s := n * s0
  if 0 < a then
    if (90 < e ∧ e ≤ 180) ∨ (270 < e ∧ e ≤ 360) then s + (s0 - quarterLength rx ry (90 - a))
    else s + quarterLength rx ry a
  else s

/-- `Ellipse.get_length`, path.py 178-249. -/
noncomputable def ellipseLength (rx ry start delta : ℝ) : ℝ :=
  if rx = 0 ∨ ry = 0 then 0
  else
    let s := wrap start
    let e := wrap (s + delta)
    if s = e then 0
    else
      let a := if delta < 0 then e else s
      let b := if delta < 0 then s else e
      if a < b then lengthUpTo rx ry b - lengthUpTo rx ry a
      else 4 * quarterLength rx ry 90 - lengthUpTo rx ry a + lengthUpTo rx ry b

/-- `math.hypot(x - cpx, y - cpy)`. -/
noncomputable def hypot (p q : Pt) : ℝ := √((q.1 - p.1) ^ 2 + (q.2 - p.2) ^ 2)

/-- The length of an absolute arc, path.py 789-805. -/
noncomputable def arcLength (rx ry rot fa fs : ℝ) (cp ep : Pt) : ℝ :=
  let arc := arcCentre rx ry rot fa fs cp ep
  match arc.centre with
  | none => if arc.rx = 0 ∨ arc.ry = 0 then hypot cp ep else 0
  | some (_, d1, _, ext) => ellipseLength arc.rx arc.ry d1 ext

/-- The length of an absolute A, C, L or M, path.py 788-822. -/
noncomputable def plainLength (cp : Pt) : Seg ℝ → Py (ℝ × Pt)
  | .arc _ rx ry rot fa fs x y => .ok (arcLength rx ry rot fa fs cp (x, y), (x, y))
  | .curve _ x1 y1 x2 y2 x y => .ok (curveLength ⟨cp, (x1, y1), (x2, y2), (x, y)⟩, (x, y))
  | .line _ x y => .ok (hypot cp (x, y), (x, y))
  | .move _ x y => .ok (hypot cp (x, y), (x, y))
  | _ => .error .notImplemented

/-- `PathSegment.normalize(...)[0]`, path.py 782-787. -/
def headOf : Py (List (Seg ℝ)) → Py (Seg ℝ)
  | .error e => .error e
  | .ok [] => .error .indexError
  | .ok (s :: _) => .ok s

/-- `PathSegment.get_length` of a drawing command, path.py 749-822. -/
noncomputable def segLength (cp : Pt?) (b : ℝ) (q : Pt?) (s : Seg ℝ) : Py (ℝ × Pt) :=
  let p := orZero cp
  let a := toAbs (some p.1, some p.2) b s
  if a.kind = .H ∨ a.kind = .Q ∨ a.kind = .S ∨ a.kind = .T ∨ a.kind = .V then
    match headOf (normalizeSeg (some p.1, some p.2) b q a) with
    | .error e => .error e
    | .ok n => plainLength p n
  else plainLength p a

/-- One iteration of `PathParser.get_total_length` for a drawing command: what is added to
the total, and the variables, path.py 1348-1380. -/
noncomputable def lengthStep (st : State) (s : Seg ℝ) : Py (ℝ × State) :=
  match segLength st.cp st.bearing st.q s with
  | .error e => .error e
  | .ok (len, p) =>
    match (if s.kind = .C ∨ s.kind = .Q ∨ s.kind = .S ∨ s.kind = .T then nextControl st.cp st.bearing st.last st.q s
      else .ok (some p.1, some p.2)) with
    | .error e => .error e
    | .ok q =>
      .ok (if s.kind = .M ∧ st.last ≠ some .M then 0 else len,
        ⟨if (s.kind = .M ∧ st.last ≠ some .M) ∨ (s.kind ≠ .M ∧ known st.start = false) then (some p.1, some p.2) else st.start,
          (some p.1, some p.2), q, st.bearing, some s.kind⟩)

/-- The closing line, path.py 1384-1395. -/
noncomputable def closeLength (st : State) : ℝ × State :=
  match st.start, st.cp with
  | (some sx, some sy), (some x, some y) =>
    (hypot (x, y) (sx, sy), { st with cp := st.start, last := some .Z })
  | _, _ => (0, { st with last := some .Z })

/-- The loop of `PathParser.get_total_length`. -/
noncomputable def lengthFrom : State → List (Seg ℝ) → Py ℝ
  | _, [] => .ok 0
  | st, s :: l =>
    if s.kind = .B then lengthFrom { st with bearing := getBearing st.bearing s, last := some .B } l
    else if s.kind = .Z then (lengthFrom (closeLength st).2 l).map ((closeLength st).1 + ·)
    else match lengthStep st s with
      | .error e => .error e
      | .ok (len, st') => (lengthFrom st' l).map (len + ·)

/-- `PathParser.get_total_length`, path.py 1324-1397. -/
noncomputable def totalLength (l : List (Seg ℝ)) : Py ℝ := lengthFrom {} l

end SvgPy.PathLength
