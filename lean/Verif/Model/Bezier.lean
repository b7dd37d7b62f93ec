import Verif.Model.PathGeom
import Verif.Model.Rect
import Mathlib.Analysis.SpecialFunctions.Pow.Real

/-! `CubicBezierCurve`, `/repo/svgpy/path.py` 40-157, and the bounding boxes built from it,
path.py 557-619 and 1259-1321.  Numbers are exact reals. -/

namespace SvgPy.Bezier

open SvgPy.PathGeom SvgPy.Path SvgPy.Rect

/-- `CubicBezierCurve.__init__`, path.py 42-58. -/
structure Curve where
  p0 : Pt
  p1 : Pt
  p2 : Pt
  p3 : Pt

/-- One coordinate of the results of `get_coefficients`, path.py 97-103. -/
noncomputable def coefA (a b c d : ℝ) : ℝ := -a + 3 * b - 3 * c + d
/-- See `coefA`. -/
noncomputable def coefB (a b c : ℝ) : ℝ := 3 * a - 6 * b + 3 * c
/-- See `coefA`. -/
noncomputable def coefC (a b : ℝ) : ℝ := -3 * a + 3 * b

/-- `_solve`, path.py 131-134. -/
noncomputable def solve (a b c : ℝ) (s : Bool) : ℝ :=
  (-b + (if s then 1 else -1) * √(b ^ 2 - 4 * a * c)) / (2 * a)

/-- One iteration of the loop of `get_roots`, path.py 141-151. -/
noncomputable def rootsAt (a b c : ℝ) : List ℝ :=
  let d := b ^ 2 - 4 * a * c
  if d < 0 then []
  else if a = 0 ∧ b ≠ 0 then [-c / b]
  else if d = 0 ∧ a ≠ 0 then [solve a b c true]
  else if a ≠ 0 then [solve a b c true, solve a b c false]
  else []

/-- The roots in one coordinate, path.py 138-150. -/
noncomputable def rootsOf (a b c d : ℝ) : List ℝ :=
  rootsAt (3 * coefA a b c d) (2 * coefB a b c) (coefC a b)

/-- `get_roots`, path.py 129-152. -/
noncomputable def Curve.roots (k : Curve) : List ℝ :=
  (rootsOf k.p0.1 k.p1.1 k.p2.1 k.p3.1 ++ rootsOf k.p0.2 k.p1.2 k.p2.2 k.p3.2).filter
    fun t => decide (0 ≤ t ∧ t ≤ 1)

/-- One coordinate of `point`, path.py 154-157. -/
noncomputable def pointAt (a b c d t : ℝ) : ℝ := coefA a b c d * t ^ 3 + coefB a b c * t ^ 2 + coefC a b * t + a

/-- `point`, path.py 154-157. -/
noncomputable def Curve.point (k : Curve) (t : ℝ) : Pt :=
  (pointAt k.p0.1 k.p1.1 k.p2.1 k.p3.1 t, pointAt k.p0.2 k.p1.2 k.p2.2 k.p3.2 t)

/-- `CubicBezierCurve.get_bbox`, path.py 66-95; `min`/`max` of a list that begins with the
first end point. -/
noncomputable def Curve.bbox (k : Curve) : DRect ℝ :=
  let ps := k.p3 :: k.roots.map k.point
  let x := (ps.map Prod.fst).foldl min k.p0.1
  let y := (ps.map Prod.snd).foldl min k.p0.2
  ⟨some x, some y, (ps.map Prod.fst).foldl max k.p0.1 - x, (ps.map Prod.snd).foldl max k.p0.2 - y⟩

/-- `DOMRect(cpx, cpy, x - cpx, y - cpy).normalize()`, path.py 606, 617. -/
noncomputable def lineBox (p q : Pt) : Py (DRect ℝ) := (⟨some p.1, some p.2, q.1 - p.1, q.2 - p.2⟩ : DRect ℝ).normalize

/-- One iteration of the loop of `PathSegment.get_bbox`, path.py 583-618: the box so far and
the current point. -/
noncomputable def boxStep (box : DRect ℝ) (cp : Pt?) : Seg ℝ → Py (DRect ℝ × Pt?)
  | .curve false x1 y1 x2 y2 x y =>
    .ok (box.unite (Curve.bbox ⟨orZero cp, (x1, y1), (x2, y2), (x, y)⟩), (some x, some y))
  | .line false x y => (lineBox (orZero cp) (x, y)).map fun r => (box.unite r, (some x, some y))
  | .move false x y =>
    match cp with
    | (some a, some b) => (lineBox (a, b) (x, y)).map fun r => (box.unite r, (some x, some y))
    | _ => .ok (if box.isvalid then box.unite ⟨some x, some y, 0, 0⟩ else ⟨some x, some y, 0, 0⟩, (some x, some y))
  | _ => .ok (box, cp)

/-- The loop of `PathSegment.get_bbox`, path.py 582-619. -/
noncomputable def boxLoop : DRect ℝ → Pt? → List (Seg ℝ) → Py (DRect ℝ)
  | box, _, [] => .ok box
  | box, cp, s :: l => match boxStep box cp s with
    | .error e => .error e
    | .ok (box', cp') => boxLoop box' cp' l

/-- `PathSegment.get_bbox`, path.py 557-619. -/
noncomputable def segBBox (cp : Pt?) (b : ℝ) (q : Pt?) (s : Seg ℝ) : Py (DRect ℝ) :=
  if s.kind = .B ∨ s.kind = .Z then .ok DRect.new
  else match normalizeSeg cp b q s with
    | .error e => .error e
    | .ok n => boxLoop DRect.new cp n

/-- The variables of `PathParser.get_bbox`, path.py 1271-1277 (`bearing` stays 0). -/
structure BState where
  box : DRect ℝ := DRect.new
  start : Pt? := (none, none)
  cp : Pt? := (none, none)
  last : Option Kind := none

/-- Box and start point after `C`, `L` or `M`, path.py 1291-1307. -/
noncomputable def takeBox (st : BState) (k : Kind) (r : DRect ℝ) (e : Pt?) : BState :=
  if k = .M then
    let box := if st.last = none then r else st.box
    if st.last = some .M then ⟨box.unite r, st.start, e, some k⟩ else ⟨box, e, e, some k⟩
  else ⟨st.box.unite r, if known st.start then st.start else e, e, some k⟩

/-- The closing line, path.py 1308-1319. -/
noncomputable def closeBox (st : BState) : Py BState :=
  match st.start, st.cp with
  | (some sx, some sy), (some _, some _) =>
    (segBBox st.cp 0 (none, none) (.line false sx sy)).map fun r => ⟨st.box.unite r, st.start, st.start, some .Z⟩
  | _, _ => .ok { st with last := some .Z }

/-- One iteration of `PathParser.get_bbox`, path.py 1278-1320. -/
noncomputable def bboxStep (st : BState) (s : Seg ℝ) : Py BState :=
  if s.rel = false ∧ (s.kind = .C ∨ s.kind = .L ∨ s.kind = .M) then
    (segBBox st.cp 0 (none, none) s).map fun r => takeBox st s.kind r (endPt s)
  else if s.rel = false ∧ s.kind = .Z then closeBox st
  else .error .valueError

/-- The loop of `PathParser.get_bbox`. -/
noncomputable def bboxFrom : BState → List (Seg ℝ) → Py (DRect ℝ)
  | st, [] => .ok st.box
  | st, s :: l => match bboxStep st s with
    | .error e => .error e
    | .ok st' => bboxFrom st' l

/-- `PathParser.get_bbox`, path.py 1259-1321. -/
noncomputable def bbox (l : List (Seg ℝ)) : Py (DRect ℝ) := bboxFrom {} l

end SvgPy.Bezier
