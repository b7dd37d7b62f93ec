import Mathlib.Analysis.SpecialFunctions.Trigonometric.Basic

/-!
`Ellipse.point`, `/repo/svgpy/path.py` 160-176 and 251-262.  Numbers are exact reals.
-/

namespace SvgPy.EllipsePoint

/-- `Ellipse.__init__`, path.py 161-176. -/
structure Ellipse where
  cx : ℝ
  cy : ℝ
  rx : ℝ
  ry : ℝ
  rotation : ℝ

/-- `math.radians`. -/
noncomputable def radians (a : ℝ) : ℝ := a * Real.pi / 180

/-- `angle % 360`, path.py 253: Python's remainder has the sign of the divisor. -/
noncomputable def mod360 (a : ℝ) : ℝ := a - 360 * ⌊a / 360⌋

/-- `Ellipse.point`, path.py 251-262. -/
noncomputable def point (e : Ellipse) (angle : ℝ) : ℝ × ℝ :=
  let r := radians e.rotation
  let t := radians (-mod360 angle)
  let x := e.rx * Real.cos t
  let y := e.ry * Real.sin t
  (Real.cos r * x + -Real.sin r * y + e.cx, Real.sin r * x + Real.cos r * y + e.cy)

end SvgPy.EllipsePoint
