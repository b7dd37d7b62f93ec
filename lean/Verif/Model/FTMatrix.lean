import Mathlib.Analysis.SpecialFunctions.Trigonometric.Basic
import Verif.Model.Py

/-!
The 2x2 matrices of the FreeType binding: `FTMatrix`, `/repo/svgpy/freetype.py` 27-29, 925-1282.

Simplifications: floats are real numbers; `np.dot` and `np.linalg.inv` are the exact product and inverse.  Methods
that change the object give the new object; those that copy give the copy.
-/

namespace SvgPy.FTMatrix

open Real

/-- `_matrix`: the array `[[m00, m01], [m10, m11]]`. -/
@[ext] structure Mat where
  m00 : ℝ
  m01 : ℝ
  m10 : ℝ
  m11 : ℝ

/-- `matrix2d(a, b, c, d)`, freetype.py 27-29. -/
def matrix2d (a b c d : ℝ) : Mat := ⟨a, c, b, d⟩

/-- `np.dot`. -/
def dot (m n : Mat) : Mat :=
  ⟨m.m00 * n.m00 + m.m01 * n.m10, m.m00 * n.m01 + m.m01 * n.m11,
   m.m10 * n.m00 + m.m11 * n.m10, m.m10 * n.m01 + m.m11 * n.m11⟩

/-- The C structure `FT_Matrix` with numbers in units of `1/0x10000`. -/
@[ext] structure FT where
  xx : ℤ
  xy : ℤ
  yx : ℤ
  yy : ℤ
  deriving DecidableEq

/-- `FTMatrix()`, freetype.py 935-939, 945. -/
def new : Mat := matrix2d 1 0 0 1

/-- `FTMatrix(ft_matrix)`, freetype.py 940-945. -/
noncomputable def ofFT (m : FT) : Mat :=
  let xx := (m.xx : ℝ) / 65536
  let xy := (m.xy : ℝ) / 65536
  let yx := (m.yx : ℝ) / 65536
  let yy := (m.yy : ℝ) / 65536
  matrix2d xx yx xy yy

/-- `int(x)` of a float: towards zero. -/
noncomputable def truncate (x : ℝ) : ℤ := if 0 ≤ x then ⌊x⌋ else ⌈x⌉

/-- `ft_matrix`, freetype.py 1014-1022. -/
noncomputable def toFT (m : Mat) : FT :=
  ⟨truncate (m.m00 * 65536), truncate (m.m01 * 65536), truncate (m.m10 * 65536), truncate (m.m11 * 65536)⟩

/-- `a`, `xx`, freetype.py 970-975, 1029-1034. -/
def a (m : Mat) : ℝ := m.m00

/-- `b`, freetype.py 981-986. -/
def b (m : Mat) : ℝ := m.m01

/-- `c`, freetype.py 992-997. -/
def c (m : Mat) : ℝ := m.m10

/-- `d`, `yy`, freetype.py 1003-1008, 1062-1067. -/
def d (m : Mat) : ℝ := m.m11

/-- `xy`, freetype.py 1040-1045. -/
def xy (m : Mat) : ℝ := m.m01

/-- `yx`, freetype.py 1051-1056. -/
def yx (m : Mat) : ℝ := m.m10

/-- Setter of `a` and `xx`, freetype.py 977-979, 1036-1038. -/
def setA (m : Mat) (v : ℝ) : Mat := { m with m00 := v }

/-- Setter of `b` and `xy`, freetype.py 988-990, 1047-1049. -/
def setB (m : Mat) (v : ℝ) : Mat := { m with m01 := v }

/-- Setter of `c` and `yx`, freetype.py 999-1001, 1058-1060. -/
def setC (m : Mat) (v : ℝ) : Mat := { m with m10 := v }

/-- Setter of `d` and `yy`, freetype.py 1010-1012, 1069-1071. -/
def setD (m : Mat) (v : ℝ) : Mat := { m with m11 := v }

/-- `clear`, freetype.py 1073-1080. -/
def clear (_ : Mat) : Mat := matrix2d 1 0 0 1

/-- `flip_x`, freetype.py 1082-1093. -/
def flipX (m : Mat) : Mat := dot m (matrix2d (-1) 0 0 1)

/-- `flip_y`, freetype.py 1095-1106. -/
def flipY (m : Mat) : Mat := dot m (matrix2d 1 0 0 (-1))

/-- `from_float_array`, freetype.py 1108-1121. -/
def fromFloatArray (values : List ℝ) : Py Mat :=
  match values with
  | [a, c, b, d] => .ok (matrix2d a b c d)
  | _ => .error .valueError

/-- `inverse`, `invert_self`, freetype.py 1123-1141: `np.linalg.inv` raises `LinAlgError` for singular
matrices. -/
noncomputable def inverse (m : Mat) : Py Mat :=
  let det := m.m00 * m.m11 - m.m01 * m.m10
  open Classical in
  if det = 0 then .error (.dom "LinAlgError")
  else .ok ⟨m.m11 / det, -m.m01 / det, -m.m10 / det, m.m00 / det⟩

/-- `multiply`, `multiply_self`, `*` and `*=`, freetype.py 952-963, 1143-1165. -/
def multiply (m other : Mat) : Mat := dot m other

/-- `math.radians`. -/
noncomputable def radians (angle : ℝ) : ℝ := angle * π / 180

/-- `rotate`, `rotate_self`, freetype.py 1167-1193. -/
noncomputable def rotate (m : Mat) (angle : ℝ) : Mat :=
  let cosA := cos (radians angle)
  let sinA := sin (radians angle)
  dot m (matrix2d cosA (-sinA) sinA cosA)

/-- `scale`, `scale_self`, freetype.py 1195-1224. -/
def scale (m : Mat) (sx : ℝ) (sy : Option ℝ) : Mat :=
  let sy := match sy with
    | none => sx
    | some sy => sy
  dot m (matrix2d sx 0 0 sy)

/-- `skew_x`, `skew_x_self`, freetype.py 1226-1250. -/
noncomputable def skewX (m : Mat) (angle : ℝ) : Mat := dot m (matrix2d 1 0 (-tan (radians angle)) 1)

/-- `skew_y`, `skew_y_self`, freetype.py 1252-1276. -/
noncomputable def skewY (m : Mat) (angle : ℝ) : Mat := dot m (matrix2d 1 (-tan (radians angle)) 0 1)

/-- `to_float_array`, `tolist`, freetype.py 1278-1282. -/
def toFloatArray (m : Mat) : List ℝ := [a m, b m, c m, d m]

end SvgPy.FTMatrix
