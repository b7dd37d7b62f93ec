import Verif.Model.Py
import Verif.Model.PyStr
import Mathlib.LinearAlgebra.Matrix.NonsingularInverse
import Mathlib.LinearAlgebra.Matrix.Notation
import Mathlib.Analysis.SpecialFunctions.Complex.Arg
import Mathlib.Analysis.SpecialFunctions.Trigonometric.Basic

/-!
Model of `DOMMatrixReadOnly` and `DOMMatrix`, `/repo/svgpy/geometry/matrix.py`.
Floats are exact real numbers, `numpy.dot` is the product of real matrices and
`numpy.linalg.inv` the inverse (an error when the determinant is zero).
-/

namespace SvgPy.Matrix

/-- The numpy array. -/
abbrev M4 := _root_.Matrix (Fin 4) (Fin 4) ℝ

/-- A matrix object: `_matrix`, `_is2d`. -/
structure Mat where
  m : M4
  is2d : Bool

/-- `matrix2d`, matrix.py 33-49. -/
def matrix2d (a b c d e f : ℝ) : M4 :=
  !![a, c, 0, e; b, d, 0, f; 0, 0, 1, 0; 0, 0, 0, 1]

/-- `matrix3d`, matrix.py 52-81: the components by columns. -/
def matrix3d (m11 m12 m13 m14 m21 m22 m23 m24 m31 m32 m33 m34 m41 m42 m43 m44 : ℝ) : M4 :=
  !![m11, m21, m31, m41; m12, m22, m32, m42; m13, m23, m33, m43; m14, m24, m34, m44]

/-- Names of the components, matrix.py 155-287. -/
inductive Comp
  | m11 | m12 | m13 | m14 | m21 | m22 | m23 | m24 | m31 | m32 | m33 | m34 | m41 | m42 | m43 | m44
  | a | b | c | d | e | f
  deriving DecidableEq

/-- The row each property reads, matrix.py 155-287. -/
def row : Comp → Fin 4
  | .a | .m11 | .c | .m21 | .m31 | .e | .m41 => 0
  | .b | .m12 | .d | .m22 | .m32 | .f | .m42 => 1
  | .m13 | .m23 | .m33 | .m43 => 2
  | .m14 | .m24 | .m34 | .m44 => 3

/-- The column each property reads, matrix.py 155-287. -/
def col : Comp → Fin 4
  | .a | .b | .m11 | .m12 | .m13 | .m14 => 0
  | .c | .d | .m21 | .m22 | .m23 | .m24 => 1
  | .m31 | .m32 | .m33 | .m34 => 2
  | .e | .f | .m41 | .m42 | .m43 | .m44 => 3

/-- The getters, matrix.py 155-287. -/
def get (x : Mat) (k : Comp) : ℝ := x.m (row k) (col k)

/-- `isidentity`, matrix.py 191-207. -/
def isidentity (x : Mat) : Prop :=
  get x .m11 = 1 ∧ get x .m22 = 1 ∧ get x .m33 = 1 ∧ get x .m44 = 1 ∧
  get x .m12 = 0 ∧ get x .m13 = 0 ∧ get x .m14 = 0 ∧ get x .m21 = 0 ∧ get x .m23 = 0 ∧ get x .m24 = 0 ∧
  get x .m31 = 0 ∧ get x .m32 = 0 ∧ get x .m34 = 0 ∧ get x .m41 = 0 ∧ get x .m42 = 0 ∧ get x .m43 = 0

/-- `_init_from_array`, matrix.py 293-302. -/
def ofArray : List ℝ → Py Mat
  | [a, b, c, d, e, f] => .ok ⟨matrix2d a b c d e f, true⟩
  | [m11, m12, m13, m14, m21, m22, m23, m24, m31, m32, m33, m34, m41, m42, m43, m44] =>
    .ok ⟨matrix3d m11 m12 m13 m14 m21 m22 m23 m24 m31 m32 m33 m34 m41 m42 m43 m44, false⟩
  | _ => .error .typeError

/-- The keyword arguments of the constructor: a value or `None` per component (`None`
and an absent keyword are treated alike), `is2d`, and keywords that are no component. -/
structure Init where
  val : Comp → Option ℝ
  is2d : Option Bool
  extra : List Str

/-- `a is not None and m11 is not None and not _same_value_zero(a, m11)`, matrix.py 23-30,
309-338. -/
def clash (i : Init) (short long : Comp) : Prop :=
  ∃ v w, i.val short = some v ∧ i.val long = some w ∧ v ≠ w

/-- Any of the six tests, matrix.py 309-338. -/
def anyClash (i : Init) : Prop :=
  clash i .a .m11 ∨ clash i .b .m12 ∨ clash i .c .m21 ∨ clash i .d .m22 ∨ clash i .e .m41 ∨ clash i .f .m42

/-- `if m11 is None: m11 = a if a is not None else 1`, matrix.py 339-350. -/
def pick (i : Init) (short long : Comp) (default : ℝ) : ℝ :=
  match i.val long with
  | some v => v
  | none => (i.val short).getD default

/-- `m13 is not None and m13 != 0`. -/
def off (i : Init) (k : Comp) (default : ℝ) : Prop := ∃ v, i.val k = some v ∧ v ≠ default

/-- The ten tests on the 3D components, matrix.py 365-388. -/
def has3d (i : Init) : Prop :=
  off i .m13 0 ∨ off i .m14 0 ∨ off i .m23 0 ∨ off i .m24 0 ∨ off i .m31 0 ∨ off i .m32 0 ∨
  off i .m33 1 ∨ off i .m34 0 ∨ off i .m43 0 ∨ off i .m44 1

/-- The 2D result, matrix.py 389-391. -/
def init2d (i : Init) : Mat :=
  ⟨matrix2d (pick i .a .m11 1) (pick i .b .m12 0) (pick i .c .m21 0) (pick i .d .m22 1) (pick i .e .m41 0)
    (pick i .f .m42 0), true⟩

/-- The 3D result, matrix.py 392-417. -/
def init3d (i : Init) : Mat :=
  ⟨matrix3d (pick i .a .m11 1) (pick i .b .m12 0) ((i.val .m13).getD 0) ((i.val .m14).getD 0)
    (pick i .c .m21 0) (pick i .d .m22 1) ((i.val .m23).getD 0) ((i.val .m24).getD 0)
    ((i.val .m31).getD 0) ((i.val .m32).getD 0) ((i.val .m33).getD 1) ((i.val .m34).getD 0)
    (pick i .e .m41 0) (pick i .f .m42 0) ((i.val .m43).getD 0) ((i.val .m44).getD 1), false⟩

open Classical in
/-- `_init_from_matrix` and `from_matrix`, matrix.py 304-417, 454-465, 904-915. -/
noncomputable def ofInit (i : Init) : Py Mat :=
  if anyClash i then .error .valueError
  else if i.extra ≠ [] then .error .typeError
  else match i.is2d with
    | none => if has3d i then .ok (init3d i) else .ok (init2d i)
    | some true => if has3d i then .error .valueError else .ok (init2d i)
    | some false => .ok (init3d i)

/-- `to_float_array`, matrix.py 628-632. -/
def toFloatArray (x : Mat) : List ℝ :=
  [get x .m11, get x .m12, get x .m13, get x .m14, get x .m21, get x .m22, get x .m23, get x .m24,
   get x .m31, get x .m32, get x .m33, get x .m34, get x .m41, get x .m42, get x .m43, get x .m44]

/-- `tolist`, matrix.py 667-671. -/
def tolist (x : Mat) : List ℝ :=
  if x.is2d then [get x .a, get x .b, get x .c, get x .d, get x .e, get x .f] else toFloatArray x

/-- The dictionary of a 2D matrix, matrix.py 635-644. -/
def json2 (x : Mat) : Comp → Option ℝ
  | .m11 => some (get x .m11)
  | .m12 => some (get x .m12)
  | .m21 => some (get x .m21)
  | .m22 => some (get x .m22)
  | .m41 => some (get x .m41)
  | .m42 => some (get x .m42)
  | _ => none

/-- The dictionary of a 3D matrix, matrix.py 645-664. -/
def json3 (x : Mat) : Comp → Option ℝ
  | .a | .b | .c | .d | .e | .f => none
  | k => some (get x k)

/-- `tojson`, matrix.py 634-665, as keyword arguments. -/
def tojson (x : Mat) : Init :=
  if x.is2d then ⟨json2 x, some true, []⟩ else ⟨json3 x, some false, []⟩

/-- `transform_point`, matrix.py 684-700. -/
noncomputable def transformPoint (x : Mat) (px py pz pw : ℝ) : List ℝ :=
  let p := x.m.mulVec ![px, py, pz, pw]
  if x.is2d = true ∧ pz = 0 ∧ pw = 1 then [p 0, p 1] else [p 0, p 1, p 2, p 3]

/-! ### In-place operations -/

/-- The flag after a component is set, matrix.py 768-873. -/
noncomputable def setFlag (is2d : Bool) (k : Comp) (v : ℝ) : Bool :=
  match k with
  | .m13 | .m14 | .m23 | .m24 | .m31 | .m32 | .m34 | .m43 => if v ≠ 0 then false else is2d
  | .m33 | .m44 => if v ≠ 1 then false else is2d
  | _ => is2d

/-- The setters, matrix.py 768-873. -/
noncomputable def set (x : Mat) (k : Comp) (v : ℝ) : Mat :=
  ⟨x.m.updateRow (row k) (Function.update (x.m (row k)) (col k) v), setFlag x.is2d k v⟩

/-- `clear`, matrix.py 875-889. -/
def clear (x : Mat) (is2d : Option Bool) : Mat :=
  ⟨matrix3d 1 0 0 0 0 1 0 0 0 0 1 0 0 0 0 1, is2d.getD x.is2d⟩

/-- `invert_self`, matrix.py 917-924. -/
noncomputable def invertSelf (x : Mat) : Py Mat :=
  if x.m.det = 0 then .error (.dom "LinAlgError") else .ok ⟨x.m⁻¹, x.is2d⟩

/-- `multiply_self`, matrix.py 926-937. -/
noncomputable def multiplySelf (x y : Mat) : Mat := ⟨x.m * y.m, if y.is2d then x.is2d else false⟩

/-- `math.radians`. -/
noncomputable def radians (deg : ℝ) : ℝ := deg * Real.pi / 180

/-- `math.degrees`. -/
noncomputable def degrees (rad : ℝ) : ℝ := rad * 180 / Real.pi

/-- `math.atan2`. -/
noncomputable def atan2 (y x : ℝ) : ℝ := Complex.arg ⟨x, y⟩

/-- The rotation matrix for a unit axis, matrix.py 951-989. -/
noncomputable def axisMatrix (x y z sin cos : ℝ) : M4 :=
  if x = 0 ∧ y = 0 ∧ z = 1 then matrix3d cos sin 0 0 (-sin) cos 0 0 0 0 1 0 0 0 0 1
  else if x = 0 ∧ y = 1 ∧ z = 0 then matrix3d cos 0 (-sin) 0 0 1 0 0 sin 0 cos 0 0 0 0 1
  else if x = 1 ∧ y = 0 ∧ z = 0 then matrix3d 1 0 0 0 0 cos sin 0 0 (-sin) cos 0 0 0 0 1
  else matrix3d
    (cos + x ^ 2 * (1 - cos)) (y * x * (1 - cos) + z * sin) (z * x * (1 - cos) - y * sin) 0
    (x * y * (1 - cos) - z * sin) (cos + y * y * (1 - cos)) (z * y * (1 - cos) + x * sin) 0
    (x * z * (1 - cos) + y * sin) (y * z * (1 - cos) - x * sin) (cos + z * z * (1 - cos)) 0
    0 0 0 1

/-- After the axis is normalised, matrix.py 948-993. -/
noncomputable def rotateUnit (x : Mat) (ax ay az angle : ℝ) : Mat :=
  ⟨x.m * axisMatrix ax ay az (Real.sin (radians angle)) (Real.cos (radians angle)),
    if ax ≠ 0 ∨ ay ≠ 0 then false else x.is2d⟩

/-- `rotate_axis_angle_self`, matrix.py 939-993. -/
noncomputable def rotateAxisAngleSelf (x : Mat) (ax ay az angle : ℝ) : Mat :=
  let length := √(ax ^ 2 + ay ^ 2 + az ^ 2)
  if length = 0 then x
  else if length ≠ 1 then rotateUnit x (ax / length) (ay / length) (az / length) angle
  else rotateUnit x ax ay az angle

/-- `rotate_self`, matrix.py 999-1020: z, then y, then x. -/
noncomputable def rotateSelf (x : Mat) (rx ry rz : ℝ) : Mat :=
  let x := if rz ≠ 0 then rotateAxisAngleSelf x 0 0 1 rz else x
  let x : Mat := if ry ≠ 0 then ⟨(rotateAxisAngleSelf x 0 1 0 ry).m, false⟩ else x
  if rx ≠ 0 then ⟨(rotateAxisAngleSelf x 1 0 0 rx).m, false⟩ else x

/-- `rotate_from_vector_self`, matrix.py 995-997. -/
noncomputable def rotateFromVectorSelf (x : Mat) (vx vy : ℝ) : Mat := rotateSelf x 0 0 (degrees (atan2 vy vx))

/-- `translate_self`, matrix.py 1082-1102. -/
noncomputable def translateSelf (x : Mat) (tx ty tz : ℝ) : Mat :=
  if tx = 0 ∧ ty = 0 ∧ tz = 0 then x
  else ⟨x.m * matrix3d 1 0 0 0 0 1 0 0 0 0 1 0 tx ty tz 1, if tz ≠ 0 then false else x.is2d⟩

/-- `scale_self`, matrix.py 1022-1052. -/
noncomputable def scaleSelf (x : Mat) (sx : ℝ) (sy? : Option ℝ) (sz ox oy oz : ℝ) : Mat :=
  let sy := sy?.getD sx
  if sx = 1 ∧ sy = 1 ∧ sz = 1 then x
  else
    let x := if ox ≠ 0 ∨ oy ≠ 0 ∨ oz ≠ 0 then translateSelf x ox oy oz else x
    let x : Mat := ⟨x.m * matrix3d sx 0 0 0 0 sy 0 0 0 0 sz 0 0 0 0 1, if sz ≠ 1 ∨ oz ≠ 0 then false else x.is2d⟩
    if ox ≠ 0 ∨ oy ≠ 0 ∨ oz ≠ 0 then translateSelf x (-ox) (-oy) (-oz) else x

/-- `scale3d_self`, matrix.py 1054-1056. -/
noncomputable def scale3dSelf (x : Mat) (s ox oy oz : ℝ) : Mat := scaleSelf x s (some s) s ox oy oz

/-- `skew_x_self`, matrix.py 1058-1068. -/
noncomputable def skewXSelf (x : Mat) (angle : ℝ) : Mat :=
  ⟨x.m * matrix2d 1 0 (Real.tan (radians angle)) 1 0 0, x.is2d⟩

/-- `skew_y_self`, matrix.py 1070-1080. -/
noncomputable def skewYSelf (x : Mat) (angle : ℝ) : Mat :=
  ⟨x.m * matrix2d 1 (Real.tan (radians angle)) 0 1 0 0, x.is2d⟩

/-- The in-place operations of `DOMMatrix`. -/
inductive Op
  | set (k : Comp) (v : ℝ)
  | clear (is2d : Option Bool)
  | invert
  | multiply (other : Mat)
  | rotateAxisAngle (x y z angle : ℝ)
  | rotateFromVector (x y : ℝ)
  | rotate (rx ry rz : ℝ)
  | scale (sx : ℝ) (sy : Option ℝ) (sz ox oy oz : ℝ)
  | scale3d (s ox oy oz : ℝ)
  | skewX (angle : ℝ)
  | skewY (angle : ℝ)
  | translate (tx ty tz : ℝ)

/-- One in-place operation. -/
noncomputable def step (x : Mat) : Op → Py Mat
  | .set k v => .ok (set x k v)
  | .clear b => .ok (clear x b)
  | .invert => invertSelf x
  | .multiply y => .ok (multiplySelf x y)
  | .rotateAxisAngle a b c t => .ok (rotateAxisAngleSelf x a b c t)
  | .rotateFromVector a b => .ok (rotateFromVectorSelf x a b)
  | .rotate a b c => .ok (rotateSelf x a b c)
  | .scale a b c d e f => .ok (scaleSelf x a b c d e f)
  | .scale3d a b c d => .ok (scale3dSelf x a b c d)
  | .skewX t => .ok (skewXSelf x t)
  | .skewY t => .ok (skewYSelf x t)
  | .translate a b c => .ok (translateSelf x a b c)

/-- The copying forms: `DOMMatrix(self.tolist())` and the operation, matrix.py 143-148,
525-626, 702-716. -/
noncomputable def copying (x : Mat) (op : Op) : Py Mat :=
  match ofArray (tolist x) with
  | .error e => .error e
  | .ok y => step y op

/-- `flip_x`, matrix.py 419-428. -/
noncomputable def flipX (x : Mat) : Py Mat := copying x (.multiply ⟨matrix2d (-1) 0 0 1 0 0, true⟩)

/-- `flip_y`, matrix.py 430-439. -/
noncomputable def flipY (x : Mat) : Py Mat := copying x (.multiply ⟨matrix2d 1 0 0 (-1) 0 0, true⟩)

/-! ### What a matrix says about itself -/

/-- `get_angle` of a 2D matrix, matrix.py 477-481. -/
noncomputable def getAngle (x : Mat) : ℝ := degrees (atan2 (get x .m12) (get x .m11))

/-- `get_angle` of a 3D matrix, matrix.py 477-488: about x, y and z. -/
noncomputable def getAngle3 (x : Mat) : ℝ × ℝ × ℝ :=
  (degrees (atan2 (get x .m23) (get x .m33)),
   degrees (atan2 (-get x .m13) (√(get x .m23 ^ 2 + get x .m33 ^ 2))),
   degrees (atan2 (get x .m12) (get x .m11)))

/-- `get_scale`, matrix.py 490-510. -/
noncomputable def getScale (x : Mat) : List ℝ :=
  let sx := √(get x .m11 ^ 2 + get x .m12 ^ 2 + get x .m13 ^ 2)
  let sy := √(get x .m21 ^ 2 + get x .m22 ^ 2 + get x .m23 ^ 2)
  if x.is2d then [sx, sy] else [sx, sy, √(get x .m31 ^ 2 + get x .m32 ^ 2 + get x .m33 ^ 2)]

/-- `get_translate`, matrix.py 512-523. -/
def getTranslate (x : Mat) : List ℝ :=
  if x.is2d then [get x .m41, get x .m42] else [get x .m41, get x .m42, get x .m43]

/-! ### Several matrices -/

/-- Arrays and objects: an object refers to its array by number. -/
structure Heap where
  arrays : List M4
  objs : List (Nat × Bool)

/-- What a program does with its matrices. -/
inductive Cmd
  /-- a constructor -/
  | new (x : Mat)
  /-- a setter -/
  | set (i : Nat) (k : Comp) (v : ℝ)
  /-- any other in-place operation -/
  | inplace (i : Nat) (op : Op)
  /-- `multiply_self` with an object -/
  | mulSelf (i j : Nat)
  /-- a copying form -/
  | copying (i : Nat) (op : Op)
  /-- `i * j` or `i.multiply(j)` -/
  | mul (i j : Nat)

/-- The object as a value. -/
noncomputable def view (h : Heap) (i : Nat) : Option Mat :=
  match h.objs[i]? with
  | none => none
  | some (r, b) => match h.arrays[r]? with
    | none => none
    | some m => some ⟨m, b⟩

/-- A new object with a new array. -/
def alloc (h : Heap) (x : Mat) : Heap := ⟨h.arrays ++ [x.m], h.objs ++ [(h.arrays.length, x.is2d)]⟩

/-- `self._matrix = <new array>`. -/
def rebind (h : Heap) (i : Nat) (x : Mat) : Heap :=
  ⟨h.arrays ++ [x.m], h.objs.set i (h.arrays.length, x.is2d)⟩

/-- `self._matrix[r, c] = v`: written into the array. -/
def poke (h : Heap) (i : Nat) (x : Mat) : Heap :=
  match h.objs[i]? with
  | none => h
  | some (r, _) => ⟨h.arrays.set r x.m, h.objs.set i (r, x.is2d)⟩

/-- One command; a command on a missing object or an operation that raises changes
nothing. -/
noncomputable def exec (h : Heap) : Cmd → Heap
  | .new x => alloc h x
  | .set i k v => match view h i with
    | none => h
    | some x => poke h i (Matrix.set x k v)
  | .inplace i op => match view h i with
    | none => h
    | some x => match step x op with
      | .error _ => h
      | .ok y => rebind h i y
  | .mulSelf i j => match view h i, view h j with
    | some x, some y => rebind h i (multiplySelf x y)
    | _, _ => h
  | .copying i op => match view h i with
    | none => h
    | some x => match Matrix.copying x op with
      | .error _ => h
      | .ok y => alloc h y
  | .mul i j => match view h i, view h j with
    | some x, some y => match Matrix.copying x (.multiply y) with
      | .error _ => h
      | .ok z => alloc h z
    | _, _ => h

end SvgPy.Matrix
