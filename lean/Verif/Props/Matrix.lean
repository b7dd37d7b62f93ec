import Verif.Model.Matrix
import Mathlib.Tactic.Ring
import Mathlib.Tactic.FieldSimp
import Mathlib.Tactic.Linarith
import Mathlib.Tactic.LinearCombination
import Mathlib.Tactic.FinCases

/-! Properties C05-C08 and C58: matrices. -/

set_option linter.unusedSimpArgs false
set_option linter.unusedTactic false
set_option linter.unreachableTactic false

namespace SvgPy.Matrix

/-! ### Specification -/

/-- The matrix only concerns x and y. -/
def Is2D (x : Mat) : Prop :=
  get x .m13 = 0 ∧ get x .m14 = 0 ∧ get x .m23 = 0 ∧ get x .m24 = 0 ∧ get x .m31 = 0 ∧ get x .m32 = 0 ∧
  get x .m34 = 0 ∧ get x .m43 = 0 ∧ get x .m33 = 1 ∧ get x .m44 = 1

/-- The flag tells the truth. -/
def Valid (x : Mat) : Prop := x.is2d = true → Is2D x

/-- The matrices a program can make: constructors, in-place operations (with other
such matrices as operands) and copying operations. -/
inductive Reachable : Mat → Prop
  | array (l : List ℝ) (x : Mat) : ofArray l = .ok x → Reachable x
  | init (i : Init) (x : Mat) : ofInit i = .ok x → Reachable x
  | op (x y : Mat) (op : Op) : Reachable x → (∀ z, op ≠ .multiply z) → step x op = .ok y → Reachable y
  | mul (x y z : Mat) : Reachable x → Reachable z → step x (.multiply z) = .ok y → Reachable y
  | copy (x y : Mat) (op : Op) : Reachable x → (∀ z, op ≠ .multiply z) → copying x op = .ok y → Reachable y
  | copyMul (x y z : Mat) : Reachable x → Reachable z → copying x (.multiply z) = .ok y → Reachable y

/-- A point in homogeneous coordinates. -/
@[ext] structure P4 where
  x : ℝ
  y : ℝ
  z : ℝ
  w : ℝ

/-- The transformation of the [geometry] specification, component by component. -/
def apply (t : Mat) (p : P4) : P4 where
  x := get t .m11 * p.x + get t .m21 * p.y + get t .m31 * p.z + get t .m41 * p.w
  y := get t .m12 * p.x + get t .m22 * p.y + get t .m32 * p.z + get t .m42 * p.w
  z := get t .m13 * p.x + get t .m23 * p.y + get t .m33 * p.z + get t .m43 * p.w
  w := get t .m14 * p.x + get t .m24 * p.y + get t .m34 * p.z + get t .m44 * p.w

/-- Sine of an angle in degrees. -/
noncomputable def sinDeg (t : ℝ) : ℝ := Real.sin (t * Real.pi / 180)

/-- Cosine of an angle in degrees. -/
noncomputable def cosDeg (t : ℝ) : ℝ := Real.cos (t * Real.pi / 180)

/-- Rotation about the z axis. -/
noncomputable def rotZ (t : ℝ) (p : P4) : P4 := ⟨p.x * cosDeg t - p.y * sinDeg t, p.x * sinDeg t + p.y * cosDeg t, p.z, p.w⟩

/-- Rotation about the y axis. -/
noncomputable def rotY (t : ℝ) (p : P4) : P4 := ⟨p.x * cosDeg t + p.z * sinDeg t, p.y, p.z * cosDeg t - p.x * sinDeg t, p.w⟩

/-- Rotation about the x axis. -/
noncomputable def rotX (t : ℝ) (p : P4) : P4 := ⟨p.x, p.y * cosDeg t - p.z * sinDeg t, p.y * sinDeg t + p.z * cosDeg t, p.w⟩

/-- Rotation about the unit axis `u`, Rodrigues: `p cos + (u × p) sin + u (u·p) (1 - cos)`. -/
noncomputable def rotAxis (ux uy uz t : ℝ) (p : P4) : P4 :=
  let d := ux * p.x + uy * p.y + uz * p.z
  ⟨p.x * cosDeg t + (uy * p.z - uz * p.y) * sinDeg t + ux * d * (1 - cosDeg t),
   p.y * cosDeg t + (uz * p.x - ux * p.z) * sinDeg t + uy * d * (1 - cosDeg t),
   p.z * cosDeg t + (ux * p.y - uy * p.x) * sinDeg t + uz * d * (1 - cosDeg t), p.w⟩

/-- Translation. -/
def shift (tx ty tz : ℝ) (p : P4) : P4 := ⟨p.x + tx * p.w, p.y + ty * p.w, p.z + tz * p.w, p.w⟩

/-- Scaling from an origin: the difference to the origin is multiplied. -/
def scaleFrom (sx sy sz ox oy oz : ℝ) (p : P4) : P4 :=
  ⟨ox * p.w + sx * (p.x - ox * p.w), oy * p.w + sy * (p.y - oy * p.w), oz * p.w + sz * (p.z - oz * p.w), p.w⟩

/-- All names. -/
def allComps : List Comp :=
  [.m11, .m12, .m13, .m14, .m21, .m22, .m23, .m24, .m31, .m32, .m33, .m34, .m41, .m42, .m43, .m44,
   .a, .b, .c, .d, .e, .f]

theorem mem_allComps (k : Comp) : k ∈ allComps := by cases k <;> decide

/-! ### Components -/

theorem eq_of_get (x y : Mat) (h : ∀ k, get x k = get y k) (hb : x.is2d = y.is2d) : x = y := by
  obtain ⟨m, b⟩ := x
  obtain ⟨m', b'⟩ := y
  simp only at hb
  subst hb
  congr 1
  ext i j
  fin_cases i <;> fin_cases j
  · exact h .m11
  · exact h .m21
  · exact h .m31
  · exact h .m41
  · exact h .m12
  · exact h .m22
  · exact h .m32
  · exact h .m42
  · exact h .m13
  · exact h .m23
  · exact h .m33
  · exact h .m43
  · exact h .m14
  · exact h .m24
  · exact h .m34
  · exact h .m44

theorem m_of_get (x y : Mat) (h : ∀ k, get x k = get y k) : x.m = y.m := by
  have := eq_of_get x ⟨y.m, x.is2d⟩ h rfl
  rw [this]

/-- A matrix is determined by what it does. -/
theorem m_of_apply (x y : Mat) (h : ∀ p, apply x p = apply y p) : x.m = y.m := by
  have h1 := h ⟨1, 0, 0, 0⟩
  have h2 := h ⟨0, 1, 0, 0⟩
  have h3 := h ⟨0, 0, 1, 0⟩
  have h4 := h ⟨0, 0, 0, 1⟩
  simp only [apply, mul_one, mul_zero, add_zero, zero_add, P4.mk.injEq] at h1 h2 h3 h4
  obtain ⟨a1, a2, a3, a4⟩ := h1
  obtain ⟨b1, b2, b3, b4⟩ := h2
  obtain ⟨c1, c2, c3, c4⟩ := h3
  obtain ⟨d1, d2, d3, d4⟩ := h4
  apply m_of_get
  intro k
  cases k <;> assumption

theorem apply_mul (m n : M4) (b c d : Bool) (p : P4) : apply ⟨m * n, b⟩ p = apply ⟨m, c⟩ (apply ⟨n, d⟩ p) := by
  ext <;> simp only [apply, get, row, col, _root_.Matrix.mul_apply, Fin.sum_univ_four] <;> ring

theorem apply_flag (m : M4) (b c : Bool) (p : P4) : apply ⟨m, b⟩ p = apply ⟨m, c⟩ p := rfl

/-- **C06** `transform_point` is the transformation of the specification. -/
theorem transformPoint_spec (t : Mat) (p : P4) :
    transformPoint t p.x p.y p.z p.w =
      if t.is2d = true ∧ p.z = 0 ∧ p.w = 1 then [(apply t p).x, (apply t p).y]
      else [(apply t p).x, (apply t p).y, (apply t p).z, (apply t p).w] := by
  have h : ∀ i, t.m.mulVec ![p.x, p.y, p.z, p.w] i = t.m i 0 * p.x + t.m i 1 * p.y + t.m i 2 * p.z + t.m i 3 * p.w := by
    intro i
    simp [_root_.Matrix.mulVec, dotProduct, Fin.sum_univ_four]
  unfold transformPoint
  simp only [h]
  rfl

/-! ### C05 -/

theorem get_set (x : Mat) (k k' : Comp) (v : ℝ) :
    get (set x k v) k' = if row k = row k' ∧ col k = col k' then v else get x k' := by
  unfold get set
  by_cases hr : row k = row k'
  · rw [hr]
    simp only [_root_.Matrix.updateRow_self, true_and]
    by_cases hc : col k = col k'
    · rw [hc]; simp
    · rw [Function.update_of_ne (Ne.symm hc)]; simp [hc]
  · simp only [hr, false_and, if_false]
    rw [_root_.Matrix.updateRow_ne (Ne.symm hr)]

theorem valid_mul (m n : M4) (b c : Bool) (h1 : Valid ⟨m, b⟩) (h2 : c = true → Is2D ⟨n, true⟩)
    (hc : c = true → b = true) : Valid ⟨m * n, c⟩ := by
  intro h
  have h1 := h1 (hc h)
  have h2 := h2 h
  simp only [Is2D, get, row, col] at h1 h2 ⊢
  obtain ⟨a1, a2, a3, a4, a5, a6, a7, a8, a9, a10⟩ := h1
  obtain ⟨b1, b2, b3, b4, b5, b6, b7, b8, b9, b10⟩ := h2
  simp only [_root_.Matrix.mul_apply, Fin.sum_univ_four, a1, a2, a3, a4, a5, a6, a7, a8, a9, a10, b1, b2, b3, b4, b5,
    b6, b7, b8, b9, b10]
  norm_num

theorem is2D_matrix2d (a b c d e f : ℝ) : Is2D ⟨matrix2d a b c d e f, true⟩ := by
  simp [Is2D, get, row, col, matrix2d]

theorem is2D_flat (m11 m12 m21 m22 m41 m42 : ℝ) :
    Is2D ⟨matrix3d m11 m12 0 0 m21 m22 0 0 0 0 1 0 m41 m42 0 1, true⟩ := by
  simp [Is2D, get, row, col, matrix3d]

theorem valid_set (x : Mat) (k : Comp) (v : ℝ) (h : Valid x) : Valid (set x k v) := by
  intro hb
  have h' : x.is2d = true := by
    have hb : setFlag x.is2d k v = true := hb
    unfold setFlag at hb
    cases k <;> simp only at hb <;> first | exact hb | (split at hb <;> first | cases hb | exact hb)
  have hv := h h'
  have hb : setFlag x.is2d k v = true := hb
  unfold setFlag at hb
  simp only [Is2D, get_set]
  obtain ⟨a1, a2, a3, a4, a5, a6, a7, a8, a9, a10⟩ := hv
  cases k <;> simp only at hb <;>
    simp only [row, col, a1, a2, a3, a4, a5, a6, a7, a8, a9, a10] <;>
    first
    | decide
    | (split at hb
       · cases hb
       · rename_i hne
         have hne := not_not.mp hne
         simp [hne])
    | simp

theorem valid_translate (x : Mat) (a b c : ℝ) (h : Valid x) : Valid (translateSelf x a b c) := by
  unfold translateSelf
  split
  · exact h
  · apply valid_mul x.m _ x.is2d _ h
    · intro hc
      split at hc
      · cases hc
      · rename_i hz
        rw [not_not.mp hz]; exact is2D_flat ..
    · intro hc
      split at hc
      · cases hc
      · exact hc

theorem valid_scale (x : Mat) (a : ℝ) (b : Option ℝ) (c ox oy oz : ℝ) (h : Valid x) :
    Valid (scaleSelf x a b c ox oy oz) := by
  unfold scaleSelf
  simp only
  split
  · exact h
  · have key : ∀ y : Mat, Valid y → Valid ⟨y.m * matrix3d a 0 0 0 0 (b.getD a) 0 0 0 0 c 0 0 0 0 1,
        if c ≠ 1 ∨ oz ≠ 0 then false else y.is2d⟩ := by
      intro y hy
      apply valid_mul y.m _ y.is2d _ hy
      · intro hc
        split at hc
        · cases hc
        · rename_i hz
          have hz : c = 1 := by by_contra hz'; exact hz (.inl hz')
          rw [hz]; exact is2D_flat ..
      · intro hc
        split at hc
        · cases hc
        · exact hc
    split
    · exact valid_translate _ _ _ _ (key _ (valid_translate _ _ _ _ h))
    · exact key _ h

theorem valid_rotateUnit (x : Mat) (a b c t : ℝ) (hu : a ^ 2 + b ^ 2 + c ^ 2 = 1) (h : Valid x) :
    Valid (rotateUnit x a b c t) := by
  unfold rotateUnit
  apply valid_mul x.m _ x.is2d _ h
  · intro hc
    split at hc
    · cases hc
    · rename_i hz
      have ha : a = 0 := by by_contra hz'; exact hz (.inl hz')
      have hb : b = 0 := by by_contra hz'; exact hz (.inr hz')
      subst ha; subst hb
      have hc2 : c * c = 1 := by nlinarith
      unfold axisMatrix
      by_cases h1 : c = 1
      · subst h1; simp [is2D_flat]
      · rw [if_neg (by simp [h1]), if_neg (by simp), if_neg (by simp)]
        simp [Is2D, get, row, col, matrix3d, hc2]
  · intro hc
    split at hc
    · cases hc
    · exact hc

theorem unit_of (a b c : ℝ) (h : √(a ^ 2 + b ^ 2 + c ^ 2) ≠ 0) :
    (a / √(a ^ 2 + b ^ 2 + c ^ 2)) ^ 2 + (b / √(a ^ 2 + b ^ 2 + c ^ 2)) ^ 2 + (c / √(a ^ 2 + b ^ 2 + c ^ 2)) ^ 2 = 1 := by
  have hs : √(a ^ 2 + b ^ 2 + c ^ 2) ^ 2 = a ^ 2 + b ^ 2 + c ^ 2 := Real.sq_sqrt (by positivity)
  field_simp
  exact hs.symm

theorem valid_rotateAxisAngle (x : Mat) (a b c t : ℝ) (h : Valid x) : Valid (rotateAxisAngleSelf x a b c t) := by
  unfold rotateAxisAngleSelf
  simp only
  split
  · exact h
  · rename_i h0
    split
    · exact valid_rotateUnit _ _ _ _ _ (unit_of a b c h0) h
    · rename_i h1
      have h1 := not_not.mp h1
      refine valid_rotateUnit _ _ _ _ _ ?_ h
      have hs : √(a ^ 2 + b ^ 2 + c ^ 2) ^ 2 = a ^ 2 + b ^ 2 + c ^ 2 := Real.sq_sqrt (by positivity)
      rw [← hs, h1]; norm_num

theorem valid_false (m : M4) : Valid ⟨m, false⟩ := by intro h; cases h

theorem valid_rotate (x : Mat) (a b c : ℝ) (h : Valid x) : Valid (rotateSelf x a b c) := by
  unfold rotateSelf
  simp only
  split
  · exact valid_false _
  · split
    · exact valid_false _
    · split
      · exact valid_rotateAxisAngle _ _ _ _ _ h
      · exact h

theorem valid_invert (x y : Mat) (h : Valid x) (he : invertSelf x = .ok y) : Valid y := by
  unfold invertSelf at he
  split at he
  · cases he
  · rename_i hd
    cases he
    intro hb
    have h := h hb
    have hu : IsUnit x.m.det := isUnit_iff_ne_zero.mpr hd
    have e1 : x.m * x.m⁻¹ = 1 := _root_.Matrix.mul_nonsing_inv _ hu
    have e2 : x.m⁻¹ * x.m = 1 := _root_.Matrix.nonsing_inv_mul _ hu
    generalize x.m⁻¹ = n at *
    obtain ⟨a1, a2, a3, a4, a5, a6, a7, a8, a9, a10⟩ := h
    simp only [get, row, col] at a1 a2 a3 a4 a5 a6 a7 a8 a9 a10
    have r2 : ∀ j, n 2 j = (1 : M4) 2 j := by
      intro j
      have := congrFun (congrFun e1 2) j
      rw [_root_.Matrix.mul_apply, Fin.sum_univ_four, a1, a3, a9, a8] at this
      linarith
    have r3 : ∀ j, n 3 j = (1 : M4) 3 j := by
      intro j
      have := congrFun (congrFun e1 3) j
      rw [_root_.Matrix.mul_apply, Fin.sum_univ_four, a2, a4, a7, a10] at this
      linarith
    have c2 : ∀ i, n i 2 = (1 : M4) i 2 := by
      intro i
      have := congrFun (congrFun e2 i) 2
      rw [_root_.Matrix.mul_apply, Fin.sum_univ_four, a5, a6, a9, a7] at this
      linarith
    simp only [Is2D, get, row, col, r2, r3, c2]
    simp [_root_.Matrix.one_apply]

theorem valid_step (x y : Mat) (op : Op) (h : Valid x) (ho : ∀ z, op = .multiply z → Valid z)
    (he : step x op = .ok y) : Valid y := by
  cases op with
  | set k v => cases he; exact valid_set _ _ _ h
  | clear b => cases he; intro _; exact is2D_flat ..
  | invert => exact valid_invert x y h he
  | multiply z =>
    cases he
    apply valid_mul x.m z.m x.is2d _ h
    · intro hc
      have hz : z.is2d = true := by cases hb : z.is2d <;> simp [hb] at hc ⊢
      exact ho z rfl hz
    · intro hc
      split at hc
      · exact hc
      · cases hc
  | rotateAxisAngle a b c t => cases he; exact valid_rotateAxisAngle _ _ _ _ _ h
  | rotateFromVector a b => cases he; exact valid_rotate _ _ _ _ h
  | rotate a b c => cases he; exact valid_rotate _ _ _ _ h
  | scale a b c d e f => cases he; exact valid_scale _ _ _ _ _ _ _ h
  | scale3d a b c d => cases he; exact valid_scale _ _ _ _ _ _ _ h
  | skewX t => cases he; exact valid_mul x.m _ x.is2d _ h (fun _ => is2D_matrix2d ..) id
  | skewY t => cases he; exact valid_mul x.m _ x.is2d _ h (fun _ => is2D_matrix2d ..) id
  | translate a b c => cases he; exact valid_translate _ _ _ _ h

theorem valid_ofArray (l : List ℝ) (x : Mat) (h : ofArray l = .ok x) : Valid x := by
  unfold ofArray at h
  split at h
  · cases h; intro _; exact is2D_matrix2d ..
  · cases h; exact valid_false _
  · cases h

theorem valid_ofInit (i : Init) (x : Mat) (h : ofInit i = .ok x) : Valid x := by
  unfold ofInit at h
  split at h
  · cases h
  split at h
  · cases h
  split at h
  · split at h
    · cases h; exact valid_false _
    · cases h; intro _; exact is2D_matrix2d ..
  · split at h
    · cases h
    · cases h; intro _; exact is2D_matrix2d ..
  · cases h; exact valid_false _

/-- The list of a truthful matrix makes the same matrix. -/
theorem ofArray_tolist (x : Mat) (h : Valid x) : ofArray (tolist x) = .ok x := by
  unfold tolist
  split
  · rename_i hb
    obtain ⟨a1, a2, a3, a4, a5, a6, a7, a8, a9, a10⟩ := h hb
    show Except.ok _ = Except.ok x
    congr 1
    apply eq_of_get
    · intro k
      cases k <;> first | rfl | (simp only [a1, a2, a3, a4, a5, a6, a7, a8, a9, a10]; rfl)
    · exact hb.symm
  · rename_i hb
    show Except.ok _ = Except.ok x
    congr 1
    apply eq_of_get
    · intro k
      cases k <;> rfl
    · simp at hb; exact hb.symm

/-- **C05** Every matrix a program can make tells the truth about being 2D. -/
theorem reachable_is2d (x : Mat) (h : Reachable x) : x.is2d = true → Is2D x := by
  suffices Valid x from this
  induction h with
  | array l x h => exact valid_ofArray l x h
  | init i x h => exact valid_ofInit i x h
  | op x y op _ hn he ih => exact valid_step x y op ih (fun z hz => absurd hz (hn z)) he
  | mul x y z _ _ he ih1 ih2 => exact valid_step x y _ ih1 (fun z' hz => by cases hz; exact ih2) he
  | copy x y op _ hn he ih =>
    unfold copying at he
    rw [ofArray_tolist x ih] at he
    exact valid_step x y op ih (fun z hz => absurd hz (hn z)) he
  | copyMul x y z _ _ he ih1 ih2 =>
    unfold copying at he
    rw [ofArray_tolist x ih1] at he
    exact valid_step x y _ ih1 (fun z' hz => by cases hz; exact ih2) he

/-- Assigning a component: the component (under either of its names) gets the value and
the others stay. -/
def sameComp : Comp → Comp
  | .a => .m11
  | .b => .m12
  | .c => .m21
  | .d => .m22
  | .e => .m41
  | .f => .m42
  | k => k

theorem set_spec (x : Mat) (k k' : Comp) (v : ℝ) :
    get (set x k v) k' = if sameComp k = sameComp k' then v else get x k' := by
  rw [get_set]
  have : (row k = row k' ∧ col k = col k') ↔ sameComp k = sameComp k' := by
    have h : ∀ k ∈ allComps, ∀ k' ∈ allComps,
        ((row k = row k' ∧ col k = col k') ↔ sameComp k = sameComp k') := by decide +kernel
    exact h k (mem_allComps k) k' (mem_allComps k')
  by_cases h : sameComp k = sameComp k'
  · rw [if_pos h, if_pos (this.mpr h)]
  · rw [if_neg h, if_neg (fun h' => h (this.mp h'))]

/-- Non-trivial instance: a matrix made 3D by a component is no longer marked 2D. -/
example : ∃ x, Reachable x ∧ x.is2d = false ∧ get x .m43 = 5 := by
  refine ⟨set ⟨matrix2d 1 0 0 1 0 0, true⟩ .m43 5,
    .op _ _ (.set .m43 5) (.array [1, 0, 0, 1, 0, 0] _ rfl) (fun z hz => by cases hz) rfl, ?_, ?_⟩
  · simp [set, setFlag]
  · rw [set_spec]; rfl

/-! ### C06 -/

/-- The identity. -/
def ident : Mat := ⟨matrix2d 1 0 0 1 0 0, true⟩

theorem ident_m : ident.m = 1 := by
  ext i j
  fin_cases i <;> fin_cases j <;> simp [ident, matrix2d]

/-- `isidentity` is being the identity transformation. -/
theorem isidentity_iff (x : Mat) : isidentity x ↔ ∀ p, apply x p = p := by
  constructor
  · rintro ⟨a1, a2, a3, a4, a5, a6, a7, a8, a9, a10, a11, a12, a13, a14, a15, a16⟩ p
    ext <;> simp only [apply, a1, a2, a3, a4, a5, a6, a7, a8, a9, a10, a11, a12, a13, a14, a15, a16] <;> ring
  · intro h
    have h1 := h ⟨1, 0, 0, 0⟩
    have h2 := h ⟨0, 1, 0, 0⟩
    have h3 := h ⟨0, 0, 1, 0⟩
    have h4 := h ⟨0, 0, 0, 1⟩
    simp only [apply, mul_one, mul_zero, add_zero, zero_add, P4.mk.injEq] at h1 h2 h3 h4
    simp only [isidentity, h1, h2, h3, h4, and_self]

/-- **C06** Multiplying composes: the right operand acts first. -/
theorem multiply_apply (x y z : Mat) (h : step x (.multiply y) = .ok z) (p : P4) :
    apply z p = apply x (apply y p) := by
  cases h
  exact apply_mul x.m y.m _ x.is2d y.is2d p

/-- **C06** for pairs: a product of 2D matrices transforms a point of the plane as the
two do one after the other. -/
theorem multiply_point (x y z : Mat) (hy : Reachable y) (h2x : x.is2d = true) (h2y : y.is2d = true)
    (h : step x (.multiply y) = .ok z) (a b : ℝ) :
    ∃ c d, transformPoint y a b 0 1 = [c, d] ∧ transformPoint z a b 0 1 = transformPoint x c d 0 1 ∧
      (transformPoint x c d 0 1).length = 2 := by
  have ey := transformPoint_spec y ⟨a, b, 0, 1⟩
  have ez := transformPoint_spec z ⟨a, b, 0, 1⟩
  have hz : z.is2d = true := by cases h; simp [multiplySelf, h2x, h2y]
  simp only [h2y, hz, and_self, if_true] at ey ez
  refine ⟨_, _, ey, ?_, ?_⟩
  · rw [ez, multiply_apply x y z h]
    have ex := transformPoint_spec x ⟨(apply y ⟨a, b, 0, 1⟩).x, (apply y ⟨a, b, 0, 1⟩).y, 0, 1⟩
    simp only [h2x, and_self, if_true] at ex
    rw [ex]
    have : apply y ⟨a, b, 0, 1⟩ = ⟨(apply y ⟨a, b, 0, 1⟩).x, (apply y ⟨a, b, 0, 1⟩).y, 0, 1⟩ := by
      obtain ⟨a1, a2, a3, a4, a5, a6, a7, a8, a9, a10⟩ := reachable_is2d y hy h2y
      ext
      · rfl
      · rfl
      · simp only [apply, a1, a3, a9, a8]; ring
      · simp only [apply, a2, a4, a7, a10]; ring
    rw [this]
  · have ex := transformPoint_spec x ⟨(apply y ⟨a, b, 0, 1⟩).x, (apply y ⟨a, b, 0, 1⟩).y, 0, 1⟩
    simp only [h2x, and_self, if_true] at ex
    rw [ex]; rfl

/-- **C06** The documented formula for the plane. -/
theorem transformPoint_2d (x : Mat) (h2 : x.is2d = true) (px py : ℝ) :
    transformPoint x px py 0 1 =
      [get x .a * px + get x .c * py + get x .e, get x .b * px + get x .d * py + get x .f] := by
  have := transformPoint_spec x ⟨px, py, 0, 1⟩
  simp only [h2, and_self, if_true] at this
  rw [this]
  simp only [apply, mul_zero, add_zero, mul_one]
  rfl

/-- **C06** Multiplication is associative, also in the flag. -/
theorem multiply_assoc (x y z : Mat) :
    multiplySelf (multiplySelf x y) z = multiplySelf x (multiplySelf y z) := by
  unfold multiplySelf
  simp only [_root_.Matrix.mul_assoc]
  congr 1
  cases x.is2d <;> cases y.is2d <;> cases z.is2d <;> rfl

/-- **C06** The identity is neutral on both sides. -/
theorem multiply_ident (x : Mat) : multiplySelf x ident = x ∧ multiplySelf ident x = x := by
  obtain ⟨m, b⟩ := x
  constructor
  · unfold multiplySelf
    rw [ident_m, mul_one]
    rfl
  · unfold multiplySelf
    rw [ident_m, one_mul]
    cases b <;> rfl

/-- **C06** The copying forms give what the in-place forms give. -/
theorem copying_eq (x : Mat) (h : Reachable x) (op : Op) : copying x op = step x op := by
  unfold copying
  rw [ofArray_tolist x (reachable_is2d x h)]

/-- **C06** Inverting: an error exactly when some transformation information is lost, and
otherwise the matrix that undoes it. -/
theorem invert_spec (x : Mat) :
    (∀ y, step x .invert = .ok y → (∀ p, apply y (apply x p) = p) ∧ (∀ p, apply x (apply y p) = p) ∧ y.is2d = x.is2d) ∧
    ((∃ n : Mat, ∀ p, apply n (apply x p) = p) → ∃ y, step x .invert = .ok y) := by
  constructor
  · intro y h
    have h : invertSelf x = .ok y := h
    unfold invertSelf at h
    split at h
    · cases h
    · rename_i hd
      cases h
      have hu : IsUnit x.m.det := isUnit_iff_ne_zero.mpr hd
      have one : ∀ b p, apply ⟨1, b⟩ p = p := by
        intro b p
        have := (isidentity_iff ⟨1, b⟩).mp (by simp [isidentity, get, row, col, _root_.Matrix.one_apply]) p
        exact this
      refine ⟨fun p => ?_, fun p => ?_, rfl⟩
      · rw [← apply_mul x.m⁻¹ x.m true x.is2d x.is2d p, _root_.Matrix.nonsing_inv_mul _ hu, one]
      · rw [← apply_mul x.m x.m⁻¹ true x.is2d x.is2d p, _root_.Matrix.mul_nonsing_inv _ hu, one]
  · rintro ⟨n, hn⟩
    have e : n.m * x.m = 1 := by
      have := m_of_apply ⟨n.m * x.m, true⟩ ident (fun p => by
        rw [apply_mul n.m x.m true n.is2d x.is2d p, hn p]
        have := (isidentity_iff ident).mp (by simp [isidentity, get, row, col, ident, matrix2d]) p
        exact this.symm)
      rw [ident_m] at this
      exact this
    have hd : x.m.det ≠ 0 := by
      intro hd
      have := congrArg _root_.Matrix.det e
      rw [_root_.Matrix.det_mul, hd, _root_.Matrix.det_one] at this
      norm_num at this
    exact ⟨⟨x.m⁻¹, x.is2d⟩, by simp only [step, invertSelf, hd, if_false]⟩

/-! ### C07 -/

theorem apply_shift (b : Bool) (tx ty tz : ℝ) (p : P4) :
    apply ⟨matrix3d 1 0 0 0 0 1 0 0 0 0 1 0 tx ty tz 1, b⟩ p = shift tx ty tz p := by
  ext <;> simp [apply, get, row, col, matrix3d, shift]

theorem translate_apply (x : Mat) (tx ty tz : ℝ) (p : P4) :
    apply (translateSelf x tx ty tz) p = apply x (shift tx ty tz p) := by
  unfold translateSelf
  split
  · rename_i h
    obtain ⟨rfl, rfl, rfl⟩ := h
    simp [shift]
  · rw [apply_mul x.m _ _ x.is2d x.is2d p, apply_shift]

theorem scale_apply (x : Mat) (sx : ℝ) (sy : Option ℝ) (sz ox oy oz : ℝ) (p : P4) :
    apply (scaleSelf x sx sy sz ox oy oz) p = apply x (scaleFrom sx (sy.getD sx) sz ox oy oz p) := by
  unfold scaleSelf
  simp only
  have hs : ∀ (b : Bool) (p : P4), apply ⟨matrix3d sx 0 0 0 0 (sy.getD sx) 0 0 0 0 sz 0 0 0 0 1, b⟩ p =
      ⟨sx * p.x, sy.getD sx * p.y, sz * p.z, p.w⟩ := by
    intro b p
    ext <;> simp [apply, get, row, col, matrix3d]
  split
  · rename_i h
    obtain ⟨h1, h2, h3⟩ := h
    rw [h2, h1, h3]
    congr 1
    ext <;> simp [scaleFrom]
  · split
    · rw [translate_apply, apply_mul _ _ _ false false, hs]
      rw [apply_flag _ _ (translateSelf x ox oy oz).is2d, translate_apply]
      congr 1
      ext <;> simp only [shift, scaleFrom] <;> ring
    · rename_i h
      have h1 : ox = 0 := by by_contra h'; exact h (.inl h')
      have h2 : oy = 0 := by by_contra h'; exact h (.inr (.inl h'))
      have h3 : oz = 0 := by by_contra h'; exact h (.inr (.inr h'))
      rw [apply_mul _ _ _ x.is2d x.is2d, hs]
      congr 1
      ext <;> simp [scaleFrom, h1, h2, h3]

theorem rotateUnit_apply (x : Mat) (ux uy uz t : ℝ) (hu : ux ^ 2 + uy ^ 2 + uz ^ 2 = 1) (p : P4) :
    apply (rotateUnit x ux uy uz t) p = apply x (rotAxis ux uy uz t p) := by
  unfold rotateUnit
  rw [apply_mul x.m _ _ x.is2d x.is2d p]
  congr 1
  unfold axisMatrix
  split
  · rename_i h
    obtain ⟨rfl, rfl, rfl⟩ := h
    ext <;> simp [apply, get, row, col, matrix3d, rotAxis, sinDeg, cosDeg, radians] <;> ring
  · split
    · rename_i h
      obtain ⟨rfl, rfl, rfl⟩ := h
      ext <;> simp [apply, get, row, col, matrix3d, rotAxis, sinDeg, cosDeg, radians] <;> ring
    · split
      · rename_i h
        obtain ⟨rfl, rfl, rfl⟩ := h
        ext <;> simp [apply, get, row, col, matrix3d, rotAxis, sinDeg, cosDeg, radians] <;> ring
      · ext <;> simp [apply, get, row, col, matrix3d, rotAxis, sinDeg, cosDeg, radians] <;> ring

/-- **C07** Rotation about an axis: nothing happens for the zero axis, otherwise the
direction of the axis counts. -/
theorem rotateAxisAngle_apply (x : Mat) (a b c t : ℝ) (p : P4) :
    apply (rotateAxisAngleSelf x a b c t) p =
      if a = 0 ∧ b = 0 ∧ c = 0 then apply x p
      else apply x (rotAxis (a / √(a ^ 2 + b ^ 2 + c ^ 2)) (b / √(a ^ 2 + b ^ 2 + c ^ 2)) (c / √(a ^ 2 + b ^ 2 + c ^ 2)) t p) := by
  have hz : √(a ^ 2 + b ^ 2 + c ^ 2) = 0 ↔ a = 0 ∧ b = 0 ∧ c = 0 := by
    rw [Real.sqrt_eq_zero (by positivity)]
    constructor
    · intro h
      have ha : a ^ 2 = 0 := by nlinarith [sq_nonneg a, sq_nonneg b, sq_nonneg c]
      have hb : b ^ 2 = 0 := by nlinarith [sq_nonneg a, sq_nonneg b, sq_nonneg c]
      have hc : c ^ 2 = 0 := by nlinarith [sq_nonneg a, sq_nonneg b, sq_nonneg c]
      exact ⟨pow_eq_zero_iff (two_ne_zero) |>.mp ha, pow_eq_zero_iff (two_ne_zero) |>.mp hb,
        pow_eq_zero_iff (two_ne_zero) |>.mp hc⟩
    · rintro ⟨rfl, rfl, rfl⟩; norm_num
  unfold rotateAxisAngleSelf
  simp only
  by_cases h : a = 0 ∧ b = 0 ∧ c = 0
  · rw [if_pos (hz.mpr h), if_pos h]
  · have h0 : √(a ^ 2 + b ^ 2 + c ^ 2) ≠ 0 := fun h' => h (hz.mp h')
    rw [if_neg h0, if_neg h]
    split
    · exact rotateUnit_apply _ _ _ _ _ (unit_of a b c h0) p
    · rename_i h1
      have h1 := not_not.mp h1
      rw [rotateUnit_apply]
      · rw [h1, div_one, div_one, div_one]
      · have hs : √(a ^ 2 + b ^ 2 + c ^ 2) ^ 2 = a ^ 2 + b ^ 2 + c ^ 2 := Real.sq_sqrt (by positivity)
        rw [← hs, h1]; norm_num

theorem rotAxis_x (t : ℝ) (p : P4) : rotAxis 1 0 0 t p = rotX t p := by
  ext <;> simp [rotAxis, rotX] <;> ring

theorem rotAxis_y (t : ℝ) (p : P4) : rotAxis 0 1 0 t p = rotY t p := by
  ext <;> simp [rotAxis, rotY] <;> ring

theorem rotAxis_z (t : ℝ) (p : P4) : rotAxis 0 0 1 t p = rotZ t p := by
  ext <;> simp [rotAxis, rotZ] <;> ring

theorem rot_zero (p : P4) : rotX 0 p = p ∧ rotY 0 p = p ∧ rotZ 0 p = p := by
  refine ⟨?_, ?_, ?_⟩ <;> ext <;> simp [rotX, rotY, rotZ, sinDeg, cosDeg]

/-- **C07** `rotate`: the point is turned about x, then y, then z, by the given degrees. -/
theorem rotate_apply (x : Mat) (rx ry rz : ℝ) (p : P4) :
    apply (rotateSelf x rx ry rz) p = apply x (rotZ rz (rotY ry (rotX rx p))) := by
  have hx : ∀ (y : Mat) (p : P4), apply (rotateAxisAngleSelf y 1 0 0 rx) p = apply y (rotX rx p) := by
    intro y p
    rw [rotateAxisAngle_apply, if_neg (by simp)]
    simp [rotAxis_x]
  have hy : ∀ (y : Mat) (p : P4), apply (rotateAxisAngleSelf y 0 1 0 ry) p = apply y (rotY ry p) := by
    intro y p
    rw [rotateAxisAngle_apply, if_neg (by simp)]
    simp [rotAxis_y]
  have hz : ∀ (y : Mat) (p : P4), apply (rotateAxisAngleSelf y 0 0 1 rz) p = apply y (rotZ rz p) := by
    intro y p
    rw [rotateAxisAngle_apply, if_neg (by simp)]
    simp [rotAxis_z]
  have cx : ∀ (y : Mat) (p : P4), apply (if rx ≠ 0 then ⟨(rotateAxisAngleSelf y 1 0 0 rx).m, false⟩ else y) p =
      apply y (rotX rx p) := by
    intro y p
    split
    · exact hx y p
    · rename_i h; rw [not_not.mp h, (rot_zero p).1]
  have cy : ∀ (y : Mat) (p : P4), apply (if ry ≠ 0 then ⟨(rotateAxisAngleSelf y 0 1 0 ry).m, false⟩ else y) p =
      apply y (rotY ry p) := by
    intro y p
    split
    · exact hy y p
    · rename_i h; rw [not_not.mp h, (rot_zero p).2.1]
  have cz : ∀ (y : Mat) (p : P4), apply (if rz ≠ 0 then rotateAxisAngleSelf y 0 0 1 rz else y) p =
      apply y (rotZ rz p) := by
    intro y p
    split
    · exact hz y p
    · rename_i h; rw [not_not.mp h, (rot_zero p).2.2]
  unfold rotateSelf
  simp only
  rw [cx, cy, cz]

/-- **C07** Skewing. -/
theorem skew_apply (x : Mat) (t : ℝ) (p : P4) :
    apply (skewXSelf x t) p = apply x ⟨p.x + Real.tan (t * Real.pi / 180) * p.y, p.y, p.z, p.w⟩ ∧
    apply (skewYSelf x t) p = apply x ⟨p.x, p.y + Real.tan (t * Real.pi / 180) * p.x, p.z, p.w⟩ := by
  constructor
  · unfold skewXSelf
    rw [apply_mul x.m _ _ x.is2d x.is2d p]
    congr 1
    ext <;> simp [apply, get, row, col, matrix2d, radians]
  · unfold skewYSelf
    rw [apply_mul x.m _ _ x.is2d x.is2d p]
    congr 1
    ext <;> simp [apply, get, row, col, matrix2d, radians] <;> ring

/-- **C07** Scaling from an origin leaves the origin where it was and multiplies the
differences to it. -/
theorem scale_origin (sx sy sz ox oy oz dx dy dz : ℝ) :
    scaleFrom sx sy sz ox oy oz ⟨ox, oy, oz, 1⟩ = ⟨ox, oy, oz, 1⟩ ∧
    scaleFrom sx sy sz ox oy oz ⟨ox + dx, oy + dy, oz + dz, 1⟩ = ⟨ox + sx * dx, oy + sy * dy, oz + sz * dz, 1⟩ := by
  constructor <;> ext <;> simp [scaleFrom]

/-- **C07** The origin of a scaling is fixed, for points of the matrix. -/
theorem scale_fixes (x : Mat) (sx : ℝ) (sy : Option ℝ) (sz ox oy oz : ℝ) :
    apply (scaleSelf x sx sy sz ox oy oz) ⟨ox, oy, oz, 1⟩ = apply x ⟨ox, oy, oz, 1⟩ := by
  rw [scale_apply, (scale_origin sx _ sz ox oy oz 0 0 0).1]

/-- **C07** A translation and the opposite one. -/
theorem translate_back (x : Mat) (tx ty tz : ℝ) :
    (translateSelf (translateSelf x tx ty tz) (-tx) (-ty) (-tz)).m = x.m ∧
    (tz = 0 → (translateSelf (translateSelf x tx ty tz) (-tx) (-ty) (-tz)).is2d = x.is2d) := by
  constructor
  · apply m_of_apply
    intro p
    rw [translate_apply, translate_apply]
    congr 1
    ext <;> simp only [shift] <;> ring
  · rintro rfl
    unfold translateSelf
    split <;> split <;> simp

/-- **C07** A flip applied twice. -/
theorem flip_flip (x : Mat) (h : Reachable x) :
    (∃ y, flipX x = .ok y ∧ flipX y = .ok x) ∧ (∃ y, flipY x = .ok y ∧ flipY y = .ok x) := by
  have key : ∀ n : M4, n * n = 1 → Is2D ⟨n, true⟩ →
      ∃ y, copying x (.multiply ⟨n, true⟩) = .ok y ∧ copying y (.multiply ⟨n, true⟩) = .ok x := by
    intro n hn h2
    rw [copying_eq x h]
    refine ⟨_, rfl, ?_⟩
    unfold copying
    rw [ofArray_tolist]
    · show Except.ok _ = Except.ok x
      congr 1
      obtain ⟨m, b⟩ := x
      simp only [multiplySelf, _root_.Matrix.mul_assoc, hn, mul_one]
      rfl
    · exact valid_step x _ (.multiply ⟨n, true⟩) (reachable_is2d x h) (fun z hz => by cases hz; exact fun _ => h2) rfl
  have sq : ∀ a d : ℝ, a * a = 1 → d * d = 1 → matrix2d a 0 0 d 0 0 * matrix2d a 0 0 d 0 0 = 1 := by
    intro a d ha hd
    ext i j
    fin_cases i <;> fin_cases j <;> simp [matrix2d, _root_.Matrix.mul_apply, Fin.sum_univ_four, ha, hd]
  exact ⟨key _ (sq (-1) 1 (by norm_num) (by norm_num)) (is2D_matrix2d ..),
    key _ (sq 1 (-1) (by norm_num) (by norm_num)) (is2D_matrix2d ..)⟩

/-- A flip mirrors. -/
theorem flip_apply (x y : Mat) (h : Reachable x) (p : P4) :
    (flipX x = .ok y → apply y p = apply x ⟨-p.x, p.y, p.z, p.w⟩) ∧
    (flipY x = .ok y → apply y p = apply x ⟨p.x, -p.y, p.z, p.w⟩) := by
  constructor <;> intro he
  · have he : copying x _ = _ := he
    rw [copying_eq x h] at he
    rw [multiply_apply _ _ _ he]
    congr 1
    ext <;> simp [apply, get, row, col, matrix2d]
  · have he : copying x _ = _ := he
    rw [copying_eq x h] at he
    rw [multiply_apply _ _ _ he]
    congr 1
    ext <;> simp [apply, get, row, col, matrix2d]

theorem rotAxis_back (ux uy uz t : ℝ) (hu : ux ^ 2 + uy ^ 2 + uz ^ 2 = 1) (p : P4) :
    rotAxis ux uy uz t (rotAxis ux uy uz (-t) p) = p := by
  have hs : sinDeg (-t) = - sinDeg t := by simp [sinDeg, neg_mul, neg_div]
  have hc : cosDeg (-t) = cosDeg t := by simp [cosDeg, neg_mul, neg_div]
  have h1 : sinDeg t ^ 2 + cosDeg t ^ 2 = 1 := Real.sin_sq_add_cos_sq _
  unfold rotAxis
  rw [hs, hc]
  generalize sinDeg t = s at *
  generalize cosDeg t = c at *
  ext
  · simp only
    grind
  · simp only
    grind
  · simp only
    grind
  · rfl

/-- **C07** A rotation about any axis and the opposite one. -/
theorem rotateAxisAngle_back (x : Mat) (a b c t : ℝ) :
    (rotateAxisAngleSelf (rotateAxisAngleSelf x a b c t) a b c (-t)).m = x.m := by
  apply m_of_apply
  intro p
  rw [rotateAxisAngle_apply]
  split
  · rw [rotateAxisAngle_apply, if_pos (by assumption)]
  · rename_i h
    rw [rotateAxisAngle_apply, if_neg h, rotAxis_back]
    apply unit_of
    intro h0
    rw [Real.sqrt_eq_zero (by positivity)] at h0
    apply h
    have ha : a ^ 2 = 0 := by nlinarith [sq_nonneg a, sq_nonneg b, sq_nonneg c]
    have hb : b ^ 2 = 0 := by nlinarith [sq_nonneg a, sq_nonneg b, sq_nonneg c]
    have hc : c ^ 2 = 0 := by nlinarith [sq_nonneg a, sq_nonneg b, sq_nonneg c]
    exact ⟨pow_eq_zero_iff (two_ne_zero) |>.mp ha, pow_eq_zero_iff (two_ne_zero) |>.mp hb,
      pow_eq_zero_iff (two_ne_zero) |>.mp hc⟩

/-- **C07** A rotation in the plane and the opposite one, with the flag. -/
theorem rotate_back (x : Mat) (t : ℝ) : rotateSelf (rotateSelf x 0 0 t) 0 0 (-t) = x := by
  have hm : (rotateSelf (rotateSelf x 0 0 t) 0 0 (-t)).m = x.m := by
    apply m_of_apply
    intro p
    rw [rotate_apply, rotate_apply]
    simp only [rot_zero]
    rw [← rotAxis_z, ← rotAxis_z, rotAxis_back 0 0 1 t (by norm_num)]
  have hf : ∀ (y : Mat) (t : ℝ), (rotateSelf y 0 0 t).is2d = y.is2d := by
    intro y t
    unfold rotateSelf
    simp only [ne_eq, not_true_eq_false, if_false]
    split
    · unfold rotateAxisAngleSelf
      simp only
      split
      · rfl
      · split <;> simp [rotateUnit]
    · rfl
  have h2 := hf (rotateSelf x 0 0 t) (-t)
  rw [hf x t] at h2
  obtain ⟨m, b⟩ := x
  generalize rotateSelf (rotateSelf ⟨m, b⟩ 0 0 t) 0 0 (-t) = y at *
  obtain ⟨m', b'⟩ := y
  simp only at hm h2
  rw [hm, h2]

/-- **C07** `rotate_from_vector` turns the x axis into the direction of the vector. -/
theorem rotateFromVector_apply (x : Mat) (vx vy : ℝ) :
    apply (rotateFromVectorSelf x vx vy) ⟨√(vx ^ 2 + vy ^ 2), 0, 0, 1⟩ = apply x ⟨vx, vy, 0, 1⟩ := by
  unfold rotateFromVectorSelf
  rw [rotate_apply]
  simp only [rot_zero]
  congr 1
  have hd : degrees (atan2 vy vx) * Real.pi / 180 = Complex.arg ⟨vx, vy⟩ := by
    unfold degrees atan2
    have := Real.pi_ne_zero
    field_simp
  have hn : ‖(⟨vx, vy⟩ : ℂ)‖ = √(vx ^ 2 + vy ^ 2) := by
    rw [Complex.norm_def, Complex.normSq_mk]
    congr 1; ring
  have hc := Complex.norm_mul_cos_arg (⟨vx, vy⟩ : ℂ)
  have hs := Complex.norm_mul_sin_arg (⟨vx, vy⟩ : ℂ)
  rw [hn] at hc hs
  simp only at hc hs
  ext <;> simp only [rotZ, sinDeg, cosDeg, hd, zero_mul, sub_zero, add_zero]
  · exact hc
  · exact hs

end SvgPy.Matrix
