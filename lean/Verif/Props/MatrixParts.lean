import Verif.Props.Matrix

/-! Property C58: reading translation, rotation and scale back from a matrix. -/

set_option linter.unusedSimpArgs false

namespace SvgPy.Matrix

/-- `atan2` of polar coordinates. -/
theorem atan2_polar (r t : ℝ) (hr : 0 < r) (h1 : -Real.pi < t) (h2 : t ≤ Real.pi) :
    atan2 (r * Real.sin t) (r * Real.cos t) = t := by
  unfold atan2
  have := Complex.arg_mul_cos_add_sin_mul_I hr ⟨h1, h2⟩
  refine Eq.trans (congrArg Complex.arg ?_) this
  apply Complex.ext
  · simp [Complex.cos_ofReal_re, Complex.sin_ofReal_re, Complex.cos_ofReal_im, Complex.sin_ofReal_im]
  · simp [Complex.cos_ofReal_re, Complex.sin_ofReal_re, Complex.cos_ofReal_im, Complex.sin_ofReal_im]

theorem degrees_radians (t : ℝ) : degrees (radians t) = t := by
  unfold degrees radians
  have := Real.pi_ne_zero
  field_simp

theorem radians_range (t : ℝ) (h1 : -180 < t) (h2 : t ≤ 180) : -Real.pi < radians t ∧ radians t ≤ Real.pi := by
  unfold radians
  have := Real.pi_pos
  constructor
  · rw [lt_div_iff₀ (by norm_num)]; nlinarith
  · rw [div_le_iff₀ (by norm_num)]; nlinarith

/-- The components of translate · rotate · scale. -/
theorem trs_get (tx ty tz rx ry rz sx sy sz : ℝ) :
    let x := scaleSelf (rotateSelf (translateSelf ident tx ty tz) rx ry rz) sx (some sy) sz 0 0 0
    get x .m11 = sx * (cosDeg rz * cosDeg ry) ∧ get x .m12 = sx * (sinDeg rz * cosDeg ry) ∧
    get x .m13 = sx * (-sinDeg ry) ∧
    get x .m21 = sy * (cosDeg rz * sinDeg ry * sinDeg rx - sinDeg rz * cosDeg rx) ∧
    get x .m22 = sy * (sinDeg rz * sinDeg ry * sinDeg rx + cosDeg rz * cosDeg rx) ∧
    get x .m23 = sy * (cosDeg ry * sinDeg rx) ∧
    get x .m31 = sz * (cosDeg rz * sinDeg ry * cosDeg rx + sinDeg rz * sinDeg rx) ∧
    get x .m32 = sz * (sinDeg rz * sinDeg ry * cosDeg rx - cosDeg rz * sinDeg rx) ∧
    get x .m33 = sz * (cosDeg ry * cosDeg rx) ∧
    get x .m41 = tx ∧ get x .m42 = ty ∧ get x .m43 = tz := by
  intro x
  have hid : ∀ p, apply ident p = p :=
    (isidentity_iff ident).mp (by simp [isidentity, get, row, col, ident, matrix2d])
  have h : ∀ p, apply x p =
      shift tx ty tz (rotZ rz (rotY ry (rotX rx (scaleFrom sx sy sz 0 0 0 p)))) := by
    intro p
    show apply (scaleSelf (rotateSelf (translateSelf ident tx ty tz) rx ry rz) sx (some sy) sz 0 0 0) p = _
    rw [scale_apply, rotate_apply, translate_apply, hid]
    rfl
  have h1 := h ⟨1, 0, 0, 0⟩
  have h2 := h ⟨0, 1, 0, 0⟩
  have h3 := h ⟨0, 0, 1, 0⟩
  have h4 := h ⟨0, 0, 0, 1⟩
  simp only [apply, shift, rotZ, rotY, rotX, scaleFrom, mul_one, mul_zero, add_zero, zero_add, zero_mul, sub_zero,
    zero_sub, P4.mk.injEq] at h1 h2 h3 h4
  obtain ⟨a1, a2, a3, _⟩ := h1
  obtain ⟨b1, b2, b3, _⟩ := h2
  obtain ⟨c1, c2, c3, _⟩ := h3
  obtain ⟨d1, d2, d3, _⟩ := h4
  refine ⟨?_, ?_, ?_, ?_, ?_, ?_, ?_, ?_, ?_, d1, d2, d3⟩
  · rw [a1]; ring
  · rw [a2]; ring
  · rw [a3]; ring
  · rw [b1]; ring
  · rw [b2]; ring
  · rw [b3]; ring
  · rw [c1]; ring
  · rw [c2]; ring
  · rw [c3]; ring

/-- The flag of translate · rotate · scale in the plane. -/
theorem trs_flag (tx ty rz sx sy : ℝ) :
    (scaleSelf (rotateSelf (translateSelf ident tx ty 0) 0 0 rz) sx (some sy) 1 0 0 0).is2d = true := by
  have ht : (translateSelf ident tx ty 0).is2d = true := by
    unfold translateSelf; split <;> simp [ident]
  have hr : (rotateSelf (translateSelf ident tx ty 0) 0 0 rz).is2d = true := by
    unfold rotateSelf
    simp only [ne_eq, not_true_eq_false, if_false]
    split
    · unfold rotateAxisAngleSelf
      simp only
      split
      · exact ht
      · split <;> simp [rotateUnit, ht]
    · exact ht
  unfold scaleSelf
  simp only
  split
  · exact hr
  · simp [hr]

/-- **C58** In the plane: a matrix made by translating, rotating by an angle in
(-180, 180] and scaling by positive factors gives back the translation, the angle and
the factors. -/
theorem parts_2d (tx ty t sx sy : ℝ) (h1 : -180 < t) (h2 : t ≤ 180) (hx : 0 < sx) (hy : 0 < sy) :
    let x := scaleSelf (rotateSelf (translateSelf ident tx ty 0) 0 0 t) sx (some sy) 1 0 0 0
    getTranslate x = [tx, ty] ∧ getAngle x = t ∧ getScale x = [sx, sy] := by
  intro x
  have hf : x.is2d = true := trs_flag tx ty t sx sy
  obtain ⟨a1, a2, a3, b1, b2, b3, c1, c2, c3, d1, d2, d3⟩ := trs_get tx ty 0 0 0 t sx sy 1
  have z1 : cosDeg 0 = 1 := by simp [cosDeg]
  have z2 : sinDeg 0 = 0 := by simp [sinDeg]
  simp only [z1, z2, mul_one, mul_zero, zero_mul, zero_sub, sub_zero, zero_add, add_zero, neg_zero] at a1 a2 a3 b1 b2 b3
  have hsc : sinDeg t ^ 2 + cosDeg t ^ 2 = 1 := Real.sin_sq_add_cos_sq _
  refine ⟨?_, ?_, ?_⟩
  · unfold getTranslate
    rw [if_pos hf, d1, d2]
  · unfold getAngle
    rw [a1, a2]
    obtain ⟨r1, r2⟩ := radians_range t h1 h2
    have := atan2_polar sx (radians t) hx r1 r2
    rw [show sx * sinDeg t = sx * Real.sin (radians t) from rfl, show sx * cosDeg t = sx * Real.cos (radians t) from rfl,
      this, degrees_radians]
  · unfold getScale
    simp only
    rw [if_pos hf, a1, a2, a3, b1, b2, b3]
    have e1 : (sx * cosDeg t) ^ 2 + (sx * sinDeg t) ^ 2 + 0 ^ 2 = sx ^ 2 := by
      linear_combination sx ^ 2 * hsc
    have e2 : (sy * -sinDeg t) ^ 2 + (sy * cosDeg t) ^ 2 + 0 ^ 2 = sy ^ 2 := by
      linear_combination sy ^ 2 * hsc
    rw [e1, e2, Real.sqrt_sq hx.le, Real.sqrt_sq hy.le]

/-- **C58** (partial: one common scale factor).  In space: the three angles are given
back, when the middle one is less than a right angle. -/
theorem parts_3d_partial (tx ty tz rx ry rz s : ℝ) (hx1 : -180 < rx) (hx2 : rx ≤ 180) (hy1 : -90 < ry) (hy2 : ry < 90)
    (hz1 : -180 < rz) (hz2 : rz ≤ 180) (hs : 0 < s) :
    let x := scaleSelf (rotateSelf (translateSelf ident tx ty tz) rx ry rz) s (some s) s 0 0 0
    getAngle3 x = (rx, ry, rz) := by
  intro x
  obtain ⟨a1, a2, a3, b1, b2, b3, c1, c2, c3, d1, d2, d3⟩ := trs_get tx ty tz rx ry rz s s s
  have hpi := Real.pi_pos
  have hcy : 0 < cosDeg ry := by
    apply Real.cos_pos_of_mem_Ioo
    constructor
    · rw [lt_div_iff₀ (by norm_num)]; nlinarith
    · rw [div_lt_iff₀ (by norm_num)]; nlinarith
  have hscx : sinDeg rx ^ 2 + cosDeg rx ^ 2 = 1 := Real.sin_sq_add_cos_sq _
  unfold getAngle3
  rw [a1, a2, a3, b3, c3]
  have e1 : (s * (cosDeg ry * sinDeg rx)) ^ 2 + (s * (cosDeg ry * cosDeg rx)) ^ 2 = (s * cosDeg ry) ^ 2 := by
    linear_combination (s * cosDeg ry) ^ 2 * hscx
  rw [e1, Real.sqrt_sq (by positivity)]
  obtain ⟨x1, x2⟩ := radians_range rx hx1 hx2
  obtain ⟨z1, z2⟩ := radians_range rz hz1 hz2
  obtain ⟨y1, y2⟩ := radians_range ry (by linarith) (by linarith)
  have px := atan2_polar (s * cosDeg ry) (radians rx) (by positivity) x1 x2
  have py := atan2_polar s (radians ry) hs y1 y2
  have pz := atan2_polar (s * cosDeg ry) (radians rz) (by positivity) z1 z2
  have ex : atan2 (s * (cosDeg ry * sinDeg rx)) (s * (cosDeg ry * cosDeg rx)) = radians rx := by
    rw [← mul_assoc, ← mul_assoc]; exact px
  have ey : atan2 (-(s * -sinDeg ry)) (s * cosDeg ry) = radians ry := by
    rw [mul_neg, neg_neg]; exact py
  have ez : atan2 (s * (sinDeg rz * cosDeg ry)) (s * (cosDeg rz * cosDeg ry)) = radians rz := by
    rw [mul_comm (sinDeg rz), mul_comm (cosDeg rz), ← mul_assoc, ← mul_assoc]; exact pz
  rw [ex, ey, ez, degrees_radians, degrees_radians, degrees_radians]

/-- **C58** In space: the factors and the translation are given back for positive
factors whenever the matrix is marked 3D. -/
theorem parts_3d_scale (tx ty tz rx ry rz sx sy sz : ℝ) (hx : 0 < sx) (hy : 0 < sy) (hz : 0 < sz) :
    let x := scaleSelf (rotateSelf (translateSelf ident tx ty tz) rx ry rz) sx (some sy) sz 0 0 0
    x.is2d = false → getTranslate x = [tx, ty, tz] ∧ getScale x = [sx, sy, sz] := by
  intro x hf
  obtain ⟨a1, a2, a3, b1, b2, b3, c1, c2, c3, d1, d2, d3⟩ := trs_get tx ty tz rx ry rz sx sy sz
  have h1 : sinDeg rx ^ 2 + cosDeg rx ^ 2 = 1 := Real.sin_sq_add_cos_sq _
  have h2 : sinDeg ry ^ 2 + cosDeg ry ^ 2 = 1 := Real.sin_sq_add_cos_sq _
  have h3 : sinDeg rz ^ 2 + cosDeg rz ^ 2 = 1 := Real.sin_sq_add_cos_sq _
  constructor
  · unfold getTranslate
    rw [if_neg (by simp [hf]), d1, d2, d3]
  · unfold getScale
    simp only
    rw [if_neg (by simp [hf]), a1, a2, a3, b1, b2, b3, c1, c2, c3]
    generalize sinDeg rx = s1 at *
    generalize cosDeg rx = k1 at *
    generalize sinDeg ry = s2 at *
    generalize cosDeg ry = k2 at *
    generalize sinDeg rz = s3 at *
    generalize cosDeg rz = k3 at *
    have e1 : (sx * (k3 * k2)) ^ 2 + (sx * (s3 * k2)) ^ 2 + (sx * -s2) ^ 2 = sx ^ 2 := by
      linear_combination sx ^ 2 * k2 ^ 2 * h3 + sx ^ 2 * h2
    have e2 : (sy * (k3 * s2 * s1 - s3 * k1)) ^ 2 + (sy * (s3 * s2 * s1 + k3 * k1)) ^ 2 + (sy * (k2 * s1)) ^ 2 = sy ^ 2 := by
      linear_combination sy ^ 2 * (s2 ^ 2 * s1 ^ 2 + k1 ^ 2) * h3 + sy ^ 2 * s1 ^ 2 * h2 + sy ^ 2 * h1
    have e3 : (sz * (k3 * s2 * k1 + s3 * s1)) ^ 2 + (sz * (s3 * s2 * k1 - k3 * s1)) ^ 2 + (sz * (k2 * k1)) ^ 2 = sz ^ 2 := by
      linear_combination sz ^ 2 * (s2 ^ 2 * k1 ^ 2 + s1 ^ 2) * h3 + sz ^ 2 * k1 ^ 2 * h2 + sz ^ 2 * h1
    rw [e1, e2, e3, Real.sqrt_sq hx.le, Real.sqrt_sq hy.le, Real.sqrt_sq hz.le]

/-- **C58** violated with different factors: turning about x by 45 degrees after scaling
y by 1 and z by another factor, the angle about x is not given back. -/
theorem parts_3d_violated (sz : ℝ) (h1 : sz ≠ 1) :
    let x := scaleSelf (rotateSelf (translateSelf ident 0 0 0) 45 0 0) 1 (some 1) sz 0 0 0
    (getAngle3 x).1 ≠ 45 := by
  intro x h
  obtain ⟨a1, a2, a3, b1, b2, b3, c1, c2, c3, d1, d2, d3⟩ := trs_get 0 0 0 45 0 0 1 1 sz
  have z1 : cosDeg 0 = 1 := by simp [cosDeg]
  have hq : (45 : ℝ) * Real.pi / 180 = Real.pi / 4 := by ring
  have z3 : cosDeg 45 = √2 / 2 := by rw [cosDeg, hq, Real.cos_pi_div_four]
  have z4 : sinDeg 45 = √2 / 2 := by rw [sinDeg, hq, Real.sin_pi_div_four]
  have h' : degrees (atan2 (get x .m23) (get x .m33)) = 45 := h
  rw [b3, c3, z1, z3, z4] at h'
  have hpi := Real.pi_pos
  have ha : atan2 (1 * (1 * (√2 / 2))) (sz * (1 * (√2 / 2))) = Real.pi / 4 := by
    unfold degrees at h'
    field_simp at h' ⊢
    linarith
  unfold atan2 at ha
  have hc := Complex.norm_mul_cos_arg (⟨sz * (1 * (√2 / 2)), 1 * (1 * (√2 / 2))⟩ : ℂ)
  have hs := Complex.norm_mul_sin_arg (⟨sz * (1 * (√2 / 2)), 1 * (1 * (√2 / 2))⟩ : ℂ)
  rw [ha, Real.cos_pi_div_four] at hc
  rw [ha, Real.sin_pi_div_four] at hs
  simp only at hc hs
  rw [hc] at hs
  have h2 : (0 : ℝ) < √2 := by positivity
  apply h1
  have : sz * √2 = 1 * √2 := by linarith
  exact mul_right_cancel₀ h2.ne' this

/-- Non-trivial instance: a quarter turn. -/
example : getAngle (scaleSelf (rotateSelf (translateSelf ident 3 4 0) 0 0 90) 2 (some 5) 1 0 0 0) = 90 :=
  (parts_2d 3 4 90 2 5 (by norm_num) (by norm_num) (by norm_num) (by norm_num)).2.1

end SvgPy.Matrix
