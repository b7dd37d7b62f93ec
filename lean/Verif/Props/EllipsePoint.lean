import Verif.Model.EllipsePoint
import Mathlib.Analysis.SpecialFunctions.Complex.Arg
import Mathlib.Tactic.FieldSimp
import Mathlib.Tactic.LinearCombination

/-!
C137: the points of an ellipse.
-/

namespace SvgPy.EllipsePoint

/-! ### Specification -/

/-- The sine and cosine of an angle in degrees. -/
noncomputable def cosd (a : ℝ) : ℝ := Real.cos (a / 180 * Real.pi)

/-- See `cosd`. -/
noncomputable def sind (a : ℝ) : ℝ := Real.sin (a / 180 * Real.pi)

/-- The coordinates of a point along the axes of the ellipse, from its centre. -/
noncomputable def along (e : Ellipse) (p : ℝ × ℝ) : ℝ × ℝ :=
  ((p.1 - e.cx) * cosd e.rotation + (p.2 - e.cy) * sind e.rotation,
   (p.2 - e.cy) * cosd e.rotation - (p.1 - e.cx) * sind e.rotation)

/-- The curve: the equation of an ellipse in the coordinates along its axes. -/
def On (e : Ellipse) (p : ℝ × ℝ) : Prop := ((along e p).1 / e.rx) ^ 2 + ((along e p).2 / e.ry) ^ 2 = 1

/-! ### Proofs -/

theorem radians_eq (a : ℝ) : radians a = a / 180 * Real.pi := by unfold radians; ring

theorem cos_mod (a : ℝ) : Real.cos (radians (-mod360 a)) = cosd a := by
  have : radians (-mod360 a) = -(a / 180 * Real.pi - ⌊a / 360⌋ * (2 * Real.pi)) := by
    unfold radians mod360; ring
  rw [this, Real.cos_neg, Real.cos_sub_int_mul_two_pi]
  rfl

theorem sin_mod (a : ℝ) : Real.sin (radians (-mod360 a)) = -sind a := by
  have : radians (-mod360 a) = -(a / 180 * Real.pi - ⌊a / 360⌋ * (2 * Real.pi)) := by
    unfold radians mod360; ring
  rw [this, Real.sin_neg, Real.sin_sub_int_mul_two_pi]
  rfl

theorem sq_add (a : ℝ) : cosd a ^ 2 + sind a ^ 2 = 1 := Real.cos_sq_add_sin_sq _

/-- **C137** In the coordinates along the axes the point is where the angle says, counted against the clock (the
y-axis of SVG goes down). -/
theorem point_along (e : Ellipse) (a : ℝ) : along e (point e a) = (e.rx * cosd a, -(e.ry * sind a)) := by
  have h := sq_add e.rotation
  have hc : Real.cos (radians e.rotation) = cosd e.rotation := by rw [radians_eq]; rfl
  have hs : Real.sin (radians e.rotation) = sind e.rotation := by rw [radians_eq]; rfl
  unfold along point
  simp only [cos_mod, sin_mod, hc, hs]
  refine Prod.ext ?_ ?_
  · simp only
    linear_combination (e.rx * cosd a) * h
  · simp only
    linear_combination (-(e.ry * sind a)) * h

/-- Points are told apart by their coordinates along the axes. -/
theorem along_inj (e : Ellipse) (p q : ℝ × ℝ) (h : along e p = along e q) : p = q := by
  have hr := sq_add e.rotation
  have h1 := congrArg Prod.fst h
  have h2 := congrArg Prod.snd h
  simp only [along] at h1 h2
  refine Prod.ext ?_ ?_
  · linear_combination (cosd e.rotation) * h1 - (sind e.rotation) * h2 - (p.1 - q.1) * hr
  · linear_combination (sind e.rotation) * h1 + (cosd e.rotation) * h2 - (p.2 - q.2) * hr

/-- **C137** The point is on the ellipse, whatever the angle. -/
theorem point_on (e : Ellipse) (a : ℝ) (hx : e.rx ≠ 0) (hy : e.ry ≠ 0) : On e (point e a) := by
  unfold On
  rw [point_along]
  simp only
  have h := sq_add a
  have h1 : e.rx * cosd a / e.rx = cosd a := by field_simp
  have h2 : -(e.ry * sind a) / e.ry = -sind a := by field_simp
  rw [h1, h2]
  linear_combination h

/-- **C137** Every point of the ellipse is the point for some angle. -/
theorem point_onto (e : Ellipse) (p : ℝ × ℝ) (hx : e.rx ≠ 0) (hy : e.ry ≠ 0) (hp : On e p) :
    ∃ a, 0 ≤ a ∧ a < 360 ∧ point e a = p := by
  unfold On at hp
  set u := (along e p).1 / e.rx with hu
  set v := (along e p).2 / e.ry with hv
  have hz : Complex.normSq ⟨u, -v⟩ = 1 := by
    rw [Complex.normSq_mk]; linear_combination hp
  have hn : ‖(⟨u, -v⟩ : ℂ)‖ = 1 := by
    have h := Complex.normSq_eq_norm_sq (⟨u, -v⟩ : ℂ)
    rw [hz] at h
    have h0 := norm_nonneg (⟨u, -v⟩ : ℂ)
    nlinarith
  have hne : (⟨u, -v⟩ : ℂ) ≠ 0 := by
    intro h
    rw [h, norm_zero] at hn
    exact zero_ne_one hn
  have hcos := Complex.cos_arg hne
  have hsin := Complex.sin_arg (⟨u, -v⟩ : ℂ)
  rw [hn, div_one] at hcos hsin
  simp only at hcos hsin
  let b : ℝ := Complex.arg ⟨u, -v⟩ / Real.pi * 180
  have hb : b / 180 * Real.pi = Complex.arg ⟨u, -v⟩ := by
    have := Real.pi_ne_zero
    simp only [b]; field_simp
  have hper : point e (mod360 b) = point e b := by
    apply along_inj e
    rw [point_along, point_along]
    have h1 : cosd (mod360 b) = cosd b := by
      unfold cosd mod360
      rw [show (b - 360 * ⌊b / 360⌋) / 180 * Real.pi = b / 180 * Real.pi - ⌊b / 360⌋ * (2 * Real.pi) by ring,
        Real.cos_sub_int_mul_two_pi]
    have h2 : sind (mod360 b) = sind b := by
      unfold sind mod360
      rw [show (b - 360 * ⌊b / 360⌋) / 180 * Real.pi = b / 180 * Real.pi - ⌊b / 360⌋ * (2 * Real.pi) by ring,
        Real.sin_sub_int_mul_two_pi]
    rw [h1, h2]
  refine ⟨mod360 b, ?_, ?_, ?_⟩
  · have := Int.floor_le (b / 360)
    unfold mod360; linarith
  · have := Int.lt_floor_add_one (b / 360)
    unfold mod360; linarith
  · rw [hper]
    apply along_inj e
    rw [point_along]
    have h1 : cosd b = u := by unfold cosd; rw [hb]; exact hcos
    have h2 : sind b = -v := by unfold sind; rw [hb]; exact hsin
    rw [h1, h2, hu, hv]
    refine Prod.ext ?_ ?_
    · simp only; field_simp
    · simp only; field_simp

/-- **C137** Whole turns make no difference, and half a turn gives the opposite point. -/
theorem point_turn (e : Ellipse) (a : ℝ) (k : ℤ) :
    point e (a + 360 * k) = point e a ∧
    (point e (a + 180)).1 + (point e a).1 = 2 * e.cx ∧ (point e (a + 180)).2 + (point e a).2 = 2 * e.cy := by
  have hc : Real.cos (radians e.rotation) = cosd e.rotation := by rw [radians_eq]; rfl
  have hs : Real.sin (radians e.rotation) = sind e.rotation := by rw [radians_eq]; rfl
  have h1 : cosd (a + 360 * k) = cosd a := by
    unfold cosd
    rw [show (a + 360 * k) / 180 * Real.pi = a / 180 * Real.pi + k * (2 * Real.pi) by ring, Real.cos_add_int_mul_two_pi]
  have h2 : sind (a + 360 * k) = sind a := by
    unfold sind
    rw [show (a + 360 * k) / 180 * Real.pi = a / 180 * Real.pi + k * (2 * Real.pi) by ring, Real.sin_add_int_mul_two_pi]
  have h3 : cosd (a + 180) = -cosd a := by
    unfold cosd
    rw [show (a + 180) / 180 * Real.pi = a / 180 * Real.pi + Real.pi by ring, Real.cos_add_pi]
  have h4 : sind (a + 180) = -sind a := by
    unfold sind
    rw [show (a + 180) / 180 * Real.pi = a / 180 * Real.pi + Real.pi by ring, Real.sin_add_pi]
  refine ⟨?_, ?_, ?_⟩
  · apply along_inj e
    rw [point_along, point_along, h1, h2]
  · unfold point
    simp only [cos_mod, sin_mod, hc, hs, h3, h4]
    ring
  · unfold point
    simp only [cos_mod, sin_mod, hc, hs, h3, h4]
    ring

/-- A non-trivial instance: a point on an ellipse with the radii 2 and 1. -/
example : On ⟨0, 0, 2, 1, 0⟩ (2, 0) ∧ (2 : ℝ) ≠ 0 ∧ (1 : ℝ) ≠ 0 := by
  refine ⟨?_, by norm_num, by norm_num⟩
  simp [On, along, cosd, sind]

end SvgPy.EllipsePoint
