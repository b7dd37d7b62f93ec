import Verif.Model.PathGeom
import Verif.Props.PathGeom
import Mathlib.Tactic.Ring
import Mathlib.Tactic.FieldSimp
import Mathlib.Tactic.Linarith
import Mathlib.Tactic.LinearCombination

/-! Properties C56 and C61: centre, radii and angles of an elliptical arc. -/

set_option linter.unusedSimpArgs false

namespace SvgPy.PathGeom

open SvgPy.Matrix SvgPy.Path

/-! ### Specification -/

/-- The point lies on the ellipse with the given centre and radii whose first axis is turned
by `rot` degrees. -/
def OnEllipse (c : Pt) (rx ry rot : ℝ) (p : Pt) : Prop :=
  let t := rot * Real.pi / 180
  let u := (p.1 - c.1) * Real.cos t + (p.2 - c.2) * Real.sin t
  let v := (p.2 - c.2) * Real.cos t - (p.1 - c.1) * Real.sin t
  (u / rx) ^ 2 + (v / ry) ^ 2 = 1

/-- An ellipse with these radii, turned by `rot`, can pass through both points: half their
distance, measured in radii, is at most 1. -/
def LargeEnough (rx ry rot : ℝ) (p q : Pt) : Prop :=
  let t := rot * Real.pi / 180
  let u := (p.1 - q.1) / 2 * Real.cos t + (p.2 - q.2) / 2 * Real.sin t
  let v := (p.2 - q.2) / 2 * Real.cos t - (p.1 - q.1) / 2 * Real.sin t
  (u / rx) ^ 2 + (v / ry) ^ 2 ≤ 1

/-- The point is seen from `c` in the direction of `deg` degrees, counted from the x-axis
towards the y-axis (clockwise on the screen). -/
def SeenAt (c p : Pt) (deg : ℝ) : Prop :=
  ∃ r, 0 < r ∧ p.1 = c.1 + r * Real.cos (deg * Real.pi / 180) ∧ p.2 = c.2 + r * Real.sin (deg * Real.pi / 180)

/-! ### Proof -/

theorem radius_pos (r : ℝ) (h : radius r ≠ 0) : radius r = |r| ∧ 0 < |r| := by
  unfold radius at h ⊢
  split at h
  · exact absurd rfl h
  · rename_i hc
    rw [if_neg hc]
    exact ⟨rfl, lt_of_le_of_ne (abs_nonneg r) (Ne.symm h)⟩

theorem ne_of_not_close (a b : ℝ) (h : ¬ (Length.isclose a b = true)) : a ≠ b := by
  rintro rfl
  exact h (isclose_self a)

/-- The half difference in the turned frame is not zero. -/
theorem frame_ne (c s dx dy : ℝ) (hcs : c ^ 2 + s ^ 2 = 1) (h : ¬ (dx = 0 ∧ dy = 0)) :
    ¬ (c * dx + s * dy = 0 ∧ -s * dx + c * dy = 0) := by
  rintro ⟨h1, h2⟩
  apply h
  constructor
  · linear_combination c * h1 - s * h2 - dx * hcs
  · linear_combination s * h1 + c * h2 - dy * hcs

theorem ratio_pos (x y rx ry : ℝ) (hx : 0 < rx) (hy : 0 < ry) (h : ¬ (x = 0 ∧ y = 0)) : 0 < x ^ 2 / rx ^ 2 + y ^ 2 / ry ^ 2 := by
  by_cases hx0 : x = 0
  · have : y ≠ 0 := fun hy0 => h ⟨hx0, hy0⟩
    have h1 : 0 < y ^ 2 / ry ^ 2 := by positivity
    have h2 : 0 ≤ x ^ 2 / rx ^ 2 := by positivity
    linarith
  · have h1 : 0 < x ^ 2 / rx ^ 2 := by positivity
    have h2 : 0 ≤ y ^ 2 / ry ^ 2 := by positivity
    linarith

/-- The radii after the correction. -/
theorem scaled_radii (x y rx ry : ℝ) (hx : 0 < rx) (hy : 0 < ry) (h : ¬ (x = 0 ∧ y = 0)) :
    let a := x ^ 2 / rx ^ 2 + y ^ 2 / ry ^ 2
    let rx' := if 1 < a then rx * √a else rx
    let ry' := if 1 < a then ry * √a else ry
    0 < rx' ∧ 0 < ry' ∧ 0 < x ^ 2 / rx' ^ 2 + y ^ 2 / ry' ^ 2 ∧ x ^ 2 / rx' ^ 2 + y ^ 2 / ry' ^ 2 ≤ 1 := by
  intro a rx' ry'
  have ha : 0 < a := ratio_pos x y rx ry hx hy h
  have hrx : 0 < rx' := by
    simp only [rx']
    split
    · exact mul_pos hx (Real.sqrt_pos.mpr ha)
    · exact hx
  have hry : 0 < ry' := by
    simp only [ry']
    split
    · exact mul_pos hy (Real.sqrt_pos.mpr ha)
    · exact hy
  refine ⟨hrx, hry, ratio_pos x y rx' ry' hrx hry h, ?_⟩
  simp only [rx', ry']
  split
  · rw [mul_pow, mul_pow, Real.sq_sqrt ha.le]
    have : x ^ 2 / (rx ^ 2 * a) + y ^ 2 / (ry ^ 2 * a) = a / a := by
      simp only [a]
      rw [add_div, div_div, div_div]
    rw [this, div_self ha.ne']
  · rename_i hn
    exact not_lt.mp hn

/-- The square of the factor. -/
theorem factor_sq (x y rx ry : ℝ) (hx : 0 < rx) (hy : 0 < ry) (fa fs : Bool)
    (h0 : 0 < x ^ 2 / rx ^ 2 + y ^ 2 / ry ^ 2) (h1 : x ^ 2 / rx ^ 2 + y ^ 2 / ry ^ 2 ≤ 1) :
    let fp := (rx ^ 2 * ry ^ 2 - rx ^ 2 * y ^ 2 - ry ^ 2 * x ^ 2) / (rx ^ 2 * y ^ 2 + ry ^ 2 * x ^ 2)
    let f := if fa = fs then -√(max fp 0) else √(max fp 0)
    (x ^ 2 / rx ^ 2 + y ^ 2 / ry ^ 2) * (1 + f ^ 2) = 1 := by
  intro fp f
  set a := x ^ 2 / rx ^ 2 + y ^ 2 / ry ^ 2 with ha
  have e : rx ^ 2 * y ^ 2 + ry ^ 2 * x ^ 2 = rx ^ 2 * ry ^ 2 * a := by
    rw [ha]; field_simp; ring
  have hfp : fp = (1 - a) / a := by
    simp only [fp]
    rw [e, show rx ^ 2 * ry ^ 2 - rx ^ 2 * y ^ 2 - ry ^ 2 * x ^ 2 = rx ^ 2 * ry ^ 2 * (1 - a) by linear_combination -e]
    rw [mul_div_mul_left _ _ (by positivity)]
  have hn : 0 ≤ fp := by
    rw [hfp]
    exact div_nonneg (by linarith) h0.le
  have hf : f ^ 2 = fp := by
    simp only [f, max_eq_left hn]
    split
    · rw [neg_sq, Real.sq_sqrt hn]
    · rw [Real.sq_sqrt hn]
  rw [hf, hfp]
  field_simp
  ring

/-- The points of the turned frame satisfy the equation. -/
theorem frame_on (x y rx ry f : ℝ) (hx : 0 < rx) (hy : 0 < ry) (h : (x ^ 2 / rx ^ 2 + y ^ 2 / ry ^ 2) * (1 + f ^ 2) = 1) (e : ℝ)
    (he : e ^ 2 = 1) :
    ((e * x - f * (rx * y / ry)) / rx) ^ 2 + ((e * y - f * (-ry * x / rx)) / ry) ^ 2 = 1 := by
  rw [← h]
  field_simp
  linear_combination (x ^ 2 * ry ^ 2 + y ^ 2 * rx ^ 2) * he

theorem radians_degrees (t : ℝ) : radians (degrees t) = t := by
  unfold radians degrees
  field_simp

theorem radians_neg (t : ℝ) : radians (-t) = -radians t := by unfold radians; ring

theorem angle_spec (y x : ℝ) (h : ¬ (x = 0 ∧ y = 0)) :
    0 ≤ getAngle y x ∧ getAngle y x < 360 ∧
      ∃ r, 0 < r ∧ x = r * Real.cos (radians (getAngle y x)) ∧ y = -(r * Real.sin (radians (getAngle y x))) := by
  set z : ℂ := ⟨x, y⟩ with hz
  have hz0 : z ≠ 0 := by
    intro e
    apply h
    exact ⟨congrArg Complex.re e, congrArg Complex.im e⟩
  have hr : 0 < ‖z‖ := norm_pos_iff.mpr hz0
  have hc : x = ‖z‖ * Real.cos z.arg := by
    rw [Complex.cos_arg hz0]; field_simp; rfl
  have hs : y = ‖z‖ * Real.sin z.arg := by
    rw [Complex.sin_arg]; field_simp; rfl
  have h1 := Complex.neg_pi_lt_arg z
  have h2 := Complex.arg_le_pi z
  have pi := Real.pi_pos
  have hd : degrees (atan2 y x) = z.arg * 180 / Real.pi := rfl
  have hd' : ∀ t, degrees t = 180 * (t / Real.pi) := by intro t; unfold degrees; ring
  have ht : radians (degrees (atan2 y x)) = z.arg := radians_degrees _
  have hq : atan2 y x = z.arg := rfl
  unfold getAngle
  simp only
  split
  · rename_i hy
    have ha : 0 < z.arg := by
      rcases lt_or_ge 0 z.arg with h3 | h3
      · exact h3
      · have := Real.sin_nonpos_of_nonpos_of_neg_pi_le h3 h1.le
        nlinarith
    have h4 : 0 < z.arg / Real.pi := div_pos ha pi
    have h5 : z.arg / Real.pi ≤ 1 := (div_le_one pi).mpr h2
    refine ⟨?_, ?_, ‖z‖, hr, ?_, ?_⟩
    · rw [hq, hd']; linarith
    · rw [hq, hd']; linarith
    · rw [show radians (360 - degrees (atan2 y x)) = 2 * Real.pi - z.arg by
        rw [← ht]; unfold radians; ring, Real.cos_two_pi_sub]
      exact hc
    · rw [show radians (360 - degrees (atan2 y x)) = 2 * Real.pi - z.arg by
        rw [← ht]; unfold radians; ring, Real.sin_two_pi_sub]
      linarith
  · split
    · rename_i hy
      have ha : z.arg < 0 := by
        rcases lt_or_ge z.arg 0 with h3 | h3
        · exact h3
        · have := Real.sin_nonneg_of_nonneg_of_le_pi h3 h2
          nlinarith
      have h4 : z.arg / Real.pi < 0 := div_neg_of_neg_of_pos ha pi
      have h5 : -1 < z.arg / Real.pi := by rw [lt_div_iff₀ pi]; linarith
      refine ⟨?_, ?_, ‖z‖, hr, ?_, ?_⟩
      · rw [hq, hd']; linarith
      · rw [hq, hd']; linarith
      · rw [radians_neg, ht, Real.cos_neg]; exact hc
      · rw [radians_neg, ht, Real.sin_neg]; linarith
    · rename_i hy1 hy2
      have hy : y = 0 := le_antisymm (not_lt.mp hy1) (not_lt.mp hy2)
      have hs0 : Real.sin z.arg = 0 := by
        rw [hy] at hs
        rcases mul_eq_zero.mp hs.symm with h3 | h3
        · exact absurd h3 hr.ne'
        · exact h3
      have ha : 0 ≤ z.arg := by
        rcases lt_or_ge z.arg 0 with h3 | h3
        · have := Real.sin_neg_of_neg_of_neg_pi_lt h3 h1
          linarith
        · exact h3
      have h4 : 0 ≤ z.arg / Real.pi := div_nonneg ha pi.le
      have h5 : z.arg / Real.pi ≤ 1 := (div_le_one pi).mpr h2
      refine ⟨?_, ?_, ‖z‖, hr, ?_, ?_⟩
      · rw [hq, hd']; linarith
      · rw [hq, hd']; linarith
      · rw [ht]; exact hc
      · rw [ht, hs0, hy]; simp

theorem sin_neg_of (t : ℝ) (h : (-180 < t ∧ t < 0) ∨ (180 < t ∧ t < 360)) : Real.sin (radians t) < 0 := by
  have pi := Real.pi_pos
  rcases h with ⟨h1, h2⟩ | ⟨h1, h2⟩
  · apply Real.sin_neg_of_neg_of_neg_pi_lt
    · unfold radians; nlinarith
    · unfold radians; nlinarith
  · rw [show radians t = radians (t - 360) + 2 * Real.pi by unfold radians; ring, Real.sin_add_two_pi]
    apply Real.sin_neg_of_neg_of_neg_pi_lt
    · unfold radians; nlinarith
    · unfold radians; nlinarith

/-- The extent leads from one angle to the other, in the wanted direction and size. -/
theorem extent_spec (d1 d2 : ℝ) (fa fs : Bool) (h1 : 0 ≤ d1) (h1' : d1 < 360) (h2 : 0 ≤ d2) (h2' : d2 < 360) (hne : d1 ≠ d2)
    (hp : fa ≠ fs → 0 ≤ Real.sin (radians (d1 - d2))) (hn : fa = fs → Real.sin (radians (d1 - d2)) ≤ 0) :
    (∃ k : ℤ, d1 + extent d1 d2 fa fs = d2 + 360 * k) ∧
      (fs = true → -360 < extent d1 d2 fa fs ∧ extent d1 d2 fa fs < 0) ∧
      (fs = false → 0 < extent d1 d2 fa fs ∧ extent d1 d2 fa fs < 360) ∧
      (fa = true → 180 ≤ |extent d1 d2 fa fs|) ∧ (fa = false → |extent d1 d2 fa fs| ≤ 180) := by
  have hn' : fa = fs → 0 ≤ Real.sin (radians (d2 - d1)) := by
    intro e
    have := hn e
    rw [show d1 - d2 = -(d2 - d1) by ring, radians_neg, Real.sin_neg] at this
    linarith
  have pos : ∀ t, 0 ≤ Real.sin (radians t) → -360 < t → t < 360 → t ≠ 0 → (0 < t ∧ t ≤ 180) ∨ (-360 < t ∧ t ≤ -180) := by
    intro t ht a1 a2 a3
    rcases lt_trichotomy t 0 with h | h | h
    · right
      refine ⟨a1, ?_⟩
      by_contra hc
      have := sin_neg_of t (.inl ⟨by linarith, h⟩)
      linarith
    · exact absurd h a3
    · left
      refine ⟨h, ?_⟩
      by_contra hc
      have := sin_neg_of t (.inr ⟨by linarith, a2⟩)
      linarith
  have hne' : d1 - d2 ≠ 0 := sub_ne_zero.mpr hne
  have hne'' : d2 - d1 ≠ 0 := sub_ne_zero.mpr (Ne.symm hne)
  have habs : 0 < |d2 - d1| ∧ |d2 - d1| < 360 := ⟨abs_pos.mpr hne'', abs_lt.mpr ⟨by linarith, by linarith⟩⟩
  refine ⟨?_, ?_, ?_, ?_, ?_⟩
  · cases fa <;> cases fs
    · rcases pos _ (hn' rfl) (by linarith) (by linarith) hne'' with ⟨a, b⟩ | ⟨a, b⟩
      · refine ⟨0, ?_⟩
        have e : |d2 - d1| = d2 - d1 := abs_of_pos a
        simp only [extent, e, Bool.false_eq_true, if_false]
        rw [if_neg (by linarith)]
        push_cast; ring
      · refine ⟨1, ?_⟩
        have e : |d2 - d1| = -(d2 - d1) := abs_of_neg (by linarith)
        simp only [extent, e, Bool.false_eq_true, if_false]
        split
        · push_cast; ring
        · have : d2 - d1 = -180 := by linarith
          push_cast; linarith
    · rcases pos _ (hp (by simp)) (by linarith) (by linarith) hne' with ⟨a, b⟩ | ⟨a, b⟩
      · refine ⟨0, ?_⟩
        have e : |d2 - d1| = -(d2 - d1) := abs_of_neg (by linarith)
        simp only [extent, e, Bool.false_eq_true, if_false, if_true]
        rw [if_neg (by linarith)]
        push_cast; ring
      · refine ⟨-1, ?_⟩
        have e : |d2 - d1| = d2 - d1 := abs_of_pos (by linarith)
        simp only [extent, e, Bool.false_eq_true, if_false, if_true]
        split
        · push_cast; ring
        · have : d2 - d1 = 180 := by linarith
          push_cast; linarith
    · rcases pos _ (hp (by simp)) (by linarith) (by linarith) hne' with ⟨a, b⟩ | ⟨a, b⟩
      · refine ⟨1, ?_⟩
        have e : |d2 - d1| = -(d2 - d1) := abs_of_neg (by linarith)
        simp only [extent, e, Bool.false_eq_true, if_false, if_true]
        split
        · push_cast; ring
        · have : d2 - d1 = -180 := by linarith
          push_cast; linarith
      · refine ⟨0, ?_⟩
        have e : |d2 - d1| = d2 - d1 := abs_of_pos (by linarith)
        simp only [extent, e, Bool.false_eq_true, if_false, if_true]
        rw [if_neg (by linarith)]
        push_cast; ring
    · rcases pos _ (hn' rfl) (by linarith) (by linarith) hne'' with ⟨a, b⟩ | ⟨a, b⟩
      · refine ⟨-1, ?_⟩
        have e : |d2 - d1| = d2 - d1 := abs_of_pos a
        simp only [extent, e, if_true]
        split
        · push_cast; ring
        · have : d2 - d1 = 180 := by linarith
          push_cast; linarith
      · refine ⟨0, ?_⟩
        have e : |d2 - d1| = -(d2 - d1) := abs_of_neg (by linarith)
        simp only [extent, e, if_true]
        rw [if_neg (by linarith)]
        push_cast; ring
  · rintro rfl
    cases fa <;> simp only [extent, Bool.false_eq_true, if_false, if_true] <;> split <;> constructor <;> linarith
  · rintro rfl
    cases fa <;> simp only [extent, Bool.false_eq_true, if_false, if_true] <;> split <;> constructor <;> linarith
  · rintro rfl
    have : |extent d1 d2 true fs| = if |d2 - d1| < 180 then 360 - |d2 - d1| else |d2 - d1| := by
      cases fs <;> simp only [extent, Bool.false_eq_true, if_false, if_true, abs_neg] <;> split <;>
        first | exact abs_of_pos (by linarith) | simp
    rw [this]
    split <;> linarith
  · rintro rfl
    have : |extent d1 d2 false fs| = if 180 < |d2 - d1| then 360 - |d2 - d1| else |d2 - d1| := by
      cases fs <;> simp only [extent, Bool.false_eq_true, if_false, if_true, abs_neg] <;> split <;>
        first | exact abs_of_pos (by linarith) | simp
    rw [this]
    split <;> linarith

/-- Two points of an ellipse in the same direction are equal. -/
theorem same_direction (c : Pt) (rx ry rot : ℝ) (p q : Pt) (hp : OnEllipse c rx ry rot p) (hq : OnEllipse c rx ry rot q)
    (u v r s : ℝ) (hr : 0 < r) (hs : 0 < s) (p1 : p.1 - c.1 = r * u) (p2 : p.2 - c.2 = r * v)
    (q1 : q.1 - c.1 = s * u) (q2 : q.2 - c.2 = s * v) : p = q := by
  unfold OnEllipse at hp hq
  simp only [p1, p2, q1, q2] at hp hq
  set C := Real.cos (rot * Real.pi / 180)
  set S := Real.sin (rot * Real.pi / 180)
  set N := ((u * C + v * S) / rx) ^ 2 + ((v * C - u * S) / ry) ^ 2 with hN
  have e1 : r ^ 2 * N = 1 := by rw [← hp, hN]; ring
  have e2 : s ^ 2 * N = 1 := by rw [← hq, hN]; ring
  have hN0 : N ≠ 0 := by intro h; rw [h] at e1; norm_num at e1
  have e3 : r ^ 2 = s ^ 2 := mul_right_cancel₀ hN0 (e1.trans e2.symm)
  have e4 : r = s := by
    have := (sq_eq_sq₀ hr.le hs.le).mp e3
    exact this
  subst e4
  exact Prod.ext (by linarith) (by linarith)

theorem centre_ne (c : Pt) (rx ry rot : ℝ) (p : Pt) (hp : OnEllipse c rx ry rot p) : ¬ (p.1 - c.1 = 0 ∧ p.2 - c.2 = 0) := by
  rintro ⟨h1, h2⟩
  unfold OnEllipse at hp
  simp [h1, h2] at hp

/-- Everything about the arc through two different points. -/
theorem centreOf_spec (rx ry rot : ℝ) (fa fs : Bool) (p q : Pt) (hx : 0 < rx) (hy : 0 < ry) (hne : p ≠ q) :
    ∃ c d1 d2 e, (centreOf rx ry rot fa fs p q).centre = some (c, d1, d2, e) ∧
      OnEllipse c (centreOf rx ry rot fa fs p q).rx (centreOf rx ry rot fa fs p q).ry rot p ∧
      OnEllipse c (centreOf rx ry rot fa fs p q).rx (centreOf rx ry rot fa fs p q).ry rot q ∧
      SeenAt c p (rot - d1) ∧ SeenAt c q (rot - d2) ∧ SeenAt c q (rot - d1 - e) ∧
      (fs = true → -360 < e ∧ e < 0) ∧ (fs = false → 0 < e ∧ e < 360) ∧ (fa = true → 180 ≤ |e|) ∧ (fa = false → |e| ≤ 180) ∧
      0 < (centreOf rx ry rot fa fs p q).rx ∧ 0 < (centreOf rx ry rot fa fs p q).ry ∧
      (LargeEnough rx ry rot p q → (centreOf rx ry rot fa fs p q).rx = rx ∧ (centreOf rx ry rot fa fs p q).ry = ry) ∧
      (¬ LargeEnough rx ry rot p q → ∃ k, 1 < k ∧ (centreOf rx ry rot fa fs p q).rx = rx * k ∧
        (centreOf rx ry rot fa fs p q).ry = ry * k ∧ c.1 = (p.1 + q.1) / 2 ∧ c.2 = (p.2 + q.2) / 2) := by
  set C := Real.cos (radians rot) with hC
  set S := Real.sin (radians rot) with hS
  have hcs : C ^ 2 + S ^ 2 = 1 := by rw [hC, hS]; exact Real.cos_sq_add_sin_sq _
  set x1 := C * ((p.1 - q.1) / 2) + S * ((p.2 - q.2) / 2) with hx1
  set y1 := -S * ((p.1 - q.1) / 2) + C * ((p.2 - q.2) / 2) with hy1
  have hxy : ¬ (x1 = 0 ∧ y1 = 0) := by
    apply frame_ne C S _ _ hcs
    rintro ⟨h1, h2⟩
    apply hne
    exact Prod.ext (by linarith) (by linarith)
  obtain ⟨h1, h2, h3, h4⟩ := scaled_radii x1 y1 rx ry hx hy hxy
  set a := x1 ^ 2 / rx ^ 2 + y1 ^ 2 / ry ^ 2 with ha
  set rx' := if 1 < a then rx * √a else rx with hrx
  set ry' := if 1 < a then ry * √a else ry with hry
  have h5 := factor_sq x1 y1 rx' ry' h1 h2 fa fs h3 h4
  set fp := (rx' ^ 2 * ry' ^ 2 - rx' ^ 2 * y1 ^ 2 - ry' ^ 2 * x1 ^ 2) / (rx' ^ 2 * y1 ^ 2 + ry' ^ 2 * x1 ^ 2) with hfp
  set f := if fa = fs then -√(max fp 0) else √(max fp 0) with hf
  have hfs : (fa ≠ fs → 0 ≤ f) ∧ (fa = fs → f ≤ 0) := by
    constructor
    · intro h
      rw [hf, if_neg h]; exact Real.sqrt_nonneg _
    · intro h
      rw [hf, if_pos h]; exact neg_nonpos.mpr (Real.sqrt_nonneg _)
  set cx := C * (f * (rx' * y1 / ry')) + -S * (f * (-ry' * x1 / rx')) + (p.1 + q.1) / 2 with hcx
  set cy := S * (f * (rx' * y1 / ry')) + C * (f * (-ry' * x1 / rx')) + (p.2 + q.2) / 2 with hcy
  have e1 : (centreOf rx ry rot fa fs p q).rx = rx' := rfl
  have e2 : (centreOf rx ry rot fa fs p q).ry = ry' := rfl
  have on1 : OnEllipse (cx, cy) rx' ry' rot p := by
    have := frame_on x1 y1 rx' ry' f h1 h2 h5 1 (by norm_num)
    unfold OnEllipse
    rw [← this]
    simp only [hcx, hcy]
    generalize f * (rx' * y1 / ry') = u
    generalize f * (-ry' * x1 / rx') = v
    rw [show Real.cos (rot * Real.pi / 180) = C from rfl, show Real.sin (rot * Real.pi / 180) = S from rfl]
    congr 3
    · rw [hx1]; linear_combination (-u) * hcs
    · rw [hy1]; linear_combination (-v) * hcs
  have on2 : OnEllipse (cx, cy) rx' ry' rot q := by
    have := frame_on x1 y1 rx' ry' f h1 h2 h5 (-1) (by norm_num)
    unfold OnEllipse
    rw [← this]
    simp only [hcx, hcy]
    generalize f * (rx' * y1 / ry') = u
    generalize f * (-ry' * x1 / rx') = v
    rw [show Real.cos (rot * Real.pi / 180) = C from rfl, show Real.sin (rot * Real.pi / 180) = S from rfl]
    congr 3
    · rw [hx1]; linear_combination (-u) * hcs
    · rw [hy1]; linear_combination (-v) * hcs
  set g1 := getAngle (p.2 - cy) (p.1 - cx) with hg1
  set g2 := getAngle (q.2 - cy) (q.1 - cx) with hg2
  obtain ⟨a1, a2, r1, a3, a4, a5⟩ := angle_spec (p.2 - cy) (p.1 - cx) (centre_ne _ _ _ _ _ on1)
  obtain ⟨b1, b2, r2, b3, b4, b5⟩ := angle_spec (q.2 - cy) (q.1 - cx) (centre_ne _ _ _ _ _ on2)
  rw [← hg1] at a1 a2 a4 a5
  rw [← hg2] at b1 b2 b4 b5
  have hgne : g1 ≠ g2 := by
    intro h
    apply hne
    apply same_direction (cx, cy) rx' ry' rot p q on1 on2 (Real.cos (radians g1)) (-Real.sin (radians g1)) r1 r2 a3 b3 a4
    · simp only; rw [a5]; ring
    · simp only; rw [b4, h]
    · simp only; rw [b5, h]; ring
  have cross : (p.1 - cx) * (q.2 - cy) - (p.2 - cy) * (q.1 - cx) = f * (2 * (rx' * y1 ^ 2 / ry' + ry' * x1 ^ 2 / rx')) := by
    have d1 : (p.1 - q.1) / 2 = C * x1 - S * y1 := by rw [hx1, hy1]; linear_combination (-((p.1 - q.1) / 2)) * hcs
    have d2 : (p.2 - q.2) / 2 = S * x1 + C * y1 := by rw [hx1, hy1]; linear_combination (-((p.2 - q.2) / 2)) * hcs
    have u1 : p.1 - cx = C * (x1 - f * (rx' * y1 / ry')) - S * (y1 - f * (-ry' * x1 / rx')) := by rw [hcx]; linear_combination d1
    have u2 : p.2 - cy = S * (x1 - f * (rx' * y1 / ry')) + C * (y1 - f * (-ry' * x1 / rx')) := by rw [hcy]; linear_combination d2
    have u3 : q.1 - cx = C * (-x1 - f * (rx' * y1 / ry')) - S * (-y1 - f * (-ry' * x1 / rx')) := by rw [hcx]; linear_combination -d1
    have u4 : q.2 - cy = S * (-x1 - f * (rx' * y1 / ry')) + C * (-y1 - f * (-ry' * x1 / rx')) := by rw [hcy]; linear_combination -d2
    rw [u1, u2, u3, u4]
    have k1 : f * (rx' * y1 ^ 2 / ry') = f * (rx' * y1 / ry') * y1 := by ring
    have k2 : f * (ry' * x1 ^ 2 / rx') = -(f * (-ry' * x1 / rx')) * x1 := by ring
    rw [show f * (2 * (rx' * y1 ^ 2 / ry' + ry' * x1 ^ 2 / rx')) = 2 * (f * (rx' * y1 ^ 2 / ry') + f * (ry' * x1 ^ 2 / rx')) by ring,
      k1, k2]
    generalize f * (rx' * y1 / ry') = u
    generalize f * (-ry' * x1 / rx') = v
    linear_combination (2 * (u * y1 - v * x1)) * hcs
  have hsin : (p.1 - cx) * (q.2 - cy) - (p.2 - cy) * (q.1 - cx) = r1 * r2 * Real.sin (radians (g1 - g2)) := by
    rw [show radians (g1 - g2) = radians g1 - radians g2 by unfold radians; ring, Real.sin_sub, a4, a5, b4, b5]
    ring
  have hpos : 0 < 2 * (rx' * y1 ^ 2 / ry' + ry' * x1 ^ 2 / rx') := by
    have : 2 * (rx' * y1 ^ 2 / ry' + ry' * x1 ^ 2 / rx') = 2 * rx' * ry' * (x1 ^ 2 / rx' ^ 2 + y1 ^ 2 / ry' ^ 2) := by
      field_simp; ring
    rw [this]
    exact mul_pos (mul_pos (mul_pos two_pos h1) h2) h3
  have hr12 : 0 < r1 * r2 := mul_pos a3 b3
  have sgn : f * (2 * (rx' * y1 ^ 2 / ry' + ry' * x1 ^ 2 / rx')) = r1 * r2 * Real.sin (radians (g1 - g2)) := cross.symm.trans hsin
  have s1 : fa ≠ fs → 0 ≤ Real.sin (radians (g1 - g2)) := by
    intro h
    have : 0 ≤ r1 * r2 * Real.sin (radians (g1 - g2)) := by rw [← sgn]; exact mul_nonneg (hfs.1 h) hpos.le
    exact nonneg_of_mul_nonneg_right this hr12
  have s2 : fa = fs → Real.sin (radians (g1 - g2)) ≤ 0 := by
    intro h
    have : r1 * r2 * Real.sin (radians (g1 - g2)) ≤ 0 := by rw [← sgn]; exact mul_nonpos_of_nonpos_of_nonneg (hfs.2 h) hpos.le
    by_contra hc
    exact absurd (mul_pos hr12 (not_le.mp hc)) (not_lt.mpr this)
  obtain ⟨⟨k, x1'⟩, x2, x3, x4, x5⟩ := extent_spec g1 g2 fa fs a1 a2 b1 b2 hgne s1 s2
  have hrot : ∀ g, (if rot ≠ 0 then g + rot else g) = g + rot := by
    intro g
    split
    · rfl
    · rename_i h; rw [show rot = 0 by simpa using h, add_zero]
  have hext : extent (g1 + rot) (g2 + rot) fa fs = extent g1 g2 fa fs := by
    unfold extent
    rw [show g2 + rot - (g1 + rot) = g2 - g1 by ring]
  have hcen : (centreOf rx ry rot fa fs p q).centre = some ((cx, cy), g1 + rot, g2 + rot, extent g1 g2 fa fs) := by
    rw [← hext, ← hrot g1, ← hrot g2]
    rfl
  refine ⟨(cx, cy), g1 + rot, g2 + rot, extent g1 g2 fa fs, hcen, on1, on2, ⟨r1, a3, ?_, ?_⟩, ⟨r2, b3, ?_, ?_⟩, ⟨r2, b3, ?_, ?_⟩,
    x2, x3, x4, x5, h1, h2, ?_, ?_⟩
  · rw [show (rot - (g1 + rot)) * Real.pi / 180 = -radians g1 by unfold radians; ring, Real.cos_neg]; linarith
  · rw [show (rot - (g1 + rot)) * Real.pi / 180 = -radians g1 by unfold radians; ring, Real.sin_neg]; linarith
  · rw [show (rot - (g2 + rot)) * Real.pi / 180 = -radians g2 by unfold radians; ring, Real.cos_neg]; linarith
  · rw [show (rot - (g2 + rot)) * Real.pi / 180 = -radians g2 by unfold radians; ring, Real.sin_neg]; linarith
  · rw [show (rot - (g1 + rot) - extent g1 g2 fa fs) * Real.pi / 180 = -(radians g2 + k * (2 * Real.pi)) by
      unfold radians; linear_combination (-Real.pi / 180) * x1', Real.cos_neg, Real.cos_add_int_mul_two_pi]
    linarith
  · rw [show (rot - (g1 + rot) - extent g1 g2 fa fs) * Real.pi / 180 = -(radians g2 + k * (2 * Real.pi)) by
      unfold radians; linear_combination (-Real.pi / 180) * x1', Real.sin_neg, Real.sin_add_int_mul_two_pi]
    linarith
  all_goals
    have hL : LargeEnough rx ry rot p q ↔ a ≤ 1 := by
      unfold LargeEnough
      simp only
      rw [show Real.cos (rot * Real.pi / 180) = C from rfl, show Real.sin (rot * Real.pi / 180) = S from rfl, ha, ← div_pow, ← div_pow]
      rw [show (p.1 - q.1) / 2 * C + (p.2 - q.2) / 2 * S = x1 by rw [hx1]; ring,
        show (p.2 - q.2) / 2 * C - (p.1 - q.1) / 2 * S = y1 by rw [hy1]; ring]
    rw [hL, e1, e2]
  · intro h
    rw [hrx, hry, if_neg (not_lt.mpr h), if_neg (not_lt.mpr h)]
    exact ⟨rfl, rfl⟩
  · intro h
    have h' := not_le.mp h
    have hf0 : f = 0 := by
      have h6 : x1 ^ 2 / rx' ^ 2 + y1 ^ 2 / ry' ^ 2 = 1 := by
        rw [hrx, hry, if_pos h', if_pos h', mul_pow, mul_pow, Real.sq_sqrt (by linarith), ← div_div, ← div_div, ← add_div,
          div_self (by linarith)]
      rw [h6] at h5
      have h7 : f ^ 2 = 0 := by linarith
      exact pow_eq_zero_iff (two_ne_zero) |>.mp h7
    refine ⟨√a, by rw [Real.lt_sqrt (by norm_num)]; linarith, by rw [hrx, if_pos h'], by rw [hry, if_pos h'], ?_, ?_⟩
    · simp only [hcx, hf0]; ring
    · simp only [hcy, hf0]; ring

/-- When the code gives a centre: neither radius close to zero, and the points not close. -/
theorem arcCentre_some (rx ry rot fa fs : ℝ) (p q : Pt) (x : Pt × ℝ × ℝ × ℝ) (h : (arcCentre rx ry rot fa fs p q).centre = some x) :
    0 < |rx| ∧ 0 < |ry| ∧ p ≠ q ∧
      arcCentre rx ry rot fa fs p q = centreOf |rx| |ry| rot (decide (fa ≠ 0)) (decide (fs ≠ 0)) p q := by
  unfold arcCentre at h ⊢
  split at h
  · cases h
  · rename_i h1
    rw [not_or] at h1
    obtain ⟨e1, e2⟩ := radius_pos rx h1.1
    obtain ⟨e3, e4⟩ := radius_pos ry h1.2
    rw [if_neg (not_or.mpr h1)]
    split at h
    · cases h
    · rename_i h2
      rw [if_neg h2, e1, e3]
      refine ⟨e2, e4, ?_, rfl⟩
      rintro rfl
      exact h2 ⟨isclose_self _, isclose_self _⟩

/-- **C56** Both ends of an arc lie on the ellipse with the computed centre, radii and the
given rotation; the radii are the given ones if an ellipse with them can pass through the
points, and otherwise both are enlarged by one factor and the centre is in the middle. -/
theorem arc_on_ellipse (rx ry rot fa fs : ℝ) (p q c : Pt) (d1 d2 e : ℝ)
    (h : (arcCentre rx ry rot fa fs p q).centre = some (c, d1, d2, e)) :
    let r := arcCentre rx ry rot fa fs p q
    OnEllipse c r.rx r.ry rot p ∧ OnEllipse c r.rx r.ry rot q ∧ 0 < r.rx ∧ 0 < r.ry ∧
    (LargeEnough |rx| |ry| rot p q → r.rx = |rx| ∧ r.ry = |ry|) ∧
    (¬ LargeEnough |rx| |ry| rot p q → ∃ k, 1 < k ∧ r.rx = |rx| * k ∧ r.ry = |ry| * k ∧
      c.1 = (p.1 + q.1) / 2 ∧ c.2 = (p.2 + q.2) / 2) := by
  obtain ⟨h1, h2, h3, h4⟩ := arcCentre_some rx ry rot fa fs p q _ h
  rw [h4] at h ⊢
  obtain ⟨c', d1', d2', e', a1, a2, a3, -, -, -, -, -, -, -, a4, a5, a6, a7⟩ :=
    centreOf_spec |rx| |ry| rot (decide (fa ≠ 0)) (decide (fs ≠ 0)) p q h1 h2 h3
  rw [a1] at h
  cases h
  exact ⟨a2, a3, a4, a5, a6, a7⟩

/-- **C61** From the centre the start of an arc is seen in the direction of the start
angle; turning by the extent leads to the direction of the end; it turns clockwise on the
screen exactly if the sweep flag is set, and by at least half a turn exactly if the large
flag is set (both for half a turn). -/
theorem arc_extent (rx ry rot fa fs : ℝ) (p q c : Pt) (d1 d2 e : ℝ)
    (h : (arcCentre rx ry rot fa fs p q).centre = some (c, d1, d2, e)) :
    SeenAt c p (rot - d1) ∧ SeenAt c q (rot - d2) ∧ SeenAt c q (rot - d1 - e) ∧
    (fs ≠ 0 → -360 < e ∧ e < 0) ∧ (fs = 0 → 0 < e ∧ e < 360) ∧ (fa ≠ 0 → 180 ≤ |e|) ∧ (fa = 0 → |e| ≤ 180) := by
  obtain ⟨h1, h2, h3, h4⟩ := arcCentre_some rx ry rot fa fs p q _ h
  rw [h4] at h
  obtain ⟨c', d1', d2', e', a1, -, -, a2, a3, a4, a5, a6, a7, a8, -⟩ :=
    centreOf_spec |rx| |ry| rot (decide (fa ≠ 0)) (decide (fs ≠ 0)) p q h1 h2 h3
  rw [a1] at h
  cases h
  refine ⟨a2, a3, a4, fun h => a5 (by simpa using h), fun h => a6 (by simpa using h), fun h => a7 (by simpa using h),
    fun h => a8 (by simpa using h)⟩

/-- The centre is computed unless a radius is close to zero or the points are close. -/
theorem arcCentre_none_iff (rx ry rot fa fs : ℝ) (p q : Pt) :
    (arcCentre rx ry rot fa fs p q).centre = none ↔
      (|rx| ≤ 1e-9 ∨ |ry| ≤ 1e-9) ∨ (Length.isclose p.1 q.1 = true ∧ Length.isclose p.2 q.2 = true) := by
  have hr : ∀ r, radius r = 0 ↔ |r| ≤ 1e-9 := by
    intro r
    have hc : Length.isclose |r| 0 = true ↔ |r| ≤ 1e-9 := by
      simp only [Length.isclose, sub_zero, abs_abs, abs_zero, decide_eq_true_eq]
      rw [max_eq_left (abs_nonneg r)]
      constructor
      · intro h
        rcases le_max_iff.mp h with h | h
        · have : |r| ≤ 0 := by nlinarith
          linarith [abs_nonneg r, (by norm_num : (0:ℝ) ≤ 1e-9)]
        · exact h
      · intro h; exact le_max_of_le_right h
    unfold radius
    rw [← hc]
    split
    · rename_i h; simp [h]
    · rename_i h
      constructor
      · intro e; exfalso; apply h; rw [hc, e]; norm_num
      · intro e; exact absurd e h
  unfold arcCentre
  rw [← hr, ← hr]
  split
  · rename_i h; simp [h]
  · rename_i h
    split
    · rename_i h'; simp [h']
    · rename_i h'
      simp only [h, h', or_self, iff_false]
      intro e; cases e

/-- A non-trivial instance: a computed centre. -/
example : ∃ c d1 d2 e, (arcCentre 5 3 30 1 0 (0, 0) (4, 1)).centre = some (c, d1, d2, e) := by
  have h : (arcCentre 5 3 30 1 0 (0, 0) (4, 1)).centre ≠ none := by
    rw [Ne, arcCentre_none_iff]
    simp only [Length.isclose]
    norm_num
  cases hc : (arcCentre 5 3 30 1 0 (0, 0) (4, 1)).centre with
  | none => exact absurd hc h
  | some x => exact ⟨x.1, x.2.1, x.2.2.1, x.2.2.2, rfl⟩

end SvgPy.PathGeom
