import Verif.Model.PathLength
import Mathlib.MeasureTheory.Integral.IntervalIntegral.Periodic
import Mathlib.Analysis.SpecialFunctions.Trigonometric.Angle
import Mathlib.Tactic.Ring
import Mathlib.Tactic.FieldSimp
import Mathlib.Tactic.Linarith
import Mathlib.Tactic.LinearCombination
import Mathlib.Tactic.IntervalCases

/-! Property C63: the length of an elliptical arc. -/

set_option linter.unusedSimpArgs false

namespace SvgPy.PathLength

open SvgPy.Matrix

/-! ### Specification -/

/-- The speed of the point `(rx cos t, ry sin t)`. -/
noncomputable def speed (rx ry t : ℝ) : ℝ := √((rx * Real.sin t) ^ 2 + (ry * Real.cos t) ^ 2)

/-- From the centre the point `(rx cos t, ry sin t)` of the ellipse is seen in the direction
of `deg` degrees. -/
def HasDir (rx ry t deg : ℝ) : Prop :=
  ∃ k, 0 < k ∧ rx * Real.cos t = k * Real.cos (deg * Real.pi / 180) ∧ ry * Real.sin t = k * Real.sin (deg * Real.pi / 180)

/-! ### Directions -/

variable {rx ry : ℝ}

theorem rad_eq (x : ℝ) : radians x = x * Real.pi / 180 := rfl

theorem HasDir.half {t d : ℝ} (h : HasDir rx ry t d) : HasDir rx ry (t + Real.pi) (d + 180) := by
  obtain ⟨k, hk, h1, h2⟩ := h
  have e : (d + 180) * Real.pi / 180 = d * Real.pi / 180 + Real.pi := by ring
  refine ⟨k, hk, ?_, ?_⟩
  · rw [e, Real.cos_add_pi, Real.cos_add_pi]; linarith
  · rw [e, Real.sin_add_pi, Real.sin_add_pi]; linarith

theorem HasDir.mirror {t d : ℝ} (h : HasDir rx ry t d) : HasDir rx ry (Real.pi - t) (180 - d) := by
  obtain ⟨k, hk, h1, h2⟩ := h
  have e : (180 - d) * Real.pi / 180 = Real.pi - d * Real.pi / 180 := by ring
  refine ⟨k, hk, ?_, ?_⟩
  · rw [e, Real.cos_pi_sub, Real.cos_pi_sub]; linarith
  · rw [e, Real.sin_pi_sub, Real.sin_pi_sub]; linarith

theorem HasDir.turn {t d : ℝ} (h : HasDir rx ry t d) (k : ℤ) : HasDir rx ry t (d + 360 * k) := by
  obtain ⟨r, hr, h1, h2⟩ := h
  have e : (d + 360 * k) * Real.pi / 180 = d * Real.pi / 180 + k * (2 * Real.pi) := by ring
  exact ⟨r, hr, by rw [e, Real.cos_add_int_mul_two_pi]; exact h1, by rw [e, Real.sin_add_int_mul_two_pi]; exact h2⟩

/-- The parameter of a direction is unique up to full turns. -/
theorem HasDir.unique {t u d : ℝ} (hx : 0 < rx) (hy : 0 < ry) (h : HasDir rx ry t d) (h' : HasDir rx ry u d) :
    ∃ k : ℤ, t - u = 2 * Real.pi * k := by
  obtain ⟨a, ha, h1, h2⟩ := h
  obtain ⟨b, hb, h3, h4⟩ := h'
  set c := Real.cos (d * Real.pi / 180)
  set s := Real.sin (d * Real.pi / 180)
  have e1 : Real.cos t = a * (c / rx) := by field_simp; linarith
  have e2 : Real.sin t = a * (s / ry) := by field_simp; linarith
  have e3 : Real.cos u = b * (c / rx) := by field_simp; linarith
  have e4 : Real.sin u = b * (s / ry) := by field_simp; linarith
  have p1 := Real.cos_sq_add_sin_sq t
  have p2 := Real.cos_sq_add_sin_sq u
  rw [e1, e2] at p1
  rw [e3, e4] at p2
  set N := (c / rx) ^ 2 + (s / ry) ^ 2 with hN
  have q1 : a ^ 2 * N = 1 := by rw [← p1, hN]; ring
  have q2 : b ^ 2 * N = 1 := by rw [← p2, hN]; ring
  have hN0 : N ≠ 0 := by intro h; rw [h] at q1; norm_num at q1
  have q3 : a = b := (sq_eq_sq₀ ha.le hb.le).mp (mul_right_cancel₀ hN0 (q1.trans q2.symm))
  subst q3
  exact Real.Angle.angle_eq_iff_two_pi_dvd_sub.mp (Real.Angle.cos_sin_inj (e1.trans e3.symm) (e2.trans e4.symm))

/-- The parameter next to the direction itself. -/
def Par (rx ry t d : ℝ) : Prop := HasDir rx ry t d ∧ |t - radians d| < Real.pi / 2

theorem Par.sin_pos {t u d e : ℝ} (hx : 0 < rx) (hy : 0 < ry) (h : HasDir rx ry t d) (h' : HasDir rx ry u e)
    (hs : 0 < Real.sin (radians (e - d))) : 0 < Real.sin (u - t) := by
  obtain ⟨a, ha, h1, h2⟩ := h
  obtain ⟨b, hb, h3, h4⟩ := h'
  rw [show radians (e - d) = e * Real.pi / 180 - d * Real.pi / 180 by unfold radians; ring, Real.sin_sub] at hs
  have : rx * ry * Real.sin (u - t) = a * b * (Real.sin (e * Real.pi / 180) * Real.cos (d * Real.pi / 180) -
      Real.cos (e * Real.pi / 180) * Real.sin (d * Real.pi / 180)) := by
    rw [Real.sin_sub]
    linear_combination (rx * Real.cos t) * h4 + (b * Real.sin (e * Real.pi / 180)) * h1
      - (ry * Real.sin t) * h3 - (b * Real.cos (e * Real.pi / 180)) * h2
  have h5 : 0 < rx * ry * Real.sin (u - t) := by rw [this]; exact mul_pos (mul_pos ha hb) hs
  exact (mul_pos_iff_of_pos_left (mul_pos hx hy)).mp h5

/-- Larger directions have larger parameters. -/
theorem Par.lt {t u d e : ℝ} (hx : 0 < rx) (hy : 0 < ry) (h : Par rx ry t d) (h' : Par rx ry u e) (hlt : d < e) : t < u := by
  have pi := Real.pi_pos
  obtain ⟨a1, a2⟩ := abs_lt.mp h.2
  obtain ⟨b1, b2⟩ := abs_lt.mp h'.2
  have hr : radians e - radians d = radians (e - d) := by unfold radians; ring
  have h0 : 0 < radians (e - d) := by unfold radians; have : 0 < e - d := by linarith
                                      positivity
  rcases lt_or_ge (radians (e - d)) Real.pi with h1 | h1
  · have hs := Par.sin_pos hx hy h.1 h'.1 (Real.sin_pos_of_pos_of_lt_pi h0 h1)
    by_contra hc
    rw [not_lt] at hc
    have := Real.sin_nonpos_of_nonpos_of_neg_pi_le (x := u - t) (by linarith) (by linarith)
    linarith
  · linarith

theorem Par.unique {t u d : ℝ} (hx : 0 < rx) (hy : 0 < ry) (h : Par rx ry t d) (h' : Par rx ry u d) : t = u := by
  have pi := Real.pi_pos
  obtain ⟨k, hk⟩ := HasDir.unique hx hy h.1 h'.1
  obtain ⟨a1, a2⟩ := abs_lt.mp h.2
  obtain ⟨b1, b2⟩ := abs_lt.mp h'.2
  have h1 : (k : ℝ) < 1 := by
    by_contra hc; rw [not_lt] at hc
    nlinarith
  have h2 : (-1 : ℝ) < k := by
    by_contra hc; rw [not_lt] at hc
    nlinarith
  have h1' : k < 1 := by exact_mod_cast h1
  have h2' : -1 < k := by exact_mod_cast h2
  have : k = 0 := by omega
  subst this
  simp at hk
  linarith

/-! ### The integral -/

theorem speed_continuous (rx ry : ℝ) : Continuous (speed rx ry) := by unfold speed; fun_prop

theorem speed_integrable (rx ry a b : ℝ) : IntervalIntegrable (speed rx ry) MeasureTheory.volume a b :=
  (speed_continuous rx ry).intervalIntegrable a b

/-- The length from the parameter 0. -/
noncomputable def F (rx ry t : ℝ) : ℝ := ∫ x in (0:ℝ)..t, speed rx ry x

theorem F_sub (a b : ℝ) : ∫ x in a..b, speed rx ry x = F rx ry b - F rx ry a := by
  rw [F, F, intervalIntegral.integral_interval_sub_left (speed_integrable _ _ _ _) (speed_integrable _ _ _ _)]

theorem F_zero : F rx ry 0 = 0 := by simp [F]

theorem F_half (t : ℝ) : F rx ry (t + Real.pi) = F rx ry t + F rx ry Real.pi := by
  have hp : Function.Periodic (speed rx ry) Real.pi := by
    intro x; simp [speed]
  have := hp.intervalIntegral_add_eq t 0
  rw [F_sub, F_sub] at this
  simp only [zero_add, F_zero, sub_zero] at this
  linarith

theorem F_mirror (t : ℝ) : F rx ry (Real.pi - t) = F rx ry Real.pi - F rx ry t := by
  have h := intervalIntegral.integral_comp_sub_left (a := 0) (b := t) (speed rx ry) Real.pi
  have e : ∀ x, speed rx ry (Real.pi - x) = speed rx ry x := by intro x; simp [speed]
  simp only [e, sub_zero] at h
  rw [F_sub, F_sub, F_zero] at h
  linarith

theorem F_pi : F rx ry Real.pi = 2 * F rx ry (Real.pi / 2) := by
  have := F_mirror (rx := rx) (ry := ry) (Real.pi / 2)
  rw [show Real.pi - Real.pi / 2 = Real.pi / 2 by ring] at this
  linarith

theorem F_turns (t : ℝ) (k : ℤ) : F rx ry (t + 2 * Real.pi * k) = F rx ry t + k * (4 * F rx ry (Real.pi / 2)) := by
  have step : ∀ t, F rx ry (t + 2 * Real.pi) = F rx ry t + 4 * F rx ry (Real.pi / 2) := by
    intro t
    rw [show t + 2 * Real.pi = t + Real.pi + Real.pi by ring, F_half, F_half, F_pi]; ring
  induction k using Int.induction_on generalizing t with
  | zero => simp
  | succ n ih =>
    rw [show t + 2 * Real.pi * ((n + 1 : ℤ) : ℝ) = (t + 2 * Real.pi) + 2 * Real.pi * ((n : ℤ) : ℝ) by push_cast; ring, ih, step]
    push_cast; ring
  | pred n ih =>
    have := step (t + 2 * Real.pi * ((-n - 1 : ℤ) : ℝ))
    rw [show t + 2 * Real.pi * ((-n - 1 : ℤ) : ℝ) + 2 * Real.pi = t + 2 * Real.pi * ((-n : ℤ) : ℝ) by push_cast; ring, ih] at this
    push_cast at this ⊢
    linarith

theorem F_strict (hx : 0 < rx) (hy : 0 < ry) {a b : ℝ} (h : a < b) : F rx ry a < F rx ry b := by
  have : 0 < ∫ x in a..b, speed rx ry x := by
    apply intervalIntegral.intervalIntegral_pos_of_pos (speed_integrable _ _ _ _) _ h
    intro x
    apply Real.sqrt_pos.mpr
    rcases eq_or_ne (Real.sin x) 0 with h0 | h0
    · have : Real.cos x ^ 2 = 1 := by have := Real.sin_sq_add_cos_sq x; rw [h0] at this; linarith
      rw [h0, mul_pow, mul_pow, this]
      positivity
    · positivity
  rw [F_sub] at this
  linarith

theorem scaled_ellipeinc (_hx : 0 < rx) (hy : 0 < ry) (phi : ℝ) : ry * ellipeinc phi (1 - (rx / ry) ^ 2) = F rx ry phi := by
  rw [ellipeinc, F, ← intervalIntegral.integral_const_mul]
  congr 1
  funext t
  unfold speed
  have : (rx * Real.sin t) ^ 2 + (ry * Real.cos t) ^ 2 = ry ^ 2 * (1 - (1 - (rx / ry) ^ 2) * Real.sin t ^ 2) := by
    have := Real.cos_sq_add_sin_sq t
    have e : Real.cos t ^ 2 = 1 - Real.sin t ^ 2 := by linarith
    rw [mul_pow, mul_pow, e, div_pow]
    field_simp
    ring
  rw [this, Real.sqrt_mul (sq_nonneg _), Real.sqrt_sq hy.le]

theorem quarter_90 (hx : 0 < rx) (hy : 0 < ry) : quarterLength rx ry 90 = F rx ry (Real.pi / 2) := by
  simp only [quarterLength, hx.ne', hy.ne', or_self, if_false, if_true]
  exact scaled_ellipeinc hx hy _

/-- Within the first quarter. -/
theorem quarter_spec (hx : 0 < rx) (hy : 0 < ry) (a : ℝ) (h0 : 0 < a) (h1 : a < 90) :
    ∃ t, HasDir rx ry t a ∧ 0 < t ∧ t < Real.pi / 2 ∧ quarterLength rx ry a = F rx ry t := by
  have pi := Real.pi_pos
  set u := radians a with hu
  have u0 : 0 < u := by rw [hu]; unfold radians; positivity
  have u1 : u < Real.pi / 2 := by rw [hu]; unfold radians; nlinarith
  have hc : 0 < Real.cos u := Real.cos_pos_of_mem_Ioo ⟨by linarith, u1⟩
  have hs : 0 < Real.sin u := Real.sin_pos_of_pos_of_lt_pi u0 (by linarith)
  have htan : 0 < Real.tan u := by rw [Real.tan_eq_sin_div_cos]; positivity
  refine ⟨Real.arctan (rx / ry * Real.tan u), ?_, ?_, Real.arctan_lt_pi_div_two _, ?_⟩
  · set phi := Real.arctan (rx / ry * Real.tan u) with hphi
    have hcp : 0 < Real.cos phi := Real.cos_arctan_pos _
    have ht : Real.sin phi = Real.cos phi * (rx / ry * Real.tan u) := by
      rw [← Real.tan_arctan (rx / ry * Real.tan u), ← hphi, Real.tan_eq_sin_div_cos]; field_simp
    refine ⟨rx * Real.cos phi / Real.cos u, by positivity, ?_, ?_⟩
    · rw [show a * Real.pi / 180 = u from rfl]; field_simp
    · rw [show a * Real.pi / 180 = u from rfl, ht, Real.tan_eq_sin_div_cos]; field_simp
  · rw [← Real.arctan_zero]; exact Real.arctan_strictMono (by positivity)
  · simp only [quarterLength, hx.ne', hy.ne', or_self, if_false, h1.ne]
    exact scaled_ellipeinc hx hy _

theorem dir_zero (hx : 0 < rx) : HasDir rx ry 0 0 := ⟨rx, hx, by simp, by simp⟩

theorem dir_quarter (hy : 0 < ry) : HasDir rx ry (Real.pi / 2) 90 := by
  refine ⟨ry, hy, ?_, ?_⟩ <;> rw [show (90:ℝ) * Real.pi / 180 = Real.pi / 2 by ring] <;> simp

/-- The length up to a direction between 0 and 360 is that up to its parameter. -/
theorem lengthUpTo_spec (hx : 0 < rx) (hy : 0 < ry) (e : ℝ) (h0 : 0 ≤ e) (h1 : e ≤ 360) :
    ∃ t, Par rx ry t e ∧ lengthUpTo rx ry e = F rx ry t := by
  have pi := Real.pi_pos
  have hs0 := quarter_90 hx hy
  have hn0 : 0 ≤ ⌊e / 90⌋ := Int.floor_nonneg.mpr (by positivity)
  have hn4 : ⌊e / 90⌋ ≤ 4 := by
    have : ⌊e / 90⌋ < 5 := Int.floor_lt.mpr (by push_cast; linarith)
    omega
  have f1 := Int.floor_le (e / 90)
  have f2 := Int.lt_floor_add_one (e / 90)
  unfold lengthUpTo
  simp only [hs0]
  generalize ⌊e / 90⌋ = n at *
  have z := dir_zero (ry := ry) hx
  have q := dir_quarter (rx := rx) hy
  have close : ∀ t, HasDir rx ry t e → |t - radians e| < Real.pi / 2 → Par rx ry t e := fun t a b => ⟨a, b⟩
  rcases eq_or_lt_of_le (show 0 ≤ e - 90 * (n : ℝ) by linarith) with ha | ha
  · -- a whole number of quarters
    rw [if_neg (by linarith)]
    have he : e = 90 * (n : ℝ) := by linarith
    have hr : radians e = n * (Real.pi / 2) := by rw [he]; unfold radians; ring
    refine ⟨n * (Real.pi / 2), ⟨?_, by rw [hr, sub_self, abs_zero]; linarith⟩, ?_⟩
    · subst he
      interval_cases n
      · simpa using z
      · simpa using q
      · have := z.half; rw [zero_add, zero_add] at this
        norm_num at this ⊢
        rwa [show 2 * (Real.pi / 2) = Real.pi by ring]
      · have := q.half
        norm_num at this ⊢
        rwa [show 3 * (Real.pi / 2) = Real.pi / 2 + Real.pi by ring]
      · have := z.half.half
        norm_num at this ⊢
        rwa [show 4 * (Real.pi / 2) = Real.pi + Real.pi by ring]
    · have p2 : F rx ry (Real.pi + Real.pi) = 2 * F rx ry Real.pi := by rw [F_half]; ring
      interval_cases n
      · simp [F_zero]
      · norm_num
      · push_cast; rw [show 2 * (Real.pi / 2) = Real.pi by ring, F_pi]
      · push_cast; rw [show 3 * (Real.pi / 2) = Real.pi / 2 + Real.pi by ring, F_half, F_pi]; ring
      · push_cast; rw [show 4 * (Real.pi / 2) = Real.pi + Real.pi by ring, p2, F_pi]; ring
  · rw [if_pos ha]
    have hn3 : n ≤ 3 := by
      by_contra hc
      have : n = 4 := by omega
      subst this
      push_cast at ha
      linarith
    interval_cases n
    · push_cast at *
      rw [if_neg (by intro h; rcases h with ⟨h, _⟩ | ⟨h, _⟩ <;> linarith)]
      obtain ⟨t, t1, t2, t3, t4⟩ := quarter_spec hx hy (e - 90 * 0) (by linarith) (by linarith)
      rw [mul_zero, sub_zero] at *
      refine ⟨t, ⟨t1, ?_⟩, by rw [t4]; ring⟩
      have r1 : 0 < radians e := by unfold radians; positivity
      have r2 : radians e < Real.pi / 2 := by unfold radians; nlinarith
      rw [abs_lt]; constructor <;> linarith
    · push_cast at *
      rw [if_pos (by left; constructor <;> linarith)]
      obtain ⟨t, t1, t2, t3, t4⟩ := quarter_spec hx hy (90 - (e - 90 * 1)) (by linarith) (by linarith)
      refine ⟨Real.pi - t, ⟨?_, ?_⟩, by rw [t4, F_mirror, F_pi]; ring⟩
      · have := t1.mirror
        rwa [show (180:ℝ) - (90 - (e - 90 * 1)) = e by ring] at this
      · have r1 : Real.pi / 2 < radians e := by unfold radians; nlinarith
        have r2 : radians e < Real.pi := by unfold radians; nlinarith
        rw [abs_lt]; constructor <;> linarith
    · push_cast at *
      rw [if_neg (by intro h; rcases h with ⟨_, h⟩ | ⟨h, _⟩ <;> linarith)]
      obtain ⟨t, t1, t2, t3, t4⟩ := quarter_spec hx hy (e - 90 * 2) (by linarith) (by linarith)
      refine ⟨t + Real.pi, ⟨?_, ?_⟩, by rw [t4, F_half, F_pi]; ring⟩
      · have := t1.half
        rwa [show e - 90 * 2 + 180 = e by ring] at this
      · have r1 : Real.pi < radians e := by unfold radians; nlinarith
        have r2 : radians e < 3 / 2 * Real.pi := by unfold radians; nlinarith
        rw [abs_lt]; constructor <;> linarith
    · push_cast at *
      rw [if_pos (by right; constructor <;> linarith)]
      obtain ⟨t, t1, t2, t3, t4⟩ := quarter_spec hx hy (90 - (e - 90 * 3)) (by linarith) (by linarith)
      refine ⟨Real.pi - t + Real.pi, ⟨?_, ?_⟩, by rw [t4, F_half, F_mirror, F_pi]; ring⟩
      · have := t1.mirror.half
        rwa [show (180:ℝ) - (90 - (e - 90 * 3)) + 180 = e by ring] at this
      · have r1 : 3 / 2 * Real.pi < radians e := by unfold radians; nlinarith
        have r2 : radians e < 2 * Real.pi := by unfold radians; nlinarith
        rw [abs_lt]; constructor <;> linarith

/-! ### The loops -/

theorem wrapDown_spec (n : Nat) (x : ℝ) (h : x ≤ 360 * (n + 1)) :
    ∃ k : ℤ, wrapDown n x = x + 360 * k ∧ wrapDown n x ≤ 360 ∧ (0 ≤ x → 0 ≤ wrapDown n x) := by
  induction n generalizing x with
  | zero => exact ⟨0, by simp [wrapDown], by simpa [wrapDown] using h, fun h => h⟩
  | succ n ih =>
    unfold wrapDown
    split
    · rename_i hx
      obtain ⟨k, e, h1, h2⟩ := ih (x - 360) (by push_cast at h; linarith)
      exact ⟨k - 1, by rw [e]; push_cast; ring, h1, fun _ => h2 (by linarith)⟩
    · rename_i hx
      exact ⟨0, by simp, by linarith, fun h => h⟩

theorem wrapUp_spec (n : Nat) (x : ℝ) (h : -(360 * n) ≤ x) (h' : x ≤ 360) :
    ∃ k : ℤ, wrapUp n x = x + 360 * k ∧ 0 ≤ wrapUp n x ∧ wrapUp n x ≤ 360 := by
  induction n generalizing x with
  | zero => exact ⟨0, by simp [wrapUp], by simpa [wrapUp] using h, h'⟩
  | succ n ih =>
    unfold wrapUp
    split
    · rename_i hx
      obtain ⟨k, e, h1, h2⟩ := ih (x + 360) (by push_cast at h; linarith) (by linarith)
      exact ⟨k + 1, by rw [e]; push_cast; ring, h1, h2⟩
    · rename_i hx
      exact ⟨0, by simp, by linarith, h'⟩

theorem wrap_spec (x : ℝ) : ∃ k : ℤ, wrap x = x + 360 * k ∧ 0 ≤ wrap x ∧ wrap x ≤ 360 := by
  unfold wrap
  have h1 := Nat.le_ceil |x|
  have h2 := le_abs_self x
  have h3 := abs_nonneg x
  obtain ⟨k, e, a, -⟩ := wrapDown_spec ⌈|x|⌉₊ x (by linarith)
  set y := wrapDown ⌈|x|⌉₊ x
  have h4 := Nat.le_ceil |y|
  have h5 := neg_abs_le y
  have h6 := abs_nonneg y
  obtain ⟨l, e', b, c⟩ := wrapUp_spec ⌈|y|⌉₊ y (by linarith) a
  exact ⟨k + l, by rw [e', e]; push_cast; ring, b, c⟩

/-- **C63** The computed length of an elliptical arc that starts in one direction and turns by
less than a full turn is the integral of the speed along the ellipse, from any parameter of
the start to the parameter of the end within the same turn. -/
theorem ellipse_length (hx : 0 < rx) (hy : 0 < ry) (start delta t u : ℝ) (hd0 : delta ≠ 0) (hd1 : |delta| < 360)
    (ht : HasDir rx ry t start) (hu : HasDir rx ry u (start + delta))
    (hpos : 0 < delta → t < u ∧ u < t + 2 * Real.pi) (hneg : delta < 0 → t - 2 * Real.pi < u ∧ u < t) :
    ellipseLength rx ry start delta = |∫ x in t..u, speed rx ry x| := by
  have pi := Real.pi_pos
  obtain ⟨k1, w1, w2, w3⟩ := wrap_spec start
  obtain ⟨k2, v1, v2, v3⟩ := wrap_spec (wrap start + delta)
  set s := wrap start with hs
  set e := wrap (s + delta) with he
  obtain ⟨d1, d2⟩ := abs_lt.mp hd1
  have hse : ∀ k : ℤ, e ≠ s + 360 * k := by
    intro k h
    rw [v1] at h
    have h1 : delta = 360 * ((k - k2 : ℤ) : ℝ) := by push_cast; linarith
    have h2 : ((k - k2 : ℤ) : ℝ) < 1 := by linarith
    have h3 : (-1 : ℝ) < ((k - k2 : ℤ) : ℝ) := by linarith
    have h2' : k - k2 < 1 := by exact_mod_cast h2
    have h3' : -1 < k - k2 := by exact_mod_cast h3
    have : k - k2 = 0 := by omega
    rw [this] at h1
    simp at h1
    exact hd0 h1
  have hne : s ≠ e := by intro h; exact hse 0 (by simp [h])
  obtain ⟨ts, p1, l1⟩ := lengthUpTo_spec hx hy s w2 w3
  obtain ⟨te, p2, l2⟩ := lengthUpTo_spec hx hy e v2 v3
  have hq := quarter_90 hx hy
  have pz : Par rx ry 0 0 := ⟨dir_zero hx, by simp [radians, pi]⟩
  have pf : Par rx ry (2 * Real.pi) 360 := by
    refine ⟨?_, by rw [show radians 360 = 2 * Real.pi by unfold radians; ring, sub_self, abs_zero]; linarith⟩
    have := (dir_zero (ry := ry) hx).half.half
    norm_num at this
    rwa [show Real.pi + Real.pi = 2 * Real.pi by ring] at this
  have range : ∀ x d, Par rx ry x d → 0 ≤ d → d ≤ 360 → 0 ≤ x ∧ x ≤ 2 * Real.pi := by
    intro x d hp h0 h1
    constructor
    · rcases eq_or_lt_of_le h0 with h | h
      · subst h; rw [Par.unique hx hy hp pz]
      · exact (Par.lt hx hy pz hp h).le
    · rcases eq_or_lt_of_le h1 with h | h
      · subst h; rw [Par.unique hx hy hp pf]
      · exact (Par.lt hx hy hp pf h).le
  obtain ⟨r1, r2⟩ := range ts s p1 w2 w3
  obtain ⟨r3, r4⟩ := range te e p2 v2 v3
  obtain ⟨m1, hm1⟩ : ∃ k : ℤ, t - ts = 2 * Real.pi * k := by
    apply HasDir.unique hx hy (d := s) _ p1.1
    rw [w1]; exact ht.turn k1
  obtain ⟨m2, hm2⟩ : ∃ k : ℤ, u - te = 2 * Real.pi * k := by
    apply HasDir.unique hx hy (d := e) _ p2.1
    have := hu.turn (k1 + k2)
    rwa [show start + delta + 360 * ((k1 + k2 : ℤ) : ℝ) = e by rw [v1, w1]; push_cast; ring] at this
  have Ft : F rx ry t = F rx ry ts + m1 * (4 * F rx ry (Real.pi / 2)) := by
    rw [← F_turns]; congr 1; linarith
  have Fu : F rx ry u = F rx ry te + m2 * (4 * F rx ry (Real.pi / 2)) := by
    rw [← F_turns]; congr 1; linarith
  -- the number of full turns between the two parameters
  have turns : ∀ a b : ℝ, ∀ k : ℤ, a + 2 * Real.pi * k ∈ Set.Ioo (0:ℝ) (2 * Real.pi) → a = b → -(2 * Real.pi) ≤ b → b ≤ 2 * Real.pi →
      (0 < b → k = 0) ∧ (b < 0 → k = 1) := by
    rintro a b k ⟨i1, i2⟩ rfl b1 b2
    constructor
    · intro h
      have h1 : (k : ℝ) < 1 := by
        by_contra hc; rw [not_lt] at hc; nlinarith
      have h2 : (-1 : ℝ) < k := by
        by_contra hc; rw [not_lt] at hc
        nlinarith
      have h1' : k < 1 := by exact_mod_cast h1
      have h2' : -1 < k := by exact_mod_cast h2
      omega
    · intro h
      have h1 : (k : ℝ) < 2 := by
        by_contra hc; rw [not_lt] at hc; nlinarith
      have h2 : (0 : ℝ) < k := by
        by_contra hc; rw [not_lt] at hc
        nlinarith
      have h1' : k < 2 := by exact_mod_cast h1
      have h2' : 0 < k := by exact_mod_cast h2
      omega
  unfold ellipseLength
  simp only [hx.ne', hy.ne', or_self, if_false]
  rw [← hs, ← he, if_neg hne, F_sub, hq]
  rcases lt_or_gt_of_ne hd0 with hd | hd
  · obtain ⟨g1, g2⟩ := hneg hd
    have hF := F_strict hx hy g2
    rw [abs_of_neg (by linarith), if_pos hd, if_pos hd]
    have key := turns (ts - te) (ts - te) (m1 - m2) ⟨by push_cast; linarith, by push_cast; linarith⟩ rfl (by linarith) (by linarith)
    rcases lt_or_gt_of_ne hne with h | h
    · have hlt := Par.lt hx hy p1 p2 h
      have := key.2 (by linarith)
      have hm : (m1 : ℝ) = m2 + 1 := by exact_mod_cast (by omega : m1 = m2 + 1)
      rw [if_neg (by linarith), l1, l2, Ft, Fu, hm]; ring
    · have hlt := Par.lt hx hy p2 p1 h
      have := key.1 (by linarith)
      have hm : (m1 : ℝ) = m2 := by exact_mod_cast (by omega : m1 = m2)
      rw [if_pos h, l1, l2, Ft, Fu, hm]; ring
  · obtain ⟨g1, g2⟩ := hpos hd
    have hF := F_strict hx hy g1
    rw [abs_of_pos (by linarith), if_neg hd.not_gt, if_neg hd.not_gt]
    have key := turns (te - ts) (te - ts) (m2 - m1) ⟨by push_cast; linarith, by push_cast; linarith⟩ rfl (by linarith) (by linarith)
    rcases lt_or_gt_of_ne hne with h | h
    · have hlt := Par.lt hx hy p1 p2 h
      have := key.1 (by linarith)
      have hm : (m1 : ℝ) = m2 := by exact_mod_cast (by omega : m1 = m2)
      rw [if_pos h, l1, l2, Ft, Fu, hm]; ring
    · have hlt := Par.lt hx hy p2 p1 h
      have := key.2 (by linarith)
      have hm : (m2 : ℝ) = m1 + 1 := by exact_mod_cast (by omega : m2 = m1 + 1)
      rw [if_neg (by linarith), l1, l2, Ft, Fu, hm]; ring

/-- A non-trivial instance: a quarter of an ellipse, turning backwards. -/
example : HasDir 3 2 (Real.pi / 2) 90 ∧ HasDir 3 2 0 (90 + (-90)) ∧ |(-90 : ℝ)| < 360 ∧
    Real.pi / 2 - 2 * Real.pi < 0 ∧ (0:ℝ) < Real.pi / 2 := by
  have pi := Real.pi_pos
  refine ⟨dir_quarter (by norm_num), ?_, by norm_num, by linarith, by linarith⟩
  rw [add_neg_cancel]; exact dir_zero (by norm_num)

end SvgPy.PathLength
