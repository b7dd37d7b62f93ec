import Mathlib.Tactic.FieldSimp
import Mathlib.Tactic.Linarith
import Mathlib.Tactic.LinearCombination
import Mathlib.Tactic.Positivity
import Mathlib.Tactic.Ring
import Mathlib.Analysis.SpecialFunctions.Trigonometric.Angle
import Verif.Model.FTMatrix

/-!
C113: the matrices for glyph outlines compose as linear maps of a plane whose y axis points upwards.
-/

set_option linter.unusedSimpArgs false
set_option linter.unusedVariables false

namespace SvgPy.FTMatrix

open Real

/-! ### Specification -/

namespace Spec

/-- A point. -/
abbrev Point := ℝ × ℝ

/-- FreeType: `x' = xx * x + xy * y`, `y' = yx * x + yy * y`. -/
def act (m : Mat) (p : Point) : Point := (a m * p.1 + xy m * p.2, yx m * p.1 + d m * p.2)

/-- The reflection that exchanges up and down. -/
def mirror (p : Point) : Point := (p.1, -p.2)

/-- The rotation of SVG (y axis down) by an angle in degrees. -/
noncomputable def svgRotate (t : ℝ) (p : Point) : Point :=
  (cos (t * π / 180) * p.1 - sin (t * π / 180) * p.2, sin (t * π / 180) * p.1 + cos (t * π / 180) * p.2)

/-- `skewX` of SVG. -/
noncomputable def svgSkewX (t : ℝ) (p : Point) : Point := (p.1 + tan (t * π / 180) * p.2, p.2)

/-- `skewY` of SVG. -/
noncomputable def svgSkewY (t : ℝ) (p : Point) : Point := (p.1, p.2 + tan (t * π / 180) * p.1)

end Spec

open Spec

/-- A matrix is known by what it does. -/
theorem eq_iff_act (m n : Mat) : m = n ↔ ∀ p, act m p = act n p := by
  constructor
  · rintro rfl p; rfl
  · intro h
    have h1 := h (1, 0)
    have h2 := h (0, 1)
    simp only [act, a, xy, yx, d, mul_one, mul_zero, add_zero, zero_add, Prod.mk.injEq] at h1 h2
    ext
    · exact h1.1
    · exact h2.1
    · exact h1.2
    · exact h2.2

/-- C113: a new matrix and a cleared one do nothing. -/
theorem new_act (m : Mat) (p : Point) : act new p = p ∧ act (clear m) p = p := by
  constructor <;> simp [act, new, clear, matrix2d, a, xy, yx, d]

/-- C113: the product applies the right factor first. -/
theorem multiply_act (m n : Mat) (p : Point) : act (multiply m n) p = act m (act n p) := by
  simp only [act, multiply, dot, a, xy, yx, d, Prod.mk.injEq]
  constructor <;> ring

/-- C113: the reflections. -/
theorem flip_act (m : Mat) (p : Point) : act (flipX m) p = act m (-p.1, p.2) ∧
    act (flipY m) p = act m (mirror p) := by
  simp only [act, flipX, flipY, dot, matrix2d, a, xy, yx, d, mirror, Prod.mk.injEq]
  refine ⟨⟨?_, ?_⟩, ?_, ?_⟩ <;> ring

/-- C113: scaling comes first; one factor counts for both directions. -/
theorem scale_act (m : Mat) (sx sy : ℝ) (p : Point) : act (scale m sx (some sy)) p = act m (sx * p.1, sy * p.2) ∧
    act (scale m sx none) p = act m (sx * p.1, sx * p.2) := by
  simp only [act, scale, dot, matrix2d, a, xy, yx, d, Prod.mk.injEq]
  refine ⟨⟨?_, ?_⟩, ?_, ?_⟩ <;> ring

/-- C113: rotating, seen from a plane whose y axis points upwards, is the rotation of SVG. -/
theorem rotate_act (m : Mat) (t : ℝ) (p : Point) :
    act (rotate m t) p = act m (mirror (svgRotate t (mirror p))) := by
  simp only [act, rotate, dot, matrix2d, a, xy, yx, d, radians, mirror, svgRotate, Prod.mk.injEq]
  constructor <;> ring

/-- C113: and so are the skews. -/
theorem skew_act (m : Mat) (t : ℝ) (p : Point) :
    act (skewX m t) p = act m (mirror (svgSkewX t (mirror p))) ∧
    act (skewY m t) p = act m (mirror (svgSkewY t (mirror p))) := by
  simp only [act, skewX, skewY, dot, matrix2d, a, xy, yx, d, radians, mirror, svgSkewX, svgSkewY, Prod.mk.injEq]
  refine ⟨⟨?_, ?_⟩, ?_, ?_⟩ <;> ring

/-- C113: rotations add up. -/
theorem rotate_rotate (m : Mat) (s t : ℝ) : rotate (rotate m s) t = rotate m (s + t) := by
  have hc : cos (radians (s + t)) = cos (radians s) * cos (radians t) - sin (radians s) * sin (radians t) := by
    rw [← cos_add]; congr 1; unfold radians; ring
  have hs : sin (radians (s + t)) = sin (radians s) * cos (radians t) + cos (radians s) * sin (radians t) := by
    rw [← sin_add]; congr 1; unfold radians; ring
  ext <;> simp only [rotate, dot, matrix2d, hc, hs] <;> ring

/-- C113: a full turn does nothing. -/
theorem rotate_full (m : Mat) : rotate m 360 = m := by
  have h : radians 360 = 2 * π := by unfold radians; ring
  ext <;> simp [rotate, dot, matrix2d, h]

/-! ### The inverse -/

/-- C113: the inverse exists exactly if the matrix does not flatten the plane, and undoes it from both sides. -/
theorem inverse_iff (m n : Mat) : inverse m = .ok n ↔
    (∀ p, act n (act m p) = p) ∧ ∀ p, act m (act n p) = p := by
  have hdot : ∀ u v : Mat, (∀ p, act u (act v p) = p) ↔ dot u v = matrix2d 1 0 0 1 := by
    intro u v
    have e : ∀ p, act u (act v p) = act (dot u v) p := fun p => (multiply_act u v p).symm
    rw [eq_iff_act]
    constructor
    · intro h p
      rw [← e, h]
      exact (new_act u p).2.symm
    · intro h p
      rw [e, h]
      exact (new_act u p).2
  rw [hdot, hdot]
  unfold inverse
  by_cases h : m.m00 * m.m11 - m.m01 * m.m10 = 0
  · simp only [if_pos h, reduceCtorEq, false_iff]
    rintro ⟨h1, h2⟩
    simp only [dot, matrix2d, Mat.mk.injEq] at h1
    obtain ⟨e1, e2, e3, e4⟩ := h1
    have : (n.m00 * n.m11 - n.m01 * n.m10) * (m.m00 * m.m11 - m.m01 * m.m10) = 1 := by
      have : (n.m00 * m.m00 + n.m01 * m.m10) * (n.m10 * m.m01 + n.m11 * m.m11) -
          (n.m00 * m.m01 + n.m01 * m.m11) * (n.m10 * m.m00 + n.m11 * m.m10) = 1 := by
        rw [e1, e2, e3, e4]; ring
      linear_combination this
    rw [h, mul_zero] at this
    exact absurd this (by norm_num)
  · simp only [if_neg h, Except.ok.injEq]
    constructor
    · rintro rfl
      constructor
      · ext <;> simp only [dot, matrix2d, div_mul_eq_mul_div, ← add_div] <;> rw [div_eq_iff h] <;> ring
      · ext <;> simp only [dot, matrix2d, ← mul_div_assoc, ← add_div] <;> rw [div_eq_iff h] <;> ring
    · rintro ⟨h1, h2⟩
      simp only [dot, matrix2d, Mat.mk.injEq] at h1
      obtain ⟨e1, e2, e3, e4⟩ := h1
      ext
      · rw [div_eq_iff h]; linear_combination (-m.m11) * e1 + m.m10 * e2
      · rw [div_eq_iff h]; linear_combination m.m01 * e1 - m.m00 * e2
      · rw [div_eq_iff h]; linear_combination (-m.m11) * e3 + m.m10 * e4
      · rw [div_eq_iff h]; linear_combination m.m01 * e3 - m.m00 * e4

/-- C113: a matrix that flattens the plane has no inverse, and nothing else fails. -/
theorem inverse_raises (m : Mat) (e : PyErr) : inverse m = .error e ↔
    e = .dom "LinAlgError" ∧ ¬Function.Injective (act m) := by
  unfold inverse
  have hinj : Function.Injective (act m) ↔ m.m00 * m.m11 - m.m01 * m.m10 ≠ 0 := by
    constructor
    · intro h h0
      have k1 : act m (m.m11, -m.m10) = act m (0, 0) := by
        simp only [act, a, xy, yx, d, Prod.mk.injEq]
        constructor
        · linear_combination h0
        · ring
      have k2 : act m (-m.m01, m.m00) = act m (0, 0) := by
        simp only [act, a, xy, yx, d, Prod.mk.injEq]
        constructor
        · ring
        · linear_combination h0
      have e1 := h k1
      have e2 := h k2
      simp only [Prod.mk.injEq, neg_eq_zero] at e1 e2
      have k3 : act m (1, 0) = act m (0, 0) := by
        simp only [act, a, xy, yx, d, e1.1, e1.2, e2.1, e2.2, zero_mul]
      have := h k3
      simp only [Prod.mk.injEq, and_true] at this
      exact absurd this (by norm_num)
    · intro h0 p q h
      simp only [act, a, xy, yx, d, Prod.mk.injEq] at h
      ext
      · apply mul_left_cancel₀ h0; linear_combination m.m11 * h.1 - m.m01 * h.2
      · apply mul_left_cancel₀ h0; linear_combination m.m00 * h.2 - m.m10 * h.1
  rw [hinj]
  by_cases h : m.m00 * m.m11 - m.m01 * m.m10 = 0
  · simp [h, eq_comm]
  · simp [h]

/-! ### Numbers in and out -/

/-- C113: each of the four numbers can be set, and the others keep their values. -/
theorem set_get (m : Mat) (v : ℝ) :
    (a (setA m v) = v ∧ xy (setA m v) = xy m ∧ yx (setA m v) = yx m ∧ d (setA m v) = d m) ∧
    (a (setB m v) = a m ∧ xy (setB m v) = v ∧ yx (setB m v) = yx m ∧ d (setB m v) = d m) ∧
    (a (setC m v) = a m ∧ xy (setC m v) = xy m ∧ yx (setC m v) = v ∧ d (setC m v) = d m) ∧
    (a (setD m v) = a m ∧ xy (setD m v) = xy m ∧ yx (setD m v) = yx m ∧ d (setD m v) = v) := by
  refine ⟨⟨?_, ?_, ?_, ?_⟩, ⟨?_, ?_, ?_, ?_⟩, ⟨?_, ?_, ?_, ?_⟩, ?_, ?_, ?_, ?_⟩ <;> rfl

/-- C113: the list of the four numbers gives the matrix back. -/
theorem array_iff (l : List ℝ) (m : Mat) : fromFloatArray l = .ok m ↔ l = toFloatArray m := by
  unfold fromFloatArray toFloatArray
  constructor
  · intro h
    split at h
    · simp only [Except.ok.injEq] at h
      subst h
      rfl
    · cases h
  · rintro rfl
    rfl

/-- C113: other lists are refused. -/
theorem array_raises (l : List ℝ) : fromFloatArray l = .error .valueError ↔ l.length ≠ 4 := by
  unfold fromFloatArray
  constructor
  · intro h
    split at h
    · cases h
    · rename_i hn
      intro hl
      match l, hl with
      | [p, q, r, s], _ => exact hn p q r s rfl
  · intro h
    split
    · simp at h
    · rfl

/-- C113: a matrix of FreeType stands for its numbers in units of 1/65536. -/
theorem ofFT_act (m : FT) (p : Point) : act (ofFT m) p =
    ((m.xx * p.1 + m.xy * p.2) / 65536, (m.yx * p.1 + m.yy * p.2) / 65536) := by
  simp only [act, ofFT, matrix2d, a, xy, yx, d, Prod.mk.injEq]
  constructor <;> ring

theorem truncate_int (n : ℤ) : truncate n = n := by
  unfold truncate
  split <;> simp

theorem truncate_close (x : ℝ) : |(truncate x : ℝ) - x| < 1 ∧ |(truncate x : ℝ)| ≤ |x| := by
  unfold truncate
  split
  · rename_i h
    have h1 := Int.floor_le x
    have h2 := Int.lt_floor_add_one x
    have h3 : (0 : ℝ) ≤ (⌊x⌋ : ℝ) := by exact_mod_cast Int.floor_nonneg.2 h
    rw [abs_lt, abs_of_nonneg h, abs_of_nonneg h3]
    exact ⟨⟨by linarith, by linarith⟩, h1⟩
  · rename_i h
    push Not at h
    have h1 := Int.le_ceil x
    have h2 := Int.ceil_lt_add_one x
    have h3 : (⌈x⌉ : ℝ) ≤ 0 := by
      have : ⌈x⌉ ≤ 0 := Int.ceil_le.2 (by exact_mod_cast h.le)
      exact_mod_cast this
    rw [abs_lt, abs_of_neg h, abs_of_nonpos h3]
    exact ⟨⟨by linarith, by linarith⟩, by linarith⟩

/-- C113: a matrix of FreeType goes through unchanged. -/
theorem ft_round_trip (m : FT) : toFT (ofFT m) = m := by
  have h : ∀ n : ℤ, truncate ((n : ℝ) / 65536 * 65536) = n := by
    intro n
    rw [div_mul_cancel₀ _ (by norm_num)]
    exact truncate_int n
  ext <;> simp only [toFT, ofFT, matrix2d, h]

/-- C113: other numbers lose less than 1/65536, towards zero. -/
theorem ft_close (m : Mat) :
    ∀ f ∈ [(fun m => a m), (fun m => xy m), (fun m => yx m), fun m => d m],
      |f (ofFT (toFT m)) - f m| < 1 / 65536 ∧ |f (ofFT (toFT m))| ≤ |f m| := by
  have h : ∀ x : ℝ, |(truncate (x * 65536) : ℝ) / 65536 - x| < 1 / 65536 ∧
      |(truncate (x * 65536) : ℝ) / 65536| ≤ |x| := by
    intro x
    obtain ⟨h1, h2⟩ := truncate_close (x * 65536)
    constructor
    · rw [show (truncate (x * 65536) : ℝ) / 65536 - x = ((truncate (x * 65536) : ℝ) - x * 65536) / 65536 by ring,
        abs_div, abs_of_pos (show (0 : ℝ) < 65536 by norm_num)]
      exact div_lt_div_of_pos_right h1 (by norm_num)
    · rw [abs_div, abs_of_pos (show (0 : ℝ) < 65536 by norm_num), div_le_iff₀ (by norm_num)]
      rw [abs_mul, abs_of_pos (show (0 : ℝ) < 65536 by norm_num)] at h2
      exact h2
  intro f hf
  simp only [List.mem_cons, List.not_mem_nil, or_false] at hf
  rcases hf with rfl | rfl | rfl | rfl
  · exact h m.m00
  · exact h m.m01
  · exact h m.m10
  · exact h m.m11

/-! ### What does not hold -/

/-- C113: `b` is documented as `yx` and `c` as `xy`, but it is the other way round. -/
theorem names_violated : ∃ m : Mat, b m ≠ yx m ∧ c m ≠ xy m ∧ ∀ m : Mat, b m = xy m ∧ c m = yx m :=
  ⟨⟨1, 2, 3, 4⟩, by norm_num [b, yx], by norm_num [c, xy], fun _ => ⟨rfl, rfl⟩⟩

/-! ### Cases -/

example : ∃ n, inverse ⟨2, 1, 0, 4⟩ = .ok n := ⟨⟨4 / 8, -1 / 8, -0 / 8, 2 / 8⟩, by norm_num [inverse]⟩

example : inverse ⟨1, 2, 2, 4⟩ = .error (.dom "LinAlgError") := by norm_num [inverse]

example : fromFloatArray [1, 2, 3, 4] = .ok ⟨1, 2, 3, 4⟩ := rfl

example : toFT ⟨1.5, 0, 0, -1.5⟩ = ⟨98304, 0, 0, -98304⟩ := by
  have h : (⟨1.5, 0, 0, -1.5⟩ : Mat) = ofFT ⟨98304, 0, 0, -98304⟩ := by
    ext <;> norm_num [ofFT, matrix2d]
  rw [h, ft_round_trip]

end SvgPy.FTMatrix
