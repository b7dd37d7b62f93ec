import Verif.Props.Shapes

/-! Property C83: the Bezier curves that replace an arc stay close to it. -/

set_option linter.unusedSimpArgs false

namespace SvgPy.ArcCurves

open SvgPy.Path SvgPy.PathGeom SvgPy.PathLength SvgPy.Matrix SvgPy.Transform

/-! ### Specification -/

/-- The point `z` is close to the arc of the SVG specification from `p` to `q` (see
`Shapes.OnArc`): seen from the centre it is in the direction of a point of the arc, and its
distance from the centre differs by at most the part `ε`. -/
def NearArc (ε : ℝ) (p : Pt) (rx ry rot fa fs : ℝ) (q z : Pt) : Prop :=
  p ≠ q ∧ ∃ c r1 r2 t u s k, 0 < r1 ∧ 0 < r2 ∧
    (LargeEnough |rx| |ry| rot p q → r1 = |rx| ∧ r2 = |ry|) ∧
    (¬ LargeEnough |rx| |ry| rot p q → ∃ k, 1 < k ∧ r1 = |rx| * k ∧ r2 = |ry| * k) ∧
    ellipsePoint c r1 r2 rot t = p ∧ ellipsePoint c r1 r2 rot u = q ∧
    z.1 = c.1 + k * ((ellipsePoint c r1 r2 rot s).1 - c.1) ∧ z.2 = c.2 + k * ((ellipsePoint c r1 r2 rot s).2 - c.2) ∧
    |k - 1| ≤ ε ∧
    (fs ≠ 0 → t < u ∧ u < t + 2 * Real.pi ∧ t ≤ s ∧ s ≤ u) ∧
    (fs = 0 → t - 2 * Real.pi < u ∧ u < t ∧ u ≤ s ∧ s ≤ t) ∧
    (fa ≠ 0 → Real.pi ≤ |u - t|) ∧ (fa = 0 → |u - t| ≤ Real.pi)

/-- The curves join `p` and `q`. -/
def Joins : Pt → List (ℝ → Pt) → Pt → Prop
  | p, [], q => p = q
  | p, f :: l, q => f 0 = p ∧ Joins (f 1) l q

/-- The second drawing is the first one, except that each arc is replaced by curves that join
its ends and are close to it. -/
inductive Follows (ε : ℝ) : List Piece → List Piece → Prop
  | nil : Follows ε [] []
  | same (a : Piece) (l m : List Piece) : Follows ε l m → Follows ε (a :: l) (a :: m)
  | arc (p : Pt) (rx ry rot fa fs : ℝ) (q : Pt) (c : List (ℝ → Pt)) (l m : List Piece) :
    Joins p c q → (∀ f ∈ c, ∀ t, 0 ≤ t → t ≤ 1 → NearArc ε p rx ry rot fa fs q (f t)) → Follows ε l m →
    Follows ε (.arc p rx ry rot fa fs q :: l) (c.map .draw ++ m)

/-- Arcs of circles, quarters of ellipses between their axes and halves of ellipses whose ends are on an axis,
if they are larger than the tolerance of the code. -/
def Regular : Piece → Prop
  | .arc p rx ry rot _ _ q =>
    1e-9 < |rx| ∧ 1e-9 < |ry| ∧ (Apart p.1 q.1 ∨ Apart p.2 q.2) ∧
    (|rx| = |ry| ∨ rot = 0 ∧
      (|p.1 - q.1| = |rx| ∧ |p.2 - q.2| = |ry| ∨ p.2 = q.2 ∧ 2 * |rx| ≤ |p.1 - q.1| ∨ p.1 = q.1 ∧ 2 * |ry| ≤ |p.2 - q.2|))
  | _ => True

/-- The orders of segments for which normalisation is right, as for C14, but with arcs anywhere. -/
def Ordered (prev : Prev) (b : Bool) : Seg ℝ → Prop
  | .move .. => b = false
  | .smooth .. => b = false ∧ (prev = .line ∨ prev = .cubic)
  | .tsmooth .. => b = false ∧ (prev = .line ∨ prev = .quad)
  | _ => True

/-- All segments stand in a right place. -/
def AllOrdered : Prev → Bool → List (Seg ℝ) → Prop
  | _, _, [] => True
  | prev, b, s :: l => Ordered prev b s ∧ AllOrdered (prev.next s) (decide (s.kind = .B)) l

/-! ### One Bezier curve for a part of the unit circle -/

/-- The Bezier curve, in the frame whose first axis points to the middle of the part: `c` and
`s` are cosine and sine of half the angle. -/
theorem unit_frame (c s w v : ℝ) (hcs : c ^ 2 + s ^ 2 = 1) (hc : 7071 / 10000 ≤ c) (hc1 : c ≤ 1) (hw : 0 ≤ w) (hw1 : 4 * w ≤ 1)
    (hv : v ^ 2 = 1 - 4 * w) :
    let x := c + 4 * w * (1 - c)
    let y := v * s * (1 + 2 * w - 4 * w * c / (1 + c))
    0 < x ∧ 1 ≤ x ^ 2 + y ^ 2 ∧ x ^ 2 + y ^ 2 ≤ 1.0003 ^ 2 ∧ |y| * c ≤ x * |s| := by
  intro x y
  have hc0 : 0 < c := by linarith
  have h1c : 0 < 1 + c := by linarith
  have hx : 0 < x := by
    have : 0 ≤ 4 * w * (1 - c) := by nlinarith
    simp only [x]; linarith
  have e : x ^ 2 + y ^ 2 = 1 + 4 * w ^ 2 * (1 - 4 * w) * ((1 - c) ^ 3 / (1 + c)) := by
    simp only [x, y]
    rw [mul_pow, mul_pow, hv, show s ^ 2 = 1 - c ^ 2 by linarith]
    field_simp
    ring
  have hq0 : 0 ≤ (1 - c) ^ 3 / (1 + c) := div_nonneg (pow_nonneg (by linarith) 3) h1c.le
  have hq1 : (1 - c) ^ 3 / (1 + c) ≤ 0.0148 := by
    rw [div_le_iff₀ h1c]
    have h3 : (1 - c) ^ 3 ≤ (2929 / 10000) ^ 3 := pow_le_pow_left₀ (by linarith) (by linarith) 3
    norm_num at h3 ⊢
    nlinarith
  have hw2 : w ^ 2 * (1 - 4 * w) ≤ 1 / 108 := by nlinarith [mul_nonneg (by linarith : (0:ℝ) ≤ 12 * w + 1) (sq_nonneg (6 * w - 1))]
  have hw3 : 0 ≤ w ^ 2 * (1 - 4 * w) := mul_nonneg (sq_nonneg w) (by linarith)
  refine ⟨hx, ?_, ?_, ?_⟩
  · rw [e]
    have : 0 ≤ 4 * w ^ 2 * (1 - 4 * w) * ((1 - c) ^ 3 / (1 + c)) := mul_nonneg (by linarith) hq0
    linarith
  · rw [e]
    have : w ^ 2 * (1 - 4 * w) * ((1 - c) ^ 3 / (1 + c)) ≤ 1 / 108 * 0.0148 := mul_le_mul hw2 hq1 hq0 (by norm_num)
    norm_num at this ⊢
    linarith
  · have hv1 : |v| ≤ 1 := by
      rw [← sq_le_one_iff_abs_le_one]; linarith
    have eb : (1 + 2 * w - 4 * w * c / (1 + c)) = 1 + 2 * w * (1 - c) / (1 + c) := by
      field_simp; ring
    have hb : 0 ≤ 2 * w * (1 - c) / (1 + c) := div_nonneg (mul_nonneg (by linarith) (by linarith)) h1c.le
    have hb2 : 2 * w * (1 - c) / (1 + c) ≤ 2 * w * (1 - c) := div_le_self (mul_nonneg (by linarith) (by linarith)) (by linarith)
    have ey : |y| = |v| * |s| * (1 + 2 * w * (1 - c) / (1 + c)) := by
      simp only [y]
      rw [eb, abs_mul, abs_mul, abs_of_nonneg (a := 1 + _) (by linarith)]
    rw [ey]
    have h1 : (1 + 2 * w * (1 - c) / (1 + c)) * c ≤ x := by
      simp only [x]
      nlinarith [mul_nonneg hw (by linarith : (0:ℝ) ≤ 1 - c)]
    have h2 : 0 ≤ (1 + 2 * w * (1 - c) / (1 + c)) * c := mul_nonneg (by linarith) hc0.le
    calc |v| * |s| * (1 + 2 * w * (1 - c) / (1 + c)) * c = |v| * (|s| * ((1 + 2 * w * (1 - c) / (1 + c)) * c)) := by ring
      _ ≤ 1 * (|s| * ((1 + 2 * w * (1 - c) / (1 + c)) * c)) :=
        mul_le_mul_of_nonneg_right hv1 (mul_nonneg (abs_nonneg s) h2)
      _ ≤ |s| * x := by rw [one_mul]; exact mul_le_mul_of_nonneg_left h1 (abs_nonneg s)
      _ = x * |s| := mul_comm _ _

/-- Points in the right half plane by angle and distance. -/
theorem polar (x y φ : ℝ) (hx : 0 < x) (hφ : |φ| < Real.pi / 2) (h : |y| * Real.cos φ ≤ x * |Real.sin φ|) :
    ∃ θ, |θ| ≤ |φ| ∧ x = √(x ^ 2 + y ^ 2) * Real.cos θ ∧ y = √(x ^ 2 + y ^ 2) * Real.sin θ := by
  have hφ' := abs_lt.1 hφ
  have hc : 0 < Real.cos φ := Real.cos_pos_of_mem_Ioo ⟨by linarith, by linarith⟩
  have hca : Real.cos |φ| = Real.cos φ := Real.cos_abs φ
  have hsa : Real.sin |φ| = |Real.sin φ| := by
    have h0 : 0 ≤ Real.sin |φ| := Real.sin_nonneg_of_nonneg_of_le_pi (abs_nonneg φ) (by linarith [Real.pi_pos])
    rcases abs_cases φ with ⟨e, _⟩ | ⟨e, _⟩ <;> rw [e] at h0 ⊢
    · rw [abs_of_nonneg h0]
    · rw [Real.sin_neg] at h0 ⊢; rw [abs_of_nonpos (by linarith)]
  have hq : |y / x| ≤ Real.tan |φ| := by
    rw [Real.tan_eq_sin_div_cos, hca, hsa, abs_div, abs_of_pos hx, div_le_div_iff₀ hx hc]
    linarith
  have hn : √(x ^ 2 + y ^ 2) = x * √(1 + (y / x) ^ 2) := by
    rw [show x ^ 2 + y ^ 2 = x ^ 2 * (1 + (y / x) ^ 2) by field_simp, Real.sqrt_mul (sq_nonneg x), Real.sqrt_sq hx.le]
  have hs : 0 < √(1 + (y / x) ^ 2) := Real.sqrt_pos.2 (by positivity)
  refine ⟨Real.arctan (y / x), ?_, ?_, ?_⟩
  · have ht : Real.arctan (Real.tan |φ|) = |φ| := Real.arctan_tan (by linarith [abs_nonneg φ]) hφ
    rw [abs_le]
    obtain ⟨h1, h2⟩ := abs_le.1 hq
    constructor
    · rw [← ht, ← Real.arctan_neg]
      exact Real.arctan_strictMono.monotone h1
    · rw [← ht]
      exact Real.arctan_strictMono.monotone h2
  · rw [hn, Real.cos_arctan]; field_simp
  · rw [hn, Real.sin_arctan]; field_simp

theorem cos_eighth : (7071 / 10000 : ℝ) ≤ Real.cos (Real.pi / 4) := by
  rw [Real.cos_pi_div_four]
  have : (1.4142 : ℝ) ≤ √2 := Real.le_sqrt_of_sq_le (by norm_num)
  linarith

/-- A Bezier curve with the control points of the code for the part of the unit circle from the
angle `t` to `t + inc`, at most a quarter: each of its points is close to a point of that part. -/
theorem unit_curve (t inc r : ℝ) (hi : |inc| ≤ Real.pi / 2) (h0 : 0 ≤ r) (h1 : r ≤ 1) :
    let len := 4 / 3 * Real.sin (inc / 2) / (1 + Real.cos (inc / 2))
    let u := t + inc
    ∃ θ k, |θ - (t + inc / 2)| ≤ |inc / 2| ∧ 1 ≤ k ∧ k ≤ 1.0003 ∧
      cubicAt (Real.cos t, Real.sin t) (Real.cos t - len * Real.sin t, Real.sin t + len * Real.cos t)
        (Real.cos u + len * Real.sin u, Real.sin u - len * Real.cos u) (Real.cos u, Real.sin u) r =
      (k * Real.cos θ, k * Real.sin θ) := by
  intro len u
  have pi := Real.pi_pos
  set φ := inc / 2 with hφ
  have hφ4 : |φ| ≤ Real.pi / 4 := by
    rw [hφ, abs_div, abs_of_pos (by norm_num : (0:ℝ) < 2)]; linarith
  have hcb : 7071 / 10000 ≤ Real.cos φ := by
    rw [← Real.cos_abs]
    exact cos_eighth.trans (Real.cos_le_cos_of_nonneg_of_le_pi (abs_nonneg φ) (by linarith) hφ4)
  have hcs := Real.cos_sq_add_sin_sq φ
  have hw : 0 ≤ r * (1 - r) := mul_nonneg h0 (by linarith)
  have hw1 : 4 * (r * (1 - r)) ≤ 1 := by nlinarith [sq_nonneg (2 * r - 1)]
  obtain ⟨hx, k1, k2, hy⟩ := unit_frame (Real.cos φ) (Real.sin φ) (r * (1 - r)) (2 * r - 1) hcs hcb (Real.cos_le_one φ) hw hw1 (by ring)
  set x := Real.cos φ + 4 * (r * (1 - r)) * (1 - Real.cos φ) with hxd
  set y := (2 * r - 1) * Real.sin φ * (1 + 2 * (r * (1 - r)) - 4 * (r * (1 - r)) * Real.cos φ / (1 + Real.cos φ)) with hyd
  obtain ⟨θ, a1, a2, a3⟩ := polar x y φ hx (by linarith) hy
  have et : t = (t + φ) - φ := by ring
  have eu : u = (t + φ) + φ := by simp only [u, hφ]; ring
  refine ⟨t + φ + θ, √(x ^ 2 + y ^ 2), by rw [add_sub_cancel_left]; exact a1, ?_, ?_, ?_⟩
  · rw [Real.one_le_sqrt]; exact k1
  · rw [Real.sqrt_le_left (by norm_num)]; exact k2
  · generalize t + φ = μ at et eu ⊢
    have h1c : 1 + Real.cos φ ≠ 0 := by linarith
    have hlen : len * (1 + Real.cos φ) = 4 / 3 * Real.sin φ := div_mul_cancel₀ _ h1c
    have hls : len * Real.sin φ = 4 / 3 * (1 - Real.cos φ) := by
      apply mul_right_cancel₀ h1c
      linear_combination Real.sin φ * hlen + 4 / 3 * hcs
    have hxe : x = Real.cos φ + 3 * (r * (1 - r)) * (len * Real.sin φ) := by
      rw [hxd, hls]; ring
    have hye : y = (2 * r - 1) * ((1 + 2 * (r * (1 - r))) * Real.sin φ - 3 * (r * (1 - r)) * (len * Real.cos φ)) := by
      rw [hyd]
      have : len = 4 / 3 * Real.sin φ / (1 + Real.cos φ) := rfl
      rw [this]
      field_simp
    have e1 : √(x ^ 2 + y ^ 2) * (Real.cos μ * Real.cos θ - Real.sin μ * Real.sin θ) = Real.cos μ * x - Real.sin μ * y := by
      linear_combination (-Real.cos μ) * a2 + Real.sin μ * a3
    have e2 : √(x ^ 2 + y ^ 2) * (Real.sin μ * Real.cos θ + Real.cos μ * Real.sin θ) = Real.sin μ * x + Real.cos μ * y := by
      linear_combination (-Real.sin μ) * a2 + (-Real.cos μ) * a3
    rw [Real.cos_add μ θ, Real.sin_add μ θ, e1, e2, hxe, hye]
    clear_value len u
    rw [et, eu, Real.cos_sub, Real.sin_sub, Real.cos_add, Real.sin_add]
    simp only [cubicAt, Prod.mk.injEq]
    constructor <;> ring

/-! ### From the unit circle to the ellipse -/

/-- The image of a point of the plane of the unit circle, whose second axis points upwards. -/
noncomputable def img (c : Pt) (r1 r2 rot : ℝ) (p : Pt) : Pt :=
  let a := rot * Real.pi / 180
  (c.1 + (Real.cos a * (r1 * p.1) + Real.sin a * (r2 * p.2)), c.2 + (Real.sin a * (r1 * p.1) - Real.cos a * (r2 * p.2)))

theorem img_unit (c : Pt) (r1 r2 rot θ : ℝ) : img c r1 r2 rot (Real.cos θ, Real.sin θ) = ellipsePoint c r1 r2 rot (-θ) := by
  simp only [img, ellipsePoint, Real.cos_neg, Real.sin_neg, Prod.mk.injEq]
  constructor <;> ring

theorem img_scaled (c : Pt) (r1 r2 rot θ k : ℝ) :
    (img c r1 r2 rot (k * Real.cos θ, k * Real.sin θ)).1 = c.1 + k * ((ellipsePoint c r1 r2 rot (-θ)).1 - c.1) ∧
    (img c r1 r2 rot (k * Real.cos θ, k * Real.sin θ)).2 = c.2 + k * ((ellipsePoint c r1 r2 rot (-θ)).2 - c.2) := by
  simp only [img, ellipsePoint, Real.cos_neg, Real.sin_neg]
  constructor <;> ring

theorem img_cubic (c : Pt) (r1 r2 rot : ℝ) (p1 p2 p3 p4 : Pt) (t : ℝ) :
    cubicAt (img c r1 r2 rot p1) (img c r1 r2 rot p2) (img c r1 r2 rot p3) (img c r1 r2 rot p4) t =
      img c r1 r2 rot (cubicAt p1 p2 p3 p4 t) := by
  simp only [img, cubicAt, Prod.mk.injEq]
  constructor <;> ring

theorem translate_flag (m : Mat) (x y : ℝ) : (translateSelf m x y 0).is2d = m.is2d := by
  unfold translateSelf
  split <;> simp

theorem scale_flag (m : Mat) (x : ℝ) (y : Option ℝ) : (scaleSelf m x y 1 0 0 0).is2d = m.is2d := by
  simp only [scaleSelf]
  split <;> simp

/-- The matrix of the code, with the sign of the second coordinate changed. -/
theorem arcMatrix_img (c : Pt) (r1 r2 rot x y : ℝ) :
    ((pair (transformPoint (arcMatrix c rot r1 r2) x y 0 1)).1, -(pair (transformPoint (arcMatrix c rot r1 r2) x y 0 1)).2) =
      img c r1 r2 rot (x, y) := by
  have h := transformPoint_spec (arcMatrix c rot r1 r2) ⟨x, y, 0, 1⟩
  have h2 : (arcMatrix c rot r1 r2).is2d = true := by
    rw [arcMatrix, scale_flag, rotate_flag, translate_flag]; rfl
  simp only [h2, and_self, if_true] at h
  rw [h, arcMatrix, scale_apply, rotate_apply, translate_apply, apply_new]
  have e : -rot * Real.pi / 180 = -(rot * Real.pi / 180) := by ring
  simp only [pair, scaleFrom, shift, rotX, rotY, rotZ, sinDeg, cosDeg, img, e, Real.cos_neg, Real.sin_neg, Option.getD_some, Prod.mk.injEq]
  constructor <;> simp <;> ring

/-! ### The pieces -/

/-- The drawing of Bezier curves that follow each other. -/
theorem draw_curves (P C D : Nat → Pt) (g : Nat → Seg ℝ) (m : Nat) :
    ∀ (k : Nat) (pen : Pen), pen.cur = P k →
    (∀ i, k ≤ i → i < k + m → g i = .curve false (C i).1 (C i).2 (D i).1 (D i).2 (P (i + 1)).1 (P (i + 1)).2) →
    pen.draw ((List.range' k m).map g) = (List.range' k m).map (fun i => .draw (cubicAt (P i) (C i) (D i) (P (i + 1)))) ∧
    (pen.run ((List.range' k m).map g)).cur = P (k + m) ∧ (pen.run ((List.range' k m).map g)).start = pen.start ∧
    (0 < m → (pen.run ((List.range' k m).map g)).moved = false) := by
  induction m with
  | zero => intro k pen h _; exact ⟨rfl, h, rfl, by simp⟩
  | succ m ih =>
    intro k pen h hg
    have hk := hg k le_rfl (by omega)
    obtain ⟨i1, i2, i3, i4⟩ := ih (k + 1) (pen.step (g k)).1 (by rw [hk]; simp [Pen.step, Pen.at])
      (fun i h1 h2 => hg i (by omega) (by omega))
    have e1 : (pen.step (g k)).1.start = pen.start := by rw [hk]; rfl
    have e2 : (pen.step (g k)).2 = [.draw (cubicAt (P k) (C k) (D k) (P (k + 1)))] := by rw [hk, ← h]; rfl
    have e3 : (pen.step (g k)).1.moved = false := by rw [hk]; rfl
    simp only [List.range'_succ, List.map_cons, Pen.draw, Pen.run]
    refine ⟨by rw [i1, e2]; rfl, by rw [i2]; congr 1; omega, by rw [i3, e1], fun _ => ?_⟩
    cases m with
    | zero => exact e3
    | succ m => exact i4 (by omega)

theorem joins_curves (P C D : Nat → Pt) (m : Nat) :
    ∀ k, Joins (P k) ((List.range' k m).map (fun i => cubicAt (P i) (C i) (D i) (P (i + 1)))) (P (k + m)) := by
  induction m with
  | zero => intro k; rfl
  | succ m ih =>
    intro k
    simp only [List.range'_succ, List.map_cons, Joins]
    refine ⟨by simp [cubicAt], ?_⟩
    have : cubicAt (P k) (C k) (D k) (P (k + 1)) 1 = P (k + 1) := by simp [cubicAt]
    rw [this]
    have := ih (k + 1)
    rwa [show k + 1 + m = k + (m + 1) by omega] at this

/-- The ends of an arc are the points of the ellipse at the angles the code computes. -/
def AtAngles (rx ry rot fa fs : ℝ) (p q : Pt) : Prop :=
  ∀ c d1 d2 e, (arcCentre rx ry rot fa fs p q).centre = some (c, d1, d2, e) →
    ellipsePoint c (arcCentre rx ry rot fa fs p q).rx (arcCentre rx ry rot fa fs p q).ry rot (-radians d1) = p ∧
    ellipsePoint c (arcCentre rx ry rot fa fs p q).rx (arcCentre rx ry rot fa fs p q).ry rot (-radians (d1 + e)) = q

theorem part_range (a inc θ i n : ℝ) (h : |θ - (a + i * inc + inc / 2)| ≤ |inc / 2|) (hi : 0 ≤ i) (hn : i + 1 ≤ n) :
    (inc < 0 → a + n * inc ≤ θ ∧ θ ≤ a) ∧ (0 < inc → a ≤ θ ∧ θ ≤ a + n * inc) := by
  constructor
  · intro hneg
    rw [abs_of_neg (show inc / 2 < 0 by linarith), abs_le] at h
    have h1 : i * inc ≤ 0 := mul_nonpos_of_nonneg_of_nonpos hi hneg.le
    have h2 : (n - i - 1) * inc ≤ 0 := mul_nonpos_of_nonneg_of_nonpos (by linarith) hneg.le
    constructor <;> linarith [h.1, h.2]
  · intro hpos
    rw [abs_of_pos (show 0 < inc / 2 by linarith), abs_le] at h
    have h1 : 0 ≤ i * inc := mul_nonneg hi hpos.le
    have h2 : 0 ≤ (n - i - 1) * inc := mul_nonneg (by linarith) hpos.le
    constructor <;> linarith [h.1, h.2]

theorem abs_radians (e : ℝ) : |radians e| = |e| * Real.pi / 180 := by
  rw [radians, abs_div, abs_mul, abs_of_pos Real.pi_pos, abs_of_pos (by norm_num : (0:ℝ) < 180)]

set_option maxHeartbeats 1000000 in
/-- The curves of an arc whose angles are right. -/
theorem arcCurves_near (rx ry rot fa fs : ℝ) (p q : Pt) (hn : (arcCentre rx ry rot fa fs p q).centre ≠ none)
    (ha : AtAngles rx ry rot fa fs p q) :
    ∃ n, arcCurves rx ry rot fa fs p q = .ok n ∧ n ≠ [] ∧ (∀ s ∈ n, ∃ x1 y1 x2 y2 x y, s = .curve false x1 y1 x2 y2 x y) ∧
      lastEnd n = .ok (someP q) ∧
      ∀ pen : Pen, pen.cur = p → ∃ c : List (ℝ → Pt), pen.draw n = c.map .draw ∧ Joins p c q ∧
        (∀ f ∈ c, ∀ t, 0 ≤ t → t ≤ 1 → NearArc 0.0003 p rx ry rot fa fs q (f t)) ∧
        (pen.run n).cur = q ∧ (pen.run n).start = pen.start ∧ (pen.run n).moved = false := by
  have pi := Real.pi_pos
  obtain ⟨⟨c, d1, d2, e⟩, hc⟩ := Option.ne_none_iff_exists'.1 hn
  obtain ⟨b1, b2⟩ := ha c d1 d2 e hc
  obtain ⟨-, -, a3, a4, a5, a6⟩ := arc_on_ellipse rx ry rot fa fs p q c d1 d2 e hc
  obtain ⟨-, -, -, f1, f2, f3, f4⟩ := arc_extent rx ry rot fa fs p q c d1 d2 e hc
  obtain ⟨-, -, hpq, -⟩ := arcCentre_some rx ry rot fa fs p q _ hc
  set r1 := (arcCentre rx ry rot fa fs p q).rx with hr1
  set r2 := (arcCentre rx ry rot fa fs p q).ry with hr2
  have he : e ≠ 0 := by
    by_cases h : fs = 0
    · exact (f2 h).1.ne'
    · exact (f1 h).2.ne
  set n := ⌈|e| / 90⌉₊ with hnd
  have hn0 : 0 < n := Nat.ceil_pos.2 (by positivity)
  have hnR : (0 : ℝ) < n := by exact_mod_cast hn0
  set inc := radians e / n with hinc
  set len := 4 / 3 * Real.sin (inc / 2) / (1 + Real.cos (inc / 2)) with hlen
  have hincb : |inc| ≤ Real.pi / 2 := by
    have h1 : |e| / 90 ≤ n := Nat.le_ceil _
    rw [hinc, radians, abs_div, abs_div, abs_mul, abs_of_pos hnR, abs_of_pos pi, abs_of_pos (by norm_num : (0:ℝ) < 180),
      div_le_iff₀ hnR]
    nlinarith
  let P : Nat → Pt := fun i => img c r1 r2 rot (Real.cos (radians d1 + i * inc), Real.sin (radians d1 + i * inc))
  let C : Nat → Pt := fun i => img c r1 r2 rot (Real.cos (radians d1 + i * inc) - len * Real.sin (radians d1 + i * inc),
    Real.sin (radians d1 + i * inc) + len * Real.cos (radians d1 + i * inc))
  let D : Nat → Pt := fun i => img c r1 r2 rot (Real.cos (radians d1 + i * inc + inc) + len * Real.sin (radians d1 + i * inc + inc),
    Real.sin (radians d1 + i * inc + inc) - len * Real.cos (radians d1 + i * inc + inc))
  have hP0 : P 0 = p := by
    simp only [P]
    rw [img_unit]
    simpa using b1
  have hPn : P n = q := by
    simp only [P]
    rw [img_unit, ← b2]
    congr 2
    rw [hinc]
    simp only [radians]
    field_simp
  have hP1 : ∀ i : Nat, P (i + 1) = img c r1 r2 rot (Real.cos (radians d1 + i * inc + inc), Real.sin (radians d1 + i * inc + inc)) := by
    intro i
    simp only [P]
    push_cast
    rw [show radians d1 + ((i : ℝ) + 1) * inc = radians d1 + i * inc + inc by ring]
  set g := arcPiece (arcMatrix c rot r1 r2) (radians d1) inc len n q with hg
  have hgi : ∀ i, g i = .curve false (C i).1 (C i).2 (D i).1 (D i).2 (P (i + 1)).1 (P (i + 1)).2 := by
    intro i
    have k1 := arcMatrix_img c r1 r2 rot (Real.cos (radians d1 + i * inc) - len * Real.sin (radians d1 + i * inc))
      (Real.sin (radians d1 + i * inc) + len * Real.cos (radians d1 + i * inc))
    have k2 := arcMatrix_img c r1 r2 rot (Real.cos (radians d1 + i * inc + inc) + len * Real.sin (radians d1 + i * inc + inc))
      (Real.sin (radians d1 + i * inc + inc) - len * Real.cos (radians d1 + i * inc + inc))
    have k3 := arcMatrix_img c r1 r2 rot (Real.cos (radians d1 + i * inc + inc)) (Real.sin (radians d1 + i * inc + inc))
    simp only [hg, arcPiece, C, D, ← k1, ← k2]
    split
    · rename_i h
      rw [show P (i + 1) = q by rw [h]; exact hPn]
      simp
    · rw [hP1, ← k3]
  have hcurves : arcCurves rx ry rot fa fs p q = .ok ((List.range' 0 n).map g) := by
    simp only [arcCurves, hc, ← List.range_eq_range']
    rw [if_neg hn0.ne']
  refine ⟨_, hcurves, ?_, ?_, ?_, ?_⟩
  · intro h
    have := congrArg List.length h
    simp at this
    omega
  · intro s hs
    obtain ⟨i, -, rfl⟩ := List.mem_map.1 hs
    exact ⟨_, _, _, _, _, _, hgi i⟩
  · obtain ⟨m, hm⟩ : ∃ m, n = m + 1 := ⟨n - 1, by omega⟩
    have e1 : ((List.range' 0 n).map g).getLast? = some (g m) := by
      rw [hm, ← List.range_eq_range', List.range_succ, List.map_append]
      simp
    simp only [lastEnd, e1, hgi, endPt]
    rw [← hm, hPn]; rfl
  · intro pen hpen
    obtain ⟨i1, i2, i3, i4⟩ := draw_curves P C D g n 0 pen (by rw [hpen, hP0]) (fun i _ _ => hgi i)
    refine ⟨(List.range' 0 n).map (fun i => cubicAt (P i) (C i) (D i) (P (i + 1))), ?_, ?_, ?_, ?_, i3, i4 hn0⟩
    · rw [i1, List.map_map]; rfl
    · have := joins_curves P C D n 0
      rwa [Nat.zero_add, hP0, hPn] at this
    · intro f hf t h0 h1
      obtain ⟨i, hi, rfl⟩ := List.mem_map.1 hf
      have hin : i < n := by
        rw [List.mem_range'_1] at hi; omega
      obtain ⟨θ, k, t1, t2, t3, t4⟩ := unit_curve (radians d1 + i * inc) inc t hincb h0 h1
      have ez : cubicAt (P i) (C i) (D i) (P (i + 1)) t = img c r1 r2 rot (k * Real.cos θ, k * Real.sin θ) := by
        rw [hP1]
        simp only [P, C, D, img_cubic]
        rw [t4]
      obtain ⟨z1, z2⟩ := img_scaled c r1 r2 rot θ k
      rw [← ez] at z1 z2
      have eR : radians e = n * inc := by rw [hinc]; field_simp
      have eS : radians (d1 + e) = radians d1 + n * inc := by rw [← eR]; simp only [radians]; ring
      have hiR : (i : ℝ) + 1 ≤ n := by exact_mod_cast hin
      have hi0 : (0 : ℝ) ≤ i := Nat.cast_nonneg i
      have er : radians e = e * Real.pi / 180 := rfl
      refine ⟨hpq, c, r1, r2, -radians d1, -radians (d1 + e), -θ, k, a3, a4, a5, fun h => ?_, b1, b2, z1, z2, ?_, ?_, ?_, ?_, ?_⟩
      · obtain ⟨k, h1, h2, h3, -⟩ := a6 h
        exact ⟨k, h1, h2, h3⟩
      · rw [abs_le]; constructor <;> norm_num at t3 ⊢ <;> linarith
      · intro h
        obtain ⟨g1, g2⟩ := f1 h
        have hr : radians e < 0 ∧ -(2 * Real.pi) < radians e := by rw [er]; constructor <;> nlinarith
        have hneg : inc < 0 := div_neg_of_neg_of_pos hr.1 hnR
        obtain ⟨g3, g4⟩ := (part_range _ _ _ _ _ t1 hi0 hiR).1 hneg
        rw [eS, ← eR]
        rw [← eR] at g3
        refine ⟨by linarith, by linarith, by linarith, by linarith⟩
      · intro h
        obtain ⟨g1, g2⟩ := f2 h
        have hr : 0 < radians e ∧ radians e < 2 * Real.pi := by rw [er]; constructor <;> nlinarith
        have hpos : 0 < inc := div_pos hr.1 hnR
        obtain ⟨g3, g4⟩ := (part_range _ _ _ _ _ t1 hi0 hiR).2 hpos
        rw [eS, ← eR]
        rw [← eR] at g4
        refine ⟨by linarith, by linarith, by linarith, by linarith⟩
      · intro h
        rw [eS, ← eR, show -(radians d1 + radians e) - -radians d1 = -radians e by ring, abs_neg, abs_radians]
        have := mul_le_mul_of_nonneg_right (f3 h) pi.le
        linarith
      · intro h
        rw [eS, ← eR, show -(radians d1 + radians e) - -radians d1 = -radians e by ring, abs_neg, abs_radians]
        have := mul_le_mul_of_nonneg_right (f4 h) pi.le
        linarith
    · rw [i2, Nat.zero_add, hPn]

/-! ### Arcs whose angles are right -/

theorem seen_circle (c p : Pt) (r rot δ : ℝ) (hr : 0 < r) (ho : OnEllipse c r r rot p) (hs : SeenAt c p (rot - δ)) :
    ellipsePoint c r r rot (-radians δ) = p := by
  obtain ⟨k, hk, h1, h2⟩ := hs
  have e : (rot - δ) * Real.pi / 180 = rot * Real.pi / 180 - radians δ := by simp only [radians]; ring
  rw [e] at h1 h2
  simp only [OnEllipse] at ho
  have hcs := Real.cos_sq_add_sin_sq (rot * Real.pi / 180)
  have hkr : k = r := by
    have hcs' := Real.cos_sq_add_sin_sq (rot * Real.pi / 180 - radians δ)
    have e2 : k ^ 2 = r ^ 2 := by
      rw [h1, h2] at ho
      clear h1 h2
      generalize Real.cos (rot * Real.pi / 180 - radians δ) = C at hcs' ho
      generalize Real.sin (rot * Real.pi / 180 - radians δ) = S at hcs' ho
      field_simp at ho
      rw [← ho]
      linear_combination (-k ^ 2 * (C ^ 2 + S ^ 2)) * hcs - k ^ 2 * hcs'
    exact (pow_left_inj₀ hk.le hr.le two_ne_zero).1 e2
  rw [hkr, Real.cos_sub] at h1
  rw [hkr, Real.sin_sub] at h2
  apply Prod.ext
  · rw [h1]; simp only [ellipsePoint, Real.cos_neg, Real.sin_neg]; ring
  · rw [h2]; simp only [ellipsePoint, Real.cos_neg, Real.sin_neg]; ring

theorem seen_axis (c p : Pt) (r1 r2 δ : ℝ) (hr1 : 0 < r1) (hr2 : 0 < r2) (ho : OnEllipse c r1 r2 0 p) (hs : SeenAt c p (0 - δ))
    (ha : p.1 = c.1 ∨ p.2 = c.2) : ellipsePoint c r1 r2 0 (-radians δ) = p := by
  obtain ⟨k, hk, h1, h2⟩ := hs
  have e : (0 - δ) * Real.pi / 180 = -radians δ := by simp only [radians]; ring
  rw [e] at h1 h2
  have hcs := Real.cos_sq_add_sin_sq (-radians δ)
  simp only [OnEllipse, zero_mul, zero_div, Real.cos_zero, Real.sin_zero, mul_one, mul_zero, add_zero, sub_zero] at ho
  rw [Shapes.ellipsePoint_flat]
  generalize Real.cos (-radians δ) = C at *
  generalize Real.sin (-radians δ) = S at *
  rcases ha with ha | ha
  · have hC : C = 0 := by
      have : k * C = 0 := by linarith
      exact (mul_eq_zero.1 this).resolve_left hk.ne'
    have hkr : k = r2 := by
      apply (pow_left_inj₀ hk.le hr2.le two_ne_zero).1
      rw [h1, h2, hC] at ho
      rw [hC] at hcs
      rw [show c.1 + k * 0 - c.1 = 0 by ring, zero_div, show c.2 + k * S - c.2 = k * S by ring, div_pow, mul_pow] at ho
      field_simp at ho
      linear_combination ho - k ^ 2 * hcs
    apply Prod.ext
    · simp [hC, ha]
    · rw [h2, hkr]
  · have hS : S = 0 := by
      have : k * S = 0 := by linarith
      exact (mul_eq_zero.1 this).resolve_left hk.ne'
    have hkr : k = r1 := by
      apply (pow_left_inj₀ hk.le hr1.le two_ne_zero).1
      rw [h1, h2, hS] at ho
      rw [hS] at hcs
      rw [show c.2 + k * 0 - c.2 = 0 by ring, zero_div, show c.1 + k * C - c.1 = k * C by ring, div_pow, mul_pow] at ho
      field_simp at ho
      linear_combination ho - k ^ 2 * hcs
    apply Prod.ext
    · rw [h1, hkr]
    · simp [hS, ha]

theorem quarter_axes (P M Q N : ℝ) (h1 : P ^ 2 + M ^ 2 = 1) (h2 : Q ^ 2 + N ^ 2 = 1) (h3 : (P - Q) ^ 2 = 1) (h4 : (M - N) ^ 2 = 1) :
    P * M = 0 ∧ Q * N = 0 := by
  have a : (P - Q) * P + (M - N) * M = 1 := by linear_combination (h1 - h2 + h3 + h4) / 2
  have b : (P - Q) * Q + (M - N) * N = -1 := by linear_combination (h1 - h2 - h3 - h4) / 2
  have c : 2 * ((P - Q) * (M - N)) * (P * M) = 0 := by
    linear_combination ((P - Q) * P + (M - N) * M + 1) * a - P ^ 2 * h3 - M ^ 2 * h4 - h1
  have d : 2 * ((P - Q) * (M - N)) * (Q * N) = 0 := by
    linear_combination ((P - Q) * Q + (M - N) * N - 1) * b - Q ^ 2 * h3 - N ^ 2 * h4 - h2
  have n : 2 * ((P - Q) * (M - N)) ≠ 0 := by
    intro h
    have : (2 * ((P - Q) * (M - N))) ^ 2 = 4 := by rw [mul_pow, mul_pow, h3, h4]; norm_num
    rw [h] at this; norm_num at this
  exact ⟨(mul_eq_zero.1 c).resolve_left n, (mul_eq_zero.1 d).resolve_left n⟩

theorem half_axis (P Q N : ℝ) (h1 : P ^ 2 + N ^ 2 = 1) (h2 : Q ^ 2 + N ^ 2 = 1) (h3 : (P - Q) ^ 2 = 4) : N = 0 := by
  have : (P + Q) ^ 2 + 4 * N ^ 2 = 0 := by linear_combination 2 * h1 + 2 * h2 - h3
  nlinarith [sq_nonneg (P + Q), sq_nonneg N]

/-- The angles are right for arcs of circles, and quarters and halves of ellipses. -/
theorem regular_angles (rx ry rot fa fs : ℝ) (p q : Pt) (h : Regular (.arc p rx ry rot fa fs q)) :
    AtAngles rx ry rot fa fs p q := by
  intro c d1 d2 e hc
  obtain ⟨hx, hy, -, h⟩ := h
  have hx0 : 0 < |rx| := lt_trans (by norm_num) hx
  have hy0 : 0 < |ry| := lt_trans (by norm_num) hy
  obtain ⟨a1, a2, a3, a4, a5, a6⟩ := arc_on_ellipse rx ry rot fa fs p q c d1 d2 e hc
  obtain ⟨f1, -, f3, -⟩ := arc_extent rx ry rot fa fs p q c d1 d2 e hc
  rw [sub_sub] at f3
  generalize (arcCentre rx ry rot fa fs p q).rx = r1 at *
  generalize (arcCentre rx ry rot fa fs p q).ry = r2 at *
  rcases h with h | ⟨rfl, h⟩
  · have : r1 = r2 := by
      by_cases hl : LargeEnough |rx| |ry| rot p q
      · rw [(a5 hl).1, (a5 hl).2, h]
      · obtain ⟨k, -, h1, h2, -⟩ := a6 hl
        rw [h1, h2, h]
    subst this
    exact ⟨seen_circle c p r1 rot d1 a3 a1 f1, seen_circle c q r1 rot (d1 + e) a3 a2 f3⟩
  · have hL : LargeEnough |rx| |ry| 0 p q ↔ ((p.1 - q.1) / 2 / |rx|) ^ 2 + ((p.2 - q.2) / 2 / |ry|) ^ 2 ≤ 1 := by
      simp [LargeEnough]
    have hE : ∀ z, OnEllipse c r1 r2 0 z → ((z.1 - c.1) / r1) ^ 2 + ((z.2 - c.2) / r2) ^ 2 = 1 := by
      intro z hz
      simpa [OnEllipse] using hz
    have ep := hE p a1
    have eq := hE q a2
    suffices hax : (p.1 = c.1 ∨ p.2 = c.2) ∧ (q.1 = c.1 ∨ q.2 = c.2) from
      ⟨seen_axis c p r1 r2 d1 a3 a4 a1 f1 hax.1, seen_axis c q r1 r2 (d1 + e) a3 a4 a2 f3 hax.2⟩
    have zero : ∀ a b r : ℝ, 0 < r → (a - b) / r = 0 → a = b := by
      intro a b r hr h
      rcases div_eq_zero_iff.1 h with h | h
      · linarith
      · exact absurd h hr.ne'
    rcases h with ⟨h1, h2⟩ | ⟨h1, h2⟩ | ⟨h1, h2⟩
    · have s1 : (p.1 - q.1) ^ 2 = |rx| ^ 2 := by rw [← h1, sq_abs]
      have s2 : (p.2 - q.2) ^ 2 = |ry| ^ 2 := by rw [← h2, sq_abs]
      have hl : LargeEnough |rx| |ry| 0 p q := by
        rw [hL, div_pow, div_pow, div_pow, div_pow, s1, s2]
        field_simp
        norm_num
      obtain ⟨rfl, rfl⟩ := a5 hl
      have k := quarter_axes _ _ _ _ ep eq
        (by rw [← sub_div, div_pow, show p.1 - c.1 - (q.1 - c.1) = p.1 - q.1 by ring, s1]; exact div_self (by positivity))
        (by rw [← sub_div, div_pow, show p.2 - c.2 - (q.2 - c.2) = p.2 - q.2 by ring, s2]; exact div_self (by positivity))
      exact ⟨(mul_eq_zero.1 k.1).imp (zero _ _ _ a3) (zero _ _ _ a4), (mul_eq_zero.1 k.2).imp (zero _ _ _ a3) (zero _ _ _ a4)⟩
    · by_cases hl : LargeEnough |rx| |ry| 0 p q
      · obtain ⟨rfl, rfl⟩ := a5 hl
        rw [hL, h1, sub_self, zero_div, zero_div, div_pow, div_pow, ← sq_abs (p.1 - q.1)] at hl
        have s1 : (p.1 - q.1) ^ 2 = 4 * |rx| ^ 2 := by
          rw [← sq_abs (p.1 - q.1)]
          apply le_antisymm
          · have : |p.1 - q.1| ^ 2 / 2 ^ 2 / |rx| ^ 2 ≤ 1 := by linarith
            rw [div_le_one (by positivity)] at this
            linarith
          · nlinarith
        rw [h1] at ep
        have k := half_axis _ _ _ ep eq
          (by rw [← sub_div, div_pow, show p.1 - c.1 - (q.1 - c.1) = p.1 - q.1 by ring, s1]; field_simp)
        have := zero _ _ _ a4 k
        exact ⟨.inr (by rw [h1, this]), .inr this⟩
      · obtain ⟨-, -, -, -, -, h4⟩ := a6 hl
        exact ⟨.inr (by linarith), .inr (by linarith)⟩
    · by_cases hl : LargeEnough |rx| |ry| 0 p q
      · obtain ⟨rfl, rfl⟩ := a5 hl
        rw [hL, h1, sub_self, zero_div, zero_div, div_pow (a := (p.2 - q.2) / 2), div_pow (a := p.2 - q.2), ← sq_abs (p.2 - q.2)] at hl
        have s1 : (p.2 - q.2) ^ 2 = 4 * |ry| ^ 2 := by
          rw [← sq_abs (p.2 - q.2)]
          apply le_antisymm
          · have : |p.2 - q.2| ^ 2 / 2 ^ 2 / |ry| ^ 2 ≤ 1 := by linarith
            rw [div_le_one (by positivity)] at this
            linarith
          · nlinarith
        rw [h1, add_comm] at ep
        rw [add_comm] at eq
        have k := half_axis _ _ _ ep eq
          (by rw [← sub_div, div_pow, show p.2 - c.2 - (q.2 - c.2) = p.2 - q.2 by ring, s1]; field_simp)
        have := zero _ _ _ a3 k
        exact ⟨.inl (by rw [h1, this]), .inl this⟩
      · obtain ⟨-, -, -, -, h4, -⟩ := a6 hl
        exact ⟨.inl (by linarith), .inl (by linarith)⟩

/-! ### Whole paths -/

theorem Follows.refl (ε : ℝ) (l : List Piece) : Follows ε l l := by
  induction l with
  | nil => exact .nil
  | cons a l ih => exact .same a l l ih

theorem Follows.append {ε : ℝ} {l m l' m' : List Piece} (h : Follows ε l m) (h' : Follows ε l' m') : Follows ε (l ++ l') (m ++ m') := by
  induction h with
  | nil => exact h'
  | same a l m _ ih => exact .same a _ _ ih
  | arc p rx ry rot fa fs q c l m h1 h2 _ ih =>
    rw [List.append_assoc]
    exact .arc p rx ry rot fa fs q c _ _ h1 h2 ih

theorem regular_some (rx ry rot fa fs : ℝ) (p q : Pt) (h : Regular (.arc p rx ry rot fa fs q)) :
    (arcCentre rx ry rot fa fs p q).centre ≠ none := by
  obtain ⟨hx, hy, hap, -⟩ := h
  have hfar : ∀ a b : ℝ, Apart a b → ¬ (Length.isclose a b = true) := by
    rintro a b ⟨h1, h2⟩
    simp only [Length.isclose, decide_eq_true_eq, not_le, max_lt_iff]
    exact ⟨h2, h1⟩
  rw [Ne, arcCentre_none_iff]
  rintro ((h | h) | ⟨h, h'⟩)
  · exact absurd hx (not_lt.2 h)
  · exact absurd hy (not_lt.2 h)
  · rcases hap with k | k
    · exact hfar _ _ k h
    · exact hfar _ _ k h'

theorem step_arc (st : State) (pen out : Pen) (prev : Prev) (b : Bool) (s : Seg ℝ) (h : Inv st pen out prev b)
    (ha : Ordered prev b s) (hk : s.kind ≠ .B) (hr : ∀ a ∈ (pen.step s).2, Regular a) :
    ∃ n st', normalizeStep st s = .ok (n, st') ∧ Follows 0.0003 (pen.step s).2 (out.draw n) ∧ (∀ t ∈ n, Base t) ∧
      Inv st' (pen.step s).1 (out.run n) (prev.next s) false := by
  have old : Allowed prev b s → ∃ n st', normalizeStep st s = .ok (n, st') ∧ Follows 0.0003 (pen.step s).2 (out.draw n) ∧
      (∀ t ∈ n, Base t) ∧ Inv st' (pen.step s).1 (out.run n) (prev.next s) false := by
    intro ha
    obtain ⟨n, st', e1, e2, e3, e4⟩ := step_inv st pen out prev b s h ha hk
    exact ⟨n, st', e1, by rw [e2]; exact .refl _ _, e3, e4⟩
  cases s with
  | arc r rx ry rot fa fs x y =>
    by_cases hz : rx = 0 ∨ ry = 0
    · exact old hz
    · clear old
      have est : pen.step (.arc r rx ry rot fa fs x y) = ({ pen with cur := pen.at r x y, ctrl := .free, moved := false },
          [.arc pen.cur rx ry (if r then rot + pen.bearing else rot) fa fs (pen.at r x y)]) := by
        simp only [Pen.step, if_neg hz]
      rw [est] at hr ⊢
      have hreg := hr _ (List.mem_singleton.2 rfl)
      obtain ⟨n, e1, e2, e3, e4, e5⟩ := arcCurves_near _ _ _ _ _ _ _ (regular_some _ _ _ _ _ _ _ hreg) (regular_angles _ _ _ _ _ _ _ hreg)
      obtain ⟨c, g1, g2, g3, g4, g5, g6⟩ := e5 out h.cur'
      obtain ⟨start, cp, q, bearing, last⟩ := st
      obtain ⟨h1, h2, h3, h4, h5, h6, h7, h8, h9⟩ := h
      simp only at h1 h2 h3 h4 h5
      subst h1 h2 h3
      have hm' := moveBy_eq pen
      have en : normalizeSeg (someP pen.cur) pen.bearing q (.arc r rx ry rot fa fs x y) = .ok n := by
        rw [← e1]
        have hz' : orZero (some pen.cur.1, some pen.cur.2) = pen.cur := rfl
        have hf : pen.at false x y = (x, y) := rfl
        by_cases hb : pen.bearing = 0
        · cases r <;> simp [normalizeSeg, Seg.kind, Seg.rel, toAbs, hm', hz', normalizeAbs, someP, hf, hb] at hm' ⊢ <;> rw [hm']
        · cases r <;> simp [normalizeSeg, Seg.kind, Seg.rel, toAbs, hm', hz', normalizeAbs, someP, hf, hb]
      refine ⟨n, ⟨someP pen.start, someP (pen.at r x y), someP (pen.at r x y), pen.bearing, some .A⟩, ?_, ?_, ?_, ?_⟩
      · simp only [normalizeStep, en, Seg.kind, e4]
        simp [movePoints, known, someP]
      · rw [g1, ← List.append_nil (c.map _)]
        exact .arc _ _ _ _ _ _ _ _ _ _ g2 g3 .nil
      · intro t ht
        obtain ⟨_, _, _, _, _, _, rfl⟩ := e3 t ht
        trivial
      · refine ⟨rfl, rfl, rfl, g4, g5.trans h5, fun _ => ⟨by simp, g6⟩, fun _ _ => ⟨rfl, rfl, by simp, by simp⟩, ?_, ?_⟩ <;>
          intro _ k <;> cases k
  | move r x y => exact old ha
  | smooth r x2 y2 x y => exact old ha
  | tsmooth r x y => exact old ha
  | _ => exact old trivial

theorem from_arcs (st : State) (pen out : Pen) (prev : Prev) (b : Bool) (l : List (Seg ℝ))
    (h : Inv st pen out prev b) (ha : AllOrdered prev b l) (hr : ∀ a ∈ pen.draw l, Regular a) :
    ∃ n, normalizeFrom st l = .ok n ∧ Follows 0.0003 (pen.draw l) (out.draw n) ∧ ∀ t ∈ n, Base t := by
  induction l generalizing st pen out prev b with
  | nil => exact ⟨[], rfl, .nil, by simp⟩
  | cons s l ih =>
    obtain ⟨h1, h2⟩ := ha
    by_cases hk : s.kind = .B
    · obtain ⟨r, a, rfl⟩ : ∃ r a, s = .bearing r a := by
        cases s <;> simp [Seg.kind] at hk
        exact ⟨_, _, rfl⟩
      have hi : Inv { st with bearing := getBearing st.bearing (.bearing r a), last := some .B }
          (pen.step (.bearing r a)).1 out (prev.next (.bearing r a)) true := by
        refine ⟨h.cp, h.start, ?_, h.cur', h.start', by simp, by simp, by simp, by simp⟩
        cases r <;> simp [getBearing, Pen.step, h.bearing]
      obtain ⟨n, e1, e2, e3⟩ := ih _ _ _ _ _ hi (by simpa [Seg.kind] using h2) hr
      refine ⟨n, ?_, e2, e3⟩
      simp only [normalizeFrom, Seg.kind, if_true]; exact e1
    · rw [Pen.draw] at hr
      obtain ⟨n, st', e1, e2, e3, e4⟩ := step_arc st pen out prev b s h h1 hk (fun a ha => hr a (List.mem_append_left _ ha))
      obtain ⟨m, e5, e6, e7⟩ := ih _ _ _ _ _ e4 (by simpa [hk] using h2) (fun a ha => hr a (List.mem_append_right _ ha))
      refine ⟨n ++ m, ?_, ?_, ?_⟩
      · simp only [normalizeFrom, hk, if_false, e1, e5]
      · rw [draw_append]; exact e2.append e6
      · intro t ht
        rcases List.mem_append.mp ht with ht | ht
        · exact e3 t ht
        · exact e7 t ht

/-- **C83** Path data that starts with a moveto, with segments in the orders described by
`Ordered` and arcs of circles, or quarters and halves of unrotated ellipses, is normalised to
absolute M, L, C and Z which draw the same, except that each arc is replaced by curves that join
its ends, run in its directions and are off by at most 0.03% of the distance from its centre.
Missing: other arcs of ellipses, for which this fails (`ellipse_violated`). -/
theorem normalize_arcs_partial (r : Bool) (x y : ℝ) (l : List (Seg ℝ)) (h : AllOrdered .line false l)
    (hr : ∀ a ∈ Pen.new.draw (.move r x y :: l), Regular a) :
    ∃ n, PathGeom.normalize (.move r x y :: l) = .ok n ∧ Follows 0.0003 (Pen.new.draw (.move r x y :: l)) (Pen.new.draw n) ∧
      ∀ t ∈ n, Base t := by
  have e : toAbs (none, none) 0 (.move r x y) = .move false x y := by
    cases r <;> simp [toAbs, moveBy, turn, orZero]
  have e0 : normalizeStep {} (.move r x y) =
      .ok ([.move false x y], ⟨someP (x, y), someP (x, y), someP (x, y), 0, some .M⟩) := by
    cases r <;> simp [normalizeStep, normalizeSeg, Seg.kind, Seg.rel, e, normalizeAbs, lastEnd, endPt, movePoints, someP]
  have ep : Pen.new.step (.move r x y) = Pen.new.step (.move false x y) := by
    cases r <;> simp [Pen.step, Pen.new, Pen.at]
  have hi : Inv ⟨someP (x, y), someP (x, y), someP (x, y), 0, some .M⟩ (Pen.new.step (.move r x y)).1
      (Pen.new.step (.move false x y)).1 .line false := by
    rw [ep]
    refine ⟨rfl, rfl, rfl, rfl, rfl, fun _ => ⟨?_, rfl⟩, fun _ _ => ⟨rfl, rfl, by simp, by simp⟩, by simp, by simp⟩
    simp [Pen.step, Pen.new]
  obtain ⟨n, h1, h2, h3⟩ := from_arcs _ _ _ _ _ l hi h (fun a ha => hr a (List.mem_append_right _ ha))
  refine ⟨.move false x y :: n, ?_, ?_, ?_⟩
  · simp only [PathGeom.normalize, normalizeFrom, Seg.kind, reduceCtorEq, if_false, e0, h1]; rfl
  · simp only [Pen.draw]
    rw [ep] at h2 ⊢
    exact (Follows.refl _ _).append h2
  · intro t ht
    rcases List.mem_cons.mp ht with rfl | ht
    · trivial
    · exact h3 t ht

/-! ### Shapes -/

theorem quarter_regular (p q : Pt) (rx ry fa fs : ℝ) (hx : |p.1 - q.1| = |rx|) (hy : |p.2 - q.2| = |ry|)
    (hc : ClearArc (.arc p rx ry 0 fa fs q)) : Regular (.arc p rx ry 0 fa fs q) := by
  obtain ⟨h1, h2, h3⟩ := hc
  refine ⟨h1, h2, h3.resolve_left ?_, .inr ⟨rfl, .inl ⟨hx, hy⟩⟩⟩
  rintro rfl
  rw [sub_self, abs_zero] at hx
  rw [← hx] at h1
  norm_num at h1

/-- **C83** for circles and ellipses: the normalised path data follows the path data that draws
the ellipse (C80). -/
theorem round_normalized (g : Shapes.Round) (hx : 0 < g.rx) (hy : 0 < g.ry)
    (hc : ∀ a ∈ Pen.new.draw (Shapes.roundData g), ClearArc a) :
    ∃ n, PathGeom.normalize (Shapes.roundData g) = .ok n ∧
      Follows 0.0003 (Pen.new.draw (Shapes.roundData g)) (Pen.new.draw n) ∧ ∀ t ∈ n, Base t := by
  have h : ¬ (g.rx ≤ 0 ∨ g.ry ≤ 0) := by rintro (h | h) <;> linarith
  have e := Shapes.round_pieces g hx hy
  rw [e] at hc ⊢
  simp only [List.forall_mem_cons] at hc
  obtain ⟨-, c1, c2, c3, c4, -⟩ := hc
  have hr : ∀ a ∈ Pen.new.draw (Shapes.roundData g), Regular a := by
    rw [e]
    simp only [List.forall_mem_cons]
    refine ⟨trivial, quarter_regular _ _ _ _ _ _ ?_ ?_ c1, quarter_regular _ _ _ _ _ _ ?_ ?_ c2, quarter_regular _ _ _ _ _ _ ?_ ?_ c3,
      quarter_regular _ _ _ _ _ _ ?_ ?_ c4, trivial, by simp⟩ <;> simp
  rw [← e]
  rw [Shapes.roundData, if_neg h] at hr ⊢
  apply normalize_arcs_partial
  · simp [AllOrdered, Ordered]
  · exact hr

/-- **C83** for rectangles, with or without round corners. -/
theorem rect_normalized (g : Shapes.Box) (hw : 0 < g.w) (hh : 0 < g.h) (hx : g.rx ≤ g.w / 2) (hy : g.ry ≤ g.h / 2)
    (hc : ∀ a ∈ Pen.new.draw (Shapes.rectData g), ClearArc a) :
    ∃ n, PathGeom.normalize (Shapes.rectData g) = .ok n ∧
      Follows 0.0003 (Pen.new.draw (Shapes.rectData g)) (Pen.new.draw n) ∧ ∀ t ∈ n, Base t := by
  have h : ¬ (g.w ≤ 0 ∨ g.h ≤ 0) := by rintro (h | h) <;> linarith
  by_cases h' : g.rx ≤ 0 ∨ g.ry ≤ 0
  · rw [Shapes.rectData, if_neg h, if_pos h']
    apply normalize_arcs_partial
    · simp [AllOrdered, Ordered]
    · intro a ha
      simp only [Pen.draw, Pen.step, Pen.new, Pen.at, Pen.lineTo, List.mem_append, List.mem_singleton, List.not_mem_nil, or_false,
        Bool.false_eq_true, if_false] at ha
      rcases ha with rfl | rfl | rfl | rfl | rfl | rfl <;> trivial
  · have h0 : 0 < g.rx ∧ 0 < g.ry := by
      rw [not_or, not_le, not_le] at h'; exact h'
    have e := Shapes.rounded_pieces g h0.1 h0.2 hx hy
    rw [e] at hc
    simp only [List.forall_mem_cons] at hc
    obtain ⟨-, -, c1, -, c2, -, c3, -, c4, -⟩ := hc
    have hr : ∀ a ∈ Pen.new.draw (Shapes.rectData g), Regular a := by
      rw [e]
      simp only [List.forall_mem_cons]
      refine ⟨trivial, trivial, quarter_regular _ _ _ _ _ _ ?_ ?_ c1, trivial, quarter_regular _ _ _ _ _ _ ?_ ?_ c2, trivial,
        quarter_regular _ _ _ _ _ _ ?_ ?_ c3, trivial, quarter_regular _ _ _ _ _ _ ?_ ?_ c4, trivial, by simp⟩ <;>
        dsimp only <;> ring_nf <;> simp
    rw [Shapes.rectData, if_neg h, if_neg h'] at hr ⊢
    apply normalize_arcs_partial
    · simp [AllOrdered, Ordered]
    · exact hr

/-- A circle of radius 5 around (10, 20) meets the hypotheses. -/
example : ∀ a ∈ Pen.new.draw (Shapes.roundData ⟨10, 20, 5, 5⟩), ClearArc a := by
  rw [Shapes.round_pieces _ (by norm_num) (by norm_num)]
  simp only [List.forall_mem_cons]
  refine ⟨trivial, ⟨by norm_num, by norm_num, .inr (.inl ?_)⟩, ⟨by norm_num, by norm_num, .inr (.inl ?_)⟩,
    ⟨by norm_num, by norm_num, .inr (.inl ?_)⟩, ⟨by norm_num, by norm_num, .inr (.inl ?_)⟩, trivial, by simp⟩ <;>
    constructor <;> norm_num [abs_of_pos, abs_of_neg]

/-- A path with a smooth curve and an arc of a circle meets the hypotheses of
`normalize_arcs_partial`. -/
example : AllOrdered .line false [.arc true 5 5 30 1 0 3 4, .smooth true 1 1 2 2] ∧
    ∀ a ∈ Pen.new.draw (.move false 0 0 :: [.arc true 5 5 30 1 0 3 4, .smooth true 1 1 2 2]), Regular a := by
  constructor
  · simp [AllOrdered, Ordered, Prev.next, Seg.kind]
  · simp only [Pen.draw, Pen.step, Pen.new, Pen.at, List.append_nil, List.cons_append, List.nil_append, Bool.false_eq_true, if_false, if_true]
    rw [if_neg (by norm_num)]
    simp only [List.cons_append, List.nil_append, List.forall_mem_cons]
    refine ⟨trivial, ⟨by norm_num, by norm_num, .inl ?_, .inl rfl⟩, trivial, by simp⟩
    simp only [zero_mul, zero_div, Real.cos_zero, Real.sin_zero]
    constructor <;> norm_num

/-! ### Other arcs of ellipses -/

theorem arg_twelve : Matrix.atan2 12 12 = Real.pi / 4 ∧ Matrix.atan2 (-12) 12 = -(Real.pi / 4) := by
  have pi := Real.pi_pos
  have h2 : (0 : ℝ) < 12 * √2 := by positivity
  have h3 : (√2) * √2 = 2 := Real.mul_self_sqrt (by norm_num)
  constructor
  · have := Complex.arg_mul_cos_add_sin_mul_I h2 (θ := Real.pi / 4) ⟨by linarith, by linarith⟩
    rw [← Complex.ofReal_cos, ← Complex.ofReal_sin, Real.cos_pi_div_four, Real.sin_pi_div_four] at this
    rw [← this, atan2]
    congr 1
    apply Complex.ext <;>
      simp only [Complex.mul_re, Complex.mul_im, Complex.add_re, Complex.add_im, Complex.ofReal_re, Complex.ofReal_im, Complex.I_re,
        Complex.I_im] <;> linear_combination -6 * h3
  · have := Complex.arg_mul_cos_add_sin_mul_I h2 (θ := -(Real.pi / 4)) ⟨by linarith, by linarith⟩
    rw [← Complex.ofReal_cos, ← Complex.ofReal_sin, Real.cos_neg, Real.sin_neg, Real.cos_pi_div_four, Real.sin_pi_div_four] at this
    rw [← this, atan2]
    congr 1
    apply Complex.ext <;>
      simp only [Complex.mul_re, Complex.mul_im, Complex.add_re, Complex.add_im, Complex.ofReal_re, Complex.ofReal_im, Complex.I_re,
        Complex.I_im]
    · linear_combination -6 * h3
    · linear_combination 6 * h3

theorem sample_centre : arcCentre 20 15 0 0 1 (12, -12) (12, 12) = ⟨some ((0, 0), 45, 315, -90), 20, 15⟩ := by
  have pi := Real.pi_pos
  have hr : ∀ r : ℝ, 1 < r → radius r = r := by
    intro r hr
    have hc : ¬ (Length.isclose |r| 0 = true) := by
      simp only [Length.isclose, sub_zero, abs_abs, abs_zero, decide_eq_true_eq, not_le]
      rw [abs_of_pos (by linarith), max_lt_iff, max_eq_left (by linarith)]
      norm_num
      constructor <;> linarith
    rw [radius, if_neg hc, abs_of_pos (by linarith)]
  have hc : ¬ (Length.isclose (12:ℝ) 12 = true ∧ Length.isclose (-12:ℝ) 12 = true) := by
    rintro ⟨-, h⟩
    simp only [Length.isclose, decide_eq_true_eq] at h
    norm_num at h
  have hg1 : getAngle (-12) 12 = 45 := by
    unfold PathGeom.getAngle
    rw [arg_twelve.2]
    norm_num [degrees]
    field_simp
    norm_num
  have hg2 : getAngle 12 12 = 315 := by
    unfold PathGeom.getAngle
    rw [arg_twelve.1]
    norm_num [degrees]
    field_simp
    norm_num
  have hs : √(max ((20 ^ 2 * 15 ^ 2 - 20 ^ 2 * (-12) ^ 2 - 15 ^ 2 * 0 ^ 2) / (20 ^ 2 * (-12) ^ 2 + 15 ^ 2 * 0 ^ 2) : ℝ) 0) = 3 / 4 := by
    rw [max_eq_left (by norm_num), Real.sqrt_eq_iff_eq_sq (by norm_num) (by norm_num)]
    norm_num
  rw [arcCentre, hr 20 (by norm_num), hr 15 (by norm_num), if_neg (by norm_num), if_neg hc]
  simp only [centreOf, radians, zero_mul, zero_div, Real.cos_zero, Real.sin_zero]
  have e1 : (1 * ((12 - 12) / 2) + 0 : ℝ) = 0 := by norm_num
  have e2 : (-0 * ((12 - 12) / 2) + 1 * ((-12 - 12) / 2) : ℝ) = -12 := by norm_num
  rw [e1, e2]
  rw [if_neg (by norm_num : ¬ ((1:ℝ) < 0 ^ 2 / 20 ^ 2 + (-12) ^ 2 / 15 ^ 2)), if_neg (by norm_num : ¬ ((1:ℝ) < 0 ^ 2 / 20 ^ 2 + (-12) ^ 2 / 15 ^ 2)), hs]
  norm_num [hg1, hg2, extent]

theorem sample_curve : arcCurves 20 15 0 0 1 (12, -12) (12, 12) =
    .ok [.curve false (80 / 3 - 10 / 3 * √2) (20 - 35 / 2 * √2) (80 / 3 - 10 / 3 * √2) (-(20 - 35 / 2 * √2)) 12 12] := by
  have h2 : √2 * √2 = 2 := Real.mul_self_sqrt (by norm_num)
  have hn : ⌈|(-90 : ℝ)| / 90⌉₊ = 1 := by norm_num
  simp only [arcCurves, sample_centre, hn, one_ne_zero, if_false, List.range_one, List.map_cons, List.map_nil]
  have ei : radians (-90) / ((1 : ℕ) : ℝ) = -(Real.pi / 2) := by simp [radians]; ring
  have eh : -(Real.pi / 2) / 2 = -(Real.pi / 4) := by ring
  have el : 4 / 3 * Real.sin (-(Real.pi / 4)) / (1 + Real.cos (-(Real.pi / 4))) = -(4 / 3 * (√2 - 1)) := by
    rw [Real.sin_neg, Real.cos_neg, Real.sin_pi_div_four, Real.cos_pi_div_four, div_eq_iff (by positivity)]
    linear_combination (2 / 3) * h2
  have et : radians 45 + ((0 : ℕ) : ℝ) * -(Real.pi / 2) = Real.pi / 4 := by simp [radians]; ring
  have eu : Real.pi / 4 + -(Real.pi / 2) = -(Real.pi / 4) := by ring
  have hm : ∀ x y : ℝ, (pair (transformPoint (arcMatrix (0, 0) 0 20 15) x y 0 1)).1 = 20 * x ∧
      -(pair (transformPoint (arcMatrix (0, 0) 0 20 15) x y 0 1)).2 = -(15 * y) := by
    intro x y
    have := arcMatrix_img (0, 0) 20 15 0 x y
    rw [Prod.mk.injEq] at this
    refine ⟨this.1.trans ?_, this.2.trans ?_⟩ <;> simp [img]
  rw [ei, eh, el]
  simp only [arcPiece, et, eu, (hm _ _).1, (hm _ _).2, Real.cos_neg, Real.sin_neg, Real.cos_pi_div_four, Real.sin_pi_div_four, zero_add,
    if_true, neg_neg]
  congr 3
  · linear_combination (40 / 3) * h2
  · linear_combination (10) * h2
  · linear_combination (40 / 3) * h2
  · linear_combination (-10) * h2

/-- **C83** is violated by other arcs of ellipses: the angles at which the ends are seen from the
centre are used as if they were parameters of the ellipse.  The arc with the radii 20 and 15 from
(12, -12) to (12, 12) passes (20, 0), but the middle of the curve that replaces it is at about
(19.46, 0), more than 2% off. -/
theorem ellipse_violated : ∃ f, Pen.new.draw [.move false 12 (-12), .arc false 20 15 0 0 1 12 12] =
      [.begin (12, -12), .arc (12, -12) 20 15 0 0 1 (12, 12)] ∧
    (∃ n, PathGeom.normalize [.move false 12 (-12), .arc false 20 15 0 0 1 12 12] = .ok n ∧
      Pen.new.draw n = [.begin (12, -12), .draw f]) ∧
    ¬ NearArc 0.02 (12, -12) 20 15 0 0 1 (12, 12) (f (1 / 2)) ∧ Shapes.OnArc (12, -12) 20 15 0 0 1 (12, 12) (20, 0) := by
  obtain ⟨n, e1, e2⟩ : ∃ n, PathGeom.normalize [.move false 12 (-12), .arc false 20 15 0 0 1 12 12] = .ok n ∧ Pen.new.draw n =
      [.begin (12, -12), .draw (cubicAt (12, -12) (80 / 3 - 10 / 3 * √2, 20 - 35 / 2 * √2) (80 / 3 - 10 / 3 * √2, -(20 - 35 / 2 * √2)) (12, 12))] := by
    refine ⟨[.move false 12 (-12), .curve false (80 / 3 - 10 / 3 * √2) (20 - 35 / 2 * √2) (80 / 3 - 10 / 3 * √2) (-(20 - 35 / 2 * √2)) 12 12], ?_, ?_⟩
    · simp [PathGeom.normalize, normalizeFrom, Seg.kind, normalizeStep, normalizeSeg, Seg.rel, lastEnd, endPt, movePoints, known, toAbs,
        normalizeAbs, orZero, sample_curve]
    · simp [Pen.draw, Pen.step, Pen.new, Pen.at]
  have h2 : √2 * √2 = 2 := Real.mul_self_sqrt (by norm_num)
  have h2a : 1.414 < √2 := Real.lt_sqrt_of_sq_lt (by norm_num)
  refine ⟨_, ?_, ⟨n, e1, e2⟩, ?_, ?_⟩
  · simp [Pen.draw, Pen.step, Pen.new, Pen.at]
  · have ez : cubicAt (12, -12) (80 / 3 - 10 / 3 * √2, 20 - 35 / 2 * √2) (80 / 3 - 10 / 3 * √2, -(20 - 35 / 2 * √2)) (12, 12) (1 / 2) =
        (23 - 5 / 2 * √2, 0) := by
      simp only [cubicAt, Prod.mk.injEq]
      constructor <;> ring
    rw [ez]
    rintro ⟨-, c, r1, r2, t, u, s, k, -, -, hr, -, hp, hq, hz1, hz2, hk, -⟩
    obtain ⟨rfl, rfl⟩ := hr (by simp [LargeEnough]; norm_num)
    rw [abs_of_pos (by norm_num : (0:ℝ) < 20), abs_of_pos (by norm_num : (0:ℝ) < 15)] at *
    rw [Shapes.ellipsePoint_flat] at hp hq hz1 hz2
    rw [Prod.mk.injEq] at hp hq
    dsimp only at hz1 hz2
    obtain ⟨hp1, hp2⟩ := hp
    obtain ⟨hq1, hq2⟩ := hq
    have ct := Real.cos_sq_add_sin_sq t
    have cu := Real.cos_sq_add_sin_sq u
    have cs := Real.cos_sq_add_sin_sq s
    rw [abs_le] at hk
    norm_num at hk
    have hc2 : c.2 = 0 := by
      have e1 : Real.cos u = Real.cos t := by linarith
      have e2 : Real.sin u = Real.sin t + 8 / 5 := by linarith
      rw [e1, e2] at cu
      linarith
    have hst : Real.sin t = -4 / 5 := by linarith
    have hct : (Real.cos t - 3 / 5) * (Real.cos t + 3 / 5) = 0 := by rw [hst] at ct; linarith
    have hss : Real.sin s = 0 := by
      have : k * Real.sin s = 0 := by rw [hc2] at hz2; linarith
      exact (mul_eq_zero.1 this).resolve_left (by linarith)
    have hcs : (Real.cos s - 1) * (Real.cos s + 1) = 0 := by rw [hss] at cs; linarith
    have hlo : (1.4 : ℝ) < √2 := by linarith
    have hhi : √2 < (1.5 : ℝ) := by rw [Real.sqrt_lt' (by norm_num)]; norm_num
    rcases mul_eq_zero.1 hct with h | h <;> rcases mul_eq_zero.1 hcs with h' | h'
    · have hc1 : c.1 = 0 := by linarith
      rw [hc1, show Real.cos s = 1 by linarith] at hz1
      linarith
    · have hc1 : c.1 = 0 := by linarith
      rw [hc1, show Real.cos s = -1 by linarith] at hz1
      linarith
    · have hc1 : c.1 = 24 := by linarith
      rw [hc1, show Real.cos s = 1 by linarith] at hz1
      linarith
    · have hc1 : c.1 = 24 := by linarith
      rw [hc1, show Real.cos s = -1 by linarith] at hz1
      linarith
  · have hs : Real.sin (Real.arcsin (4 / 5)) = 4 / 5 := Real.sin_arcsin (by norm_num) (by norm_num)
    have hc : Real.cos (Real.arcsin (4 / 5)) = 3 / 5 := by
      rw [Real.cos_arcsin, Real.sqrt_eq_iff_eq_sq (by norm_num) (by norm_num)]; norm_num
    have h0 : 0 < Real.arcsin (4 / 5) := Real.arcsin_pos.2 (by norm_num)
    have h1 : Real.arcsin (4 / 5) ≤ Real.pi / 2 := Real.arcsin_le_pi_div_two _
    have pi := Real.pi_pos
    refine ⟨by simp; norm_num, (0, 0), 20, 15, -Real.arcsin (4 / 5), Real.arcsin (4 / 5), 0, by norm_num, by norm_num, ?_, ?_, ?_, ?_, ?_,
      ?_, by simp, by simp, ?_⟩
    · intro; simp
    · intro h; exact absurd (by simp [LargeEnough]; norm_num) h
    · rw [Shapes.ellipsePoint_flat, Real.cos_neg, Real.sin_neg, hs, hc]; norm_num
    · rw [Shapes.ellipsePoint_flat, hs, hc]; norm_num
    · rw [Shapes.ellipsePoint_flat]; simp
    · intro _; refine ⟨by linarith, by linarith, by linarith, by linarith⟩
    · intro _; rw [abs_of_pos (by linarith)]; linarith

end SvgPy.ArcCurves
