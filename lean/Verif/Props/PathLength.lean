import Verif.Props.EllipseLength
import Verif.Props.Arc
import Verif.Props.Bezier

/-! Property C62: the total length of a path. -/

set_option linter.unusedSimpArgs false

namespace SvgPy.PathLength

open SvgPy.PathGeom SvgPy.Path SvgPy.Bezier SvgPy.Matrix

/-! ### Specification -/

/-- The length of a stroke: the integral of its speed. -/
noncomputable def strokeLength (f : ℝ → Pt) : ℝ :=
  ∫ t in (0:ℝ)..1, √(deriv (fun t => (f t).1) t ^ 2 + deriv (fun t => (f t).2) t ^ 2)

/-- The point of the ellipse with centre `c`, radii `r1`, `r2` and rotation `rot` (degrees)
at the parameter `t`. -/
noncomputable def ellipsePoint (c : Pt) (r1 r2 rot t : ℝ) : Pt :=
  let a := rot * Real.pi / 180
  (c.1 + (Real.cos a * (r1 * Real.cos t) - Real.sin a * (r2 * Real.sin t)),
    c.2 + (Real.sin a * (r1 * Real.cos t) + Real.cos a * (r2 * Real.sin t)))

/-- `len` is the length of the arc of the SVG specification: it runs along an ellipse with the
given radii and rotation (enlarged in proportion if they are too small) from `p` to `q`,
clockwise if the sweep flag is set, and over at least half the parameters if the large flag is
set, at most half of them otherwise.  There is no arc between equal points. -/
def IsArcLength (p : Pt) (rx ry rot fa fs : ℝ) (q : Pt) (len : ℝ) : Prop :=
  (p = q ∧ len = 0) ∨ (p ≠ q ∧ ∃ c r1 r2 t u, 0 < r1 ∧ 0 < r2 ∧
    (LargeEnough |rx| |ry| rot p q → r1 = |rx| ∧ r2 = |ry|) ∧
    (¬ LargeEnough |rx| |ry| rot p q → ∃ k, 1 < k ∧ r1 = |rx| * k ∧ r2 = |ry| * k) ∧
    ellipsePoint c r1 r2 rot t = p ∧ ellipsePoint c r1 r2 rot u = q ∧
    (fs ≠ 0 → t < u ∧ u < t + 2 * Real.pi) ∧ (fs = 0 → t - 2 * Real.pi < u ∧ u < t) ∧
    (fa ≠ 0 → Real.pi ≤ |u - t|) ∧ (fa = 0 → |u - t| ≤ Real.pi) ∧
    len = |∫ x in t..u, √((r1 * Real.sin x) ^ 2 + (r2 * Real.cos x) ^ 2)|)

/-- `len` is the length of a drawing. -/
def DrawnLength : List Piece → ℝ → Prop
  | [], len => len = 0
  | .begin _ :: l, len => DrawnLength l len
  | .draw f :: l, len => ∃ a, DrawnLength l a ∧ len = strokeLength f + a
  | .close f :: l, len => ∃ a, DrawnLength l a ∧ len = strokeLength f + a
  | .arc p rx ry rot fa fs q :: l, len => ∃ a b, IsArcLength p rx ry rot fa fs q a ∧ DrawnLength l b ∧ len = a + b

/-- Two numbers the comparison tolerance of the code tells apart. -/
def Apart (a b : ℝ) : Prop := 1e-9 < |a - b| ∧ 1e-9 * max |a| |b| < |a - b|

/-- Arcs with radii and distances the tolerance of the code does not take for zero. -/
def ClearArc : Piece → Prop
  | .arc p rx ry _ _ _ q => 1e-9 < |rx| ∧ 1e-9 < |ry| ∧ (p = q ∨ Apart p.1 q.1 ∨ Apart p.2 q.2)
  | _ => True

/-- The orders of segments for which lengths are right: a smooth cubic curve only after a line
or a cubic curve, but not after another smooth one that follows a line; a smooth quadratic
curve only after a line or a quadratic curve; neither directly after a bearing (`b`). -/
def Smooth (prev : Prev) (b : Bool) : Seg ℝ → Prop
  | .smooth .. => b = false ∧ (prev = .line ∨ prev = .cubic)
  | .tsmooth .. => b = false ∧ (prev = .line ∨ prev = .quad)
  | _ => True

/-- All segments stand where they may. -/
def AllSmooth : Prev → Bool → List (Seg ℝ) → Prop
  | _, _, [] => True
  | prev, b, s :: l => Smooth prev b s ∧ AllSmooth (prev.next s) (decide (s.kind = .B)) l

/-! ### Strokes -/

theorem deriv_line (a b t : ℝ) : deriv (fun t => (1 - t) * a + t * b) t = b - a := by
  have h : HasDerivAt (fun t : ℝ => (1 - t) * a + t * b) (b - a) t := by
    have h1 : HasDerivAt (fun t : ℝ => (1 - t) * a) (-1 * a) t := ((hasDerivAt_id t).const_sub 1).mul_const a
    have h2 : HasDerivAt (fun t : ℝ => t * b) (1 * b) t := (hasDerivAt_id t).mul_const b
    exact (h1.add h2).congr_deriv (by ring)
  exact h.deriv

theorem strokeLength_line (p q : Pt) : strokeLength (lineAt p q) = hypot p q := by
  unfold strokeLength lineAt hypot
  simp only [deriv_line, intervalIntegral.integral_const, sub_zero, one_smul]

theorem strokeLength_cubic (p c d q : Pt) : strokeLength (cubicAt p c d q) = curveLength ⟨p, c, d, q⟩ := by
  have f1 : (fun t => (cubicAt p c d q t).1) = pointAt p.1 c.1 d.1 q.1 := by funext t; rw [← point_eq]; rfl
  have f2 : (fun t => (cubicAt p c d q t).2) = pointAt p.2 c.2 d.2 q.2 := by funext t; rw [← point_eq]; rfl
  unfold strokeLength curveLength
  simp only
  congr 1
  funext t
  rw [f1, f2, (hasDeriv_pointAt _ _ _ _ t).deriv, (hasDeriv_pointAt _ _ _ _ t).deriv, integrand]
  congr 1
  ring

theorem strokeLength_quad (p c q : Pt) : strokeLength (quadAt p c q) =
    curveLength ⟨p, (p.1 + 2 / 3 * (c.1 - p.1), p.2 + 2 / 3 * (c.2 - p.2)), (q.1 + 2 / 3 * (c.1 - q.1), q.2 + 2 / 3 * (c.2 - q.2)), q⟩ := by
  rw [← strokeLength_cubic, elevate_quad]

/-! ### Arcs -/

/-- A point of an ellipse has a parameter, whose direction in the frame of the ellipse is
minus the direction the code computes. -/
theorem param_exists (c : Pt) (r1 r2 rot : ℝ) (p : Pt) (d : ℝ) (h1 : 0 < r1) (h2 : 0 < r2)
    (ho : OnEllipse c r1 r2 rot p) (hs : SeenAt c p (rot - d)) :
    ∃ t, ellipsePoint c r1 r2 rot t = p ∧ HasDir r1 r2 (-t) d := by
  obtain ⟨k, hk, e1, e2⟩ := hs
  unfold OnEllipse at ho
  simp only at ho
  set a := rot * Real.pi / 180 with ha
  set D := d * Real.pi / 180 with hD
  have hrd : (rot - d) * Real.pi / 180 = a - D := by rw [ha, hD]; ring
  rw [hrd] at e1 e2
  have hcs := Real.cos_sq_add_sin_sq a
  have u1 : (p.1 - c.1) * Real.cos a + (p.2 - c.2) * Real.sin a = k * Real.cos D := by
    rw [e1, e2, Real.cos_sub, Real.sin_sub]; linear_combination (k * Real.cos D) * hcs
  have u2 : (p.2 - c.2) * Real.cos a - (p.1 - c.1) * Real.sin a = -(k * Real.sin D) := by
    rw [e1, e2, Real.cos_sub, Real.sin_sub]; linear_combination (-(k * Real.sin D)) * hcs
  rw [u1, u2] at ho
  obtain ⟨t, ht1, ht2⟩ : ∃ t, Real.cos t = k * Real.cos D / r1 ∧ Real.sin t = -(k * Real.sin D) / r2 := by
    refine ⟨Complex.arg ⟨k * Real.cos D / r1, -(k * Real.sin D) / r2⟩, ?_, ?_⟩
    · have hn : ‖(⟨k * Real.cos D / r1, -(k * Real.sin D) / r2⟩ : ℂ)‖ = 1 := by
        rw [Complex.norm_eq_sqrt_sq_add_sq, ho, Real.sqrt_one]
      rw [Complex.cos_arg (by intro h; rw [h] at hn; simp at hn), hn, div_one]
    · have hn : ‖(⟨k * Real.cos D / r1, -(k * Real.sin D) / r2⟩ : ℂ)‖ = 1 := by
        rw [Complex.norm_eq_sqrt_sq_add_sq, ho, Real.sqrt_one]
      rw [Complex.sin_arg, hn, div_one]
  have v1 : r1 * Real.cos t = k * Real.cos D := by rw [ht1]; field_simp
  have v2 : r2 * Real.sin t = -(k * Real.sin D) := by rw [ht2]; field_simp
  refine ⟨t, ?_, k, hk, ?_, ?_⟩
  · unfold ellipsePoint
    simp only
    rw [← ha, v1, v2, ← u1, ← u2]
    apply Prod.ext
    · simp only; linear_combination (p.1 - c.1) * hcs
    · simp only; linear_combination (p.2 - c.2) * hcs
  · rw [Real.cos_neg]; exact v1
  · rw [Real.sin_neg]; linarith

theorem ellipsePoint_turn (c : Pt) (r1 r2 rot t : ℝ) (k : ℤ) : ellipsePoint c r1 r2 rot (t + 2 * Real.pi * k) = ellipsePoint c r1 r2 rot t := by
  have : t + 2 * Real.pi * k = t + k * (2 * Real.pi) := by ring
  simp only [ellipsePoint, this, Real.cos_add_int_mul_two_pi, Real.sin_add_int_mul_two_pi]

/-- A parameter can be moved by full turns to just after another one. -/
theorem move_after (t u : ℝ) : ∃ k : ℤ, t ≤ u + 2 * Real.pi * k ∧ u + 2 * Real.pi * k < t + 2 * Real.pi := by
  have pi := Real.pi_pos
  refine ⟨-⌊(u - t) / (2 * Real.pi)⌋, ?_, ?_⟩
  · have h := Int.floor_le ((u - t) / (2 * Real.pi))
    rw [le_div_iff₀ (by positivity)] at h
    push_cast; nlinarith
  · have h := Int.lt_floor_add_one ((u - t) / (2 * Real.pi))
    rw [div_lt_iff₀ (by positivity)] at h
    push_cast; nlinarith

/-- Parameters of two directions less than a full turn apart: half a turn in the one is half a
turn in the other. -/
theorem half_turns (r1 r2 : ℝ) (h1 : 0 < r1) (h2 : 0 < r2) (t u d e : ℝ) (he0 : 0 < e) (he1 : e < 360) (ht : HasDir r1 r2 t d)
    (hu : HasDir r1 r2 u (d + e)) (h : t ≤ u) (h' : u < t + 2 * Real.pi) :
    t < u ∧ (180 ≤ e → Real.pi ≤ u - t) ∧ (e ≤ 180 → u - t ≤ Real.pi) := by
  have pi := Real.pi_pos
  rcases lt_trichotomy e 180 with hlt | heq | hgt
  · have hs : 0 < Real.sin (radians (d + e - d)) := by
      rw [add_sub_cancel_left]
      apply Real.sin_pos_of_pos_of_lt_pi
      · unfold radians; positivity
      · unfold radians; nlinarith
    have hp := Par.sin_pos h1 h2 ht hu hs
    have hne : t ≠ u := by rintro rfl; rw [sub_self, Real.sin_zero] at hp; exact lt_irrefl _ hp
    have hlt' : t < u := lt_of_le_of_ne h hne
    refine ⟨hlt', fun h => by linarith, fun _ => ?_⟩
    by_contra hc
    rw [not_le] at hc
    have : Real.sin (u - t - 2 * Real.pi) < 0 := Real.sin_neg_of_neg_of_neg_pi_lt (by linarith) (by linarith)
    rw [Real.sin_sub_two_pi] at this
    linarith
  · subst heq
    obtain ⟨k, hk⟩ := HasDir.unique h1 h2 hu ht.half
    have k0 : (k : ℝ) < 1 := by by_contra hc; rw [not_lt] at hc; nlinarith
    have k1 : (-1 : ℝ) < k := by by_contra hc; rw [not_lt] at hc; nlinarith
    have k0' : k < 1 := by exact_mod_cast k0
    have k1' : -1 < k := by exact_mod_cast k1
    have : k = 0 := by omega
    subst this
    simp only [Int.cast_zero, mul_zero] at hk
    refine ⟨by linarith, fun _ => by linarith, fun _ => by linarith⟩
  · have hs : 0 < Real.sin (radians (d - (d + e))) := by
      rw [show radians (d - (d + e)) = radians (360 - e) - 2 * Real.pi by unfold radians; ring, Real.sin_sub_two_pi]
      apply Real.sin_pos_of_pos_of_lt_pi
      · unfold radians; have : 0 < 360 - e := by linarith
        positivity
      · unfold radians; nlinarith
    have hp := Par.sin_pos h1 h2 hu ht hs
    have hne : t ≠ u := by rintro rfl; rw [sub_self, Real.sin_zero] at hp; exact lt_irrefl _ hp
    have hlt' : t < u := lt_of_le_of_ne h hne
    refine ⟨hlt', fun _ => ?_, fun h => by linarith⟩
    by_contra hc
    rw [not_le] at hc
    have : Real.sin (t - u) < 0 := Real.sin_neg_of_neg_of_neg_pi_lt (by linarith) (by linarith)
    linarith

theorem speed_neg (r1 r2 a b : ℝ) : ∫ x in (-a)..(-b), speed r1 r2 x = -∫ x in a..b, speed r1 r2 x := by
  have h := intervalIntegral.integral_comp_neg (a := a) (b := b) (speed r1 r2)
  have e : ∀ x, speed r1 r2 (-x) = speed r1 r2 x := by intro x; simp [speed]
  simp only [e] at h
  rw [h, intervalIntegral.integral_symm]

/-- The length of an arc is that of the arc of the SVG specification. -/
theorem arcLength_spec (rx ry rot fa fs : ℝ) (p q : Pt) (h : ClearArc (.arc p rx ry rot fa fs q)) :
    IsArcLength p rx ry rot fa fs q (arcLength rx ry rot fa fs p q) := by
  have pi := Real.pi_pos
  obtain ⟨hx, hy, hpq⟩ := h
  by_cases heq : p = q
  · left
    refine ⟨heq, ?_⟩
    subst heq
    have hr : ∀ r : ℝ, 1e-9 < |r| → radius r ≠ 0 := by
      intro r hr
      have hc : ¬ (Length.isclose |r| 0 = true) := by
        simp only [Length.isclose, sub_zero, abs_abs, abs_zero, decide_eq_true_eq, not_le]
        rw [max_eq_left (abs_nonneg r), max_lt_iff]
        constructor
        · have : (0:ℝ) < |r| := lt_trans (by norm_num) hr
          nlinarith
        · exact hr
      unfold radius
      rw [if_neg hc]
      exact (lt_trans (by norm_num) hr).ne'
    have e : arcCentre rx ry rot fa fs p p = ⟨none, radius rx, radius ry⟩ := by
      unfold arcCentre
      rw [if_neg (not_or.mpr ⟨hr rx hx, hr ry hy⟩), if_pos ⟨isclose_self _, isclose_self _⟩]
    simp only [arcLength, e, hr rx hx, hr ry hy, or_self, if_false]
  · right
    refine ⟨heq, ?_⟩
    have hap : Apart p.1 q.1 ∨ Apart p.2 q.2 := by
      rcases hpq with h | h
      · exact absurd h heq
      · exact h
    have hfar : ∀ a b : ℝ, Apart a b → ¬ (Length.isclose a b = true) := by
      rintro a b ⟨h1, h2⟩
      simp only [Length.isclose, decide_eq_true_eq, not_le, max_lt_iff]
      exact ⟨h2, h1⟩
    have hsome : (arcCentre rx ry rot fa fs p q).centre ≠ none := by
      rw [Ne, arcCentre_none_iff]
      rintro ((h | h) | ⟨h, h'⟩)
      · linarith
      · linarith
      · rcases hap with ha | ha
        · exact hfar _ _ ha h
        · exact hfar _ _ ha h'
    obtain ⟨⟨c, d1, d2, e⟩, hc⟩ := Option.ne_none_iff_exists'.mp hsome
    obtain ⟨o1, o2, g1, g2, g3, g4⟩ := arc_on_ellipse rx ry rot fa fs p q c d1 d2 e hc
    obtain ⟨s1, -, s3, x1, x2, x3, x4⟩ := arc_extent rx ry rot fa fs p q c d1 d2 e hc
    have hlen : arcLength rx ry rot fa fs p q =
        ellipseLength (arcCentre rx ry rot fa fs p q).rx (arcCentre rx ry rot fa fs p q).ry d1 e := by
      simp only [arcLength, hc]
    rw [hlen]
    set r1 := (arcCentre rx ry rot fa fs p q).rx
    set r2 := (arcCentre rx ry rot fa fs p q).ry
    obtain ⟨t, ht, dt⟩ := param_exists c r1 r2 rot p d1 g1 g2 o1 s1
    obtain ⟨u0, hu0, du0⟩ := param_exists c r1 r2 rot q (d1 + e) g1 g2 o2 (by rwa [show rot - (d1 + e) = rot - d1 - e by ring])
    have du : ∀ k : ℤ, HasDir r1 r2 (-(u0 + 2 * Real.pi * k)) (d1 + e) := by
      intro k
      obtain ⟨m, hm, m1, m2⟩ := du0
      have : -(u0 + 2 * Real.pi * k) = -u0 + ((-k : ℤ) : ℝ) * (2 * Real.pi) := by push_cast; ring
      exact ⟨m, hm, by rw [this, Real.cos_add_int_mul_two_pi]; exact m1, by rw [this, Real.sin_add_int_mul_two_pi]; exact m2⟩
    have hscale : ¬ LargeEnough |rx| |ry| rot p q → ∃ k, 1 < k ∧ r1 = |rx| * k ∧ r2 = |ry| * k := by
      intro hl
      obtain ⟨k, k1, k2, k3, -⟩ := g4 hl
      exact ⟨k, k1, k2, k3⟩
    rcases eq_or_ne fs 0 with hfs | hfs
    · -- counterclockwise: the extent is positive, the parameter falls
      obtain ⟨e0, e1⟩ := x2 hfs
      obtain ⟨k, k1, k2⟩ := move_after (-t) (-u0)
      set u := u0 + 2 * Real.pi * ((-k : ℤ) : ℝ) with hu
      have hun : -u = -u0 + 2 * Real.pi * k := by rw [hu]; push_cast; ring
      obtain ⟨l1, l2, l3⟩ := half_turns r1 r2 g1 g2 (-t) (-u) d1 e e0 e1 dt (du (-k)) (by rw [hun]; exact k1) (by rw [hun]; exact k2)
      have l4 : -u < -t + 2 * Real.pi := by rw [hun]; exact k2
      refine ⟨c, r1, r2, t, u, g1, g2, g3, hscale, ht, by rw [hu, ellipsePoint_turn]; exact hu0, fun h => absurd hfs h,
        fun _ => ⟨by linarith, by linarith⟩, ?_, ?_, ?_⟩
      · intro h
        have := x3 h
        rw [abs_of_pos e0] at this
        rw [abs_of_neg (by linarith)]
        linarith [l2 this]
      · intro h
        have := x4 h
        rw [abs_of_pos e0] at this
        rw [abs_of_neg (by linarith)]
        linarith [l3 this]
      · rw [ellipse_length g1 g2 d1 e (-t) (-u) e0.ne' (by rw [abs_of_pos e0]; exact e1) dt (du (-k)) (fun _ => ⟨l1, l4⟩)
          (fun h => absurd h e0.not_gt), speed_neg, abs_neg]
        rfl
    · obtain ⟨e1, e0⟩ := x1 hfs
      obtain ⟨k, k1, k2⟩ := move_after t u0
      set u := u0 + 2 * Real.pi * (k : ℝ) with hu
      have hd : HasDir r1 r2 (-t) (d1 + e + -e) := by rw [add_neg_cancel_right]; exact dt
      obtain ⟨l1, l2, l3⟩ := half_turns r1 r2 g1 g2 (-u) (-t) (d1 + e) (-e) (by linarith) (by linarith) (du k) hd
        (by linarith) (by linarith)
      refine ⟨c, r1, r2, t, u, g1, g2, g3, hscale, ht, by rw [hu, ellipsePoint_turn]; exact hu0,
        fun _ => ⟨by linarith, k2⟩, fun h => absurd h hfs, ?_, ?_, ?_⟩
      · intro h
        have := x3 h
        rw [abs_of_neg e0] at this
        rw [abs_of_pos (by linarith)]
        linarith [l2 this]
      · intro h
        have := x4 h
        rw [abs_of_neg e0] at this
        rw [abs_of_pos (by linarith)]
        linarith [l3 this]
      · rw [ellipse_length g1 g2 d1 e (-t) (-u) e0.ne (by rw [abs_of_neg e0]; linarith) dt (du k) (fun h => absurd h e0.not_gt)
          (fun _ => ⟨by linarith, by linarith⟩), speed_neg, abs_neg]
        rfl

/-! ### The loop -/

theorem drawnLength_append (a b : List Piece) (x y : ℝ) (ha : DrawnLength a x) (hb : DrawnLength b y) :
    DrawnLength (a ++ b) (x + y) := by
  induction a generalizing x with
  | nil => cases ha; simpa [zero_add] using hb
  | cons p a ih =>
    cases p with
    | begin p => exact ih x ha
    | draw f =>
      obtain ⟨z, h1, rfl⟩ := ha
      exact ⟨z + y, ih z h1, by ring⟩
    | close f =>
      obtain ⟨z, h1, rfl⟩ := ha
      exact ⟨z + y, ih z h1, by ring⟩
    | arc p rx ry rot fa fs q =>
      obtain ⟨z, w, h0, h1, rfl⟩ := ha
      exact ⟨z, w + y, h0, ih w h1, by ring⟩

/-- The variables of the loop describe the pen. -/
structure LInv (st : State) (pen : Pen) (prev : Prev) (b : Bool) : Prop where
  cp : st.cp = someP pen.cur
  start : st.start = someP pen.start
  bearing : st.bearing = pen.bearing
  moved : pen.moved = true ↔ st.last = some .M
  line : b = false → prev = .line → pen.ctrl = .free ∧ st.q = someP pen.cur ∧
    ¬ (st.last = some .C ∨ st.last = some .S) ∧ ¬ (st.last = some .Q ∨ st.last = some .T)
  cubic : b = false → prev = .cubic → st.q = someP pen.smoothCubic ∧ (st.last = some .C ∨ st.last = some .S)
  quad : b = false → prev = .quad → st.q = someP pen.smoothQuad ∧ (st.last = some .Q ∨ st.last = some .T)

theorem flat_arcLength (rx ry rot fa fs : ℝ) (p q : Pt) (h : rx = 0 ∨ ry = 0) : arcLength rx ry rot fa fs p q = hypot p q := by
  have hz : radius 0 = 0 := by simp [radius]
  have : radius rx = 0 ∨ radius ry = 0 := by
    rcases h with rfl | rfl
    · exact .inl hz
    · exact .inr hz
  simp [arcLength, arcCentre, this]

theorem draw_one (f : ℝ → Pt) : DrawnLength [.draw f] (strokeLength f) := ⟨0, rfl, by ring⟩

theorem lengthStep_inv (st : State) (pen : Pen) (prev : Prev) (b : Bool) (s : Seg ℝ) (h : LInv st pen prev b)
    (ha : Smooth prev b s) (hk : s.kind ≠ .B) (hk' : s.kind ≠ .Z) (hc : ∀ p ∈ (pen.step s).2, ClearArc p) :
    ∃ len st', lengthStep st s = .ok (len, st') ∧ DrawnLength (pen.step s).2 len ∧ LInv st' (pen.step s).1 (prev.next s) false := by
  obtain ⟨start, cp, q, bearing, last⟩ := st
  obtain ⟨h1, h2, h3, h6, h7, h8, h9⟩ := h
  simp only at h1 h2 h3 h6
  subst h1 h2 h3
  have hm' := moveBy_eq pen
  have hf : ∀ x y, pen.at false x y = (x, y) := fun x y => rfl
  have hz' : orZero (some pen.cur.1, some pen.cur.2) = pen.cur := rfl
  have hz : orZero (someP pen.cur) = pen.cur := rfl
  have key : ∀ len Q, lengthStep ⟨someP pen.start, someP pen.cur, q, pen.bearing, last⟩ s =
        .ok (len, ⟨someP (pen.step s).1.start, someP (pen.step s).1.cur, Q, pen.bearing, some s.kind⟩) →
      DrawnLength (pen.step s).2 len →
      ((pen.step s).1.moved = true ↔ s.kind = .M) → (pen.step s).1.bearing = pen.bearing →
      (prev.next s = .line → (pen.step s).1.ctrl = .free ∧ Q = someP (pen.step s).1.cur ∧
        ¬ (s.kind = .C ∨ s.kind = .S) ∧ ¬ (s.kind = .Q ∨ s.kind = .T)) →
      (prev.next s = .cubic → Q = someP (pen.step s).1.smoothCubic ∧ (s.kind = .C ∨ s.kind = .S)) →
      (prev.next s = .quad → Q = someP (pen.step s).1.smoothQuad ∧ (s.kind = .Q ∨ s.kind = .T)) →
      ∃ len st', lengthStep ⟨someP pen.start, someP pen.cur, q, pen.bearing, last⟩ s = .ok (len, st') ∧
        DrawnLength (pen.step s).2 len ∧ LInv st' (pen.step s).1 (prev.next s) false := by
    intro len Q a1 a2 a3 a4 a5 a6 a7
    refine ⟨len, _, a1, a2, rfl, rfl, a4.symm, ?_, fun _ => ?_, fun _ => ?_, fun _ => ?_⟩
    · simpa using a3
    · simpa using a5
    · simpa using a6
    · simpa using a7
  rcases s with ⟨r, rx, ry, rot, fa, fs, x, y⟩ | ⟨r, a⟩ | ⟨r, x1, y1, x2, y2, x, y⟩ | ⟨r, x⟩ | ⟨r, x, y⟩ | ⟨r, x, y⟩ |
    ⟨r, x1, y1, x, y⟩ | ⟨r, x2, y2, x, y⟩ | ⟨r, x, y⟩ | ⟨r, y⟩ | ⟨r⟩
  · by_cases ha' : rx = 0 ∨ ry = 0
    · apply key (strokeLength (lineAt pen.cur (pen.at r x y))) (someP (pen.at r x y)) <;> clear key
      · cases r <;> simp [lengthStep, segLength, hz', toAbs, hm', hf, Seg.kind, plainLength, flat_arcLength _ _ _ _ _ _ _ ha',
          strokeLength_line, Pen.step, Pen.lineTo, ha', someP, known]
      · simp [Pen.step, Pen.lineTo, ha', draw_one]
      all_goals cases r <;> simp [Pen.step, Pen.lineTo, ha', Prev.next, Seg.kind, Pen.at]
    · have hca := hc (.arc pen.cur rx ry (if r then rot + pen.bearing else rot) fa fs (pen.at r x y)) (by simp [Pen.step, ha'])
      have hl := arcLength_spec _ _ _ _ _ _ _ hca
      apply key (arcLength rx ry (if r then rot + pen.bearing else rot) fa fs pen.cur (pen.at r x y)) (someP (pen.at r x y)) <;> clear key
      · have hrot : (if pen.bearing ≠ 0 then rot + pen.bearing else rot) = rot + pen.bearing := by
          by_cases hb : pen.bearing = 0 <;> simp [hb]
        cases r
        · simp [lengthStep, segLength, hz', toAbs, hm', hf, Seg.kind, plainLength, Pen.step, ha', someP, known]
        · simp only [lengthStep, segLength, someP, hz', toAbs, hrot, hm']
          simp [Seg.kind, plainLength, Pen.step, ha', known]
      · simp only [Pen.step, ha', if_false]
        exact ⟨_, 0, hl, rfl, by ring⟩
      all_goals cases r <;> simp [Pen.step, Pen.lineTo, ha', Prev.next, Seg.kind, Pen.at]
  · exact absurd rfl hk
  · apply key (strokeLength (cubicAt pen.cur (pen.at r x1 y1) (pen.at r x2 y2) (pen.at r x y)))
      (someP (2 * (pen.at r x y).1 - (pen.at r x2 y2).1, 2 * (pen.at r x y).2 - (pen.at r x2 y2).2)) <;> clear key
    · cases r <;> simp [lengthStep, segLength, hz', toAbs, hm', hf, Seg.kind, plainLength, strokeLength_cubic, Pen.step, someP, known,
        nextControl, nextControlAbs, PathGeom.mirror]
    · exact draw_one _
    all_goals cases r <;> simp [Pen.step, Pen.smoothCubic, Prev.next, Seg.kind, Pen.at]
  · apply key (strokeLength (lineAt pen.cur (if r then pen.at true x 0 else (x, pen.cur.2))))
      (someP (if r then pen.at true x 0 else (x, pen.cur.2))) <;> clear key
    · cases r <;> simp [lengthStep, segLength, hz', toAbs, hm', hf, Seg.kind, Seg.rel, plainLength, strokeLength_line, Pen.step, Pen.lineTo, someP,
        known, normalizeSeg, normalizeAbs, headOf]
    · exact draw_one _
    all_goals cases r <;> simp [Pen.step, Pen.lineTo, Prev.next, Seg.kind, Pen.at]
  · apply key (strokeLength (lineAt pen.cur (pen.at r x y))) (someP (pen.at r x y)) <;> clear key
    · cases r <;> simp [lengthStep, segLength, hz', toAbs, hm', hf, Seg.kind, Seg.rel, plainLength, strokeLength_line, Pen.step, Pen.lineTo, someP,
        known]
    · exact draw_one _
    all_goals cases r <;> simp [Pen.step, Pen.lineTo, Prev.next, Seg.kind, Pen.at]
  · apply key (if pen.moved then strokeLength (lineAt pen.cur (pen.at r x y)) else 0) (someP (pen.at r x y)) <;> clear key
    · cases hmv : pen.moved
      · have : last ≠ some .M := by intro h; rw [← h6, hmv] at h; cases h
        cases r <;> simp [lengthStep, segLength, hz', toAbs, hm', hf, Seg.kind, Seg.rel, plainLength, strokeLength_line, Pen.step, someP,
          known, hmv, this]
      · have : last = some .M := by rw [← h6, hmv]
        cases r <;> simp [lengthStep, segLength, hz', toAbs, hm', hf, Seg.kind, Seg.rel, plainLength, strokeLength_line, Pen.step, someP,
          known, hmv, this]
    · cases hmv : pen.moved
      · simp [Pen.step, hmv, DrawnLength]
      · simp only [Pen.step, hmv, if_true]; exact draw_one _
    all_goals cases hmv : pen.moved <;> cases r <;> simp [Pen.step, Prev.next, Seg.kind, Pen.at, hmv]
  · apply key (strokeLength (quadAt pen.cur (pen.at r x1 y1) (pen.at r x y)))
      (someP (2 * (pen.at r x y).1 - (pen.at r x1 y1).1, 2 * (pen.at r x y).2 - (pen.at r x1 y1).2)) <;> clear key
    · cases r <;> simp [lengthStep, segLength, hz', toAbs, hm', hf, Seg.kind, Seg.rel, plainLength, strokeLength_quad, Pen.step, someP, known,
        nextControl, nextControlAbs, PathGeom.mirror, normalizeSeg, normalizeAbs, headOf, elevate]
    · exact draw_one _
    all_goals cases r <;> simp [Pen.step, Pen.smoothQuad, Prev.next, Seg.kind, Pen.at]
  · have hq : q = someP pen.smoothCubic := by
      rcases ha.2 with h | h
      · obtain ⟨c1, c2, -⟩ := h7 ha.1 h
        rw [show pen.smoothCubic = pen.cur by simp [Pen.smoothCubic, c1]]
        exact c2
      · exact (h8 ha.1 h).1
    subst hq
    have hl : prev.next (.smooth r x2 y2 x y) = .cubic → (last = some .C ∨ last = some .S) := by
      intro hn
      simp only [Prev.next] at hn
      split at hn
      · exact (h8 ha.1 (by assumption)).2
      · cases hn
    by_cases hcs : last = some .C ∨ last = some .S
    · apply key (strokeLength (cubicAt pen.cur pen.smoothCubic (pen.at r x2 y2) (pen.at r x y)))
        (someP (2 * (pen.at r x y).1 - (pen.at r x2 y2).1, 2 * (pen.at r x y).2 - (pen.at r x2 y2).2)) <;> clear key
      · cases r <;> simp [lengthStep, segLength, hz', toAbs, hm', hf, Seg.kind, Seg.rel, plainLength, strokeLength_cubic, Pen.step, someP, known,
          nextControl, nextControlAbs, PathGeom.mirror, normalizeSeg, normalizeAbs, headOf, hcs]
      · exact draw_one _
      · simp [Pen.step, Seg.kind]
      · rfl
      · intro h; simp only [Prev.next] at h; split at h <;> cases h
      · exact fun _ => ⟨rfl, .inr rfl⟩
      · intro h; simp only [Prev.next] at h; split at h <;> cases h
    · apply key (strokeLength (cubicAt pen.cur pen.smoothCubic (pen.at r x2 y2) (pen.at r x y)))
        (someP (2 * (pen.at r x y).1 - pen.cur.1, 2 * (pen.at r x y).2 - pen.cur.2)) <;> clear key
      · cases r <;> simp [lengthStep, segLength, hz', toAbs, hm', hf, Seg.kind, Seg.rel, plainLength, strokeLength_cubic, Pen.step, someP, known,
          nextControl, nextControlAbs, PathGeom.mirror, normalizeSeg, normalizeAbs, headOf, hcs]
      · exact draw_one _
      · simp [Pen.step, Seg.kind]
      · rfl
      · intro h; simp only [Prev.next] at h; split at h <;> cases h
      · exact fun h => absurd (hl h) hcs
      · intro h; simp only [Prev.next] at h; split at h <;> cases h
  · have hq : q = someP pen.smoothQuad ∧ ((last = some .Q ∨ last = some .T) ∨
        (¬ (last = some .Q ∨ last = some .T) ∧ pen.smoothQuad = pen.cur)) := by
      rcases ha.2 with h | h
      · obtain ⟨c1, c2, -, c3⟩ := h7 ha.1 h
        have : pen.smoothQuad = pen.cur := by simp [Pen.smoothQuad, c1]
        rw [this]
        exact ⟨c2, .inr ⟨c3, rfl⟩⟩
      · exact ⟨(h9 ha.1 h).1, .inl (h9 ha.1 h).2⟩
    obtain ⟨rfl, hl⟩ := hq
    apply key (strokeLength (quadAt pen.cur pen.smoothQuad (pen.at r x y)))
      (someP (2 * (pen.at r x y).1 - pen.smoothQuad.1, 2 * (pen.at r x y).2 - pen.smoothQuad.2)) <;> clear key
    · rcases hl with hl | ⟨hl, he⟩
      · cases r <;> simp [lengthStep, segLength, hz', toAbs, hm', hf, Seg.kind, Seg.rel, plainLength, strokeLength_quad, Pen.step, someP, known,
          nextControl, nextControlAbs, PathGeom.mirror, normalizeSeg, normalizeAbs, headOf, elevate, hl]
      · cases r <;> simp [lengthStep, segLength, hz', toAbs, hm', hf, Seg.kind, Seg.rel, plainLength, strokeLength_quad, Pen.step, someP, known,
          nextControl, nextControlAbs, PathGeom.mirror, normalizeSeg, normalizeAbs, headOf, elevate, hl, he]
    · exact draw_one _
    all_goals cases r <;> simp [Pen.step, Prev.next, Seg.kind, Pen.at] <;> simp [Pen.smoothQuad]
  · apply key (strokeLength (lineAt pen.cur (if r then pen.at true 0 y else (pen.cur.1, y))))
      (someP (if r then pen.at true 0 y else (pen.cur.1, y))) <;> clear key
    · cases r <;> simp [lengthStep, segLength, hz', toAbs, hm', hf, Seg.kind, Seg.rel, plainLength, strokeLength_line, Pen.step, Pen.lineTo, someP,
        known, normalizeSeg, normalizeAbs, headOf]
    · exact draw_one _
    all_goals cases r <;> simp [Pen.step, Pen.lineTo, Prev.next, Seg.kind, Pen.at]
  · exact absurd rfl hk'

theorem lengthFrom_inv (st : State) (pen : Pen) (prev : Prev) (b : Bool) (l : List (Seg ℝ)) (h : LInv st pen prev b)
    (ha : AllSmooth prev b l) (hc : ∀ p ∈ pen.draw l, ClearArc p) :
    ∃ len, lengthFrom st l = .ok len ∧ DrawnLength (pen.draw l) len := by
  induction l generalizing st pen prev b with
  | nil => exact ⟨0, rfl, rfl⟩
  | cons s l ih =>
    obtain ⟨h1, h2⟩ := ha
    by_cases hk : s.kind = .B
    · obtain ⟨r, a, rfl⟩ : ∃ r a, s = .bearing r a := by
        cases s <;> simp [Seg.kind] at hk
        exact ⟨_, _, rfl⟩
      have hi : LInv { st with bearing := getBearing st.bearing (.bearing r a), last := some .B }
          (pen.step (.bearing r a)).1 (prev.next (.bearing r a)) true := by
        refine ⟨h.cp, h.start, ?_, by simp [Pen.step], by simp, by simp, by simp⟩
        cases r <;> simp [getBearing, Pen.step, h.bearing]
      obtain ⟨len, e1, e2⟩ := ih _ _ _ _ hi (by simpa [Seg.kind] using h2) (fun p hp => hc p (by simpa [Pen.draw, Pen.step] using hp))
      refine ⟨len, ?_, ?_⟩
      · simp only [lengthFrom, Seg.kind, if_true]; exact e1
      · simpa [Pen.draw, Pen.step] using e2
    · have hc1 : ∀ p ∈ (pen.step s).2, ClearArc p := fun p hp => hc p (List.mem_append_left _ hp)
      have hc2 : ∀ p ∈ (pen.step s).1.draw l, ClearArc p := fun p hp => hc p (List.mem_append_right _ hp)
      by_cases hz : s.kind = .Z
      · obtain ⟨r, rfl⟩ : ∃ r, s = .close r := by
          cases s <;> simp [Seg.kind] at hz
          exact ⟨_, rfl⟩
        have e : closeLength st = (strokeLength (lineAt pen.cur pen.start), { st with cp := st.start, last := some .Z }) := by
          simp only [closeLength, h.start, h.cp, someP, strokeLength_line]
        have hi : LInv { st with cp := st.start, last := some .Z } (pen.step (.close r)).1 (prev.next (.close r)) false :=
          ⟨h.start, h.start, h.bearing, by simp [Pen.step], by simp [Prev.next], by simp [Prev.next], by simp [Prev.next]⟩
        obtain ⟨len, e1, e2⟩ := ih _ _ _ _ hi (by simpa [Seg.kind] using h2) hc2
        refine ⟨strokeLength (lineAt pen.cur pen.start) + len, ?_, ⟨len, e2, rfl⟩⟩
        simp only [lengthFrom, Seg.kind, reduceCtorEq, if_false, if_true, e, e1, Except.map]
      · obtain ⟨len, st', e1, e2, e3⟩ := lengthStep_inv st pen prev b s h h1 hk hz hc1
        obtain ⟨len', e4, e5⟩ := ih _ _ _ _ e3 (by simpa [hk] using h2) hc2
        refine ⟨len + len', ?_, drawnLength_append _ _ _ _ e2 e5⟩
        simp only [lengthFrom, hk, hz, if_false, e1, e4, Except.map]

/-- **C62** The total length of path data that begins with a moveto is the sum of the lengths
of all its lines, curves, arcs and closing lines, if smooth curves stand where the code
handles them and arcs are not within its tolerance of zero.  Missing: the orders of smooth
curves that the code gets wrong. -/
theorem totalLength_partial (r : Bool) (x y : ℝ) (l : List (Seg ℝ)) (h : AllSmooth .line false l)
    (hc : ∀ p ∈ Pen.new.draw (.move r x y :: l), ClearArc p) :
    ∃ len, totalLength (.move r x y :: l) = .ok len ∧ DrawnLength (Pen.new.draw (.move r x y :: l)) len := by
  have e : toAbs (some 0, some 0) 0 (.move r x y) = .move false x y := by
    cases r <;> simp [toAbs, moveBy, turn, orZero]
  have e0 : lengthStep {} (.move r x y) = .ok (0, ⟨someP (x, y), someP (x, y), someP (x, y), 0, some .M⟩) := by
    simp [lengthStep, segLength, orZero, e, Seg.kind, plainLength, someP]
  have ep : Pen.new.step (.move r x y) = (⟨(x, y), (x, y), .free, 0, true⟩, [.begin (x, y)]) := by
    cases r <;> simp [Pen.step, Pen.new, Pen.at]
  have hi : LInv ⟨someP (x, y), someP (x, y), someP (x, y), 0, some .M⟩ (Pen.new.step (.move r x y)).1 .line false := by
    rw [ep]
    refine ⟨rfl, rfl, rfl, by simp, fun _ _ => ⟨rfl, rfl, by simp, by simp⟩, by simp, by simp⟩
  obtain ⟨len, h1, h2⟩ := lengthFrom_inv _ _ _ _ l hi h (fun p hp => hc p (List.mem_append_right _ hp))
  refine ⟨len, ?_, ?_⟩
  · simp only [totalLength, lengthFrom, Seg.kind, reduceCtorEq, if_false, e0, h1, Except.map, zero_add]
  · rw [Pen.draw, ep]
    rw [ep] at h2
    exact h2

/-- A non-trivial instance of the hypotheses. -/
example : AllSmooth .line false [.line true 3 4, .smooth false 5 5 6 7, .arc true 5 3 30 1 0 4 1, .tsmooth true 2 2,
      .tsmooth false 9 9, .close true] ∧
    ∀ p ∈ Pen.new.draw (.move false 0 0 :: [.line true 3 4, .smooth false 5 5 6 7, .arc true 5 3 30 1 0 4 1, .tsmooth true 2 2,
      .tsmooth false 9 9, .close true]), ClearArc p := by
  constructor
  · simp [AllSmooth, Smooth, Prev.next, Seg.kind]
  · intro p hp
    simp only [Pen.draw, Pen.step, Pen.new, Pen.lineTo, List.append_nil, List.cons_append, List.nil_append,
      Bool.false_eq_true, if_false, List.mem_cons, List.not_mem_nil, or_false, (by norm_num : ¬ ((5:ℝ) = 0 ∨ (3:ℝ) = 0))] at hp
    rcases hp with rfl | rfl | rfl | rfl | rfl | rfl | rfl <;> try trivial
    refine ⟨by norm_num, by norm_num, .inr (.inl ⟨?_, ?_⟩)⟩
    · simp [Pen.at]; norm_num
    · simp [Pen.at]; norm_num

/-- **C62** is violated when a smooth curve follows a closing: the code still uses the
control point of the segment before it.  Here the closing leads back to the origin, and the
smooth curve all of whose points are the origin has the length 0, but the code measures the
curve with the first control point (3,0), whose length is positive. -/
theorem totalLength_close_violated :
    ∃ len, totalLength [.move false 0 0, .line false 3 0, .close false, .smooth false 0 0 0 0] = .ok len ∧
      DrawnLength (Pen.new.draw [.move false 0 0, .line false 3 0, .close false, .smooth false 0 0 0 0]) 6 ∧ 6 < len := by
  have h3 : hypot (0, 0) (3, 0) = 3 := by simp [hypot]
  have h3' : hypot (3, 0) (0, 0) = 3 := by simp [hypot]
  refine ⟨3 + (3 + curveLength ⟨(0, 0), (3, 0), (0, 0), (0, 0)⟩), ?_, ?_, ?_⟩
  · simp [totalLength, lengthFrom, lengthStep, closeLength, segLength, toAbs, Seg.kind, Seg.rel, orZero, plainLength, headOf,
      normalizeSeg, normalizeAbs, nextControl, nextControlAbs, PathGeom.mirror, known, h3, h3', Except.map]
  · have h0 : strokeLength (cubicAt (0, 0) (0, 0) (0, 0) (0, 0)) = 0 := by
      rw [strokeLength_cubic]
      simp [curveLength, integrand, coefA, coefB, coefC]
    simp [Pen.draw, Pen.step, Pen.new, Pen.at, Pen.lineTo, DrawnLength, Pen.smoothCubic, strokeLength_line, h0, h3, h3']
    norm_num
  · have : 0 < curveLength ⟨(0, 0), (3, 0), (0, 0), (0, 0)⟩ := by
      unfold curveLength
      simp only [integrand]
      refine intervalIntegral.integral_pos one_pos ?_ (fun t _ => Real.sqrt_nonneg _) ⟨0, ⟨le_refl 0, zero_le_one⟩, ?_⟩
      · exact Continuous.continuousOn (by fun_prop)
      · apply Real.sqrt_pos.2
        simp [coefC]
    linarith

end SvgPy.PathLength
