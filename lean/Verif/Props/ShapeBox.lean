import Verif.Props.ArcCurves
import Verif.Props.Bezier

/-! Property C84: the bounding boxes of the basic shapes. -/

set_option linter.unusedSimpArgs false

namespace SvgPy.ShapeBox

open SvgPy.Path SvgPy.PathGeom SvgPy.PathLength SvgPy.Matrix SvgPy.Bezier SvgPy.Rect SvgPy.Shapes Set

/-! ### Boxes and sets -/

/-- The set is within the bounds and touches each of them. -/
def Spans (S : Set Pt) (l r t b : ℝ) : Prop :=
  (∀ p ∈ S, l ≤ p.1 ∧ p.1 ≤ r ∧ t ≤ p.2 ∧ p.2 ≤ b) ∧
    (∃ p ∈ S, p.1 = l) ∧ (∃ p ∈ S, p.1 = r) ∧ (∃ p ∈ S, p.2 = t) ∧ (∃ p ∈ S, p.2 = b)

theorem spans_box (S : Set Pt) (l r t b : ℝ) (h : Spans S l r t b) : IsBoundingBox S ⟨some l, some t, r - l, b - t⟩ := by
  obtain ⟨h0, ⟨p1, m1, e1⟩, ⟨p2, m2, e2⟩, ⟨p3, m3, e3⟩, ⟨p4, m4, e4⟩⟩ := h
  constructor
  · intro p hp
    obtain ⟨a, b', c, d⟩ := h0 p hp
    exact ⟨l, t, rfl, rfl, a, by simpa using b', c, by simpa using d⟩
  · rintro x1 x2 y1 y2 hb p ⟨x, y, ex, ey, a1, a2, a3, a4⟩
    cases ex; cases ey
    simp only [add_sub_cancel] at a2 a4
    have := hb p1 m1
    have := hb p2 m2
    have := hb p3 m3
    have := hb p4 m4
    refine ⟨?_, ?_, ?_, ?_⟩ <;> linarith

/-- A box that bounds a set is given by the bounds of the set. -/
theorem box_of_spans (S : Set Pt) (l r t b : ℝ) (box : DRect ℝ) (h : Spans S l r t b) (ha : Accum box) (hb : IsBoundingBox S box) :
    box = ⟨some l, some t, r - l, b - t⟩ := by
  obtain ⟨k1, k2⟩ := spans_box S l r t b h
  obtain ⟨h0, ⟨p1, m1, e1⟩, ⟨p2, m2, e2⟩, ⟨p3, m3, e3⟩, ⟨p4, m4, e4⟩⟩ := h
  obtain ⟨x0, y0, w0, hh0⟩ := box
  rcases ha with ha | ⟨ax, ay, aw, ah⟩
  · exfalso
    obtain ⟨x, y, ex, -⟩ := hb.1 p1 m1
    rw [ha] at ex
    cases ex
  · obtain ⟨x, rfl⟩ := Option.isSome_iff_exists.1 ax
    obtain ⟨y, rfl⟩ := Option.isSome_iff_exists.1 ay
    simp only at aw ah
    have inn : ∀ p ∈ S, x ≤ p.1 ∧ p.1 ≤ x + w0 ∧ y ≤ p.2 ∧ p.2 ≤ y + hh0 := by
      intro p hp
      obtain ⟨x', y', ex, ey, k⟩ := hb.1 p hp
      cases ex; cases ey
      exact k
    have c1 := hb.2 l r t b h0 (x, y) ⟨x, y, rfl, rfl, by simp [aw, ah]⟩
    have c2 := hb.2 l r t b h0 (x + w0, y + hh0) ⟨x, y, rfl, rfl, by simp [aw, ah]⟩
    have d1 := inn p1 m1
    have d2 := inn p2 m2
    have d3 := inn p3 m3
    have d4 := inn p4 m4
    simp only at c1 c2
    have f1 : x = l := by linarith
    have f2 : y = t := by linarith
    have f3 : w0 = r - l := by linarith
    have f4 : hh0 = b - t := by linarith
    rw [f1, f2, f3, f4]

/-! ### Curves in boxes -/

theorem cubic_within (a b c d lo hi t : ℝ) (ht : t ∈ Icc (0:ℝ) 1) (ha : lo ≤ a ∧ a ≤ hi) (hb : lo ≤ b ∧ b ≤ hi)
    (hc : lo ≤ c ∧ c ≤ hi) (hd : lo ≤ d ∧ d ≤ hi) :
    lo ≤ (1 - t) ^ 3 * a + 3 * (1 - t) ^ 2 * t * b + 3 * (1 - t) * t ^ 2 * c + t ^ 3 * d ∧
      (1 - t) ^ 3 * a + 3 * (1 - t) ^ 2 * t * b + 3 * (1 - t) * t ^ 2 * c + t ^ 3 * d ≤ hi := by
  obtain ⟨h0, h1⟩ := ht
  have h1' : 0 ≤ 1 - t := by linarith
  have w1 : 0 ≤ (1 - t) ^ 3 := by positivity
  have w2 : 0 ≤ 3 * (1 - t) ^ 2 * t := by positivity
  have w3 : 0 ≤ 3 * (1 - t) * t ^ 2 := by positivity
  have w4 : 0 ≤ t ^ 3 := by positivity
  have s : (1 - t) ^ 3 + 3 * (1 - t) ^ 2 * t + 3 * (1 - t) * t ^ 2 + t ^ 3 = 1 := by ring
  generalize (1 - t) ^ 3 = A at *
  generalize 3 * (1 - t) ^ 2 * t = B at *
  generalize 3 * (1 - t) * t ^ 2 = C at *
  generalize t ^ 3 = D at *
  constructor
  · have : lo = A * lo + B * lo + C * lo + D * lo := by linear_combination (-lo) * s
    rw [this]
    have := mul_le_mul_of_nonneg_left ha.1 w1
    have := mul_le_mul_of_nonneg_left hb.1 w2
    have := mul_le_mul_of_nonneg_left hc.1 w3
    have := mul_le_mul_of_nonneg_left hd.1 w4
    linarith
  · have : hi = A * hi + B * hi + C * hi + D * hi := by linear_combination (-hi) * s
    rw [this]
    have := mul_le_mul_of_nonneg_left ha.2 w1
    have := mul_le_mul_of_nonneg_left hb.2 w2
    have := mul_le_mul_of_nonneg_left hc.2 w3
    have := mul_le_mul_of_nonneg_left hd.2 w4
    linarith

/-- The point is within the bounds. -/
def Within (l r t b : ℝ) (p : Pt) : Prop := l ≤ p.1 ∧ p.1 ≤ r ∧ t ≤ p.2 ∧ p.2 ≤ b

theorem cubicAt_within (l r t b : ℝ) (p c d q : Pt) (s : ℝ) (hs : s ∈ Icc (0:ℝ) 1) (hp : Within l r t b p) (hc : Within l r t b c)
    (hd : Within l r t b d) (hq : Within l r t b q) : Within l r t b (cubicAt p c d q s) := by
  obtain ⟨a1, a2⟩ := cubic_within p.1 c.1 d.1 q.1 l r s hs ⟨hp.1, hp.2.1⟩ ⟨hc.1, hc.2.1⟩ ⟨hd.1, hd.2.1⟩ ⟨hq.1, hq.2.1⟩
  obtain ⟨a3, a4⟩ := cubic_within p.2 c.2 d.2 q.2 t b s hs hp.2.2 hc.2.2 hd.2.2 hq.2.2
  exact ⟨a1, a2, a3, a4⟩

theorem lineAt_within (l r t b : ℝ) (p q : Pt) (s : ℝ) (hs : s ∈ Icc (0:ℝ) 1) (hp : Within l r t b p) (hq : Within l r t b q) :
    Within l r t b (lineAt p q s) := by
  obtain ⟨h0, h1⟩ := hs
  obtain ⟨a1, a2, a3, a4⟩ := hp
  obtain ⟨b1, b2, b3, b4⟩ := hq
  have h1' : 0 ≤ 1 - s := by linarith
  refine ⟨?_, ?_, ?_, ?_⟩ <;> simp only [lineAt]
  · have := mul_le_mul_of_nonneg_left a1 h1'
    have := mul_le_mul_of_nonneg_left b1 h0
    linarith
  · have := mul_le_mul_of_nonneg_left a2 h1'
    have := mul_le_mul_of_nonneg_left b2 h0
    linarith
  · have := mul_le_mul_of_nonneg_left a3 h1'
    have := mul_le_mul_of_nonneg_left b3 h0
    linarith
  · have := mul_le_mul_of_nonneg_left a4 h1'
    have := mul_le_mul_of_nonneg_left b4 h0
    linarith

theorem zero_mem_unit : (0:ℝ) ∈ Icc (0:ℝ) 1 := by constructor <;> norm_num
theorem one_mem_unit : (1:ℝ) ∈ Icc (0:ℝ) 1 := by constructor <;> norm_num

/-- The ends of a curve whose ends differ in both coordinates count. -/
theorem cubic_kept (p c d q : Pt) (h1 : p.1 ≠ q.1) (h2 : p.2 ≠ q.2) : p ∈ kept (cubicAt p c d q) ∧ q ∈ kept (cubicAt p c d q) := by
  have e0 : cubicAt p c d q 0 = p := by simp [cubicAt]
  have e1 : cubicAt p c d q 1 = q := by simp [cubicAt]
  have nf : ¬ Flat (cubicAt p c d q) := by
    rintro (⟨x, hx⟩ | ⟨y, hy⟩)
    · have a := hx 0 zero_mem_unit
      have b := hx 1 one_mem_unit
      rw [e0] at a; rw [e1] at b
      exact h1 (a.trans b.symm)
    · have a := hy 0 zero_mem_unit
      have b := hy 1 one_mem_unit
      rw [e0] at a; rw [e1] at b
      exact h2 (a.trans b.symm)
  exact ⟨⟨⟨0, zero_mem_unit, e0⟩, fun h => absurd h nf⟩, ⟨⟨1, one_mem_unit, e1⟩, fun h => absurd h nf⟩⟩

/-- Of a line that runs to the right or down, the first end counts. -/
theorem line_kept_first (p q : Pt) (h1 : p.1 ≤ q.1) (h2 : p.2 ≤ q.2) : p ∈ kept (lineAt p q) := by
  refine ⟨⟨0, zero_mem_unit, by simp [lineAt]⟩, fun _ t ht => ?_⟩
  obtain ⟨h0, h1'⟩ := ht
  simp only [lineAt]
  constructor <;> nlinarith

theorem line_kept_last (p q : Pt) (h1 : q.1 ≤ p.1) (h2 : q.2 ≤ p.2) : q ∈ kept (lineAt p q) := by
  refine ⟨⟨1, one_mem_unit, by simp [lineAt]⟩, fun _ t ht => ?_⟩
  obtain ⟨h0, h1'⟩ := ht
  simp only [lineAt]
  constructor <;> nlinarith

/-! ### Quarters of ellipses -/

/-- The distance of the control points. -/
noncomputable def kappa : ℝ := 4 / 3 * (√2 - 1)

theorem kappa_pos : 0 < kappa := by
  have : (1:ℝ) < √2 := Real.lt_sqrt_of_sq_lt (by norm_num)
  unfold kappa; linarith

theorem kappa_le : kappa ≤ 1 := by
  have : √2 ≤ (1.5 : ℝ) := Real.sqrt_le_iff.2 (by norm_num)
  unfold kappa; linarith

/-- A clockwise quarter of an ellipse from the direction `(a,b)` is one curve. -/
theorem quarter_curve (cx cy rx ry a b : ℝ) (hx : 0 < rx) (hy : 0 < ry) (hab : a ^ 2 + b ^ 2 = 1) (h0 : a * b = 0)
    (hc : ClearArc (.arc (cx + rx * a, cy + ry * b) rx ry 0 0 1 (cx - rx * b, cy + ry * a))) :
    arcCurves rx ry 0 0 1 (cx + rx * a, cy + ry * b) (cx - rx * b, cy + ry * a) =
      .ok [.curve false (cx + rx * (a - kappa * b)) (cy + ry * (b + kappa * a)) (cx - rx * (b - kappa * a)) (cy + ry * (a + kappa * b))
        (cx - rx * b) (cy + ry * a)] := by
  have pi := Real.pi_pos
  set p : Pt := (cx + rx * a, cy + ry * b) with hp
  set q : Pt := (cx - rx * b, cy + ry * a) with hq
  have s1 : (a + b) ^ 2 = 1 := by linear_combination hab + 2 * h0
  have s2 : (b - a) ^ 2 = 1 := by linear_combination hab - 2 * h0
  have A : ∀ z : ℝ, z ^ 2 = 1 → |z| = 1 := by
    intro z hz
    have h := abs_nonneg z
    rw [← sq_abs] at hz
    nlinarith
  have hreg := ArcCurves.quarter_regular p q rx ry 0 1
    (by rw [hp, hq]; simp only; rw [show cx + rx * a - (cx - rx * b) = rx * (a + b) by ring, abs_mul, A _ s1, mul_one])
    (by rw [hp, hq]; simp only; rw [show cy + ry * b - (cy + ry * a) = ry * (b - a) by ring, abs_mul, A _ s2, mul_one]) hc
  have hsome := ArcCurves.regular_some _ _ _ _ _ _ _ hreg
  have hang := ArcCurves.regular_angles _ _ _ _ _ _ _ hreg
  obtain ⟨⟨c, d1, d2, e⟩, hcen⟩ := Option.ne_none_iff_exists'.1 hsome
  obtain ⟨b1, b2⟩ := hang c d1 d2 e hcen
  obtain ⟨-, -, -, -, a5, -⟩ := arc_on_ellipse rx ry 0 0 1 p q c d1 d2 e hcen
  obtain ⟨-, -, -, f1, -, -, f4⟩ := arc_extent rx ry 0 0 1 p q c d1 d2 e hcen
  have hL : LargeEnough |rx| |ry| 0 p q := by
    simp only [LargeEnough, abs_of_pos hx, abs_of_pos hy, zero_mul, zero_div, Real.cos_zero, Real.sin_zero, mul_one, mul_zero,
      add_zero, sub_zero, hp, hq]
    have : ((cx + rx * a - (cx - rx * b)) / 2 / rx) ^ 2 + ((cy + ry * b - (cy + ry * a)) / 2 / ry) ^ 2 = 1 / 2 := by
      field_simp
      linear_combination 2 * rx ^ 2 * ry ^ 2 * hab
    rw [this]; norm_num
  obtain ⟨r1, r2⟩ := a5 hL
  rw [abs_of_pos hx] at r1
  rw [abs_of_pos hy] at r2
  rw [r1, r2, ellipsePoint_flat] at b1 b2
  obtain ⟨g1, g2⟩ := f1 one_ne_zero
  have g3 := f4 rfl
  rw [hp, Prod.mk.injEq] at b1
  rw [hq, Prod.mk.injEq] at b2
  have et : Real.cos (radians d1) = a - (c.1 - cx) / rx := by
    have := b1.1; rw [Real.cos_neg] at this; field_simp; linarith
  have et' : Real.sin (radians d1) = -(b - (c.2 - cy) / ry) := by
    have := b1.2; rw [Real.sin_neg] at this; field_simp; linarith
  have eu : Real.cos (radians (d1 + e)) = -b - (c.1 - cx) / rx := by
    have := b2.1; rw [Real.cos_neg] at this; field_simp; linarith
  have eu' : Real.sin (radians (d1 + e)) = -(a - (c.2 - cy) / ry) := by
    have := b2.2; rw [Real.sin_neg] at this; field_simp; linarith
  have k1 := Real.cos_sq_add_sin_sq (radians d1)
  have k2 := Real.cos_sq_add_sin_sq (radians (d1 + e))
  rw [et, et', neg_sq] at k1
  rw [eu, eu', neg_sq] at k2
  have re : radians (d1 + e) - radians d1 = radians e := by simp only [radians]; ring
  have hr0 : radians e < 0 := by simp only [radians]; nlinarith
  have hr1 : -Real.pi ≤ radians e := by
    have := (abs_le.1 g3).1
    simp only [radians]; nlinarith
  have hsin : Real.sin (radians e) ≤ 0 := Real.sin_nonpos_of_nonpos_of_neg_pi_le hr0.le hr1
  rcases two_circles a b _ _ hab k1 k2 with ⟨hm, hn⟩ | ⟨hm, hn⟩
  · rw [hm, sub_zero] at et eu
    rw [hn, sub_zero] at et' eu'
    have hc1 : c.1 = cx := by
      rcases div_eq_zero_iff.1 hm with h | h
      · linarith
      · exact absurd h hx.ne'
    have hc2 : c.2 = cy := by
      rcases div_eq_zero_iff.1 hn with h | h
      · linarith
      · exact absurd h hy.ne'
    have hcc : c = (cx, cy) := Prod.ext hc1 hc2
    have hcos : Real.cos (radians e) = 0 := by rw [← re, Real.cos_sub, et, et', eu, eu']; ring
    have hre : radians e = -(Real.pi / 2) := by
      have := Real.arccos_cos (x := -radians e) (by linarith) (by linarith)
      rw [Real.cos_neg, hcos, Real.arccos_zero] at this
      linarith
    have he : e = -90 := by
      simp only [radians] at hre
      have : e * Real.pi = -90 * Real.pi := by linarith
      exact mul_right_cancel₀ pi.ne' this
    have hn1 : ⌈|(-90 : ℝ)| / 90⌉₊ = 1 := by norm_num
    have h2 : √2 * √2 = 2 := Real.mul_self_sqrt (by norm_num)
    have eh : -(Real.pi / 2) / 2 = -(Real.pi / 4) := by ring
    have el : 4 / 3 * Real.sin (-(Real.pi / 4)) / (1 + Real.cos (-(Real.pi / 4))) = -kappa := by
      rw [Real.sin_neg, Real.cos_neg, Real.sin_pi_div_four, Real.cos_pi_div_four, div_eq_iff (by positivity), kappa]
      linear_combination (2 / 3) * h2
    have hm' : ∀ x y : ℝ, (pair (transformPoint (arcMatrix (cx, cy) 0 rx ry) x y 0 1)).1 = cx + rx * x ∧
        -(pair (transformPoint (arcMatrix (cx, cy) 0 rx ry) x y 0 1)).2 = cy - ry * y := by
      intro x y
      have := ArcCurves.arcMatrix_img (cx, cy) rx ry 0 x y
      rw [Prod.mk.injEq] at this
      refine ⟨this.1.trans ?_, this.2.trans ?_⟩ <;> simp [ArcCurves.img]
      ring
    rw [arcCurves, hcen, r1, r2, hcc]
    subst he
    simp only [hn1, one_ne_zero, if_false, List.range_one, List.map_cons, List.map_nil, Nat.cast_one, div_one, hre, eh, el]
    have ex : Real.cos (radians d1 + ((0 : ℕ) : ℝ) * -(Real.pi / 2)) = a := by rw [Nat.cast_zero, zero_mul, add_zero, et]
    have ey : Real.sin (radians d1 + ((0 : ℕ) : ℝ) * -(Real.pi / 2)) = -b := by rw [Nat.cast_zero, zero_mul, add_zero, et']
    have ez : radians d1 + ((0 : ℕ) : ℝ) * -(Real.pi / 2) + -(Real.pi / 2) = radians (d1 + -90) := by
      rw [Nat.cast_zero]; simp only [radians]; ring
    simp only [arcPiece, (hm' _ _).1, (hm' _ _).2, ex, ey, ez, eu, eu', zero_add, if_true, hq, neg_neg]
    congr 3
    · ring
    · ring
    · ring
    · ring
  · exfalso
    rw [hm] at et eu
    rw [hn] at et' eu'
    have : Real.sin (radians e) = 1 := by
      rw [← re, Real.sin_sub, et, et', eu, eu']
      linear_combination hab
    linarith

/-! ### Circles and ellipses -/

/-- The normalised path data of a circle or ellipse. -/
theorem round_settled (g : Round) (hx : 0 < g.rx) (hy : 0 < g.ry) (hc : ∀ a ∈ Pen.new.draw (roundData g), ClearArc a) :
    PathGeom.normalize (roundData g) = .ok [.move false (g.cx + g.rx) g.cy,
      .curve false (g.cx + g.rx) (g.cy + g.ry * kappa) (g.cx + g.rx * kappa) (g.cy + g.ry) g.cx (g.cy + g.ry),
      .curve false (g.cx - g.rx * kappa) (g.cy + g.ry) (g.cx - g.rx) (g.cy + g.ry * kappa) (g.cx - g.rx) g.cy,
      .curve false (g.cx - g.rx) (g.cy - g.ry * kappa) (g.cx - g.rx * kappa) (g.cy - g.ry) g.cx (g.cy - g.ry),
      .curve false (g.cx + g.rx * kappa) (g.cy - g.ry) (g.cx + g.rx) (g.cy - g.ry * kappa) (g.cx + g.rx) g.cy,
      .close false] := by
  rw [round_pieces g hx hy] at hc
  simp only [List.forall_mem_cons] at hc
  obtain ⟨-, c1, c2, c3, c4, -⟩ := hc
  have q1 := quarter_curve g.cx g.cy g.rx g.ry 1 0 hx hy (by norm_num) (by norm_num) (by simpa using c1)
  have q2 := quarter_curve g.cx g.cy g.rx g.ry 0 1 hx hy (by norm_num) (by norm_num) (by simpa using c2)
  have q3 := quarter_curve g.cx g.cy g.rx g.ry (-1) 0 hx hy (by norm_num) (by norm_num) (by simpa [← sub_eq_add_neg] using c3)
  have q4 := quarter_curve g.cx g.cy g.rx g.ry 0 (-1) hx hy (by norm_num) (by norm_num) (by simpa [← sub_eq_add_neg] using c4)
  simp only [mul_one, mul_zero, add_zero, sub_zero, mul_neg, sub_neg_eq_add, zero_add, zero_sub, neg_add_rev, neg_neg, neg_zero,
    ← sub_eq_add_neg] at q1 q2 q3 q4
  have h : ¬ (g.rx ≤ 0 ∨ g.ry ≤ 0) := by rintro (h | h) <;> linarith
  simp [roundData, h, PathGeom.normalize, normalizeFrom, Seg.kind, normalizeStep, normalizeSeg, Seg.rel, lastEnd, endPt, movePoints, known,
    toAbs, normalizeAbs, orZero, q1, q2, q3, q4]

/-- **C84** The bounding box computed from the normalised path data of a circle or ellipse, whose
size exceeds the tolerance of the code, has its centre at the centre and the diameters as its
sizes; it is the smallest box around the circle or ellipse. -/
theorem round_box (g : Round) (hx : 0 < g.rx) (hy : 0 < g.ry) (hc : ∀ a ∈ Pen.new.draw (roundData g), ClearArc a) :
    ∃ d, PathGeom.normalize (roundData g) = .ok d ∧ bbox d = .ok ⟨some (g.cx - g.rx), some (g.cy - g.ry), 2 * g.rx, 2 * g.ry⟩ ∧
      IsBoundingBox {z | OnRound g.cx g.cy g.rx g.ry z} ⟨some (g.cx - g.rx), some (g.cy - g.ry), 2 * g.rx, 2 * g.ry⟩ := by
  refine ⟨_, round_settled g hx hy hc, ?_, ?_⟩
  · obtain ⟨r, e1, e2, e3⟩ := bbox_exact (g.cx + g.rx) g.cy
      [.curve false (g.cx + g.rx) (g.cy + g.ry * kappa) (g.cx + g.rx * kappa) (g.cy + g.ry) g.cx (g.cy + g.ry),
      .curve false (g.cx - g.rx * kappa) (g.cy + g.ry) (g.cx - g.rx) (g.cy + g.ry * kappa) (g.cx - g.rx) g.cy,
      .curve false (g.cx - g.rx) (g.cy - g.ry * kappa) (g.cx - g.rx * kappa) (g.cy - g.ry) g.cx (g.cy - g.ry),
      .curve false (g.cx + g.rx * kappa) (g.cy - g.ry) (g.cx + g.rx) (g.cy - g.ry * kappa) (g.cx + g.rx) g.cy,
      .close false] (by simp [Plain, Seg.rel, Seg.kind])
    rw [e1]
    congr 1
    have kp := kappa_pos
    have kl := kappa_le
    have x1 : 0 ≤ g.rx * kappa := by positivity
    have x2 : g.rx * kappa ≤ g.rx := by nlinarith
    have y1 : 0 ≤ g.ry * kappa := by positivity
    have y2 : g.ry * kappa ≤ g.ry := by nlinarith
    rw [box_of_spans _ (g.cx - g.rx) (g.cx + g.rx) (g.cy - g.ry) (g.cy + g.ry) r ?_ e2 e3]
    · congr 1 <;> ring
    · simp only [Pen.draw, Pen.step, Pen.new, Pen.at, strokes, List.append_nil, List.cons_append, List.nil_append, Bool.false_eq_true,
        if_false, List.mem_cons, List.not_mem_nil, or_false, exists_eq_or_imp, exists_eq_left]
      refine ⟨?_, ?_, ?_, ?_, ?_⟩
      · rintro p (hp | hp | hp | hp | hp | hp)
        · rw [mem_singleton_iff.1 hp]; simp only
          refine ⟨?_, ?_, ?_, ?_⟩ <;> linarith
        · obtain ⟨⟨s, hs, rfl⟩, -⟩ := hp
          apply cubicAt_within _ _ _ _ _ _ _ _ _ hs <;> refine ⟨?_, ?_, ?_, ?_⟩ <;> simp only <;> linarith
        · obtain ⟨⟨s, hs, rfl⟩, -⟩ := hp
          apply cubicAt_within _ _ _ _ _ _ _ _ _ hs <;> refine ⟨?_, ?_, ?_, ?_⟩ <;> simp only <;> linarith
        · obtain ⟨⟨s, hs, rfl⟩, -⟩ := hp
          apply cubicAt_within _ _ _ _ _ _ _ _ _ hs <;> refine ⟨?_, ?_, ?_, ?_⟩ <;> simp only <;> linarith
        · obtain ⟨⟨s, hs, rfl⟩, -⟩ := hp
          apply cubicAt_within _ _ _ _ _ _ _ _ _ hs <;> refine ⟨?_, ?_, ?_, ?_⟩ <;> simp only <;> linarith
        · obtain ⟨⟨s, hs, rfl⟩, -⟩ := hp
          apply lineAt_within _ _ _ _ _ _ _ hs <;> refine ⟨?_, ?_, ?_, ?_⟩ <;> simp only <;> linarith
      · exact ⟨_, .inr (.inr (.inl (cubic_kept _ _ _ _ (by simp; linarith) (by simp; linarith)).2)), rfl⟩
      · exact ⟨_, .inl rfl, rfl⟩
      · exact ⟨_, .inr (.inr (.inr (.inl (cubic_kept _ _ _ _ (by simp; linarith) (by simp; linarith)).2))), rfl⟩
      · exact ⟨_, .inr (.inl (cubic_kept _ _ _ _ (by simp; linarith) (by simp; linarith)).2), rfl⟩
  · have := spans_box {z | OnRound g.cx g.cy g.rx g.ry z} (g.cx - g.rx) (g.cx + g.rx) (g.cy - g.ry) (g.cy + g.ry) ?_
    · convert this using 2 <;> ring
    · refine ⟨?_, ⟨(g.cx - g.rx, g.cy), ?_, rfl⟩, ⟨(g.cx + g.rx, g.cy), ?_, rfl⟩, ⟨(g.cx, g.cy - g.ry), ?_, rfl⟩, ⟨(g.cx, g.cy + g.ry), ?_, rfl⟩⟩
      · intro p hp
        have hp : ((p.1 - g.cx) / g.rx) ^ 2 + ((p.2 - g.cy) / g.ry) ^ 2 = 1 := hp
        have h1 : |(p.1 - g.cx) / g.rx| ≤ 1 := by
          rw [← sq_le_one_iff_abs_le_one]; nlinarith [sq_nonneg ((p.2 - g.cy) / g.ry)]
        have h2 : |(p.2 - g.cy) / g.ry| ≤ 1 := by
          rw [← sq_le_one_iff_abs_le_one]; nlinarith [sq_nonneg ((p.1 - g.cx) / g.rx)]
        rw [abs_div, abs_of_pos hx, div_le_one hx, abs_le] at h1
        rw [abs_div, abs_of_pos hy, div_le_one hy, abs_le] at h2
        refine ⟨?_, ?_, ?_, ?_⟩ <;> linarith [h1.1, h1.2, h2.1, h2.2]
      all_goals simp [OnRound, hx.ne', hy.ne', neg_div]

/-! ### Rectangles -/

/-- The normalised path data of a rectangle without round corners. -/
theorem square_settled (g : Box) (hw : 0 < g.w) (hh : 0 < g.h) (hr : g.rx ≤ 0 ∨ g.ry ≤ 0) :
    PathGeom.normalize (rectData g) = .ok [.move false g.x g.y, .line false (g.x + g.w) g.y, .line false (g.x + g.w) (g.y + g.h),
      .line false g.x (g.y + g.h), .line false g.x g.y, .close false] := by
  have h : ¬ (g.w ≤ 0 ∨ g.h ≤ 0) := by rintro (h | h) <;> linarith
  simp [rectData, h, hr, PathGeom.normalize, normalizeFrom, Seg.kind, normalizeStep, normalizeSeg, Seg.rel, lastEnd, endPt, movePoints, known,
    toAbs, normalizeAbs, orZero]

/-- The normalised path data of a rectangle with round corners. -/
theorem rounded_settled (g : Box) (hx : 0 < g.rx) (hy : 0 < g.ry) (hw : g.rx ≤ g.w / 2) (hh : g.ry ≤ g.h / 2)
    (hc : ∀ a ∈ Pen.new.draw (rectData g), ClearArc a) :
    PathGeom.normalize (rectData g) = .ok [.move false (g.x + g.rx) g.y, .line false (g.x + g.w - g.rx) g.y,
      .curve false (g.x + g.w - g.rx + g.rx * kappa) g.y (g.x + g.w) (g.y + g.ry - g.ry * kappa) (g.x + g.w) (g.y + g.ry),
      .line false (g.x + g.w) (g.y + g.h - g.ry),
      .curve false (g.x + g.w) (g.y + g.h - g.ry + g.ry * kappa) (g.x + g.w - g.rx + g.rx * kappa) (g.y + g.h) (g.x + g.w - g.rx) (g.y + g.h),
      .line false (g.x + g.rx) (g.y + g.h),
      .curve false (g.x + g.rx - g.rx * kappa) (g.y + g.h) g.x (g.y + g.h - g.ry + g.ry * kappa) g.x (g.y + g.h - g.ry),
      .line false g.x (g.y + g.ry),
      .curve false g.x (g.y + g.ry - g.ry * kappa) (g.x + g.rx - g.rx * kappa) g.y (g.x + g.rx) g.y, .close false] := by
  rw [rounded_pieces g hx hy hw hh] at hc
  simp only [List.forall_mem_cons] at hc
  obtain ⟨-, -, c1, -, c2, -, c3, -, c4, -⟩ := hc
  have q1 := quarter_curve (g.x + g.w - g.rx) (g.y + g.ry) g.rx g.ry 0 (-1) hx hy (by norm_num) (by norm_num) (by simpa using c1)
  have q2 := quarter_curve (g.x + g.w - g.rx) (g.y + g.h - g.ry) g.rx g.ry 1 0 hx hy (by norm_num) (by norm_num) (by simpa using c2)
  have q3 := quarter_curve (g.x + g.rx) (g.y + g.h - g.ry) g.rx g.ry 0 1 hx hy (by norm_num) (by norm_num) (by simpa using c3)
  have q4 := quarter_curve (g.x + g.rx) (g.y + g.ry) g.rx g.ry (-1) 0 hx hy (by norm_num) (by norm_num) (by simpa using c4)
  simp only [mul_one, mul_zero, add_zero, sub_zero, mul_neg, sub_neg_eq_add, zero_add, zero_sub, neg_add_rev, neg_neg, neg_zero,
    ← sub_eq_add_neg, sub_add_cancel, add_sub_cancel_right] at q1 q2 q3 q4
  have h : ¬ (g.w ≤ 0 ∨ g.h ≤ 0) := by rintro (h | h) <;> linarith
  have h' : ¬ (g.rx ≤ 0 ∨ g.ry ≤ 0) := by rintro (h | h) <;> linarith
  simp [rectData, h, h', PathGeom.normalize, normalizeFrom, Seg.kind, normalizeStep, normalizeSeg, Seg.rel, lastEnd, endPt, movePoints, known,
    toAbs, normalizeAbs, orZero, q1, q2, q3, q4]

theorem border_spans (x y w h : ℝ) (hw : 0 < w) (hh : 0 < h) : Spans {z | OnBorder x y w h z} x (x + w) y (y + h) := by
  have c1 : OnBorder x y w h (x, y) := by simp [OnBorder, hw.le, hh.le]
  have c2 : OnBorder x y w h (x + w, y + h) := by simp [OnBorder, hw.le, hh.le]
  exact ⟨fun p hp => ⟨hp.1, hp.2.1, hp.2.2.1, hp.2.2.2.1⟩, ⟨_, c1, rfl⟩, ⟨_, c2, rfl⟩, ⟨_, c1, rfl⟩, ⟨_, c2, rfl⟩⟩

theorem beyond_le (lo hi v r : ℝ) (h : lo ≤ hi) (hr : 0 < r) (k : (beyond lo hi v / r) ^ 2 ≤ 1) : lo - r ≤ v ∧ v ≤ hi + r := by
  have h0 : 0 ≤ beyond lo hi v := le_max_left _ _
  have h1 : beyond lo hi v / r ≤ 1 := by
    have := div_nonneg h0 hr.le
    nlinarith
  rw [div_le_one hr] at h1
  have h2 : lo - v ≤ beyond lo hi v := (le_max_left _ _).trans (le_max_right _ _)
  have h3 : v - hi ≤ beyond lo hi v := (le_max_right _ _).trans (le_max_right _ _)
  constructor <;> linarith

theorem rounded_spans (x y w h rx ry : ℝ) (hx : 0 < rx) (hy : 0 < ry) (hw : rx ≤ w / 2) (hh : ry ≤ h / 2) :
    Spans {z | OnRoundedBorder x y w h rx ry z} x (x + w) y (y + h) := by
  refine ⟨?_, ⟨(x, y + ry), ?_, rfl⟩, ⟨(x + w, y + ry), ?_, rfl⟩, ⟨(x + rx, y), ?_, rfl⟩, ⟨(x + rx, y + h), ?_, rfl⟩⟩
  · intro p hp
    have hp : (beyond (x + rx) (x + w - rx) p.1 / rx) ^ 2 + (beyond (y + ry) (y + h - ry) p.2 / ry) ^ 2 = 1 := hp
    have k1 := beyond_le (x + rx) (x + w - rx) p.1 rx (by linarith) hx (by nlinarith [sq_nonneg (beyond (y + ry) (y + h - ry) p.2 / ry)])
    have k2 := beyond_le (y + ry) (y + h - ry) p.2 ry (by linarith) hy (by nlinarith [sq_nonneg (beyond (x + rx) (x + w - rx) p.1 / rx)])
    refine ⟨?_, ?_, ?_, ?_⟩ <;> linarith [k1.1, k1.2, k2.1, k2.2]
  · show (beyond (x + rx) (x + w - rx) x / rx) ^ 2 + (beyond (y + ry) (y + h - ry) (y + ry) / ry) ^ 2 = 1
    rw [beyond_low _ _ _ (by linarith) (by linarith), beyond_mid _ _ _ (by linarith) (by linarith)]
    simp [hx.ne']
  · show (beyond (x + rx) (x + w - rx) (x + w) / rx) ^ 2 + (beyond (y + ry) (y + h - ry) (y + ry) / ry) ^ 2 = 1
    rw [beyond_high _ _ _ (by linarith) (by linarith), beyond_mid _ _ _ (by linarith) (by linarith)]
    simp [hx.ne']
  · show (beyond (x + rx) (x + w - rx) (x + rx) / rx) ^ 2 + (beyond (y + ry) (y + h - ry) y / ry) ^ 2 = 1
    rw [beyond_mid _ _ _ (by linarith) (by linarith), beyond_low _ _ _ (by linarith) (by linarith)]
    simp [hy.ne']
  · show (beyond (x + rx) (x + w - rx) (x + rx) / rx) ^ 2 + (beyond (y + ry) (y + h - ry) (y + h) / ry) ^ 2 = 1
    rw [beyond_mid _ _ _ (by linarith) (by linarith), beyond_high _ _ _ (by linarith) (by linarith)]
    simp [hy.ne']

theorem square_bbox (x y w h : ℝ) (hw : 0 < w) (hh : 0 < h) :
    bbox [.move false x y, .line false (x + w) y, .line false (x + w) (y + h), .line false x (y + h), .line false x y, .close false] =
      .ok ⟨some x, some y, w, h⟩ := by
  obtain ⟨r, e1, e2, e3⟩ := bbox_exact x y
    [.line false (x + w) y, .line false (x + w) (y + h), .line false x (y + h), .line false x y, .close false]
    (by simp [Plain, Seg.rel, Seg.kind])
  rw [e1]
  congr 1
  rw [box_of_spans _ x (x + w) y (y + h) r ?_ e2 e3]
  · congr 1 <;> ring
  · simp only [Pen.draw, Pen.step, Pen.new, Pen.at, Pen.lineTo, strokes, List.append_nil, List.cons_append, List.nil_append, Bool.false_eq_true,
      if_false, List.mem_cons, List.not_mem_nil, or_false, exists_eq_or_imp, exists_eq_left]
    refine ⟨?_, ⟨(x, y), .inl rfl, rfl⟩,
      ⟨_, .inr (.inr (.inl (line_kept_first _ _ (by simp) (by simp [hh.le])))), rfl⟩, ⟨(x, y), .inl rfl, rfl⟩,
      ⟨_, .inr (.inr (.inr (.inl (line_kept_last _ _ (by simp [hw.le]) (by simp))))), rfl⟩⟩
    rintro p (hp | hp | hp | hp | hp | hp)
    · rw [mem_singleton_iff.1 hp]; simp only
      refine ⟨?_, ?_, ?_, ?_⟩ <;> linarith
    all_goals
      obtain ⟨⟨s, hs, rfl⟩, -⟩ := hp
      apply lineAt_within _ _ _ _ _ _ _ hs <;> refine ⟨?_, ?_, ?_, ?_⟩ <;> simp only <;> linarith

/-- **C84** The bounding box of a rectangle, with or without round corners (larger than the
tolerance of the code), is the rectangle. -/
theorem rect_box (g : Box) (hw : 0 < g.w) (hh : 0 < g.h) (hx : g.rx ≤ g.w / 2) (hy : g.ry ≤ g.h / 2)
    (hc : ∀ a ∈ Pen.new.draw (rectData g), ClearArc a) :
    ∃ d, PathGeom.normalize (rectData g) = .ok d ∧ bbox d = .ok ⟨some g.x, some g.y, g.w, g.h⟩ := by
  by_cases h' : g.rx ≤ 0 ∨ g.ry ≤ 0
  · exact ⟨_, square_settled g hw hh h', square_bbox g.x g.y g.w g.h hw hh⟩
  · obtain ⟨h1, h2⟩ : 0 < g.rx ∧ 0 < g.ry := by
      rw [not_or, not_le, not_le] at h'; exact h'
    refine ⟨_, rounded_settled g h1 h2 hx hy hc, ?_⟩
    obtain ⟨r, e1, e2, e3⟩ := bbox_exact (g.x + g.rx) g.y [.line false (g.x + g.w - g.rx) g.y,
      .curve false (g.x + g.w - g.rx + g.rx * kappa) g.y (g.x + g.w) (g.y + g.ry - g.ry * kappa) (g.x + g.w) (g.y + g.ry),
      .line false (g.x + g.w) (g.y + g.h - g.ry),
      .curve false (g.x + g.w) (g.y + g.h - g.ry + g.ry * kappa) (g.x + g.w - g.rx + g.rx * kappa) (g.y + g.h) (g.x + g.w - g.rx) (g.y + g.h),
      .line false (g.x + g.rx) (g.y + g.h),
      .curve false (g.x + g.rx - g.rx * kappa) (g.y + g.h) g.x (g.y + g.h - g.ry + g.ry * kappa) g.x (g.y + g.h - g.ry),
      .line false g.x (g.y + g.ry),
      .curve false g.x (g.y + g.ry - g.ry * kappa) (g.x + g.rx - g.rx * kappa) g.y (g.x + g.rx) g.y, .close false]
      (by simp [Plain, Seg.rel, Seg.kind])
    rw [e1]
    congr 1
    have kp := kappa_pos
    have kl := kappa_le
    have x1 : 0 ≤ g.rx * kappa := by positivity
    have x2 : g.rx * kappa ≤ g.rx := by nlinarith
    have y1 : 0 ≤ g.ry * kappa := by positivity
    have y2 : g.ry * kappa ≤ g.ry := by nlinarith
    rw [box_of_spans _ g.x (g.x + g.w) g.y (g.y + g.h) r ?_ e2 e3]
    · congr 1 <;> ring
    · simp only [Pen.draw, Pen.step, Pen.new, Pen.at, Pen.lineTo, strokes, List.append_nil, List.cons_append, List.nil_append, Bool.false_eq_true,
        if_false, List.mem_cons, List.not_mem_nil, or_false, exists_eq_or_imp, exists_eq_left]
      refine ⟨?_, ?_, ?_, ?_, ?_⟩
      · rintro p (hp | hp | hp | hp | hp | hp | hp | hp | hp | hp)
        · rw [mem_singleton_iff.1 hp]; simp only
          refine ⟨?_, ?_, ?_, ?_⟩ <;> linarith
        all_goals obtain ⟨⟨s, hs, rfl⟩, -⟩ := hp
        · apply lineAt_within _ _ _ _ _ _ _ hs <;> refine ⟨?_, ?_, ?_, ?_⟩ <;> simp only <;> linarith
        · apply cubicAt_within _ _ _ _ _ _ _ _ _ hs <;> refine ⟨?_, ?_, ?_, ?_⟩ <;> simp only <;> linarith
        · apply lineAt_within _ _ _ _ _ _ _ hs <;> refine ⟨?_, ?_, ?_, ?_⟩ <;> simp only <;> linarith
        · apply cubicAt_within _ _ _ _ _ _ _ _ _ hs <;> refine ⟨?_, ?_, ?_, ?_⟩ <;> simp only <;> linarith
        · apply lineAt_within _ _ _ _ _ _ _ hs <;> refine ⟨?_, ?_, ?_, ?_⟩ <;> simp only <;> linarith
        · apply cubicAt_within _ _ _ _ _ _ _ _ _ hs <;> refine ⟨?_, ?_, ?_, ?_⟩ <;> simp only <;> linarith
        · apply lineAt_within _ _ _ _ _ _ _ hs <;> refine ⟨?_, ?_, ?_, ?_⟩ <;> simp only <;> linarith
        · apply cubicAt_within _ _ _ _ _ _ _ _ _ hs <;> refine ⟨?_, ?_, ?_, ?_⟩ <;> simp only <;> linarith
        · apply lineAt_within _ _ _ _ _ _ _ hs <;> refine ⟨?_, ?_, ?_, ?_⟩ <;> simp only <;> linarith
      · exact ⟨_, .inr (.inr (.inr (.inr (.inr (.inr (.inl (cubic_kept _ _ _ _ (by simp; linarith) (by simp; linarith)).2)))))), rfl⟩
      · exact ⟨_, .inr (.inr (.inl (cubic_kept _ _ _ _ (by simp; linarith) (by simp; linarith)).2)), rfl⟩
      · exact ⟨_, .inl rfl, rfl⟩
      · exact ⟨_, .inr (.inr (.inr (.inr (.inl (cubic_kept _ _ _ _ (by simp; linarith) (by simp; linarith)).2)))), rfl⟩

/-! ### Elements -/

/-- **C84** The bounding box of a circle element whose attributes are lengths. -/
theorem circle_box (e : Node) (hg : Length.Good e.env) (cx cy r : ℝ)
    (hcx : Pixels e.env .horizontal (e.get "cx".toList (.len 0 .noUnit)) cx)
    (hcy : Pixels e.env .vertical (e.get "cy".toList (.len 0 .noUnit)) cy)
    (hr : Pixels e.env .unspecified (e.get "r".toList (.len 0 .noUnit)) r) (h : 0 < r)
    (hc : ∀ a ∈ Pen.new.draw (roundData ⟨cx, cy, r, r⟩), ClearArc a) :
    ∃ d, (Shape.circle e).data true = .ok d ∧ bbox d = .ok ⟨some (cx - r), some (cy - r), 2 * r, 2 * r⟩ := by
  have e1 : circleGeometry e = .ok ⟨cx, cy, r, r⟩ := by
    simp only [circleGeometry, zero, px_pixels _ _ _ _ hg hcx, px_pixels _ _ _ _ hg hcy, px_pixels _ _ _ _ hg hr, Except.bind]
  obtain ⟨d, h1, h2, -⟩ := round_box ⟨cx, cy, r, r⟩ h h hc
  exact ⟨d, by simp [Shape.data, e1, Except.bind, not_le.2 h, settle, h1], h2⟩

/-- **C84** The bounding box of a rectangle element whose attributes are lengths or keywords. -/
theorem rect_element_box (e : Node) (up : List Node) (hg : ∀ n ∈ e :: up, Length.Good n.env) (x y w h rx ry : ℝ)
    (hx : Pixels e.env .horizontal (e.get "x".toList (.len 0 .noUnit)) x)
    (hy : Pixels e.env .vertical (e.get "y".toList (.len 0 .noUnit)) y)
    (hw : UsedSize "width".toList .horizontal Length.Env.vw (e :: up) w)
    (hh : UsedSize "height".toList .vertical Length.Env.vh (e :: up) h)
    (hr : UsedRadii e.env (e.get "rx".toList .auto) (e.get "ry".toList .auto) rx ry) (hs : 0 < w ∧ 0 < h)
    (hc : ∀ a ∈ Pen.new.draw (rectData ⟨x, y, w, h, min rx (w / 2), min ry (h / 2)⟩), ClearArc a) :
    ∃ d, (Shape.rect e up).data true = .ok d ∧ bbox d = .ok ⟨some x, some y, w, h⟩ := by
  have h0 := hg e (by simp)
  obtain ⟨v1, e1, s1, p1⟩ := used_size _ _ Length.Env.vw (fun e => by simp [Length.size]; ring) e.env h0 _ _ hg hw
  obtain ⟨v2, e2, s2, p2⟩ := used_size _ _ Length.Env.vh (fun e => by simp [Length.size]; ring) e.env h0 _ _ hg hh
  have eg : rectGeometry e up = .ok ⟨x, y, w, h, min rx (w / 2), min ry (h / 2)⟩ := by
    simp only [rectGeometry, s1, s2, p1, p2, Except.bind, rect_radii _ h0 _ _ _ _ _ _ hs.1.le hs.2.le hr, zero,
      px_pixels _ _ _ _ h0 hx, px_pixels _ _ _ _ h0 hy]
  obtain ⟨d, h1, h2⟩ := rect_box ⟨x, y, w, h, min rx (w / 2), min ry (h / 2)⟩ hs.1 hs.2 (min_le_right _ _) (min_le_right _ _) hc
  exact ⟨d, by simp [Shape.data, eg, Except.bind, not_le.2 hs.1, not_le.2 hs.2, settle, h1], h2⟩

/-- A rectangle of 40 by 30 at (5, 6) with the radii 4 and 3 meets the hypotheses. -/
example : ∀ a ∈ Pen.new.draw (rectData ⟨5, 6, 40, 30, 4, 3⟩), ClearArc a := by
  rw [rounded_pieces _ (by norm_num) (by norm_num) (by norm_num) (by norm_num)]
  simp only [List.forall_mem_cons]
  refine ⟨trivial, trivial, ⟨by norm_num, by norm_num, .inr (.inl ?_)⟩, trivial, ⟨by norm_num, by norm_num, .inr (.inl ?_)⟩, trivial,
    ⟨by norm_num, by norm_num, .inr (.inl ?_)⟩, trivial, ⟨by norm_num, by norm_num, .inr (.inl ?_)⟩, trivial, by simp⟩ <;>
    constructor <;> norm_num [abs_of_pos, abs_of_neg]

/-! ### Lines -/

/-- No two points in turn are on a horizontal or vertical line, unless they are equal. -/
def Slanted : List Pt → Prop
  | p :: q :: l => (p = q ∨ p.1 ≠ q.1 ∧ p.2 ≠ q.2) ∧ Slanted (q :: l)
  | _ => True

theorem line_flat_still (p q : Pt) (h : p = q ∨ p.1 ≠ q.1 ∧ p.2 ≠ q.2) : Flat (lineAt p q) → Still (lineAt p q) := by
  rcases h with rfl | ⟨h1, h2⟩
  · intro _
    exact ⟨p, fun t _ => by simp only [lineAt]; exact Prod.ext (by simp only; ring) (by simp only; ring)⟩
  · rintro (⟨x, hx⟩ | ⟨y, hy⟩)
    · have a := hx 0 zero_mem_unit
      have b := hx 1 one_mem_unit
      simp [lineAt] at a b
      exact absurd (a.trans b.symm) h1
    · have a := hy 0 zero_mem_unit
      have b := hy 1 one_mem_unit
      simp [lineAt] at a b
      exact absurd (a.trans b.symm) h2

theorem lines_flat (pen : Pen) (l : List Pt) (h : Slanted (pen.cur :: l)) :
    ∀ f ∈ strokes (pen.draw (linesTo l)), Flat f → Still f := by
  induction l generalizing pen with
  | nil => simp [linesTo, Pen.draw, strokes]
  | cons p l ih =>
    have e : linesTo (p :: l) = .line false p.1 p.2 :: linesTo l := rfl
    rw [e, Pen.draw, strokes_append]
    intro f hf
    rcases List.mem_append.1 hf with hf | hf
    · simp only [Pen.step, Pen.lineTo, Pen.at, strokes, List.mem_singleton, Bool.false_eq_true, if_false] at hf
      rw [hf]
      exact line_flat_still _ _ h.1
    · exact ih _ h.2 f hf

/-- No arc is drawn by lines. -/
theorem lines_strokes (pen : Pen) (l : List Pt) (z : Pt) :
    (∃ a ∈ pen.draw (linesTo l), OnPiece z a) ↔ ∃ f ∈ strokes (pen.draw (linesTo l)), ∃ t ∈ Icc (0:ℝ) 1, z = f t := by
  induction l generalizing pen with
  | nil => simp [linesTo, Pen.draw, strokes]
  | cons p l ih =>
    have e : linesTo (p :: l) = .line false p.1 p.2 :: linesTo l := rfl
    rw [e, Pen.draw, strokes_append]
    simp only [List.mem_append, or_and_right, exists_or, ih]
    simp only [Pen.step, Pen.lineTo, Pen.at, strokes, List.mem_singleton, Bool.false_eq_true, if_false, exists_eq_left, OnPiece]
    refine or_congr_left ?_
    simp only [mem_Icc, and_assoc, eq_comm]

theorem lines_plain (l : List Pt) : ∀ s ∈ linesTo l, Plain s := by
  intro s hs
  obtain ⟨p, -, rfl⟩ := List.mem_map.1 hs
  simp [Plain, Seg.rel, Seg.kind]

/-- **C84** The bounding box of a polyline with at least two points is the smallest box around its
lines, if none of them is horizontal or vertical.  Missing: horizontal and vertical lines, for
which it fails (`line_box_violated`). -/
theorem polyline_box_partial (p q : Pt) (l : List Pt) (h : Slanted (p :: q :: l)) :
    ∃ d r, (Shape.polyline (p :: q :: l)).data true = .ok d ∧ bbox d = .ok r ∧ IsBoundingBox {z | OnChain (p :: q :: l) z} r := by
  have e : polylineData (p :: q :: l) = .move false p.1 p.2 :: linesTo (q :: l) := by simp [polylineData]
  have ep : Pen.new.step (.move false p.1 p.2) = (⟨p, p, .free, 0, true⟩, [.begin p]) := by simp [Pen.step, Pen.new, Pen.at]
  obtain ⟨r, h1, h2⟩ := bbox_contains_partial p.1 p.2 (linesTo (q :: l)) (lines_plain _) (by
    rw [Pen.draw, ep]
    exact lines_flat ⟨p, p, .free, 0, true⟩ (q :: l) h)
  refine ⟨_, r, rfl, by rw [e]; exact h1, ?_⟩
  convert h2 using 1
  have k := fun z => linesTo_drawn ⟨p, p, .free, 0, true⟩ (q :: l) [] z
  simp only [List.append_nil, lines_strokes] at k
  ext z
  rw [Pen.draw, ep]
  simp only [mem_setOf_eq, singleton_union, mem_insert_iff]
  have k' := k z
  simp only [Pen.draw, List.not_mem_nil, false_and, exists_false, or_false] at k'
  show _ ↔ z = p ∨ ∃ f ∈ strokes (Pen.draw ⟨p, p, .free, 0, true⟩ (linesTo (q :: l))), _
  rw [k']
  constructor
  · exact .inr
  · rintro (rfl | hz)
    · exact .inl ⟨0, le_refl _, zero_le_one, by simp, by simp⟩
    · exact hz

/-- A non-trivial instance. -/
example : Slanted [(0, 0), (4, 3), (9, -2), (9, -2)] := by norm_num [Slanted]

/-- **C84** is violated by lines: the box of the horizontal line from (0, 0) to (3, 0) has no
width. -/
theorem line_box_violated : lineData ((0, 0), (3, 0)) = [.move false 0 0, .line false 3 0] ∧
    bbox (lineData ((0, 0), (3, 0))) = .ok ⟨some 0, some 0, 0, 0⟩ ∧
    ¬ IsBoundingBox {z | Between (0, 0) (3, 0) z} (⟨some 0, some 0, 0, 0⟩ : DRect ℝ) := by
  have e : lineData ((0, 0), (3, 0)) = [.move false 0 0, .line false 3 0] := by
    have : ¬ (Length.cmpNum .eq (3 - 0 : ℝ) 0 = true) := by rw [cmpNum_zero]; norm_num
    simp only [lineData, this, Bool.false_and, Bool.false_eq_true, if_false]
  refine ⟨e, ?_, ?_⟩
  · rw [e]
    have h := lineBox_eq (0, 0) (3, 0)
    simp [bbox, bboxFrom, bboxStep, Seg.rel, Seg.kind, segBBox, normalizeSeg, boxLoop, boxStep, Except.map, takeBox, endPt,
      DRect.isvalid, DRect.new, orZero, h, PathGeom.known, DRect.unite, DRect.uniteXY, DRect.contains, DRect.right, DRect.bottom, setCoords]
  · intro h
    obtain ⟨x, y, ex, ey, -, h2, -⟩ := h.1 (3, 0) ⟨1, by norm_num, le_refl _, by norm_num, by norm_num⟩
    cases ex
    norm_num at h2

end SvgPy.ShapeBox
