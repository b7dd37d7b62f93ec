import Verif.Model.Shapes
import Verif.Props.Length
import Verif.Props.PathLength

/-! Properties C80-C82: what the path data of the basic shapes draws. -/

set_option linter.unusedSimpArgs false

namespace SvgPy.Shapes

open SvgPy.Path SvgPy.PathGeom SvgPy.Length SvgPy.PathLength

/-! ### Specification -/

/-- The point `z` is on the arc of the SVG specification from `p` to `q`: the arc runs along an
ellipse with the given radii and rotation (enlarged in proportion if they are too small),
clockwise if the sweep flag is set, over at least half the parameters if the large flag is set
and over at most half of them otherwise. -/
def OnArc (p : Pt) (rx ry rot fa fs : ℝ) (q z : Pt) : Prop :=
  p ≠ q ∧ ∃ c r1 r2 t u s, 0 < r1 ∧ 0 < r2 ∧
    (LargeEnough |rx| |ry| rot p q → r1 = |rx| ∧ r2 = |ry|) ∧
    (¬ LargeEnough |rx| |ry| rot p q → ∃ k, 1 < k ∧ r1 = |rx| * k ∧ r2 = |ry| * k) ∧
    ellipsePoint c r1 r2 rot t = p ∧ ellipsePoint c r1 r2 rot u = q ∧ ellipsePoint c r1 r2 rot s = z ∧
    (fs ≠ 0 → t < u ∧ u < t + 2 * Real.pi ∧ t ≤ s ∧ s ≤ u) ∧
    (fs = 0 → t - 2 * Real.pi < u ∧ u < t ∧ u ≤ s ∧ s ≤ t) ∧
    (fa ≠ 0 → Real.pi ≤ |u - t|) ∧ (fa = 0 → |u - t| ≤ Real.pi)

/-- The point is on a piece of a drawing; beginning a subpath draws nothing. -/
def OnPiece (z : Pt) : Piece → Prop
  | .begin _ => False
  | .draw f => ∃ t, 0 ≤ t ∧ t ≤ 1 ∧ f t = z
  | .close f => ∃ t, 0 ≤ t ∧ t ≤ 1 ∧ f t = z
  | .arc p rx ry rot fa fs q => OnArc p rx ry rot fa fs q z

/-- The point is on the drawing of some path data. -/
def Drawn (d : List (Seg ℝ)) (z : Pt) : Prop := ∃ a ∈ Pen.new.draw d, OnPiece z a

/-- The point is on the straight line between two points. -/
def Between (p q z : Pt) : Prop :=
  ∃ t : ℝ, 0 ≤ t ∧ t ≤ 1 ∧ z.1 = p.1 + t * (q.1 - p.1) ∧ z.2 = p.2 + t * (q.2 - p.2)

/-- The point is on the ellipse with the given centre and radii. -/
def OnRound (cx cy rx ry : ℝ) (z : Pt) : Prop := ((z.1 - cx) / rx) ^ 2 + ((z.2 - cy) / ry) ^ 2 = 1

/-- The point is on the border of the rectangle. -/
def OnBorder (x y w h : ℝ) (z : Pt) : Prop :=
  x ≤ z.1 ∧ z.1 ≤ x + w ∧ y ≤ z.2 ∧ z.2 ≤ y + h ∧ (z.1 = x ∨ z.1 = x + w ∨ z.2 = y ∨ z.2 = y + h)

/-- How far a coordinate is beyond an interval. -/
noncomputable def beyond (lo hi v : ℝ) : ℝ := max 0 (max (lo - v) (v - hi))

/-- The point is on the border of the rectangle with rounded corners: the distance from the
inner rectangle (the rectangle without a margin of the radii), measured in radii, is 1. -/
def OnRoundedBorder (x y w h rx ry : ℝ) (z : Pt) : Prop :=
  (beyond (x + rx) (x + w - rx) z.1 / rx) ^ 2 + (beyond (y + ry) (y + h - ry) z.2 / ry) ^ 2 = 1

/-- The lines that join the points in turn. -/
def OnChain : List Pt → Pt → Prop
  | p :: q :: l, z => Between p q z ∨ OnChain (q :: l) z
  | _, _ => False

/-- The attribute is a length in a known unit that is `x` pixels long. -/
def Pixels (e : Env) (d : Dir) (v : Val) (x : ℝ) : Prop :=
  ∃ n u, v = .len n u ∧ Length.Known u ∧ ¬ Resolution u ∧ x = n * size e (some d) u

/-! ### Quarters of ellipses -/

theorem ellipsePoint_flat (c : Pt) (r1 r2 t : ℝ) : ellipsePoint c r1 r2 0 t = (c.1 + r1 * Real.cos t, c.2 + r2 * Real.sin t) := by
  simp [ellipsePoint]

/-- A circle through the ends of a quarter of the unit circle is that circle or its mirror
image. -/
theorem two_circles (a b m n : ℝ) (hab : a ^ 2 + b ^ 2 = 1) (h1 : (a - m) ^ 2 + (b - n) ^ 2 = 1)
    (h2 : (-b - m) ^ 2 + (a - n) ^ 2 = 1) : (m = 0 ∧ n = 0) ∨ (m = a - b ∧ n = a + b) := by
  have e1 : (a + b) * m + (b - a) * n = 0 := by linear_combination (h2 - h1) / 2
  have hm : m = (a * m - b * m + a * n + b * n) / 2 * (a - b) := by
    linear_combination (-m) * hab + (a + b) / 2 * e1
  have hn : n = (a * m - b * m + a * n + b * n) / 2 * (a + b) := by
    linear_combination (-n) * hab + (b - a) / 2 * e1
  have hk : (a * m - b * m + a * n + b * n) / 2 * ((a * m - b * m + a * n + b * n) / 2 - 1) = 0 := by
    set k := (a * m - b * m + a * n + b * n) / 2 with hk
    rw [hm, hn] at h1
    linear_combination h1 / 2 + (-k ^ 2 + k - 1 / 2) * hab
  rcases mul_eq_zero.1 hk with h | h
  · left
    rw [h] at hm hn
    exact ⟨by linarith, by linarith⟩
  · right
    rw [show (a * m - b * m + a * n + b * n) / 2 = 1 by linarith] at hm hn
    exact ⟨by linarith, by linarith⟩

/-- The arcs of the shapes: a quarter of an ellipse, clockwise from the direction `(a,b)`. -/
theorem quarter_arc (cx cy rx ry a b τ : ℝ) (hx : 0 < rx) (hy : 0 < ry) (ha : a = Real.cos τ) (hb : b = Real.sin τ) (z : Pt) :
    OnArc (cx + rx * a, cy + ry * b) rx ry 0 0 1 (cx - rx * b, cy + ry * a) z ↔
      OnRound cx cy rx ry z ∧ 0 ≤ (z.1 - cx) / rx * a + (z.2 - cy) / ry * b ∧
        0 ≤ (z.2 - cy) / ry * a - (z.1 - cx) / rx * b := by
  have hab : a ^ 2 + b ^ 2 = 1 := by rw [ha, hb]; exact Real.cos_sq_add_sin_sq τ
  have hL : LargeEnough |rx| |ry| 0 (cx + rx * a, cy + ry * b) (cx - rx * b, cy + ry * a) := by
    simp only [LargeEnough, abs_of_pos hx, abs_of_pos hy, zero_mul, zero_div, Real.cos_zero, Real.sin_zero, mul_one, mul_zero,
      add_zero, sub_zero]
    have : ((cx + rx * a - (cx - rx * b)) / 2 / rx) ^ 2 + ((cy + ry * b - (cy + ry * a)) / 2 / ry) ^ 2 = 1 / 2 := by
      field_simp
      linear_combination 2 * rx ^ 2 * ry ^ 2 * hab
    rw [this]; norm_num
  have hpq : (cx + rx * a, cy + ry * b) ≠ ((cx - rx * b, cy + ry * a) : Pt) := by
    intro h
    rw [Prod.mk.injEq] at h
    have h1 : a + b = 0 := by
      have : rx * (a + b) = 0 := by linarith [h.1]
      exact (mul_eq_zero.1 this).resolve_left hx.ne'
    have h2 : b - a = 0 := by
      have : ry * (b - a) = 0 := by linarith [h.2]
      exact (mul_eq_zero.1 this).resolve_left hy.ne'
    have h3 : a = 0 := by linarith
    have h4 : b = 0 := by linarith
    rw [h3, h4] at hab; norm_num at hab
  constructor
  · rintro ⟨-, c, r1, r2, t, u, s, -, -, hr, -, hp, hq, hz, hs, -, -, hf⟩
    obtain ⟨rfl, rfl⟩ := hr hL
    rw [abs_of_pos hx, abs_of_pos hy] at hp hq hz
    obtain ⟨h1, h2, h3, h4⟩ := hs one_ne_zero
    have hpi := hf rfl
    rw [abs_of_pos (by linarith)] at hpi
    rw [ellipsePoint_flat, Prod.mk.injEq] at hp hq
    rw [ellipsePoint_flat] at hz
    have et : Real.cos t = a - (c.1 - cx) / rx := by field_simp; linarith [hp.1]
    have et' : Real.sin t = b - (c.2 - cy) / ry := by field_simp; linarith [hp.2]
    have eu : Real.cos u = -b - (c.1 - cx) / rx := by field_simp; linarith [hq.1]
    have eu' : Real.sin u = a - (c.2 - cy) / ry := by field_simp; linarith [hq.2]
    have k1 := Real.cos_sq_add_sin_sq t
    have k2 := Real.cos_sq_add_sin_sq u
    rw [et, et'] at k1
    rw [eu, eu'] at k2
    have hsin : 0 ≤ Real.sin (u - t) := Real.sin_nonneg_of_nonneg_of_le_pi (by linarith) hpi
    rcases two_circles a b _ _ hab k1 k2 with ⟨hm, hn⟩ | ⟨hm, hn⟩
    · rw [hm] at et eu
      rw [hn] at et' eu'
      have hc1 : c.1 = cx := by
        rcases div_eq_zero_iff.1 hm with h | h
        · linarith
        · exact absurd h hx.ne'
      have hc2 : c.2 = cy := by
        rcases div_eq_zero_iff.1 hn with h | h
        · linarith
        · exact absurd h hy.ne'
      have hcos : Real.cos (u - t) = 0 := by rw [Real.cos_sub, et, et', eu, eu']; ring
      have hut : u - t = Real.pi / 2 := by
        rw [← Real.arccos_cos (by linarith : 0 ≤ u - t) hpi, hcos, Real.arccos_zero]
      have hX : (z.1 - cx) / rx = Real.cos s := by rw [← hz, hc1]; field_simp; ring
      have hY : (z.2 - cy) / ry = Real.sin s := by rw [← hz, hc2]; field_simp; ring
      refine ⟨?_, ?_, ?_⟩
      · rw [OnRound, hX, hY]; exact Real.cos_sq_add_sin_sq s
      · rw [hX, hY]
        have : 0 ≤ Real.cos (s - t) := Real.cos_nonneg_of_neg_pi_div_two_le_of_le (by linarith [Real.pi_pos]) (by linarith)
        rw [Real.cos_sub, et, et'] at this
        simpa using this
      · rw [hX, hY]
        have : 0 ≤ Real.sin (s - t) := Real.sin_nonneg_of_nonneg_of_le_pi (by linarith) (by linarith)
        rw [Real.sin_sub, et, et'] at this
        simpa using this
    · exfalso
      rw [hm] at et eu
      rw [hn] at et' eu'
      have : Real.sin (u - t) = -1 := by
        rw [Real.sin_sub, et, et', eu, eu']
        linear_combination (-1) * hab
      linarith
  · rintro ⟨h0, hA, hB⟩
    unfold OnRound at h0
    set X := (z.1 - cx) / rx with hX
    set Y := (z.2 - cy) / ry with hY
    have hAB : (X * a + Y * b) ^ 2 + (Y * a - X * b) ^ 2 = 1 := by
      linear_combination (X ^ 2 + Y ^ 2) * hab + h0
    have hA1 : X * a + Y * b ≤ 1 := by nlinarith
    refine ⟨hpq, (cx, cy), rx, ry, τ, τ + Real.pi / 2, τ + Real.arccos (X * a + Y * b), hx, hy, ?_, ?_, ?_, ?_, ?_, ?_, ?_, ?_, ?_⟩
    · intro _; exact ⟨(abs_of_pos hx).symm, (abs_of_pos hy).symm⟩
    · intro h; exact absurd hL h
    · rw [ellipsePoint_flat, ha, hb]
    · rw [ellipsePoint_flat, Real.cos_add_pi_div_two, Real.sin_add_pi_div_two, ha, hb]
      simp only [Prod.mk.injEq, mul_neg, and_true]; ring
    · rw [ellipsePoint_flat, Real.cos_add, Real.sin_add, Real.cos_arccos (by linarith) hA1, Real.sin_arccos,
        show 1 - (X * a + Y * b) ^ 2 = (Y * a - X * b) ^ 2 by linarith, Real.sqrt_sq hB, ← ha, ← hb]
      refine Prod.ext ?_ ?_
      · show cx + rx * (a * (X * a + Y * b) - b * (Y * a - X * b)) = z.1
        have : a * (X * a + Y * b) - b * (Y * a - X * b) = X := by linear_combination X * hab
        rw [this, hX]; field_simp; ring
      · show cy + ry * (b * (X * a + Y * b) + a * (Y * a - X * b)) = z.2
        have : b * (X * a + Y * b) + a * (Y * a - X * b) = Y := by linear_combination Y * hab
        rw [this, hY]; field_simp; ring
    · intro _
      refine ⟨by linarith [Real.pi_pos], by linarith [Real.pi_pos], by linarith [Real.arccos_nonneg (X * a + Y * b)], ?_⟩
      have := Real.arccos_le_pi_div_two.2 hA
      linarith
    · intro h; exact absurd h one_ne_zero
    · intro h; exact absurd rfl h
    · intro _
      rw [add_sub_cancel_left, abs_of_pos (by linarith [Real.pi_pos])]
      linarith [Real.pi_pos]

/-- A straight piece. -/
theorem on_line (p q z : Pt) : (∃ t, 0 ≤ t ∧ t ≤ 1 ∧ lineAt p q t = z) ↔ Between p q z := by
  constructor
  · rintro ⟨t, h0, h1, rfl⟩
    exact ⟨t, h0, h1, by simp [lineAt]; ring, by simp [lineAt]; ring⟩
  · rintro ⟨t, h0, h1, e1, e2⟩
    refine ⟨t, h0, h1, Prod.ext ?_ ?_⟩
    · rw [e1]; simp [lineAt]; ring
    · rw [e2]; simp [lineAt]; ring

theorem between_self (p z : Pt) : Between p p z ↔ z = p := by
  constructor
  · rintro ⟨t, -, -, e1, e2⟩
    exact Prod.ext (by linarith) (by linarith)
  · rintro rfl
    exact ⟨0, le_refl _, zero_le_one, by ring, by ring⟩

/-! ### C80: circles and ellipses -/

/-- The pieces of the drawing of a circle or ellipse. -/
theorem round_pieces (g : Round) (hx : 0 < g.rx) (hy : 0 < g.ry) : Pen.new.draw (roundData g) =
    [.begin (g.cx + g.rx, g.cy), .arc (g.cx + g.rx, g.cy) g.rx g.ry 0 0 1 (g.cx, g.cy + g.ry),
      .arc (g.cx, g.cy + g.ry) g.rx g.ry 0 0 1 (g.cx - g.rx, g.cy),
      .arc (g.cx - g.rx, g.cy) g.rx g.ry 0 0 1 (g.cx, g.cy - g.ry),
      .arc (g.cx, g.cy - g.ry) g.rx g.ry 0 0 1 (g.cx + g.rx, g.cy),
      .close (lineAt (g.cx + g.rx, g.cy) (g.cx + g.rx, g.cy))] := by
  have h : ¬ (g.rx ≤ 0 ∨ g.ry ≤ 0) := by rintro (h | h) <;> linarith
  have h' : ¬ (g.rx = 0 ∨ g.ry = 0) := by rintro (h | h) <;> linarith
  simp [roundData, h, Pen.draw, Pen.step, Pen.new, Pen.at, h']

/-- **C80** The path of a circle or ellipse with positive radii draws exactly the points of the
circle or ellipse, and it is one closed subpath that begins and ends at its rightmost point. -/
theorem round_drawn (g : Round) (hx : 0 < g.rx) (hy : 0 < g.ry) (z : Pt) :
    Drawn (roundData g) z ↔ OnRound g.cx g.cy g.rx g.ry z := by
  have q1 := quarter_arc g.cx g.cy g.rx g.ry 1 0 0 hx hy Real.cos_zero.symm Real.sin_zero.symm z
  have q2 := quarter_arc g.cx g.cy g.rx g.ry 0 1 (Real.pi / 2) hx hy Real.cos_pi_div_two.symm Real.sin_pi_div_two.symm z
  have q3 := quarter_arc g.cx g.cy g.rx g.ry (-1) 0 Real.pi hx hy Real.cos_pi.symm Real.sin_pi.symm z
  have q4 := quarter_arc g.cx g.cy g.rx g.ry 0 (-1) (-(Real.pi / 2)) hx hy (by simp) (by simp) z
  simp only [mul_one, mul_zero, add_zero, sub_zero, mul_neg, sub_neg_eq_add, zero_add, zero_sub, ← sub_eq_add_neg] at q1 q2 q3 q4
  simp only [Drawn, round_pieces g hx hy, List.mem_cons, List.not_mem_nil, or_false, exists_eq_or_imp, exists_eq_left, OnPiece,
    on_line, between_self, q1, q2, q3, q4, false_or]
  have e1 : z = (g.cx + g.rx, g.cy) → OnRound g.cx g.cy g.rx g.ry z := by
    rintro rfl
    simp [OnRound, hx.ne']
  constructor
  · rintro (h | h | h | h | h)
    · exact h.1
    · exact h.1
    · exact h.1
    · exact h.1
    · exact e1 h
  · intro h
    rcases le_total 0 ((z.1 - g.cx) / g.rx) with h1 | h1 <;> rcases le_total 0 ((z.2 - g.cy) / g.ry) with h2 | h2
    · exact .inl ⟨h, h1, h2⟩
    · exact .inr (.inr (.inr (.inl ⟨h, by linarith, h1⟩)))
    · exact .inr (.inl ⟨h, h2, by linarith⟩)
    · exact .inr (.inr (.inl ⟨h, by linarith, by linarith⟩))

theorem convertNumber_px (e : Env) (d : Dir) (n : ℝ) (u : LUnit) (hg : Good e) (hu : Length.Known u) (hr : ¬ Resolution u) :
    convertNumber e (some d) n u .noUnit = .ok (n * size e (some d) u) := by
  have h := value_pixels ⟨n, u, some ⟨e, e⟩, some d⟩ hu hg hr
  simpa [value, env] using h

theorem px_pixels (e : Env) (d : Dir) (v : Val) (x : ℝ) (hg : Good e) (h : Pixels e d v x) : px e d v = .ok x := by
  obtain ⟨n, u, rfl, hu, hr, rfl⟩ := h
  exact convertNumber_px e d n u hg hu hr

theorem pixels_not_auto {e : Env} {d : Dir} {v : Val} {x : ℝ} (h : Pixels e d v x) : v.isAuto = false := by
  obtain ⟨n, u, rfl, -⟩ := h
  rfl

/-- **C80** A circle element whose attributes are lengths: without a positive radius there is no
path; otherwise the path draws exactly the points whose distance from the centre is the radius. -/
theorem circle_drawn (e : Node) (hg : Good e.env) (cx cy r : ℝ)
    (hcx : Pixels e.env .horizontal (e.get "cx".toList (.len 0 .noUnit)) cx)
    (hcy : Pixels e.env .vertical (e.get "cy".toList (.len 0 .noUnit)) cy)
    (hr : Pixels e.env .unspecified (e.get "r".toList (.len 0 .noUnit)) r) :
    (r ≤ 0 → ∀ norm, (Shape.circle e).data norm = .ok []) ∧
    (0 < r → ∃ d, (Shape.circle e).data false = .ok d ∧ ∀ z, Drawn d z ↔ (z.1 - cx) ^ 2 + (z.2 - cy) ^ 2 = r ^ 2) := by
  have e1 : circleGeometry e = .ok ⟨cx, cy, r, r⟩ := by
    simp only [circleGeometry, zero, px_pixels _ _ _ _ hg hcx, px_pixels _ _ _ _ hg hcy, px_pixels _ _ _ _ hg hr, Except.bind]
  constructor
  · intro h norm
    simp [Shape.data, e1, Except.bind, h]
  · intro h
    refine ⟨roundData ⟨cx, cy, r, r⟩, by simp [Shape.data, e1, Except.bind, not_le.2 h, settle], fun z => ?_⟩
    rw [round_drawn _ h h, OnRound]
    show ((z.1 - cx) / r) ^ 2 + ((z.2 - cy) / r) ^ 2 = 1 ↔ _
    rw [div_pow, div_pow, ← add_div, div_eq_one_iff_eq (by positivity)]

/-- A non-trivial instance: centre at 50% of a viewport of width 300, radius half an inch. -/
example : ∃ e : Node, Good e.env ∧ Pixels e.env .horizontal (e.get "cx".toList (.len 0 .noUnit)) 150 ∧
    Pixels e.env .vertical (e.get "cy".toList (.len 0 .noUnit)) 0 ∧
    Pixels e.env .unspecified (e.get "r".toList (.len 0 .noUnit)) 48 := by
  refine ⟨⟨"circle".toList, [("cx".toList, .len 50 .pct), ("r".toList, .len (1 / 2) .inch)], ⟨16, 16, 300, 100, none⟩⟩,
    ⟨by norm_num, by norm_num, by norm_num, by norm_num, by simp⟩, ⟨50, .pct, rfl, by simp [Length.Known], by simp [Resolution], ?_⟩,
    ⟨0, .noUnit, rfl, by simp [Length.Known], by simp [Resolution], by simp⟩, ⟨1 / 2, .inch, rfl, by simp [Length.Known], by simp [Resolution], ?_⟩⟩
  · simp [size]; norm_num
  · simp [size]; norm_num

/-- The radii of an ellipse in the SVG specification: `auto` stands for the number of pixels of
the other radius, and for nothing if both are `auto`. -/
def UsedRadii (e : Env) (vx vy : Val) (rx ry : ℝ) : Prop :=
  (vx = .auto ∧ vy = .auto ∧ rx = 0 ∧ ry = 0) ∨
  (vx = .auto ∧ Pixels e .vertical vy ry ∧ rx = ry) ∨
  (vy = .auto ∧ Pixels e .horizontal vx rx ∧ ry = rx) ∨
  (Pixels e .horizontal vx rx ∧ Pixels e .vertical vy ry)

/-- Only percentages depend on the direction. -/
theorem size_dir (e : Env) (d d' : Option Dir) (u : LUnit) (h : u ≠ .pct) : size e d u = size e d' u := by
  cases u <;> first | rfl | exact absurd rfl h

theorem pixels_dir (e : Env) (d d' : Dir) (v : Val) (x : ℝ) (h : Pixels e d v x) (hp : ∀ n, v ≠ .len n .pct) : Pixels e d' v x := by
  obtain ⟨n, u, rfl, hu, hr, rfl⟩ := h
  refine ⟨n, u, rfl, hu, hr, ?_⟩
  rw [size_dir e (some d) (some d') u]
  rintro rfl
  exact hp n rfl

/-- **C80** An ellipse element whose attributes are lengths or `auto`, if no percentage meets
`auto`: without two positive radii there is no path; otherwise the path draws exactly the
ellipse.  Missing: one radius `auto`, the other a percentage, where it fails. -/
theorem ellipse_drawn_partial (e : Node) (hg : Good e.env) (cx cy rx ry : ℝ)
    (hcx : Pixels e.env .horizontal (e.get "cx".toList (.len 0 .noUnit)) cx)
    (hcy : Pixels e.env .vertical (e.get "cy".toList (.len 0 .noUnit)) cy)
    (hr : UsedRadii e.env (e.get "rx".toList .auto) (e.get "ry".toList .auto) rx ry)
    (hp : e.get "rx".toList .auto = .auto → ∀ n, e.get "ry".toList .auto ≠ .len n .pct)
    (hp' : e.get "ry".toList .auto = .auto → ∀ n, e.get "rx".toList .auto ≠ .len n .pct) :
    (rx ≤ 0 ∨ ry ≤ 0 → ∀ norm, (Shape.ellipse e).data norm = .ok []) ∧
    (0 < rx → 0 < ry → ∃ d, (Shape.ellipse e).data false = .ok d ∧ ∀ z, Drawn d z ↔ OnRound cx cy rx ry z) := by
  have e0 : ellipseRadii e.env (e.get "rx".toList .auto) (e.get "ry".toList .auto) = .ok (rx, ry) := by
    revert hr hp hp'
    generalize e.get "rx".toList .auto = vx
    generalize e.get "ry".toList .auto = vy
    intro hr hp hp'
    rcases hr with ⟨rfl, rfl, rfl, rfl⟩ | ⟨rfl, h, rfl⟩ | ⟨rfl, h, rfl⟩ | ⟨h1, h2⟩
    · simp [ellipseRadii, sameText, Val.isAuto]
    · have h' := pixels_dir _ _ .horizontal _ _ h (hp rfl)
      have ha := pixels_not_auto h
      have hs : sameText .auto vy = (vy, vy) := by
        have hn : Val.auto.isAuto = true := rfl
        simp [sameText, hn, ha]
      simp only [ellipseRadii, hs, ha, px_pixels _ _ _ _ hg h, px_pixels _ _ _ _ hg h', Except.bind, Bool.and_false,
        Bool.false_eq_true, if_false]
    · have h' := pixels_dir _ _ .vertical _ _ h (hp' rfl)
      have ha := pixels_not_auto h
      have hs : sameText vx .auto = (vx, vx) := by
        have hn : Val.auto.isAuto = true := rfl
        simp [sameText, hn, ha]
      simp only [ellipseRadii, hs, ha, px_pixels _ _ _ _ hg h, px_pixels _ _ _ _ hg h', Except.bind, Bool.and_false,
        Bool.false_eq_true, if_false]
    · have ha1 := pixels_not_auto h1
      have ha2 := pixels_not_auto h2
      have hs : sameText vx vy = (vx, vy) := by simp [sameText, ha1, ha2]
      simp only [ellipseRadii, hs, ha1, ha2, px_pixels _ _ _ _ hg h1, px_pixels _ _ _ _ hg h2, Except.bind, Bool.and_false,
        Bool.false_eq_true, if_false]
  have e1 : ellipseGeometry e = .ok ⟨cx, cy, rx, ry⟩ := by
    simp only [ellipseGeometry, zero, e0, px_pixels _ _ _ _ hg hcx, px_pixels _ _ _ _ hg hcy, Except.bind]
  constructor
  · intro h norm
    simp [Shape.data, e1, Except.bind, h]
  · intro h1 h2
    refine ⟨roundData ⟨cx, cy, rx, ry⟩, by simp [Shape.data, e1, Except.bind, not_le.2 h1, not_le.2 h2, settle], fun z => ?_⟩
    rw [round_drawn _ h1 h2]

/-- An ellipse with `cx="50%"` and `rx="2em"` meets the hypotheses. -/
example : ∃ e : Node, Good e.env ∧ Pixels e.env .horizontal (e.get "cx".toList (.len 0 .noUnit)) 50 ∧
    Pixels e.env .vertical (e.get "cy".toList (.len 0 .noUnit)) 0 ∧
    UsedRadii e.env (e.get "rx".toList .auto) (e.get "ry".toList .auto) 32 32 ∧
    (e.get "rx".toList .auto = .auto → ∀ n, e.get "ry".toList .auto ≠ .len n .pct) ∧
    (e.get "ry".toList .auto = .auto → ∀ n, e.get "rx".toList .auto ≠ .len n .pct) := by
  have hx : ∀ e : Env, e = ⟨16, 16, 100, 200, none⟩ → Pixels e .horizontal (.len 50 .pct) 50 := fun e he =>
    ⟨50, .pct, rfl, by simp [Length.Known], by simp [Resolution], by simp [he, size]⟩
  refine ⟨⟨"ellipse".toList, [("cx".toList, .len 50 .pct), ("rx".toList, .len 2 .em)], ⟨16, 16, 100, 200, none⟩⟩,
    ⟨by norm_num, by norm_num, by norm_num, by norm_num, by simp⟩, hx _ rfl, ?_, ?_, ?_, ?_⟩
  · exact ⟨0, .noUnit, rfl, by simp [Length.Known], by simp [Resolution], by simp [size]⟩
  · exact .inr (.inr (.inl ⟨rfl, ⟨2, .em, rfl, by simp [Length.Known], by simp [Resolution], by norm_num [size]⟩, rfl⟩))
  · intro h; exact absurd h (by simp [Node.get, Dict.get?])
  · intro _ n h
    have : (Val.len 2 .em) = .len n .pct := h
    simp at this

/-- An ellipse with `rx="10%"` in a viewport of 100 by 200 pixels. -/
noncomputable def percentEllipse : Node := ⟨"ellipse".toList, [("rx".toList, .len 10 .pct)], ⟨16, 16, 100, 200, none⟩⟩

/-- **C80** is violated when one radius of an ellipse is a percentage and the other `auto`: the
text of the percentage is used for both, and refers to the width for one and to the height for
the other.  With `rx="10%"` in a viewport of 100 by 200 pixels both radii should be 10, but the
path draws an ellipse with the radii 10 and 20, which does not have the point (0,10). -/
theorem ellipse_auto_violated :
    UsedRadii percentEllipse.env (percentEllipse.get "rx".toList .auto) (percentEllipse.get "ry".toList .auto) 10 10 ∧
    ∃ d, (Shape.ellipse percentEllipse).data false = .ok d ∧ (∀ z, Drawn d z ↔ OnRound 0 0 10 20 z) ∧ ¬ Drawn d (0, 10) := by
  have hg : Good percentEllipse.env := ⟨by norm_num [percentEllipse], by norm_num [percentEllipse], by norm_num [percentEllipse], by norm_num [percentEllipse], by simp [percentEllipse]⟩
  have hrx : percentEllipse.get "rx".toList .auto = .len 10 .pct := rfl
  have hry : percentEllipse.get "ry".toList .auto = .auto := rfl
  have hcx : percentEllipse.get "cx".toList zero = .len 0 .noUnit := rfl
  have hcy : percentEllipse.get "cy".toList zero = .len 0 .noUnit := rfl
  have k1 : px percentEllipse.env .horizontal (.len 10 .pct) = .ok 10 :=
    px_pixels _ _ _ _ hg ⟨10, .pct, rfl, by simp [Length.Known], by simp [Resolution], by simp [size, percentEllipse]⟩
  have k2 : px percentEllipse.env .vertical (.len 10 .pct) = .ok 20 :=
    px_pixels _ _ _ _ hg ⟨10, .pct, rfl, by simp [Length.Known], by simp [Resolution], by simp [size, percentEllipse]; norm_num⟩
  have k3 : px percentEllipse.env .horizontal (.len 0 .noUnit) = .ok 0 :=
    px_pixels _ _ _ _ hg ⟨0, .noUnit, rfl, by simp [Length.Known], by simp [Resolution], by simp⟩
  have k4 : px percentEllipse.env .vertical (.len 0 .noUnit) = .ok 0 :=
    px_pixels _ _ _ _ hg ⟨0, .noUnit, rfl, by simp [Length.Known], by simp [Resolution], by simp⟩
  have e1 : ellipseGeometry percentEllipse = .ok ⟨0, 0, 10, 20⟩ := by
    have hs : sameText (.len 10 .pct) .auto = (.len 10 .pct, .len 10 .pct) := rfl
    have ha : (Val.len 10 .pct).isAuto = false := rfl
    simp only [ellipseGeometry, ellipseRadii, hrx, hry, hs, ha, hcx, hcy, k1, k2, k3, k4, Except.bind, Bool.and_false,
        Bool.false_eq_true, if_false]
  have hd : ∀ z, Drawn (roundData ⟨0, 0, 10, 20⟩) z ↔ OnRound 0 0 10 20 z :=
    fun z => round_drawn ⟨0, 0, 10, 20⟩ (by norm_num) (by norm_num) z
  refine ⟨?_, roundData ⟨0, 0, 10, 20⟩, ?_, hd, ?_⟩
  · rw [hrx, hry]
    exact .inr (.inr (.inl ⟨rfl, ⟨10, .pct, rfl, by simp [Length.Known], by simp [Resolution], by simp [size, percentEllipse]⟩, rfl⟩))
  · simp only [Shape.data, e1, Except.bind, settle, Bool.false_eq_true, if_false]
    rw [if_neg (by norm_num)]
  · rw [hd, OnRound]; norm_num

/-! ### C81: rectangles -/

theorem between_comm (p q z : Pt) : Between p q z ↔ Between q p z := by
  have : ∀ p q, Between p q z → Between q p z := by
    rintro p q ⟨t, h0, h1, e1, e2⟩
    exact ⟨1 - t, by linarith, by linarith, by rw [e1]; ring, by rw [e2]; ring⟩
  exact ⟨this p q, this q p⟩

theorem between_horizontal (a b y : ℝ) (h : a ≤ b) (z : Pt) : Between (a, y) (b, y) z ↔ a ≤ z.1 ∧ z.1 ≤ b ∧ z.2 = y := by
  constructor
  · rintro ⟨t, h0, h1, e1, e2⟩
    simp only at e1 e2
    refine ⟨?_, ?_, by rw [e2]; ring⟩
    · rw [e1]; nlinarith
    · rw [e1]; nlinarith
  · rintro ⟨h1, h2, h3⟩
    rcases eq_or_lt_of_le h with rfl | hl
    · exact ⟨0, le_refl _, zero_le_one, by simp only; linarith, by simp only; linarith⟩
    · refine ⟨(z.1 - a) / (b - a), div_nonneg (by linarith) (by linarith), (div_le_one (by linarith)).2 (by linarith), ?_, ?_⟩
      · simp only; rw [div_mul_cancel₀ _ (sub_pos.2 hl).ne']; ring
      · simp only; rw [h3]; ring

theorem between_vertical (x a b : ℝ) (h : a ≤ b) (z : Pt) : Between (x, a) (x, b) z ↔ z.1 = x ∧ a ≤ z.2 ∧ z.2 ≤ b := by
  have e : Between (x, a) (x, b) z ↔ Between (a, x) (b, x) (z.2, z.1) := by
    constructor
    · rintro ⟨t, h0, h1, e1, e2⟩; exact ⟨t, h0, h1, e2, e1⟩
    · rintro ⟨t, h0, h1, e1, e2⟩; exact ⟨t, h0, h1, e2, e1⟩
  rw [e, between_horizontal a b x h]
  exact ⟨fun ⟨h1, h2, h3⟩ => ⟨h3, h1, h2⟩, fun ⟨h1, h2, h3⟩ => ⟨h2, h3, h1⟩⟩

theorem beyond_cases (lo hi v : ℝ) (h : lo ≤ hi) : (v ≤ lo ∧ beyond lo hi v = lo - v) ∨
    (lo ≤ v ∧ v ≤ hi ∧ beyond lo hi v = 0) ∨ (hi ≤ v ∧ beyond lo hi v = v - hi) := by
  unfold beyond
  rcases le_total v lo with h1 | h1
  · left
    refine ⟨h1, ?_⟩
    rw [max_eq_left (by linarith : v - hi ≤ lo - v), max_eq_right (by linarith)]
  · right
    rcases le_total v hi with h2 | h2
    · left
      exact ⟨h1, h2, max_eq_left (max_le (by linarith) (by linarith))⟩
    · right
      refine ⟨h2, ?_⟩
      rw [max_eq_right (by linarith : lo - v ≤ v - hi), max_eq_right (by linarith)]

theorem beyond_low (lo hi v : ℝ) (h : lo ≤ hi) (hv : v ≤ lo) : beyond lo hi v = lo - v := by
  unfold beyond
  rw [max_eq_left (by linarith : v - hi ≤ lo - v), max_eq_right (by linarith)]

theorem beyond_mid (lo hi v : ℝ) (h1 : lo ≤ v) (h2 : v ≤ hi) : beyond lo hi v = 0 :=
  max_eq_left (max_le (by linarith) (by linarith))

theorem beyond_high (lo hi v : ℝ) (h : lo ≤ hi) (hv : hi ≤ v) : beyond lo hi v = v - hi := by
  unfold beyond
  rw [max_eq_right (by linarith : lo - v ≤ v - hi), max_eq_right (by linarith)]

/-- **C81** The path of a rectangle without rounded corners draws exactly its border. -/
theorem square_drawn (g : Box) (hw : 0 < g.w) (hh : 0 < g.h) (hr : g.rx ≤ 0 ∨ g.ry ≤ 0) (z : Pt) :
    Drawn (rectData g) z ↔ OnBorder g.x g.y g.w g.h z := by
  have h : ¬ (g.w ≤ 0 ∨ g.h ≤ 0) := by rintro (h | h) <;> linarith
  have hd : Pen.new.draw (rectData g) = [.begin (g.x, g.y), .draw (lineAt (g.x, g.y) (g.x + g.w, g.y)),
      .draw (lineAt (g.x + g.w, g.y) (g.x + g.w, g.y + g.h)), .draw (lineAt (g.x + g.w, g.y + g.h) (g.x, g.y + g.h)),
      .draw (lineAt (g.x, g.y + g.h) (g.x, g.y)), .close (lineAt (g.x, g.y) (g.x, g.y))] := by
    simp [rectData, h, hr, Pen.draw, Pen.step, Pen.new, Pen.at, Pen.lineTo]
  simp only [Drawn, hd, List.mem_cons, List.not_mem_nil, or_false, exists_eq_or_imp, exists_eq_left, OnPiece,
    on_line, between_self, false_or]
  rw [between_horizontal _ _ _ (by linarith), between_vertical _ _ _ (by linarith), between_comm (g.x + g.w, g.y + g.h),
    between_horizontal _ _ _ (by linarith), between_comm (g.x, g.y + g.h), between_vertical _ _ _ (by linarith)]
  unfold OnBorder
  constructor
  · rintro (⟨h1, h2, h3⟩ | ⟨h1, h2, h3⟩ | ⟨h1, h2, h3⟩ | ⟨h1, h2, h3⟩ | rfl)
    · exact ⟨h1, h2, by linarith, by linarith, .inr (.inr (.inl h3))⟩
    · exact ⟨by linarith, by linarith, h2, h3, .inr (.inl h1)⟩
    · exact ⟨h1, h2, by linarith, by linarith, .inr (.inr (.inr h3))⟩
    · exact ⟨by linarith, by linarith, h2, h3, .inl h1⟩
    · exact ⟨le_refl _, by simp only; linarith, le_refl _, by simp only; linarith, .inl rfl⟩
  · rintro ⟨h1, h2, h3, h4, h | h | h | h⟩
    · exact .inr (.inr (.inr (.inl ⟨h, h3, h4⟩)))
    · exact .inr (.inl ⟨h, h3, h4⟩)
    · exact .inl ⟨h1, h2, h⟩
    · exact .inr (.inr (.inl ⟨h1, h2, h⟩))

theorem sq_one_of_nonneg (a r : ℝ) (ha : 0 ≤ a) (hr : 0 < r) (h : (a / r) ^ 2 = 1) : a = r := by
  have h0 : 0 ≤ a / r := div_nonneg ha hr.le
  have : a / r = 1 := by nlinarith
  rwa [div_eq_one_iff_eq hr.ne'] at this

/-- The pieces of the drawing of a rectangle with round corners. -/
theorem rounded_pieces (g : Box) (hx : 0 < g.rx) (hy : 0 < g.ry) (hw : g.rx ≤ g.w / 2) (hh : g.ry ≤ g.h / 2) :
    Pen.new.draw (rectData g) = [.begin (g.x + g.rx, g.y),
      .draw (lineAt (g.x + g.rx, g.y) (g.x + g.w - g.rx, g.y)),
      .arc (g.x + g.w - g.rx, g.y) g.rx g.ry 0 0 1 (g.x + g.w, g.y + g.ry),
      .draw (lineAt (g.x + g.w, g.y + g.ry) (g.x + g.w, g.y + g.h - g.ry)),
      .arc (g.x + g.w, g.y + g.h - g.ry) g.rx g.ry 0 0 1 (g.x + g.w - g.rx, g.y + g.h),
      .draw (lineAt (g.x + g.w - g.rx, g.y + g.h) (g.x + g.rx, g.y + g.h)),
      .arc (g.x + g.rx, g.y + g.h) g.rx g.ry 0 0 1 (g.x, g.y + g.h - g.ry),
      .draw (lineAt (g.x, g.y + g.h - g.ry) (g.x, g.y + g.ry)),
      .arc (g.x, g.y + g.ry) g.rx g.ry 0 0 1 (g.x + g.rx, g.y),
      .close (lineAt (g.x + g.rx, g.y) (g.x + g.rx, g.y))] := by
  have h : ¬ (g.w ≤ 0 ∨ g.h ≤ 0) := by rintro (h | h) <;> linarith
  have h' : ¬ (g.rx ≤ 0 ∨ g.ry ≤ 0) := by rintro (h | h) <;> linarith
  have h'' : ¬ (g.rx = 0 ∨ g.ry = 0) := by rintro (h | h) <;> linarith
  simp [rectData, h, h', Pen.draw, Pen.step, Pen.new, Pen.at, Pen.lineTo, h'']

/-- **C81** The path of a rectangle with rounded corners draws exactly its rounded border. -/
theorem rounded_drawn (g : Box) (hx : 0 < g.rx) (hy : 0 < g.ry) (hw : g.rx ≤ g.w / 2) (hh : g.ry ≤ g.h / 2) (z : Pt) :
    Drawn (rectData g) z ↔ OnRoundedBorder g.x g.y g.w g.h g.rx g.ry z := by
  have h : ¬ (g.w ≤ 0 ∨ g.h ≤ 0) := by rintro (h | h) <;> linarith
  have h' : ¬ (g.rx ≤ 0 ∨ g.ry ≤ 0) := by rintro (h | h) <;> linarith
  have h'' : ¬ (g.rx = 0 ∨ g.ry = 0) := by rintro (h | h) <;> linarith
  have hd := rounded_pieces g hx hy hw hh
  have q1 := quarter_arc (g.x + g.w - g.rx) (g.y + g.ry) g.rx g.ry 0 (-1) (-(Real.pi / 2)) hx hy (by simp) (by simp) z
  have q2 := quarter_arc (g.x + g.w - g.rx) (g.y + g.h - g.ry) g.rx g.ry 1 0 0 hx hy (by simp) (by simp) z
  have q3 := quarter_arc (g.x + g.rx) (g.y + g.h - g.ry) g.rx g.ry 0 1 (Real.pi / 2) hx hy (by simp) (by simp) z
  have q4 := quarter_arc (g.x + g.rx) (g.y + g.ry) g.rx g.ry (-1) 0 Real.pi hx hy (by simp) (by simp) z
  simp only [mul_one, mul_zero, add_zero, sub_zero, mul_neg, sub_neg_eq_add, zero_add, zero_sub, ← sub_eq_add_neg,
    sub_add_cancel, add_sub_cancel_right] at q1 q2 q3 q4
  simp only [Drawn, hd, List.mem_cons, List.not_mem_nil, or_false, exists_eq_or_imp, exists_eq_left, OnPiece,
    on_line, between_self, false_or, q1, q2, q3, q4]
  rw [between_horizontal _ _ _ (by linarith), between_vertical _ _ _ (by linarith), between_comm (g.x + g.w - g.rx, g.y + g.h),
    between_horizontal _ _ _ (by linarith), between_comm (g.x, g.y + g.h - g.ry), between_vertical _ _ _ (by linarith)]
  have lx : g.x + g.rx ≤ g.x + g.w - g.rx := by linarith
  have ly : g.y + g.ry ≤ g.y + g.h - g.ry := by linarith
  have sg : ∀ a r : ℝ, 0 < r → (0 ≤ a / r ↔ 0 ≤ a) := fun a r hr =>
    ⟨fun h => by have := mul_nonneg h hr.le; rwa [div_mul_cancel₀ _ hr.ne'] at this, fun h => div_nonneg h hr.le⟩
  have sn : ∀ a r : ℝ, 0 < r → (0 ≤ -(a / r) ↔ a ≤ 0) := fun a r hr => by
    rw [← neg_div, sg _ _ hr]; exact neg_nonneg
  simp only [sg _ _ hx, sg _ _ hy, sn _ _ hx, sn _ _ hy]
  unfold OnRoundedBorder OnRound
  constructor
  · rintro (⟨h1, h2, h3⟩ | ⟨h1, h2, h3⟩ | ⟨h1, h2, h3⟩ | ⟨h1, h2, h3⟩ | ⟨h1, h2, h3⟩ | ⟨h1, h2, h3⟩ | ⟨h1, h2, h3⟩ | ⟨h1, h2, h3⟩ | rfl)
    · rw [beyond_mid _ _ _ h1 h2, beyond_low _ _ _ ly (by linarith), h3]; simp [hy.ne']
    · rw [beyond_high _ _ _ lx (by linarith), beyond_low _ _ _ ly (by linarith), ← h1]
      ring
    · rw [beyond_high _ _ _ lx (by linarith), beyond_mid _ _ _ h2 h3, h1]; simp [hx.ne']
    · rw [beyond_high _ _ _ lx (by linarith), beyond_high _ _ _ ly (by linarith), ← h1]
    · rw [beyond_mid _ _ _ h1 h2, beyond_high _ _ _ ly (by linarith), h3]; simp [hy.ne']
    · rw [beyond_low _ _ _ lx (by linarith), beyond_high _ _ _ ly (by linarith), ← h1]
      ring
    · rw [beyond_low _ _ _ lx (by linarith), beyond_mid _ _ _ h2 h3, h1]; simp [hx.ne']
    · rw [beyond_low _ _ _ lx (by linarith), beyond_low _ _ _ ly (by linarith), ← h1]
      ring
    · rw [beyond_mid _ _ _ (le_refl _) lx, beyond_low _ _ _ ly (by simp only; linarith)]; simp [hy.ne']
  · intro he
    rcases beyond_cases _ _ z.1 lx with ⟨k1, e1⟩ | ⟨k1, k1', e1⟩ | ⟨k1, e1⟩ <;>
      rcases beyond_cases _ _ z.2 ly with ⟨k2, e2⟩ | ⟨k2, k2', e2⟩ | ⟨k2, e2⟩ <;> rw [e1, e2] at he
    · refine .inr (.inr (.inr (.inr (.inr (.inr (.inr (.inl ⟨?_, by linarith, by linarith⟩)))))))
      rw [← he]; ring
    · have := sq_one_of_nonneg (g.x + g.rx - z.1) _ (by linarith) hx (by simpa using he)
      exact .inr (.inr (.inr (.inr (.inr (.inr (.inl ⟨by linarith, k2, k2'⟩))))))
    · refine .inr (.inr (.inr (.inr (.inr (.inl ⟨?_, by linarith, by linarith⟩)))))
      rw [← he]; ring
    · have := sq_one_of_nonneg (g.y + g.ry - z.2) _ (by linarith) hy (by simpa using he)
      exact .inl ⟨k1, k1', by linarith⟩
    · simp at he
    · have := sq_one_of_nonneg (z.2 - (g.y + g.h - g.ry)) _ (by linarith) hy (by simpa using he)
      exact .inr (.inr (.inr (.inr (.inl ⟨k1, k1', by linarith⟩))))
    · refine .inr (.inl ⟨?_, by linarith, by linarith⟩)
      rw [← he]; ring
    · have := sq_one_of_nonneg (z.1 - (g.x + g.w - g.rx)) _ (by linarith) hx (by simpa using he)
      exact .inr (.inr (.inl ⟨by linarith, k2, k2'⟩))
    · refine .inr (.inr (.inr (.inl ⟨?_, by linarith, by linarith⟩)))
      rw [← he]

/-- The size of a rectangle in the SVG specification, from the element and its ancestors: a
length counts at the element that has it; `inherit` stands for the size of the parent; `auto`
(or nothing) is the size of the viewport for an `svg` element, and 0 for other elements. -/
inductive UsedSize (key : Str) (d : Dir) (view : Env → ℝ) : List Node → ℝ → Prop
  | length {e up v x} : e.attrs.get? key = some v → Pixels e.env d v x → UsedSize key d view (e :: up) x
  | inherit {e up x} : e.attrs.get? key = some .inherit → UsedSize key d view up x → UsedSize key d view (e :: up) x
  | viewport {e up} : e.attrs.get? key = none ∨ e.attrs.get? key = some .auto → e.name = "svg".toList →
      UsedSize key d view (e :: up) (view e.env)
  | nothing {e up} : e.attrs.get? key = none ∨ e.attrs.get? key = some .auto → e.name ≠ "svg".toList → e.name ≠ "image".toList →
      UsedSize key d view (e :: up) 0

theorem used_size (key : Str) (d : Dir) (view : Env → ℝ) (hv : ∀ e, view e = 100 * size e (some d) .pct) (e0 : Env) (h0 : Good e0)
    (l : List Node) (x : ℝ) (hg : ∀ e ∈ l, Good e.env) (h : UsedSize key d view l x) :
    ∃ v e, getSize key e0 l = .ok (v, e) ∧ px e d v = .ok x := by
  have hk : Length.Known .pct := by simp [Length.Known]
  have hk' : Length.Known .noUnit := by simp [Length.Known]
  have hauto : ∀ e : Node, (e.attrs.get? key = none ∨ e.attrs.get? key = some .auto) → (e.get key .auto).isAuto = true := by
    rintro e (h | h) <;> simp [Node.get, h, Val.isAuto]
  induction h with
  | length hv hp =>
    rename_i e up v x
    refine ⟨v, e.env, ?_, px_pixels _ _ _ _ (hg e (by simp)) hp⟩
    have ha := pixels_not_auto hp
    have hi : v.isInherit = false := by obtain ⟨n, u, rfl, -⟩ := hp; rfl
    simp [getSize, Node.get, hv, ha, hi]
  | inherit hv _ ih =>
    rename_i e up x
    obtain ⟨v, e', h1, h2⟩ := ih (fun e he => hg e (by simp [he]))
    refine ⟨v, e', ?_, h2⟩
    have ha : Val.inherit.isAuto = false := rfl
    have hi : Val.inherit.isInherit = true := rfl
    simp [getSize, Node.get, hv, ha, hi, h1]
  | viewport h1 h2 =>
    rename_i e up
    refine ⟨.len 100 .pct, e.env, ?_, ?_⟩
    · rw [getSize, if_pos (hauto e h1), autoSize, if_pos h2]
    · rw [px_pixels e.env d (.len 100 .pct) _ (hg e (by simp)) ⟨100, .pct, rfl, hk, by simp [Resolution], hv e.env⟩]
  | nothing h1 h2 h3 =>
    rename_i e up
    refine ⟨zero, e.env, ?_, ?_⟩
    · rw [getSize, if_pos (hauto e h1), autoSize, if_neg h2, if_neg h3]
    · rw [px_pixels e.env d zero 0 (hg e (by simp)) ⟨0, .noUnit, rfl, hk', by simp [Resolution], by simp⟩]

theorem clampRadius_eq (r s : ℝ) : clampRadius r s = min r (s / 2) := by
  unfold clampRadius
  split
  · rename_i h; rw [min_eq_right h.le]
  · rename_i h; rw [min_eq_left (not_lt.1 h)]

theorem rect_radii (e : Env) (hg : Good e) (vx vy : Val) (rx ry w h : ℝ) (hw : 0 ≤ w) (hh : 0 ≤ h) (hr : UsedRadii e vx vy rx ry) :
    rectRadii e vx vy w h = .ok (min rx (w / 2), min ry (h / 2)) := by
  have hn : Val.auto.isAuto = true := rfl
  rcases hr with ⟨rfl, rfl, rfl, rfl⟩ | ⟨rfl, h, rfl⟩ | ⟨rfl, h, rfl⟩ | ⟨h1, h2⟩
  · rw [rectRadii, hn, Bool.true_and, if_pos rfl, min_eq_left (by linarith), min_eq_left (by linarith)]
  · have ha := pixels_not_auto h
    simp [rectRadii, radiusOf, hn, ha, px_pixels _ _ _ _ hg h, Except.bind, sameNumber, clampRadius_eq]
  · have ha := pixels_not_auto h
    simp [rectRadii, radiusOf, hn, ha, px_pixels _ _ _ _ hg h, Except.bind, sameNumber, clampRadius_eq]
  · have ha1 := pixels_not_auto h1
    have ha2 := pixels_not_auto h2
    simp [rectRadii, radiusOf, ha1, ha2, px_pixels _ _ _ _ hg h1, px_pixels _ _ _ _ hg h2, Except.bind, sameNumber, clampRadius_eq]

/-- **C81** A rectangle whose attributes are lengths or keywords of the specification: without a
positive size there is no path; without two positive radii the path draws exactly the border of
the rectangle; otherwise exactly the border with rounded corners, whose radii are at most half
the size. -/
theorem rect_drawn (e : Node) (up : List Node) (hg : ∀ n ∈ e :: up, Good n.env) (x y w h rx ry : ℝ)
    (hx : Pixels e.env .horizontal (e.get "x".toList (.len 0 .noUnit)) x)
    (hy : Pixels e.env .vertical (e.get "y".toList (.len 0 .noUnit)) y)
    (hw : UsedSize "width".toList .horizontal Env.vw (e :: up) w)
    (hh : UsedSize "height".toList .vertical Env.vh (e :: up) h)
    (hr : UsedRadii e.env (e.get "rx".toList .auto) (e.get "ry".toList .auto) rx ry) (hs : 0 ≤ w ∧ 0 ≤ h) :
    (w = 0 ∨ h = 0 → ∀ norm, (Shape.rect e up).data norm = .ok []) ∧
    (0 < w → 0 < h → ∃ d, (Shape.rect e up).data false = .ok d ∧
      (rx ≤ 0 ∨ ry ≤ 0 → ∀ z, Drawn d z ↔ OnBorder x y w h z) ∧
      (0 < rx → 0 < ry → ∀ z, Drawn d z ↔ OnRoundedBorder x y w h (min rx (w / 2)) (min ry (h / 2)) z)) := by
  have h0 := hg e (by simp)
  obtain ⟨v1, e1, s1, p1⟩ := used_size _ _ Env.vw (fun e => by simp [size]; ring) e.env h0 _ _ hg hw
  obtain ⟨v2, e2, s2, p2⟩ := used_size _ _ Env.vh (fun e => by simp [size]; ring) e.env h0 _ _ hg hh
  have eg : rectGeometry e up = .ok ⟨x, y, w, h, min rx (w / 2), min ry (h / 2)⟩ := by
    simp only [rectGeometry, s1, s2, p1, p2, Except.bind, rect_radii _ h0 _ _ _ _ _ _ hs.1 hs.2 hr, zero,
      px_pixels _ _ _ _ h0 hx, px_pixels _ _ _ _ h0 hy]
  constructor
  · intro hz norm
    have : w ≤ 0 ∨ h ≤ 0 := hz.imp le_of_eq le_of_eq
    simp [Shape.data, eg, Except.bind, this]
  · intro hw' hh'
    refine ⟨rectData ⟨x, y, w, h, min rx (w / 2), min ry (h / 2)⟩, ?_, ?_, ?_⟩
    · simp [Shape.data, eg, Except.bind, not_le.2 hw', not_le.2 hh', settle]
    · intro hz z
      exact square_drawn ⟨x, y, w, h, min rx (w / 2), min ry (h / 2)⟩ hw' hh'
        (hz.imp (fun k => (min_le_left _ _).trans k) (fun k => (min_le_left _ _).trans k)) z
    · intro kx ky z
      exact rounded_drawn ⟨x, y, w, h, min rx (w / 2), min ry (h / 2)⟩ (lt_min kx (by linarith)) (lt_min ky (by linarith))
        (min_le_right _ _) (min_le_right _ _) z

/-- A non-trivial instance: the width is inherited from an `svg` element without a width, the
height is 50% and one radius is `auto`. -/
example : ∃ (e : Node) (up : List Node), (∀ n ∈ e :: up, Good n.env) ∧
    Pixels e.env .horizontal (e.get "x".toList (.len 0 .noUnit)) 5 ∧ Pixels e.env .vertical (e.get "y".toList (.len 0 .noUnit)) 0 ∧
    UsedSize "width".toList .horizontal Env.vw (e :: up) 300 ∧ UsedSize "height".toList .vertical Env.vh (e :: up) 50 ∧
    UsedRadii e.env (e.get "rx".toList .auto) (e.get "ry".toList .auto) 30 30 := by
  refine ⟨⟨"rect".toList, [("x".toList, .len 5 .px), ("width".toList, .inherit), ("height".toList, .len 50 .pct),
      ("rx".toList, .len 10 .pct)], ⟨16, 16, 300, 100, none⟩⟩, [⟨"svg".toList, [], ⟨16, 16, 300, 100, none⟩⟩], ?_, ?_, ?_, ?_, ?_, ?_⟩
  · intro n hn
    simp only [List.mem_cons, List.not_mem_nil, or_false] at hn
    rcases hn with rfl | rfl <;> exact ⟨by norm_num, by norm_num, by norm_num, by norm_num, by simp⟩
  · exact ⟨5, .px, rfl, by simp [Length.Known], by simp [Resolution], by simp [size]⟩
  · exact ⟨0, .noUnit, rfl, by simp [Length.Known], by simp [Resolution], by simp⟩
  · exact .inherit rfl (.viewport (.inl rfl) rfl)
  · exact .length rfl ⟨50, .pct, rfl, by simp [Length.Known], by simp [Resolution], by simp [size]⟩
  · exact .inr (.inr (.inl ⟨rfl, ⟨10, .pct, rfl, by simp [Length.Known], by simp [Resolution], by simp [size]; norm_num⟩, rfl⟩))

/-! ### C82: lines, polylines and polygons -/

theorem cmpNum_zero (x : ℝ) : cmpNum .eq x 0 = true ↔ |x| ≤ 1e-9 := by
  simp only [cmpNum, isclose, sub_zero, abs_zero, decide_eq_true_eq]
  rw [max_eq_left (abs_nonneg x)]
  constructor
  · intro h
    rcases le_max_iff.1 h with h | h
    · have := abs_nonneg x
      have h2 : |x| ≤ 0 := by
        by_contra hn
        have := not_le.1 hn
        nlinarith
      linarith
    · exact h
  · intro h
    exact le_max_of_le_right h

/-- **C82** A line element whose attributes are lengths: the path draws exactly the points
between its ends; if these differ by at most 1e-9 (the tolerance of comparisons), there is no
path. -/
theorem line_drawn (e : Node) (hg : Good e.env) (x1 y1 x2 y2 : ℝ)
    (h1 : Pixels e.env .horizontal (e.get "x1".toList (.len 0 .noUnit)) x1)
    (h2 : Pixels e.env .vertical (e.get "y1".toList (.len 0 .noUnit)) y1)
    (h3 : Pixels e.env .horizontal (e.get "x2".toList (.len 0 .noUnit)) x2)
    (h4 : Pixels e.env .vertical (e.get "y2".toList (.len 0 .noUnit)) y2) (norm : Bool) :
    (|x2 - x1| ≤ 1e-9 ∧ |y2 - y1| ≤ 1e-9 → (Shape.line e).data norm = .ok []) ∧
    (¬ (|x2 - x1| ≤ 1e-9 ∧ |y2 - y1| ≤ 1e-9) →
      ∃ d, (Shape.line e).data norm = .ok d ∧ ∀ z, Drawn d z ↔ Between (x1, y1) (x2, y2) z) := by
  have eg : lineGeometry e = .ok ((x1, y1), (x2, y2)) := by
    simp only [lineGeometry, zero, px_pixels _ _ _ _ hg h1, px_pixels _ _ _ _ hg h2, px_pixels _ _ _ _ hg h3,
      px_pixels _ _ _ _ hg h4, Except.bind]
  have hc : (cmpNum .eq (x2 - x1) 0 && cmpNum .eq (y2 - y1) 0) = true ↔ |x2 - x1| ≤ 1e-9 ∧ |y2 - y1| ≤ 1e-9 := by
    rw [Bool.and_eq_true, cmpNum_zero, cmpNum_zero]
  constructor
  · intro h
    simp only [Shape.data, eg, Except.map, lineData, hc.2 h, if_true]
  · intro h
    refine ⟨[.move false x1 y1, .line false x2 y2], ?_, fun z => ?_⟩
    · have : (cmpNum .eq (x2 - x1) 0 && cmpNum .eq (y2 - y1) 0) = false := by
        rw [Bool.eq_false_iff]
        exact fun k => h (hc.1 k)
      simp only [Shape.data, eg, Except.map, lineData, this, Bool.false_eq_true, if_false]
    · simp [Drawn, Pen.draw, Pen.step, Pen.new, Pen.at, Pen.lineTo, OnPiece, on_line]

/-- A line with `x2="3"` meets the hypotheses. -/
example : ∃ e : Node, Good e.env ∧ Pixels e.env .horizontal (e.get "x1".toList (.len 0 .noUnit)) 0 ∧
    Pixels e.env .vertical (e.get "y1".toList (.len 0 .noUnit)) 0 ∧
    Pixels e.env .horizontal (e.get "x2".toList (.len 0 .noUnit)) 3 ∧
    Pixels e.env .vertical (e.get "y2".toList (.len 0 .noUnit)) 0 := by
  have hz : ∀ (e : Env) d, Pixels e d (.len 0 .noUnit) 0 := fun e d =>
    ⟨0, .noUnit, rfl, by simp [Length.Known], by simp [Resolution], by simp [size]⟩
  refine ⟨⟨"line".toList, [("x2".toList, .len 3 .noUnit)], ⟨16, 16, 100, 200, none⟩⟩,
    ⟨by norm_num, by norm_num, by norm_num, by norm_num, by simp⟩, hz _ _, hz _ _, ?_, hz _ _⟩
  exact ⟨3, .noUnit, rfl, by simp [Length.Known], by simp [Resolution], by simp [size]⟩

/-- Lines from the pen through the points. -/
theorem linesTo_drawn (pen : Pen) (l : List Pt) (rest : List (Seg ℝ)) (z : Pt) :
    (∃ a ∈ pen.draw (linesTo l ++ rest), OnPiece z a) ↔
      OnChain (pen.cur :: l) z ∨ ∃ a ∈ (pen.run (linesTo l)).draw rest, OnPiece z a := by
  induction l generalizing pen with
  | nil => simp [linesTo, OnChain, Pen.run]
  | cons p l ih =>
    have := ih (pen.step (.line false p.1 p.2)).1
    have e : linesTo (p :: l) = .line false p.1 p.2 :: linesTo l := rfl
    rw [e, List.cons_append, Pen.draw, Pen.run]
    simp only [List.mem_append, or_and_right, exists_or, this]
    simp only [Pen.step, Pen.lineTo, Pen.at, List.mem_singleton, exists_eq_left, OnPiece, on_line, OnChain, or_assoc,
      Bool.false_eq_true, if_false]

theorem linesTo_run (pen : Pen) (l : List Pt) :
    (pen.run (linesTo l)).start = pen.start ∧ (pen.run (linesTo l)).cur = (pen.cur :: l).getLast (by simp) := by
  induction l generalizing pen with
  | nil => exact ⟨rfl, rfl⟩
  | cons p l ih =>
    have := ih (pen.step (.line false p.1 p.2)).1
    have e : linesTo (p :: l) = .line false p.1 p.2 :: linesTo l := rfl
    rw [e, Pen.run]
    refine ⟨this.1.trans rfl, this.2.trans ?_⟩
    simp [Pen.step, Pen.lineTo, Pen.at]

/-- **C82** A polyline draws exactly the lines that join its points in turn. -/
theorem polyline_drawn (l : List Pt) (norm : Bool) :
    ∃ d, (Shape.polyline l).data norm = .ok d ∧ ∀ z, Drawn d z ↔ OnChain l z := by
  refine ⟨_, rfl, fun z => ?_⟩
  cases l with
  | nil => simp [polylineData, Drawn, Pen.draw, OnChain]
  | cons p l =>
    have e : polylineData (p :: l) = .move false p.1 p.2 :: (linesTo l ++ []) := by
      cases l <;> simp [polylineData, linesTo]
    have := linesTo_drawn (Pen.new.step (.move false p.1 p.2)).1 l [] z
    rw [Drawn, e, Pen.draw]
    simp only [List.mem_append, or_and_right, exists_or, this]
    simp [Pen.step, Pen.new, Pen.at, OnPiece, Pen.draw]

theorem chain_append (p : Pt) (l : List Pt) (q z : Pt) :
    OnChain (p :: l ++ [q]) z ↔ OnChain (p :: l) z ∨ Between ((p :: l).getLast (by simp)) q z := by
  induction l generalizing p with
  | nil => simp [OnChain]
  | cons a l ih =>
    have := ih a
    simp only [List.cons_append, OnChain, or_assoc] at this ⊢
    rw [this]
    simp

/-- **C82** A polygon with more than one point draws exactly the lines that join its points in
turn and the last point with the first; a polygon with one point draws nothing. -/
theorem polygon_drawn (p : Pt) (l : List Pt) (norm : Bool) :
    ∃ d, (Shape.polygon (p :: l)).data norm = .ok d ∧ ∀ z, Drawn d z ↔ l ≠ [] ∧ OnChain (p :: l ++ [p]) z := by
  refine ⟨_, rfl, fun z => ?_⟩
  cases l with
  | nil => simp [polygonData, Drawn, Pen.draw, Pen.step, Pen.new, Pen.at, OnPiece]
  | cons q l =>
    have e : polygonData (p :: q :: l) = .move false p.1 p.2 :: (linesTo (q :: l) ++ [.close false]) := rfl
    have ep : Pen.new.step (.move false p.1 p.2) = (⟨p, p, .free, 0, true⟩, [.begin p]) := by simp [Pen.step, Pen.new, Pen.at]
    have := linesTo_drawn ⟨p, p, .free, 0, true⟩ (q :: l) [.close false] z
    obtain ⟨r1, r2⟩ := linesTo_run ⟨p, p, .free, 0, true⟩ (q :: l)
    rw [Drawn, e, Pen.draw, ep]
    simp only [List.mem_append, or_and_right, exists_or, this]
    rw [chain_append]
    simp only [Pen.draw, Pen.step, r1, r2, List.append_nil, List.mem_singleton, exists_eq_left, OnPiece, on_line]
    simp

/-- A triangle draws its three sides. -/
example : ∃ d, (Shape.polygon [(0, 0), (4, 0), (0, 4)]).data true = .ok d ∧ Drawn d (0, 2) := by
  obtain ⟨d, h1, h2⟩ := polygon_drawn (0, 0) [(4, 0), (0, 4)] true
  refine ⟨d, h1, (h2 _).2 ⟨by simp, .inr (.inr (.inl ⟨1 / 2, by norm_num, by norm_num, by norm_num, by norm_num⟩))⟩⟩

end SvgPy.Shapes
