import Verif.Props.Shapes
import Verif.Model.Elements

/-! Property C85: the total lengths of the basic shapes. -/

set_option linter.unusedSimpArgs false

namespace SvgPy.ShapeLength

open SvgPy.Path SvgPy.PathGeom SvgPy.PathLength SvgPy.Shapes SvgPy.Elements

/-- Quarters of an ellipse between its axes have equal lengths. -/
theorem F_quarter (rx ry t : ℝ) (h : Real.sin t = 0 ∨ Real.cos t = 0) : F rx ry (t + Real.pi / 2) - F rx ry t = F rx ry (Real.pi / 2) := by
  have turn : ∀ (k : ℤ) (t : ℝ), F rx ry (t + k * Real.pi) = F rx ry t + k * F rx ry Real.pi := by
    intro k
    induction k using Int.induction_on with
    | zero => simp
    | succ n ih =>
      intro t
      rw [show t + ((n + 1 : ℤ) : ℝ) * Real.pi = (t + Real.pi) + ((n : ℤ) : ℝ) * Real.pi by push_cast; ring, ih, F_half]
      push_cast; ring
    | pred n ih =>
      intro t
      have := F_half (rx := rx) (ry := ry) (t - Real.pi)
      rw [sub_add_cancel] at this
      rw [show t + ((-n - 1 : ℤ) : ℝ) * Real.pi = (t - Real.pi) + ((-n : ℤ) : ℝ) * Real.pi by push_cast; ring, ih]
      push_cast
      push_cast at this
      linarith
  rcases h with h | h
  · obtain ⟨k, rfl⟩ := Real.sin_eq_zero_iff.1 h
    have h1 := turn k 0
    have h2 := turn k (Real.pi / 2)
    rw [zero_add, F_zero] at h1
    rw [add_comm, h2, h1]
    ring
  · obtain ⟨k, rfl⟩ := Real.cos_eq_zero_iff.1 h
    have h1 := turn k (Real.pi / 2)
    have h2 := turn (k + 1) 0
    rw [zero_add, F_zero] at h2
    rw [show (2 * (k : ℝ) + 1) * Real.pi / 2 + Real.pi / 2 = ((k + 1 : ℤ) : ℝ) * Real.pi by push_cast; ring, h2,
      show (2 * (k : ℝ) + 1) * Real.pi / 2 = Real.pi / 2 + k * Real.pi by ring, h1, F_pi]
    push_cast; ring

/-- The way round an ellipse with radii `rx` and `ry`: the integral of the speed of the point
`(rx cos t, ry sin t)` over a full turn. -/
noncomputable def circumference (rx ry : ℝ) : ℝ :=
  ∫ t in (0 : ℝ)..(2 * Real.pi), √((rx * Real.sin t) ^ 2 + (ry * Real.cos t) ^ 2)

/-- For a circle it is what everybody expects. -/
theorem circumference_circle (r : ℝ) (hr : 0 ≤ r) : circumference r r = 2 * Real.pi * r := by
  have hi : ∀ x : ℝ, √((r * Real.sin x) ^ 2 + (r * Real.cos x) ^ 2) = r := by
    intro x
    rw [show (r * Real.sin x) ^ 2 + (r * Real.cos x) ^ 2 = r ^ 2 by linear_combination r ^ 2 * Real.sin_sq_add_cos_sq x,
      Real.sqrt_sq hr]
  simp only [circumference, hi]
  rw [intervalIntegral.integral_const, smul_eq_mul, sub_zero]

theorem circumference_quarters (rx ry : ℝ) : circumference rx ry = 4 * F rx ry (Real.pi / 2) := by
  have h : circumference rx ry = F rx ry (2 * Real.pi) := rfl
  rw [h, show (2 * Real.pi) = Real.pi + Real.pi by ring, F_half, F_pi]
  ring

/-- The length of a quarter of an ellipse. -/
theorem quarter_length (cx cy rx ry a b len : ℝ) (hx : 0 < rx) (hy : 0 < ry) (hab : a ^ 2 + b ^ 2 = 1) (h0 : a = 0 ∨ b = 0)
    (h : IsArcLength (cx + rx * a, cy + ry * b) rx ry 0 0 1 (cx - rx * b, cy + ry * a) len) : len = circumference rx ry / 4 := by
  have pi := Real.pi_pos
  have hL : LargeEnough |rx| |ry| 0 (cx + rx * a, cy + ry * b) (cx - rx * b, cy + ry * a) := by
    simp only [LargeEnough, abs_of_pos hx, abs_of_pos hy, zero_mul, zero_div, Real.cos_zero, Real.sin_zero, mul_one, mul_zero, add_zero, sub_zero]
    have e1 : (cx + rx * a - (cx - rx * b)) / 2 / rx = (a + b) / 2 := by field_simp; ring
    have e2 : (cy + ry * b - (cy + ry * a)) / 2 / ry = (b - a) / 2 := by field_simp; ring
    have : ((cx + rx * a - (cx - rx * b)) / 2 / rx) ^ 2 + ((cy + ry * b - (cy + ry * a)) / 2 / ry) ^ 2 = 1 / 2 := by
      rw [e1, e2]
      linear_combination hab / 2
    rw [this]; norm_num
  rcases h with ⟨h, -⟩ | ⟨-, c, r1, r2, t, u, -, -, h1, -, hp, hq, hs, -, -, hf, hlen⟩
  · exfalso
    rw [Prod.mk.injEq] at h
    have h1 : a + b = 0 := by
      have : rx * (a + b) = 0 := by linarith [h.1]
      exact (mul_eq_zero.1 this).resolve_left hx.ne'
    have h2 : b - a = 0 := by
      have : ry * (b - a) = 0 := by linarith [h.2]
      exact (mul_eq_zero.1 this).resolve_left hy.ne'
    have h3 : a = 0 := by linarith
    have h4 : b = 0 := by linarith
    rw [h3, h4] at hab; norm_num at hab
  · obtain ⟨rfl, rfl⟩ := h1 hL
    rw [abs_of_pos hx, abs_of_pos hy] at hp hq hlen
    obtain ⟨h1, h2⟩ := hs one_ne_zero
    have hpi := hf rfl
    rw [abs_of_pos (by linarith)] at hpi
    rw [ellipsePoint_flat, Prod.mk.injEq] at hp hq
    have et : Real.cos t = a - (c.1 - cx) / rx := by field_simp; linarith [hp.1]
    have et' : Real.sin t = b - (c.2 - cy) / ry := by field_simp; linarith [hp.2]
    have eu : Real.cos u = -b - (c.1 - cx) / rx := by field_simp; linarith [hq.1]
    have eu' : Real.sin u = a - (c.2 - cy) / ry := by field_simp; linarith [hq.2]
    have k1 := Real.cos_sq_add_sin_sq t
    have k2 := Real.cos_sq_add_sin_sq u
    rw [et, et'] at k1
    rw [eu, eu'] at k2
    have hsin : 0 ≤ Real.sin (u - t) := Real.sin_nonneg_of_nonneg_of_le_pi (by linarith) hpi
    rcases two_circles a b _ _ hab k1 k2 with ⟨hm, hn⟩ | ⟨hm, hn⟩
    · rw [hm] at et eu
      rw [hn] at et' eu'
      have hcos : Real.cos (u - t) = 0 := by rw [Real.cos_sub, et, et', eu, eu']; ring
      have hut : u - t = Real.pi / 2 := by
        rw [← Real.arccos_cos (by linarith : 0 ≤ u - t) hpi, hcos, Real.arccos_zero]
      have hax : Real.sin t = 0 ∨ Real.cos t = 0 := by
        rw [et, et']
        rcases h0 with h | h <;> simp [h]
      have hu : u = t + Real.pi / 2 := by linarith
      have hl : len = |F rx ry u - F rx ry t| := by rw [hlen, ← F_sub]; rfl
      have hpos : F rx ry t < F rx ry u := F_strict hx hy h1
      rw [hl, abs_of_pos (by linarith), hu, F_quarter _ _ _ hax, circumference_quarters]
      ring
    · exfalso
      rw [hm] at et eu
      rw [hn] at et' eu'
      have : Real.sin (u - t) = -1 := by
        rw [Real.sin_sub, et, et', eu, eu']
        linear_combination (-1) * hab
      linarith

theorem length_line (p q : Pt) : strokeLength (lineAt p q) = √((q.1 - p.1) ^ 2 + (q.2 - p.2) ^ 2) := strokeLength_line p q

theorem length_horizontal (a b y : ℝ) : strokeLength (lineAt (a, y) (b, y)) = |b - a| := by
  rw [length_line]; simp [Real.sqrt_sq_eq_abs]

theorem length_vertical (x a b : ℝ) : strokeLength (lineAt (x, a) (x, b)) = |b - a| := by
  rw [length_line]; simp [Real.sqrt_sq_eq_abs]

/-! ### C85 -/

/-- The circumference computed from the path data of a circle or ellipse. -/
theorem round_length (cx cy rx ry : ℝ) (hx : 0 < rx) (hy : 0 < ry) (hc : ∀ a ∈ Pen.new.draw (roundData ⟨cx, cy, rx, ry⟩), ClearArc a) :
    totalLength (roundData ⟨cx, cy, rx, ry⟩) = .ok (circumference rx ry) := by
  have h : ¬ (rx ≤ 0 ∨ ry ≤ 0) := by rintro (h | h) <;> linarith
  have ep := round_pieces ⟨cx, cy, rx, ry⟩ hx hy
  obtain ⟨len, e1, e2⟩ : ∃ len, totalLength (roundData ⟨cx, cy, rx, ry⟩) = .ok len ∧ DrawnLength (Pen.new.draw (roundData ⟨cx, cy, rx, ry⟩)) len := by
    simp only [roundData, h, if_false] at hc ⊢
    exact totalLength_partial false _ _ _ (by simp [AllSmooth, Smooth]) hc
  rw [e1]
  congr 1
  rw [ep] at e2
  obtain ⟨a1, b1, l1, ⟨a2, b2, l2, ⟨a3, b3, l3, ⟨a4, b4, l4, ⟨a5, l5, f5⟩, f4⟩, f3⟩, f2⟩, f1⟩ := e2
  have q1 := quarter_length cx cy rx ry 1 0 a1 hx hy (by norm_num) (.inr rfl) (by simpa using l1)
  have q2 := quarter_length cx cy rx ry 0 1 a2 hx hy (by norm_num) (.inl rfl) (by simpa using l2)
  have q3 := quarter_length cx cy rx ry (-1) 0 a3 hx hy (by norm_num) (.inr rfl) (by simpa [← sub_eq_add_neg] using l3)
  have q4 := quarter_length cx cy rx ry 0 (-1) a4 hx hy (by norm_num) (.inl rfl) (by simpa [← sub_eq_add_neg] using l4)
  have l5 : a5 = 0 := l5
  rw [length_horizontal, sub_self, abs_zero] at f5
  rw [f1, f2, f3, f4, f5, q1, q2, q3, q4, l5]
  ring

/-- **C85** The total length of a circle element is its circumference (if its size exceeds the
tolerance of the code), and 0 without a positive radius. -/
theorem circle_length (e : Node) (hg : Length.Good e.env) (cx cy r : ℝ)
    (hcx : Pixels e.env .horizontal (e.get "cx".toList (.len 0 .noUnit)) cx)
    (hcy : Pixels e.env .vertical (e.get "cy".toList (.len 0 .noUnit)) cy)
    (hr : Pixels e.env .unspecified (e.get "r".toList (.len 0 .noUnit)) r) :
    (r ≤ 0 → shapeLength (.circle e) = .ok 0) ∧
    (0 < r → (∀ a ∈ Pen.new.draw (roundData ⟨cx, cy, r, r⟩), ClearArc a) → shapeLength (.circle e) = .ok (2 * Real.pi * r)) := by
  have e1 : circleGeometry e = .ok ⟨cx, cy, r, r⟩ := by
    simp only [circleGeometry, zero, px_pixels _ _ _ _ hg hcx, px_pixels _ _ _ _ hg hcy, px_pixels _ _ _ _ hg hr, Except.bind]
  constructor
  · intro h
    simp [shapeLength, Shape.data, e1, Except.bind, h]
  · intro h hc
    have hn : roundData ⟨cx, cy, r, r⟩ ≠ [] := by simp [roundData, h]
    have := round_length cx cy r r h h hc
    rw [circumference_circle r h.le] at this
    simp [shapeLength, Shape.data, e1, Except.bind, not_le.2 h, settle, hn, this]

/-- **C85** The total length of an ellipse element, whose radii are lengths, is its circumference
(if its size exceeds the tolerance of the code), and 0 without positive radii. -/
theorem ellipse_length (e : Node) (hg : Length.Good e.env) (cx cy rx ry : ℝ)
    (hcx : Pixels e.env .horizontal (e.get "cx".toList (.len 0 .noUnit)) cx)
    (hcy : Pixels e.env .vertical (e.get "cy".toList (.len 0 .noUnit)) cy)
    (hrx : Pixels e.env .horizontal (e.get "rx".toList .auto) rx)
    (hry : Pixels e.env .vertical (e.get "ry".toList .auto) ry) :
    (rx ≤ 0 ∨ ry ≤ 0 → shapeLength (.ellipse e) = .ok 0) ∧
    (0 < rx → 0 < ry → (∀ a ∈ Pen.new.draw (roundData ⟨cx, cy, rx, ry⟩), ClearArc a) →
      shapeLength (.ellipse e) = .ok (circumference rx ry)) := by
  have e0 : ellipseRadii e.env (e.get "rx".toList .auto) (e.get "ry".toList .auto) = .ok (rx, ry) := by
    have ha1 := pixels_not_auto hrx
    have ha2 := pixels_not_auto hry
    revert hrx hry ha1 ha2
    generalize e.get "rx".toList .auto = vx
    generalize e.get "ry".toList .auto = vy
    intro hrx hry ha1 ha2
    have hs : sameText vx vy = (vx, vy) := by simp [sameText, ha1, ha2]
    simp only [ellipseRadii, hs, ha1, ha2, px_pixels _ _ _ _ hg hrx, px_pixels _ _ _ _ hg hry, Except.bind, Bool.and_false,
      Bool.false_eq_true, if_false]
  have e1 : ellipseGeometry e = .ok ⟨cx, cy, rx, ry⟩ := by
    simp only [ellipseGeometry, zero, e0, px_pixels _ _ _ _ hg hcx, px_pixels _ _ _ _ hg hcy, Except.bind]
  constructor
  · intro h
    simp [shapeLength, Shape.data, e1, Except.bind, h]
  · intro h1 h2 hc
    have hn : roundData ⟨cx, cy, rx, ry⟩ ≠ [] := by simp [roundData, h1, h2]
    have := round_length cx cy rx ry h1 h2 hc
    simp [shapeLength, Shape.data, e1, Except.bind, not_le.2 h1, not_le.2 h2, settle, hn, this]

/-- The length of the border of a rectangle without round corners. -/
theorem square_length (g : Box) (hw : 0 < g.w) (hh : 0 < g.h) (hr : g.rx ≤ 0 ∨ g.ry ≤ 0) :
    totalLength (rectData g) = .ok (2 * (g.w + g.h)) := by
  have h : ¬ (g.w ≤ 0 ∨ g.h ≤ 0) := by rintro (h | h) <;> linarith
  have hd : rectData g = [.move false (g.x + 0) g.y, .horiz false (g.x + g.w - 0), .vert false (g.y + g.h - 0),
      .horiz false (g.x + 0), .vert false (g.y + 0), .close false] := by simp only [rectData, h, hr, if_false, if_true]
  rw [hd]
  obtain ⟨len, e1, e2⟩ := totalLength_partial false (g.x + 0) g.y
    [.horiz false (g.x + g.w - 0), .vert false (g.y + g.h - 0), .horiz false (g.x + 0), .vert false (g.y + 0), .close false]
    (by simp [AllSmooth, Smooth]) (by simp [Pen.draw, Pen.step, Pen.new, Pen.at, Pen.lineTo, ClearArc])
  rw [e1]
  congr 1
  simp only [Pen.draw, Pen.step, Pen.new, Pen.at, Pen.lineTo, Bool.false_eq_true, if_false, List.append_nil, List.cons_append,
    List.nil_append] at e2
  obtain ⟨a1, ⟨a2, ⟨a3, ⟨a4, ⟨a5, h5, f5⟩, f4⟩, f3⟩, f2⟩, f1⟩ := e2
  have h5 : a5 = 0 := h5
  simp only [add_zero, sub_zero] at f1 f2 f3 f4 f5
  rw [length_horizontal] at f1
  rw [length_vertical] at f2
  rw [length_horizontal] at f3
  rw [length_vertical] at f4
  rw [length_horizontal, sub_self, abs_zero] at f5
  rw [f1, f2, f3, f4, f5, h5, show g.x + g.w - g.x = g.w by ring, show g.y + g.h - g.y = g.h by ring,
    show g.x - (g.x + g.w) = -g.w by ring, show g.y - (g.y + g.h) = -g.h by ring, abs_neg, abs_neg, abs_of_pos hw, abs_of_pos hh]
  ring

/-- The length of the border of a rectangle with round corners. -/
theorem rounded_length (x y w h rx ry : ℝ) (hx : 0 < rx) (hy : 0 < ry) (hw : rx ≤ w / 2) (hh : ry ≤ h / 2)
    (hc : ∀ a ∈ Pen.new.draw (rectData ⟨x, y, w, h, rx, ry⟩), ClearArc a) :
    totalLength (rectData ⟨x, y, w, h, rx, ry⟩) = .ok (2 * (w - 2 * rx) + 2 * (h - 2 * ry) + circumference rx ry) := by
  have k : ¬ (w ≤ 0 ∨ h ≤ 0) := by rintro (h | h) <;> linarith
  have k' : ¬ (rx ≤ 0 ∨ ry ≤ 0) := by rintro (h | h) <;> linarith
  have ep := rounded_pieces ⟨x, y, w, h, rx, ry⟩ hx hy hw hh
  obtain ⟨len, e1, e2⟩ : ∃ len, totalLength (rectData ⟨x, y, w, h, rx, ry⟩) = .ok len ∧
      DrawnLength (Pen.new.draw (rectData ⟨x, y, w, h, rx, ry⟩)) len := by
    simp only [rectData, k, k', if_false] at hc ⊢
    exact totalLength_partial false _ _ _ (by simp [AllSmooth, Smooth]) hc
  rw [e1]
  congr 1
  rw [ep] at e2
  obtain ⟨t1, ⟨a1, b1, l1, ⟨t2, ⟨a2, b2, l2, ⟨t3, ⟨a3, b3, l3, ⟨t4, ⟨a4, b4, l4, ⟨t5, l5, f5⟩, g4⟩, f4⟩, g3⟩, f3⟩, g2⟩, f2⟩, g1⟩, f1⟩ := e2
  have q1 := quarter_length (x + w - rx) (y + ry) rx ry 0 (-1) a1 hx hy (by norm_num) (.inl rfl) (by simpa using l1)
  have q2 := quarter_length (x + w - rx) (y + h - ry) rx ry 1 0 a2 hx hy (by norm_num) (.inr rfl) (by simpa using l2)
  have q3 := quarter_length (x + rx) (y + h - ry) rx ry 0 1 a3 hx hy (by norm_num) (.inl rfl) (by simpa using l3)
  have q4 := quarter_length (x + rx) (y + ry) rx ry (-1) 0 a4 hx hy (by norm_num) (.inr rfl) (by simpa using l4)
  have l5 : t5 = 0 := l5
  rw [length_horizontal] at f1
  rw [length_vertical] at f2
  rw [length_horizontal] at f3
  rw [length_vertical] at f4
  rw [length_horizontal, sub_self, abs_zero] at f5
  simp only at f1 f2 f3 f4
  rw [show x + w - rx - (x + rx) = w - 2 * rx by ring, abs_of_nonneg (by linarith)] at f1
  rw [show y + h - ry - (y + ry) = h - 2 * ry by ring, abs_of_nonneg (by linarith)] at f2
  rw [show x + rx - (x + w - rx) = -(w - 2 * rx) by ring, abs_neg, abs_of_nonneg (by linarith)] at f3
  rw [show y + ry - (y + h - ry) = -(h - 2 * ry) by ring, abs_neg, abs_of_nonneg (by linarith)] at f4
  rw [f1, g1, f2, g2, f3, g3, f4, g4, f5, l5, q1, q2, q3, q4]
  ring

/-- **C85** The total length of a rectangle element: twice the sum of its sizes; with round
corners, whose radii are at most half the sizes, the straight parts of the sides and the
circumference of the ellipse the corners make up (if the corners exceed the tolerance of the code). -/
theorem rect_length (e : Node) (up : List Node) (hg : ∀ n ∈ e :: up, Length.Good n.env) (x y w h rx ry : ℝ)
    (hx : Pixels e.env .horizontal (e.get "x".toList (.len 0 .noUnit)) x)
    (hy : Pixels e.env .vertical (e.get "y".toList (.len 0 .noUnit)) y)
    (hw : UsedSize "width".toList .horizontal Length.Env.vw (e :: up) w)
    (hh : UsedSize "height".toList .vertical Length.Env.vh (e :: up) h)
    (hr : UsedRadii e.env (e.get "rx".toList .auto) (e.get "ry".toList .auto) rx ry) (hs : 0 < w ∧ 0 < h) :
    (rx ≤ 0 ∨ ry ≤ 0 → shapeLength (.rect e up) = .ok (2 * (w + h))) ∧
    (0 < rx → 0 < ry → ∀ a b, a = min rx (w / 2) → b = min ry (h / 2) →
      (∀ p ∈ Pen.new.draw (rectData ⟨x, y, w, h, a, b⟩), ClearArc p) →
      shapeLength (.rect e up) = .ok (2 * (w - 2 * a) + 2 * (h - 2 * b) + circumference a b)) := by
  have h0 := hg e (by simp)
  obtain ⟨v1, e1, s1, p1⟩ := used_size _ _ Length.Env.vw (fun e => by simp [Length.size]; ring) e.env h0 _ _ hg hw
  obtain ⟨v2, e2, s2, p2⟩ := used_size _ _ Length.Env.vh (fun e => by simp [Length.size]; ring) e.env h0 _ _ hg hh
  have eg : rectGeometry e up = .ok ⟨x, y, w, h, min rx (w / 2), min ry (h / 2)⟩ := by
    simp only [rectGeometry, s1, s2, p1, p2, Except.bind, rect_radii _ h0 _ _ _ _ _ _ hs.1.le hs.2.le hr, zero,
      px_pixels _ _ _ _ h0 hx, px_pixels _ _ _ _ h0 hy]
  have hn : rectData ⟨x, y, w, h, min rx (w / 2), min ry (h / 2)⟩ ≠ [] := by
    have h : ¬ (w ≤ 0 ∨ h ≤ 0) := by rintro (k | k) <;> linarith [hs.1, hs.2]
    simp only [rectData, h, if_false]
    split <;> simp
  have key : shapeLength (.rect e up) = totalLength (rectData ⟨x, y, w, h, min rx (w / 2), min ry (h / 2)⟩) := by
    simp [shapeLength, Shape.data, eg, Except.bind, not_le.2 hs.1, not_le.2 hs.2, settle, hn]
  rw [key]
  constructor
  · intro hz
    exact square_length _ hs.1 hs.2 (hz.imp (fun k => (min_le_left _ _).trans k) (fun k => (min_le_left _ _).trans k))
  · rintro k1 k2 a b rfl rfl hc
    exact rounded_length x y w h _ _ (lt_min k1 (by linarith [hs.1])) (lt_min k2 (by linarith [hs.2])) (min_le_right _ _)
      (min_le_right _ _) hc

/-- Without a positive size nothing is drawn and the length is 0. -/
theorem rect_length_none (e : Node) (up : List Node) (hg : ∀ n ∈ e :: up, Length.Good n.env) (x y w h rx ry : ℝ)
    (hx : Pixels e.env .horizontal (e.get "x".toList (.len 0 .noUnit)) x)
    (hy : Pixels e.env .vertical (e.get "y".toList (.len 0 .noUnit)) y)
    (hw : UsedSize "width".toList .horizontal Length.Env.vw (e :: up) w)
    (hh : UsedSize "height".toList .vertical Length.Env.vh (e :: up) h)
    (hr : UsedRadii e.env (e.get "rx".toList .auto) (e.get "ry".toList .auto) rx ry) (h0 : 0 ≤ w ∧ 0 ≤ h) (hs : w = 0 ∨ h = 0) :
    shapeLength (.rect e up) = .ok 0 := by
  have hg0 := hg e (by simp)
  obtain ⟨v1, e1, s1, p1⟩ := used_size _ _ Length.Env.vw (fun e => by simp [Length.size]; ring) e.env hg0 _ _ hg hw
  obtain ⟨v2, e2, s2, p2⟩ := used_size _ _ Length.Env.vh (fun e => by simp [Length.size]; ring) e.env hg0 _ _ hg hh
  have eg : rectGeometry e up = .ok ⟨x, y, w, h, min rx (w / 2), min ry (h / 2)⟩ := by
    simp only [rectGeometry, s1, s2, p1, p2, Except.bind, rect_radii _ hg0 _ _ _ _ _ _ h0.1 h0.2 hr, zero,
      px_pixels _ _ _ _ hg0 hx, px_pixels _ _ _ _ hg0 hy]
  have hs' : w ≤ 0 ∨ h ≤ 0 := hs.imp le_of_eq le_of_eq
  simp [shapeLength, Shape.data, eg, Except.bind, hs']

/-- A circle of radius 5 around (10, 20) meets the hypotheses. -/
example : ∀ a ∈ Pen.new.draw (roundData ⟨10, 20, 5, 5⟩), ClearArc a := by
  rw [round_pieces _ (by norm_num) (by norm_num)]
  simp only [List.forall_mem_cons]
  refine ⟨trivial, ⟨by norm_num, by norm_num, .inr (.inl ?_)⟩, ⟨by norm_num, by norm_num, .inr (.inl ?_)⟩,
    ⟨by norm_num, by norm_num, .inr (.inl ?_)⟩, ⟨by norm_num, by norm_num, .inr (.inl ?_)⟩, trivial, by simp⟩ <;>
    constructor <;> norm_num [abs_of_pos, abs_of_neg]

/-- So does an ellipse with radii 5 and 3. -/
example : ∀ a ∈ Pen.new.draw (roundData ⟨10, 20, 5, 3⟩), ClearArc a := by
  rw [round_pieces _ (by norm_num) (by norm_num)]
  simp only [List.forall_mem_cons]
  refine ⟨trivial, ⟨by norm_num, by norm_num, .inr (.inl ?_)⟩, ⟨by norm_num, by norm_num, .inr (.inl ?_)⟩,
    ⟨by norm_num, by norm_num, .inr (.inl ?_)⟩, ⟨by norm_num, by norm_num, .inr (.inl ?_)⟩, trivial, by simp⟩ <;>
    constructor <;> norm_num [abs_of_pos, abs_of_neg]

/-- So does a rectangle with corners of radii 3 and 4. -/
example : ∀ a ∈ Pen.new.draw (rectData ⟨5, 6, 40, 30, 3, 4⟩), ClearArc a := by
  rw [rounded_pieces _ (by norm_num) (by norm_num) (by norm_num) (by norm_num)]
  simp only [List.forall_mem_cons]
  refine ⟨trivial, trivial, ⟨by norm_num, by norm_num, .inr (.inl ?_)⟩, trivial, ⟨by norm_num, by norm_num, .inr (.inl ?_)⟩, trivial,
    ⟨by norm_num, by norm_num, .inr (.inl ?_)⟩, trivial, ⟨by norm_num, by norm_num, .inr (.inl ?_)⟩, trivial, by simp⟩ <;>
    constructor <;> norm_num [abs_of_pos, abs_of_neg]

/-- **C85** The total length of a line element is the distance of its ends, or 0 if they differ by
at most 1e-9 in each coordinate. -/
theorem line_length (e : Node) (hg : Length.Good e.env) (x1 y1 x2 y2 : ℝ)
    (h1 : Pixels e.env .horizontal (e.get "x1".toList (.len 0 .noUnit)) x1)
    (h2 : Pixels e.env .vertical (e.get "y1".toList (.len 0 .noUnit)) y1)
    (h3 : Pixels e.env .horizontal (e.get "x2".toList (.len 0 .noUnit)) x2)
    (h4 : Pixels e.env .vertical (e.get "y2".toList (.len 0 .noUnit)) y2) :
    (|x2 - x1| ≤ 1e-9 ∧ |y2 - y1| ≤ 1e-9 → shapeLength (.line e) = .ok 0) ∧
    (¬ (|x2 - x1| ≤ 1e-9 ∧ |y2 - y1| ≤ 1e-9) → shapeLength (.line e) = .ok (√((x2 - x1) ^ 2 + (y2 - y1) ^ 2))) := by
  have eg : lineGeometry e = .ok ((x1, y1), (x2, y2)) := by
    simp only [lineGeometry, zero, px_pixels _ _ _ _ hg h1, px_pixels _ _ _ _ hg h2, px_pixels _ _ _ _ hg h3,
      px_pixels _ _ _ _ hg h4, Except.bind]
  have hc : (Length.cmpNum .eq (x2 - x1) 0 && Length.cmpNum .eq (y2 - y1) 0) = true ↔ |x2 - x1| ≤ 1e-9 ∧ |y2 - y1| ≤ 1e-9 := by
    rw [Bool.and_eq_true, cmpNum_zero, cmpNum_zero]
  constructor
  · intro h
    simp only [shapeLength, Shape.data, eg, Except.map, lineData, hc.2 h, if_true, Except.bind]
  · intro h
    have : (Length.cmpNum .eq (x2 - x1) 0 && Length.cmpNum .eq (y2 - y1) 0) = false := by
      rw [Bool.eq_false_iff]
      exact fun k => h (hc.1 k)
    obtain ⟨len, e1, e2⟩ := totalLength_partial false x1 y1 [.line false x2 y2] (by simp [AllSmooth, Smooth])
      (by simp [Pen.draw, Pen.step, Pen.new, Pen.at, Pen.lineTo, ClearArc])
    simp only [shapeLength, Shape.data, eg, Except.map, lineData, this, Bool.false_eq_true, if_false, Except.bind, List.cons_ne_nil, e1]
    congr 1
    simp only [Pen.draw, Pen.step, Pen.new, Pen.at, Pen.lineTo, Bool.false_eq_true, if_false, List.append_nil, List.cons_append,
      List.nil_append] at e2
    obtain ⟨a, h0, f⟩ := e2
    have h0 : a = 0 := h0
    rw [f, h0, length_line, add_zero]

/-- The sum of the distances of points in turn. -/
noncomputable def around : List Pt → ℝ
  | p :: q :: l => √((q.1 - p.1) ^ 2 + (q.2 - p.2) ^ 2) + around (q :: l)
  | _ => 0

theorem lines_length (pen : Pen) (l : List Pt) (rest : List (Seg ℝ)) (len : ℝ) (h : DrawnLength (pen.draw (linesTo l ++ rest)) len) :
    ∃ a, DrawnLength ((pen.run (linesTo l)).draw rest) a ∧ len = around (pen.cur :: l) + a := by
  induction l generalizing pen len with
  | nil => exact ⟨len, h, by simp [around]⟩
  | cons p l ih =>
    have e : linesTo (p :: l) = .line false p.1 p.2 :: linesTo l := rfl
    rw [e, List.cons_append, Pen.draw] at h
    simp only [Pen.step, Pen.lineTo, Pen.at, List.cons_append, List.nil_append, Bool.false_eq_true, if_false] at h
    obtain ⟨b, h1, h2⟩ := h
    obtain ⟨a, h3, h4⟩ := ih _ _ h1
    refine ⟨a, by rw [e, Pen.run]; exact h3, ?_⟩
    rw [h2, h4, length_line, around]
    ring

theorem lines_smooth (l : List Pt) (rest : List (Seg ℝ)) (h : rest = [] ∨ rest = [.close false]) :
    AllSmooth .line false (linesTo l ++ rest) := by
  induction l with
  | nil => rcases h with rfl | rfl <;> simp [linesTo, AllSmooth, Smooth]
  | cons p l ih =>
    have e : linesTo (p :: l) = .line false p.1 p.2 :: linesTo l := rfl
    rw [e, List.cons_append]
    simp only [AllSmooth, Smooth]
    refine ⟨?_, ih⟩
    simp

theorem lines_clear (pen : Pen) (l : List Pt) (rest : List (Seg ℝ)) (h : rest = [] ∨ rest = [.close false]) :
    ∀ a ∈ pen.draw (linesTo l ++ rest), ClearArc a := by
  induction l generalizing pen with
  | nil => rcases h with rfl | rfl <;> simp [linesTo, Pen.draw, Pen.step, ClearArc]
  | cons p l ih =>
    have e : linesTo (p :: l) = .line false p.1 p.2 :: linesTo l := rfl
    rw [e, List.cons_append, Pen.draw]
    intro a ha
    rcases List.mem_append.1 ha with ha | ha
    · simp only [Pen.step, Pen.lineTo, Pen.at, List.mem_singleton] at ha
      rw [ha]
      trivial
    · exact ih _ a ha

/-- **C85** The total length of a polyline is the sum of the distances of its points in turn. -/
theorem polyline_length (l : List Pt) : shapeLength (.polyline l) = .ok (around l) := by
  cases l with
  | nil => simp [shapeLength, Shape.data, polylineData, Except.bind, around]
  | cons p l =>
    have e : polylineData (p :: l) = .move false p.1 p.2 :: (linesTo l ++ []) := by
      cases l <;> simp [polylineData, linesTo]
    have ep : Pen.new.step (.move false p.1 p.2) = (⟨p, p, .free, 0, true⟩, [.begin p]) := by simp [Pen.step, Pen.new, Pen.at]
    obtain ⟨len, e1, e2⟩ := totalLength_partial false p.1 p.2 (linesTo l ++ []) (lines_smooth l [] (.inl rfl)) (by
      rw [Pen.draw, ep]
      intro a ha
      rcases List.mem_append.1 ha with ha | ha
      · rw [List.mem_singleton] at ha
        rw [ha]
        trivial
      · exact lines_clear _ l [] (.inl rfl) a ha)
    simp only [shapeLength, Shape.data, Except.bind, e, reduceCtorEq, if_false, e1]
    rw [Pen.draw, ep] at e2
    obtain ⟨a, h1, h2⟩ := lines_length ⟨p, p, .free, 0, true⟩ l [] len e2
    have h1 : a = 0 := h1
    rw [h2, h1, add_zero]

/-- **C85** The total length of a polygon is the sum of the distances of its points in turn and
back to the first. -/
theorem polygon_length (p : Pt) (l : List Pt) : shapeLength (.polygon (p :: l)) = .ok (around (p :: l ++ [p])) := by
  have ep : Pen.new.step (.move false p.1 p.2) = (⟨p, p, .free, 0, true⟩, [.begin p]) := by simp [Pen.step, Pen.new, Pen.at]
  have split : ∀ (a : List Pt) (q : Pt), around (p :: a ++ [q]) = around (p :: a) +
      √((q.1 - ((p :: a).getLast (by simp)).1) ^ 2 + (q.2 - ((p :: a).getLast (by simp)).2) ^ 2) := by
    intro a q
    generalize p = p0
    induction a generalizing p0 with
    | nil => simp [around]
    | cons b a ih =>
      have := ih b
      simp only [List.cons_append, around, List.getLast_cons_cons] at this ⊢
      rw [this]
      ring
  cases l with
  | nil =>
    obtain ⟨len, e1, e2⟩ := totalLength_partial false p.1 p.2 [] (by simp [AllSmooth]) (by
      simp [Pen.draw, Pen.step, Pen.new, Pen.at, ClearArc])
    simp only [shapeLength, Shape.data, polygonData, Except.bind, List.length_nil, gt_iff_lt, lt_irrefl, if_false, reduceCtorEq, e1]
    have e2 : len = 0 := by simpa [Pen.draw, Pen.step, Pen.new, Pen.at, DrawnLength] using e2
    simp [e2, around]
  | cons q l =>
    have e : polygonData (p :: q :: l) = .move false p.1 p.2 :: (linesTo (q :: l) ++ [.close false]) := rfl
    obtain ⟨len, e1, e2⟩ := totalLength_partial false p.1 p.2 (linesTo (q :: l) ++ [.close false]) (lines_smooth _ _ (.inr rfl)) (by
      rw [Pen.draw, ep]
      intro a ha
      rcases List.mem_append.1 ha with ha | ha
      · rw [List.mem_singleton] at ha
        rw [ha]
        trivial
      · exact lines_clear _ _ _ (.inr rfl) a ha)
    simp only [shapeLength, Shape.data, Except.bind, e, reduceCtorEq, if_false, e1]
    rw [Pen.draw, ep] at e2
    obtain ⟨a, h1, h2⟩ := lines_length ⟨p, p, .free, 0, true⟩ (q :: l) [.close false] len e2
    obtain ⟨r1, r2⟩ := linesTo_run ⟨p, p, .free, 0, true⟩ (q :: l)
    simp only [Pen.draw, Pen.step, List.append_nil] at h1
    obtain ⟨b, h3, h4⟩ := h1
    have h3 : b = 0 := h3
    rw [r1, r2, length_line] at h4
    rw [h2, h4, h3, split]
    simp

end SvgPy.ShapeLength
