import Verif.Model.Viewport
import Verif.Props.Length

/-! Property C51: fitting a view box into a viewport. -/

set_option linter.unusedSimpArgs false

namespace SvgPy.Viewport

open Length

/-! ### Specification -/

/-- Where the interval `[l, l + n]` is along `[p, p + m]`. -/
inductive Along
  | min | mid | max

/-- Edges or centres coincide. -/
def Aligned : Along → (l n p m : ℝ) → Prop
  | .min, l, _, p, _ => l = p
  | .mid, l, n, p, m => l + n / 2 = p + m / 2
  | .max, l, n, p, m => l + n = p + m

/-- The horizontal alignment each keyword asks for (unknown means xMidYMid). -/
def alongX : Align → Along
  | .xMinYMin | .xMinYMid | .xMinYMax => .min
  | .xMaxYMin | .xMaxYMid | .xMaxYMax => .max
  | _ => .mid

/-- The vertical alignment each keyword asks for. -/
def alongY : Align → Along
  | .xMinYMin | .xMidYMin | .xMaxYMin => .min
  | .xMinYMax | .xMidYMax | .xMaxYMax => .max
  | _ => .mid

/-- A rectangle in user units. -/
structure R where
  x : ℝ
  y : ℝ
  w : ℝ
  h : ℝ

/-- The image of a rectangle. -/
def image (M : Scaling) (r : R) : R := ⟨M.a * r.x + M.e, M.d * r.y + M.f, M.a * r.w, M.d * r.h⟩

/-- `r` lies in `s`. -/
def Within (r s : R) : Prop := s.x ≤ r.x ∧ r.x + r.w ≤ s.x + s.w ∧ s.y ≤ r.y ∧ r.y + r.h ≤ s.y + s.h

/-- What SVG asks of the matrix for a viewport `v` and a view box `b`. -/
def Fits (M : Scaling) (v b : R) (align : Align) (ms : MeetOrSlice) : Prop :=
  if align = .none then image M b = v
  else M.a = M.d ∧ 0 < M.a ∧
    ((image M b).w = v.w ∨ (image M b).h = v.h) ∧
    (if ms = .slice then Within v (image M b) else Within (image M b) v) ∧
    Aligned (alongX align) (image M b).x (image M b).w v.x v.w ∧
    Aligned (alongY align) (image M b).y (image M b).h v.y v.h

/-! ### Lengths in absolute units -/

/-- Pixels in one absolute unit. -/
noncomputable def sz (u : LUnit) : ℝ := size defaultEnv none u

private theorem good_default : Good defaultEnv := by
  refine ⟨?_, ?_, ?_, ?_, by simp [defaultEnv]⟩ <;> norm_num [defaultEnv]

private theorem abs_known {u : LUnit} (h : Absolute u) : Known u := by
  rcases h with rfl | rfl | rfl | rfl | rfl | rfl | rfl | rfl | rfl <;> intro s <;> simp

private theorem abs_not_res {u : LUnit} (h : Absolute u) : ¬ Resolution u := by
  rcases h with rfl | rfl | rfl | rfl | rfl | rfl | rfl | rfl | rfl <;> simp [Resolution]

private theorem sz_pos {u : LUnit} (h : Absolute u) : 0 < sz u := size_pos _ _ _ (abs_known h) good_default

private theorem toPx_abs (e : Env) (dir : Option Dir) (n : ℝ) {u : LUnit} (h : Absolute u) :
    toPx e dir n u = toPx defaultEnv none n u := by
  rcases h with rfl | rfl | rfl | rfl | rfl | rfl | rfl | rfl | rfl <;> rfl

private theorem fromPx_abs (e : Env) (dir : Option Dir) (n : ℝ) {u : LUnit} (h : Absolute u) :
    fromPx e dir n u = fromPx defaultEnv none n u := by
  rcases h with rfl | rfl | rfl | rfl | rfl | rfl | rfl | rfl | rfl <;> rfl

private theorem convertNumber_abs (e : Env) (dir : Option Dir) (n : ℝ) {u v : LUnit} (hu : Absolute u)
    (hv : Absolute v) : convertNumber e dir n u v = .ok (n * sz u / sz v) := by
  have : convertNumber e dir n u v = convertNumber defaultEnv none n u v := by
    unfold convertNumber
    rw [toPx_abs e dir n hu]
    cases toPx defaultEnv none n u with
    | error x => rfl
    | ok p => simp only [fromPx_abs e dir p hv]
  rw [this]
  exact convertNumber_partial defaultEnv none n u v (abs_known hu) (abs_known hv) good_default
    (iff_of_false (abs_not_res hu) (abs_not_res hv)) (.inl rfl)

private theorem value_abs (l : Len) {v : LUnit} (hu : Absolute l.unit) (hv : Absolute v) :
    value l v = .ok (l.num * sz l.unit / sz v) := convertNumber_abs _ _ _ hu hv

private theorem abs_noUnit : Absolute .noUnit := .inl rfl

private theorem sz_noUnit : sz .noUnit = 1 := rfl

/-- `l` is in unit `U` or is a plain number, and is `p` pixels. -/
def Is (U : LUnit) (l : Len) (p : ℝ) : Prop := l.unit = U ∧ l.num * sz U = p

/-- Either unit `U` or none. -/
def Or (U : LUnit) (l : Len) (p : ℝ) : Prop := (l.unit = U ∨ l.unit = .noUnit) ∧ l.num * sz l.unit = p

variable {U : LUnit}

private theorem unitProp_of (hn : U ≠ .number) (l : Len) (h : l.unit = U) : unitProp l = U := by
  unfold unitProp; rw [h, if_neg hn]

/-- Taking over the unit `U`. -/
private theorem adopt_Is (hU : Absolute U) (hn : U ≠ .number) (a b : Len) (p q : ℝ) (ha : Or U a p) (hb : Is U b q) :
    ∃ x, adopt a b = .ok x ∧ Is U x p ∧ value b x.unit = .ok (q / sz U) := by
  have hs := sz_pos hU
  have hbU : value b U = .ok (q / sz U) := by
    rw [value_abs b (hb.1 ▸ hU) hU, hb.1, hb.2]
  by_cases h : a.unit = .noUnit
  · by_cases hU0 : U = .noUnit
    · refine ⟨a, ?_, ⟨by rw [h, hU0], ?_⟩, ?_⟩
      · unfold adopt; rw [unitProp_of hn b hb.1, hU0, if_neg (by simp)]
      · have := ha.2; rw [h] at this; rw [hU0]; exact this
      · rw [h, ← hU0]; exact hbU
    · have hv : value a U = .ok (p / sz U) := by rw [value_abs a (h ▸ abs_noUnit) hU, ha.2]
      refine ⟨{ a with num := p / sz U, unit := U }, ?_, ⟨rfl, by simp only; field_simp⟩, hbU⟩
      unfold adopt convert
      rw [unitProp_of hn b hb.1, if_pos ⟨h, hU0⟩, if_neg (by rw [h]; exact hU0), hv]
  · have haU : a.unit = U := ha.1.resolve_right h
    refine ⟨a, ?_, ⟨haU, by have := ha.2; rw [haU] at this; exact this⟩, by rw [haU]; exact hbU⟩
    unfold adopt; rw [if_neg (fun hh => h hh.1)]

private theorem or_deepcopy (a : Len) (p : ℝ) (h : Or U a p) : Or U (deepcopy a) p := h

private theorem is_or (a : Len) (p : ℝ) (h : Is U a p) : Or U a p := ⟨.inl h.1, by rw [h.1]; exact h.2⟩

private theorem sub_Is (hU : Absolute U) (hn : U ≠ .number) (a b : Len) (p q : ℝ) (ha : Or U a p) (hb : Is U b q) :
    ∃ c, sub a b = .ok c ∧ Is U c (p - q) := by
  obtain ⟨x, h1, h2, h3⟩ := adopt_Is hU hn (deepcopy a) b p q (or_deepcopy a p ha) hb
  refine ⟨{ x with num := x.num - q / sz U }, by simp only [sub, h1, h3], h2.1, ?_⟩
  have := sz_pos hU
  rw [← h2.2]; simp only; field_simp

private theorem iadd_Is (hU : Absolute U) (hn : U ≠ .number) (a b : Len) (p q : ℝ) (ha : Or U a p) (hb : Is U b q) :
    ∃ c, iadd a b = .ok c ∧ Is U c (p + q) := by
  obtain ⟨x, h1, h2, h3⟩ := adopt_Is hU hn a b p q ha hb
  refine ⟨{ x with num := x.num + q / sz U }, by simp only [iadd, h1, h3], h2.1, ?_⟩
  have := sz_pos hU
  rw [← h2.2]; simp only; field_simp

/-- A view box number times a scale. -/
private theorem mul_Is (hU : Absolute U) (hn : U ≠ .number) (b s : Len) (n k : ℝ) (hb : b.unit = .noUnit)
    (hbn : b.num = n) (hs : s.unit = U) (hk : s.num = k) : ∃ c, mul b s = .ok c ∧ Is U c (n * k) := by
  have hp := sz_pos hU
  obtain ⟨x, h1, h2, h3⟩ := adopt_Is hU hn (deepcopy b) s n (k * sz U)
    (or_deepcopy b n ⟨.inr hb, by rw [hb, sz_noUnit, hbn, mul_one]⟩) ⟨hs, by rw [hk]⟩
  refine ⟨{ x with num := x.num * (k * sz U / sz U) }, by simp only [mul, h1, h3], h2.1, ?_⟩
  rw [← h2.2]; simp only; field_simp

private theorem divNum_Is (a : Len) (p : ℝ) (h : Is U a p) :
    ∃ c, divNum a 2 = .ok c ∧ Is U c (p / 2) := by
  refine ⟨{ deepcopy a with num := a.num / 2 }, by simp [divNum, div], h.1, ?_⟩
  rw [← h.2]; simp only; ring

/-- A viewport length divided by a view box length. -/
private theorem divLen_scale (hU : Absolute U) (a b : Len) (p n : ℝ) (ha : Is U a p) (hb : b.unit = .noUnit)
    (hbn : b.num = n) (hn0 : n ≠ 0) : ∃ c, divLen a b = .ok c ∧ c.unit = U ∧ c.num = p / n := by
  have hp := sz_pos hU
  have had : adopt (deepcopy a) b = .ok (deepcopy a) := by
    unfold adopt
    rw [if_neg]
    rintro ⟨_, h⟩
    exact h (by simp [unitProp, hb])
  have hv : value b (deepcopy a).unit = .ok (n / sz U) := by
    rw [show (deepcopy a).unit = U from ha.1, value_abs b (hb ▸ abs_noUnit) hU, hb, sz_noUnit, hbn, mul_one]
  have hne : n / sz U ≠ 0 := div_ne_zero hn0 (ne_of_gt hp)
  refine ⟨{ deepcopy a with num := a.num / (n / sz U) }, ?_, ha.1, ?_⟩
  · simp only [divLen, had, hv, div, hne, if_false]; rfl
  · rw [← ha.2]; simp only; field_simp

/-! ### The matrix -/

/-- Viewport and view box have admissible units: widths and heights in one absolute unit
`U`, positions in `U` or plain numbers, the view box in plain numbers. -/
structure Units (U : LUnit) (v b : Box) (rv rb : R) : Prop where
  vx : Or U v.x rv.x
  vy : Or U v.y rv.y
  vw : Is U v.w rv.w
  vh : Is U v.h rv.h
  bx : b.x.unit = .noUnit ∧ b.x.num = rb.x
  byy : b.y.unit = .noUnit ∧ b.y.num = rb.y
  bw : b.w.unit = .noUnit ∧ b.w.num = rb.w
  bh : b.h.unit = .noUnit ∧ b.h.num = rb.h

/-- Shift along one axis. -/
noncomputable def shiftBy : Along → ℝ → ℝ
  | .min, _ => 0
  | .mid, r => r / 2
  | .max, r => r

private theorem offset_Is (hU : Absolute U) (hn : U ≠ .number) (e vb s : Len) (p n k : ℝ) (he : Or U e p)
    (hb : vb.unit = .noUnit ∧ vb.num = n) (hs : s.unit = U ∧ s.num = k) :
    ∃ c, offset e vb s = .ok c ∧ Is U c (p - n * k) := by
  obtain ⟨m, h1, h2⟩ := mul_Is hU hn vb s n k hb.1 hb.2 hs.1 hs.2
  obtain ⟨c, h3, h4⟩ := sub_Is hU hn e m p (n * k) he h2
  exact ⟨c, by simp only [offset, h1, h3], h4⟩

private theorem shiftMid_Is (hU : Absolute U) (hn : U ≠ .number) (t e vb s : Len) (q p n k : ℝ) (ht : Is U t q)
    (he : Or U e p) (hb : vb.unit = .noUnit ∧ vb.num = n) (hs : s.unit = U ∧ s.num = k) :
    ∃ c, shiftMid t e vb s = .ok c ∧ Is U c (q + (p - n * k) / 2) := by
  obtain ⟨r, h1, h2⟩ := offset_Is hU hn e vb s p n k he hb hs
  obtain ⟨h, h3, h4⟩ := divNum_Is r _ h2
  obtain ⟨c, h5, h6⟩ := iadd_Is hU hn t h _ _ (is_or t _ ht) h4
  have h1' : free e vb s = .ok r := h1
  exact ⟨c, by simp only [shiftMid, h1', h3, h5], h6⟩

private theorem shiftMax_Is (hU : Absolute U) (hn : U ≠ .number) (t e vb s : Len) (q p n k : ℝ) (ht : Is U t q)
    (he : Or U e p) (hb : vb.unit = .noUnit ∧ vb.num = n) (hs : s.unit = U ∧ s.num = k) :
    ∃ c, shiftMax t e vb s = .ok c ∧ Is U c (q + (p - n * k)) := by
  obtain ⟨r, h1, h2⟩ := offset_Is hU hn e vb s p n k he hb hs
  obtain ⟨c, h5, h6⟩ := iadd_Is hU hn t r _ _ (is_or t _ ht) h2
  have h1' : free e vb s = .ok r := h1
  exact ⟨c, by simp only [shiftMax, h1', h5], h6⟩

private theorem shiftX_Is (hU : Absolute U) (hn : U ≠ .number) (al : Align) (hal : al ≠ .unknown) (t e vb s : Len)
    (q p n k : ℝ) (ht : Is U t q) (he : Or U e p) (hb : vb.unit = .noUnit ∧ vb.num = n)
    (hs : s.unit = U ∧ s.num = k) (h0 : al = .none → p - n * k = 0) :
    ∃ c, shiftX al t e vb s = .ok c ∧ Is U c (q + shiftBy (alongX al) (p - n * k)) := by
  have hmid := shiftMid_Is hU hn t e vb s q p n k ht he hb hs
  have hmax := shiftMax_Is hU hn t e vb s q p n k ht he hb hs
  have hmin : ∃ c, (.ok t : Py Len) = .ok c ∧ Is U c (q + 0) := ⟨t, rfl, by rwa [add_zero]⟩
  cases al with
  | unknown => exact absurd rfl hal
  | none =>
    refine ⟨t, by simp [shiftX], ?_⟩
    rw [h0 rfl]; simpa [shiftBy, alongX] using ht
  | _ => first | exact hmin | exact hmid | exact hmax

private theorem shiftY_Is (hU : Absolute U) (hn : U ≠ .number) (al : Align) (hal : al ≠ .unknown) (t e vb s : Len)
    (q p n k : ℝ) (ht : Is U t q) (he : Or U e p) (hb : vb.unit = .noUnit ∧ vb.num = n)
    (hs : s.unit = U ∧ s.num = k) (h0 : al = .none → p - n * k = 0) :
    ∃ c, shiftY al t e vb s = .ok c ∧ Is U c (q + shiftBy (alongY al) (p - n * k)) := by
  have hmid := shiftMid_Is hU hn t e vb s q p n k ht he hb hs
  have hmax := shiftMax_Is hU hn t e vb s q p n k ht he hb hs
  have hmin : ∃ c, (.ok t : Py Len) = .ok c ∧ Is U c (q + 0) := ⟨t, rfl, by rwa [add_zero]⟩
  cases al with
  | unknown => exact absurd rfl hal
  | none =>
    refine ⟨t, by simp [shiftY], ?_⟩
    rw [h0 rfl]; simpa [shiftBy, alongY] using ht
  | _ => first | exact hmin | exact hmid | exact hmax

private theorem finish_Is (hU : Absolute U) (hn : U ≠ .number) (tx ty sx sy : Len) (e f a d : ℝ) (h1 : Is U tx e)
    (h2 : Is U ty f) (h3 : sx.unit = U ∧ sx.num = a) (h4 : sy.unit = U ∧ sy.num = d) :
    finish tx ty sx sy = .ok ⟨a, d, e, f⟩ := by
  have hp := sz_pos hU
  have v1 : value tx .noUnit = .ok e := by
    rw [value_abs tx (h1.1 ▸ hU) abs_noUnit, h1.1, h1.2, sz_noUnit, div_one]
  have v2 : value ty .noUnit = .ok f := by
    rw [value_abs ty (h2.1 ▸ hU) abs_noUnit, h2.1, h2.2, sz_noUnit, div_one]
  have v3 : value sx U = .ok a := by
    rw [value_abs sx (h3.1 ▸ hU) hU, h3.1, h3.2]; congr 1; field_simp
  have v4 : value sy U = .ok d := by
    rw [value_abs sy (h4.1 ▸ hU) hU, h4.1, h4.2]; congr 1; field_simp
  simp only [finish, unitProp_of hn tx h1.1, v1, v2, v3, v4]

private theorem place_Is (hU : Absolute U) (hn : U ≠ .number) (v b : Box) (rv rb : R) (hu : Units U v b rv rb)
    (al : Align) (hal : al ≠ .unknown) (sx sy : Len) (a d : ℝ) (h3 : sx.unit = U ∧ sx.num = a)
    (h4 : sy.unit = U ∧ sy.num = d) (h0 : al = .none → rv.w - rb.w * a = 0 ∧ rv.h - rb.h * d = 0) :
    place v b al sx sy = .ok ⟨a, d, rv.x - rb.x * a + shiftBy (alongX al) (rv.w - rb.w * a),
      rv.y - rb.y * d + shiftBy (alongY al) (rv.h - rb.h * d)⟩ := by
  obtain ⟨tx, e1, i1⟩ := offset_Is hU hn v.x b.x sx _ _ a hu.vx hu.bx h3
  obtain ⟨ty, e2, i2⟩ := offset_Is hU hn v.y b.y sy _ _ d hu.vy hu.byy h4
  obtain ⟨tx', e3, i3⟩ := shiftX_Is hU hn al hal tx v.w b.w sx _ _ _ a i1 (is_or _ _ hu.vw) hu.bw h3
    (fun h => (h0 h).1)
  obtain ⟨ty', e4, i4⟩ := shiftY_Is hU hn al hal ty v.h b.h sy _ _ _ d i2 (is_or _ _ hu.vh) hu.bh h4
    (fun h => (h0 h).2)
  simp only [place, e1, e2, e3, e4]
  exact finish_Is hU hn tx' ty' sx sy _ _ a d i3 i4 h3 h4

/-- The chosen scales. -/
noncomputable def scales (al : Align) (ms : MeetOrSlice) (a d : ℝ) : ℝ × ℝ :=
  if al = .none then (a, d) else if ms = .slice then (max a d, max a d) else (min a d, min a d)

private theorem cmp_same (c : Cmp) (a b : Len) (h : a.unit = b.unit) : Length.cmp c a b = .ok (cmpNum c a.num b.num) := by
  have e1 : value b a.unit = .ok b.num := by simp [value, convertNumber, h]
  simp only [Length.cmp, e1]

private theorem fit_spec (al : Align) (ms : MeetOrSlice) (hms : ms ≠ .unknown) (sx sy : Len) (a d : ℝ)
    (hx : sx.unit = U ∧ sx.num = a) (hy : sy.unit = U ∧ sy.num = d) (hc : a = d ∨ isclose a d = false) :
    ∃ sx' sy', fit al ms sx sy = .ok (sx', sy') ∧ (sx'.unit = U ∧ sx'.num = (scales al ms a d).1) ∧
      (sy'.unit = U ∧ sy'.num = (scales al ms a d).2) := by
  have h1 := cmp_same .lt sx sy (hx.1.trans hy.1.symm)
  have h2 := cmp_same .gt sx sy (hx.1.trans hy.1.symm)
  rw [hx.2, hy.2] at h1 h2
  unfold fit scales
  by_cases hal : al = .none
  · rw [if_pos hal, if_pos hal]; exact ⟨sx, sy, rfl, hx, hy⟩
  rw [if_neg hal, if_neg hal]
  rcases hc with rfl | hc
  · have hcl : isclose a a = true := by simp [isclose]; right; norm_num
    have l1 : cmpNum .lt a a = false := by simp [cmpNum, hcl]
    have l2 : cmpNum .gt a a = false := by simp [cmpNum, hcl]
    rw [l1] at h1; rw [l2] at h2
    simp only [h1, h2, max_self, min_self, ite_self]
    cases ms with
    | unknown => exact absurd rfl hms
    | meet => exact ⟨sx, sy, rfl, hx, hy⟩
    | slice => exact ⟨sx, sy, rfl, hx, hy⟩
  · have l1 : cmpNum .lt a d = decide (a < d) := by simp [cmpNum, hc]
    have l2 : cmpNum .gt a d = decide (a > d) := by simp [cmpNum, hc]
    rw [l1] at h1; rw [l2] at h2
    rcases lt_trichotomy a d with hl | he | hg
    · have e1 : decide (a < d) = true := by simpa using hl
      have e2 : decide (a > d) = false := by simpa using hl.le
      rw [e1] at h1; rw [e2] at h2
      cases ms with
      | unknown => exact absurd rfl hms
      | meet => simp only [h1, reduceCtorEq, if_false, min_eq_left hl.le]; exact ⟨sx, sx, rfl, hx, hx⟩
      | slice => simp only [h1, h2, if_true, max_eq_right hl.le]; exact ⟨sy, sy, rfl, hy, hy⟩
    · exfalso
      rw [he] at hc
      simp [isclose] at hc
      have := hc.2; norm_num at this
    · have e1 : decide (a < d) = false := by simpa using hg.le
      have e2 : decide (a > d) = true := by simpa using hg
      rw [e1] at h1; rw [e2] at h2
      cases ms with
      | unknown => exact absurd rfl hms
      | meet => simp only [h1, h2, reduceCtorEq, if_false, min_eq_right hg.le]; exact ⟨sy, sy, rfl, hy, hy⟩
      | slice => simp only [h2, if_true, max_eq_left hg.le]; exact ⟨sx, sx, rfl, hx, hx⟩

/-- **C51** (partial: sizes in one absolute unit, positions in the same unit or plain
numbers, and scales that are equal or differ by more than the tolerance of `==`).
The matrix fits the view box as SVG asks. -/
theorem matrix_fits_partial (hU : Absolute U) (hn : U ≠ .number) (v b : Box) (rv rb : R) (hu : Units U v b rv rb)
    (hw : 0 < rv.w) (hh : 0 < rv.h) (hbw : 0 < rb.w) (hbh : 0 < rb.h) (al : Align) (ms : MeetOrSlice)
    (hc : rv.w / rb.w = rv.h / rb.h ∨ isclose (rv.w / rb.w) (rv.h / rb.h) = false) :
    ∃ M, matrix v b al ms = .ok M ∧ Fits M rv rb al ms := by
  obtain ⟨sx, e1, u1, n1⟩ := divLen_scale hU v.w b.w _ _ hu.vw hu.bw.1 hu.bw.2 (ne_of_gt hbw)
  obtain ⟨sy, e2, u2, n2⟩ := divLen_scale hU v.h b.h _ _ hu.vh hu.bh.1 hu.bh.2 (ne_of_gt hbh)
  have key : ∀ al' : Align, al' ≠ .unknown → ∀ ms' : MeetOrSlice, ms' ≠ .unknown →
      ∃ M, (match fit al' ms' sx sy with
        | .error x => .error x
        | .ok (sx, sy) => place v b al' sx sy) = (.ok M : Py Scaling) ∧ Fits M rv rb al' ms' := by
    intro al' hal ms' hms
    obtain ⟨sx', sy', e3, hx, hy⟩ := fit_spec al' ms' hms sx sy _ _ ⟨u1, n1⟩ ⟨u2, n2⟩ hc
    generalize ha : rv.w / rb.w = a at *
    generalize hd : rv.h / rb.h = d at *
    have hwa : rv.w = rb.w * a := by rw [← ha]; field_simp
    have hhd : rv.h = rb.h * d := by rw [← hd]; field_simp
    have pa : 0 < a := by rw [← ha]; positivity
    have pd : 0 < d := by rw [← hd]; positivity
    have h0 : al' = .none → rv.w - rb.w * (scales al' ms' a d).1 = 0 ∧ rv.h - rb.h * (scales al' ms' a d).2 = 0 := by
      intro h; simp only [scales, h, if_true]; constructor <;> linarith
    have e4 := place_Is hU hn v b rv rb hu al' hal sx' sy' _ _ hx hy h0
    refine ⟨_, by rw [e3]; exact e4, ?_⟩
    unfold Fits
    by_cases hnone : al' = .none
    · rw [if_pos hnone]
      obtain ⟨z1, z2⟩ := h0 hnone
      rw [z1, z2]
      have s1 : (scales al' ms' a d).1 = a := by simp [scales, hnone]
      have s2 : (scales al' ms' a d).2 = d := by simp [scales, hnone]
      rw [s1, s2]
      have hsh : ∀ x : Along, shiftBy x 0 = 0 := by intro x; cases x <;> simp [shiftBy]
      simp only [image, hsh]
      cases rv
      simp only [R.mk.injEq] at *
      refine ⟨by ring, by ring, ?_, ?_⟩
      · rw [hwa]; ring
      · rw [hhd]; ring
    · rw [if_neg hnone]
      have hsc : (scales al' ms' a d).1 = (scales al' ms' a d).2 := by
        simp only [scales, hnone, if_false]; split <;> rfl
      have halign : ∀ (x : Along) (p w n m k : ℝ), Aligned x (k * n + (p - n * k + shiftBy x (w - m * k))) (k * m) p w := by
        intro x p w n m k
        cases x <;> simp only [Aligned, shiftBy] <;> ring
      have hin : ∀ (x : Along) (p w n m k : ℝ), m * k ≤ w → p ≤ k * n + (p - n * k + shiftBy x (w - m * k)) ∧
          k * n + (p - n * k + shiftBy x (w - m * k)) + k * m ≤ p + w := by
        intro x p w n m k hle
        cases x <;> simp only [shiftBy] <;> constructor <;> nlinarith
      have hout : ∀ (x : Along) (p w n m k : ℝ), w ≤ m * k → k * n + (p - n * k + shiftBy x (w - m * k)) ≤ p ∧
          p + w ≤ k * n + (p - n * k + shiftBy x (w - m * k)) + k * m := by
        intro x p w n m k hle
        cases x <;> simp only [shiftBy] <;> constructor <;> nlinarith
      refine ⟨hsc, ?_, ?_, ?_, halign _ _ _ _ _ _, halign _ _ _ _ _ _⟩
      · simp only [scales, hnone, if_false]
        split
        · exact lt_max_of_lt_left pa
        · exact lt_min pa pd
      · simp only [image]
        rw [← hsc]
        have : (scales al' ms' a d).1 = a ∨ (scales al' ms' a d).1 = d := by
          simp only [scales, hnone, if_false]
          split
          · exact max_choice a d
          · exact min_choice a d
        rcases this with h | h
        · left; rw [h, hwa]; ring
        · right; rw [h, hhd]; ring
      · by_cases hsl : ms' = .slice
        · rw [if_pos hsl]
          have s1 : (scales al' ms' a d).1 = max a d := by simp [scales, hnone, hsl]
          have l1 : rv.w ≤ rb.w * (scales al' ms' a d).1 := by
            rw [s1, hwa]; exact mul_le_mul_of_nonneg_left (le_max_left _ _) hbw.le
          have l2 : rv.h ≤ rb.h * (scales al' ms' a d).2 := by
            rw [← hsc, s1, hhd]; exact mul_le_mul_of_nonneg_left (le_max_right _ _) hbh.le
          exact ⟨(hout _ _ _ _ _ _ l1).1, (hout _ _ _ _ _ _ l1).2, (hout _ _ _ _ _ _ l2).1, (hout _ _ _ _ _ _ l2).2⟩
        · rw [if_neg hsl]
          have s1 : (scales al' ms' a d).1 = min a d := by simp [scales, hnone, hsl]
          have l1 : rb.w * (scales al' ms' a d).1 ≤ rv.w := by
            rw [s1, hwa]; exact mul_le_mul_of_nonneg_left (min_le_left _ _) hbw.le
          have l2 : rb.h * (scales al' ms' a d).2 ≤ rv.h := by
            rw [← hsc, s1, hhd]; exact mul_le_mul_of_nonneg_left (min_le_right _ _) hbh.le
          exact ⟨(hin _ _ _ _ _ _ l1).1, (hin _ _ _ _ _ _ l1).2, (hin _ _ _ _ _ _ l2).1, (hin _ _ _ _ _ _ l2).2⟩
  have hal' : (if al = .unknown then Align.xMidYMid else al) ≠ .unknown := by split <;> simp_all
  have hms' : (if ms = .unknown then MeetOrSlice.meet else ms) ≠ .unknown := by split <;> simp_all
  obtain ⟨M, m1, m2⟩ := key _ hal' _ hms'
  refine ⟨M, by simp only [matrix, e1, e2]; exact m1, ?_⟩
  have hF : Fits M rv rb (if al = .unknown then Align.xMidYMid else al) (if ms = .unknown then MeetOrSlice.meet else ms)
      ↔ Fits M rv rb al ms := by
    by_cases h1 : al = .unknown <;> by_cases h2 : ms = .unknown <;> simp [h1, h2, Fits, alongX, alongY]
  exact hF.mp m2

/-- Without a view box the matrix moves the origin to the corner of the viewport. -/
theorem matrixNoBox_spec (v : Box) (x y : ℝ) (hx : value v.x .noUnit = .ok x) (hy : value v.y .noUnit = .ok y) :
    matrixNoBox v = .ok ⟨1, 1, x, y⟩ := by
  simp only [matrixNoBox, hx, hy]

/-- A length without context. -/
def len (n : ℝ) (u : LUnit) : Len := ⟨n, u, none, none⟩

private theorem sz_inch : sz .inch = 96 := rfl
private theorem sz_cm : sz .cm = 96 / 2.54 := rfl
private theorem sz_mm : sz .mm = 96 / 2.54 / 10 := rfl

private theorem sub_keep (a b : Len) (ha : Absolute a.unit) (ha0 : a.unit ≠ .noUnit) (hb : Absolute b.unit) :
    sub a b = .ok { deepcopy a with num := a.num - b.num * sz b.unit / sz a.unit } := by
  have h1 : adopt (deepcopy a) b = .ok (deepcopy a) := by
    unfold adopt; rw [if_neg (fun h => ha0 h.1)]
  have h2 : value b (deepcopy a).unit = .ok (b.num * sz b.unit / sz a.unit) := value_abs b hb ha
  simp only [sub, h1, h2]
  rfl

/-- **C51** violated: with `x="1in" width="10cm" height="10cm"` and
`viewBox="0 0 100 100"` the scale is `960 / 2.54 / 100 / 2.54`, which does not even
stretch the view box over half the viewport. -/
theorem matrix_units_violated :
    ∃ M, matrix ⟨len 1 .inch, len 0 .noUnit, len 10 .cm, len 10 .cm⟩
        ⟨len 0 .noUnit, len 0 .noUnit, len 100 .noUnit, len 100 .noUnit⟩ .none .meet = .ok M ∧
      M.a = 960 / 2.54 / 100 / 2.54 ∧ M.a * 100 < 960 / 2.54 / 2 := by
  have hcm : Absolute .cm := by simp [Absolute]
  have hin : Absolute .inch := by simp [Absolute]
  obtain ⟨s, e1, u1, n1⟩ := divLen_scale hcm (len 10 .cm) (len 100 .noUnit) (10 * sz .cm) 100 ⟨rfl, rfl⟩ rfl rfl
    (by norm_num)
  obtain ⟨p, e2, i2⟩ := mul_Is hcm (by simp) (len 0 .noUnit) s 0 s.num rfl rfl u1 rfl
  obtain ⟨ty, e3, i3⟩ := sub_Is hcm (by simp) (len 0 .noUnit) p 0 (0 * s.num) ⟨.inr rfl, by simp [len]⟩ i2
  have hp0 : p.num = 0 := by
    have := i2.2
    have h := sz_pos hcm
    rw [zero_mul] at this
    exact (mul_eq_zero.mp this).resolve_right (ne_of_gt h)
  have e4 := sub_keep (len 1 .inch) p hin (by simp [len]) (i2.1 ▸ hcm)
  refine ⟨⟨s.num * sz .cm / sz .inch, s.num * sz .cm / sz .inch, 96, 0⟩, ?_, ?_, ?_⟩
  · simp only [matrix, e1, fit, if_true, place, offset, e2, e3, e4, reduceCtorEq, if_false, shiftX, shiftY,
      List.mem_cons, List.not_mem_nil, or_self]
    have v1 : value { deepcopy (len 1 .inch) with
        num := (len 1 .inch).num - p.num * sz p.unit / sz (len 1 .inch).unit } .noUnit = .ok 96 := by
      rw [value_abs _ hin abs_noUnit]
      simp only [hp0, len, deepcopy, sz_noUnit, sz_inch]
      norm_num
    have v2 : value ty .noUnit = .ok 0 := by
      rw [value_abs ty (i3.1 ▸ hcm) abs_noUnit, i3.1, i3.2]; norm_num
    have v3 : value s .inch = .ok (s.num * sz .cm / sz .inch) := by
      rw [value_abs s (u1 ▸ hcm) hin, u1]
    have hu : unitProp { deepcopy (len 1 .inch) with
        num := (len 1 .inch).num - p.num * sz p.unit / sz (len 1 .inch).unit } = .inch := rfl
    simp only [finish, hu, v1, v2, v3]
  · simp only [n1, sz_cm, sz_inch]; norm_num
  · simp only [n1, sz_cm, sz_inch]; norm_num

/-- **C51** violated: `height` in another unit than `width`.  With
`width="10cm" height="100mm"` the view box is ten times too flat. -/
theorem matrix_mixed_violated :
    ∃ M, matrix ⟨len 0 .noUnit, len 0 .noUnit, len 10 .cm, len 100 .mm⟩
        ⟨len 0 .noUnit, len 0 .noUnit, len 100 .noUnit, len 100 .noUnit⟩ .none .meet = .ok M ∧
      M.a = 960 / 2.54 / 100 ∧ M.d = 960 / 2.54 / 1000 := by
  have hcm : Absolute .cm := by simp [Absolute]
  have hmm : Absolute .mm := by simp [Absolute]
  obtain ⟨s, e1, u1, n1⟩ := divLen_scale hcm (len 10 .cm) (len 100 .noUnit) (10 * sz .cm) 100 ⟨rfl, rfl⟩ rfl rfl
    (by norm_num)
  obtain ⟨t, e1', u1', n1'⟩ := divLen_scale hmm (len 100 .mm) (len 100 .noUnit) (100 * sz .mm) 100 ⟨rfl, rfl⟩ rfl rfl
    (by norm_num)
  obtain ⟨tx, e3, i3⟩ := offset_Is hcm (by simp) (len 0 .noUnit) (len 0 .noUnit) s 0 0 s.num ⟨.inr rfl, by simp [len]⟩
    ⟨rfl, rfl⟩ ⟨u1, rfl⟩
  obtain ⟨ty, e4, i4⟩ := offset_Is hmm (by simp) (len 0 .noUnit) (len 0 .noUnit) t 0 0 t.num ⟨.inr rfl, by simp [len]⟩
    ⟨rfl, rfl⟩ ⟨u1', rfl⟩
  refine ⟨⟨s.num * sz .cm / sz .cm, t.num * sz .mm / sz .cm, 0, 0⟩, ?_, ?_, ?_⟩
  · simp only [matrix, e1, e1', fit, if_true, place, e3, e4, reduceCtorEq, if_false, shiftX, shiftY,
      List.mem_cons, List.not_mem_nil, or_self]
    have v1 : value tx .noUnit = .ok 0 := by
      rw [value_abs tx (i3.1 ▸ hcm) abs_noUnit, i3.1, i3.2]; norm_num
    have v2 : value ty .noUnit = .ok 0 := by
      rw [value_abs ty (i4.1 ▸ hmm) abs_noUnit, i4.1, i4.2]; norm_num
    have v3 : value s .cm = .ok (s.num * sz .cm / sz .cm) := by
      rw [value_abs s (u1 ▸ hcm) hcm, u1]
    have v4 : value t .cm = .ok (t.num * sz .mm / sz .cm) := by
      rw [value_abs t (u1' ▸ hmm) hcm, u1']
    simp only [finish, unitProp_of (U := .cm) (by simp) tx i3.1, v1, v2, v3, v4]
  · simp only [n1, sz_cm]; norm_num
  · simp only [n1', sz_cm, sz_mm]; norm_num

/-- **C51** violated: scales that differ by less than the tolerance are both kept, so the
scale is not uniform. -/
theorem matrix_uniform_violated :
    ∃ M, matrix ⟨len 0 .noUnit, len 0 .noUnit, len 1 .noUnit, len (1 + 1e-9) .noUnit⟩
        ⟨len 0 .noUnit, len 0 .noUnit, len 1 .noUnit, len 1 .noUnit⟩ .xMinYMin .meet = .ok M ∧ M.a ≠ M.d := by
  have h : isclose 1 (1 + 1e-9) = true := by
    unfold isclose; rw [decide_eq_true_eq]
    have : |(1 : ℝ) - (1 + 1e-9)| = 1e-9 := by rw [abs_of_nonpos (by norm_num)]; norm_num
    rw [this]; exact le_max_right _ _
  refine ⟨⟨1, 1 + 1e-9, 0, 0⟩, ?_, by norm_num⟩
  simp [matrix, divLen, adopt, deepcopy, len, unitProp, value, convertNumber, isRes, toPx, fromPx, toPixelSize,
    env, div, fit, place, offset, mul, sub, convert, shiftX, shiftY, finish, Length.cmp, cmpNum, h]

/-- A non-trivial instance: a viewport in centimetres at a plain number position. -/
example : Units .cm ⟨len 5 .noUnit, len 1 .cm, len 10 .cm, len 20 .cm⟩
    ⟨len (-1) .noUnit, len 2 .noUnit, len 30 .noUnit, len 40 .noUnit⟩
    ⟨5, 96 / 2.54, 960 / 2.54, 1920 / 2.54⟩ ⟨-1, 2, 30, 40⟩ := by
  constructor <;> norm_num [Or, Is, len, sz, size]

end SvgPy.Viewport
