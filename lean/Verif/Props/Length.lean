import Verif.Model.Length
import Mathlib.Tactic.Ring
import Mathlib.Tactic.FieldSimp
import Mathlib.Tactic.Linarith
import Mathlib.Tactic.NormNum
import Mathlib.Tactic.Positivity

/-! Properties C34-C37: lengths. -/

set_option linter.unusedSimpArgs false

namespace SvgPy.Length

/-! ### Specification -/

/-- Fonts sizes and viewport sizes are positive, font metrics are not negative. -/
structure Good (e : Env) : Prop where
  em : 0 < e.em
  rem : 0 < e.rem
  vw : 0 < e.vw
  vh : 0 < e.vh
  metric : ∀ f, e.font = some f → ∀ u, 0 ≤ f.metric u

/-- A unit SVG or CSS knows. -/
def Known (u : LUnit) : Prop := ∀ s, u ≠ .other s

/-- `ex`, `cap`, `ch`, `ic`: measured in the font itself. -/
def FontUnit (u : LUnit) : Prop := u = .ex ∨ u = .cap ∨ u = .ch ∨ u = .ic

/-- Size of a font unit: half an em without a font, the metric with one, an em when the
font does not have the metric. -/
noncomputable def fontSize (e : Env) (u : LUnit) : ℝ :=
  match e.font with
  | none => e.em / 2
  | some f => if f.metric u = 0 then e.em else f.metric u

/-- How many pixels (for resolutions: dots per pixel) one unit is.
1in = 96px = 2.54cm = 72pt = 6pc, 1cm = 10mm = 40Q; percentages refer to the width, the
height or the normalised diagonal of the viewport, or to the font size. -/
noncomputable def size (e : Env) (dir : Option Dir) : LUnit → ℝ
  | .noUnit | .number | .px | .dppx => 1
  | .inch => 96
  | .cm => 96 / 2.54
  | .mm => 96 / 2.54 / 10
  | .q => 96 / 2.54 / 40
  | .pt => 96 / 72
  | .pc => 96 / 6
  | .em => e.em
  | .rem => e.rem
  | .ex => fontSize e .ex
  | .cap => fontSize e .cap
  | .ch => fontSize e .ch
  | .ic => fontSize e .ic
  | .vw => e.vw / 100
  | .vh => e.vh / 100
  | .vmin => min e.vw e.vh / 100
  | .vmax => max e.vw e.vh / 100
  | .pct => (match dir with
    | some .horizontal => e.vw
    | some .vertical => e.vh
    | some .unspecified => √((e.vw ^ 2 + e.vh ^ 2) / 2)
    | none => e.em) / 100
  | .dpi => 1 / 96
  | .dpcm => 2.54 / 96
  | .other _ => 0

/-- Dots per inch, per centimetre or per pixel. -/
def Resolution (u : LUnit) : Prop := u = .dpi ∨ u = .dpcm ∨ u = .dppx

/-- A length with a fixed size. -/
def Absolute (u : LUnit) : Prop :=
  u = .noUnit ∨ u = .number ∨ u = .px ∨ u = .inch ∨ u = .cm ∨ u = .mm ∨ u = .q ∨ u = .pt ∨ u = .pc

/-! ### Conversion (C34) -/

private theorem isRes_iff (u : LUnit) : isRes u = true ↔ Resolution u := by
  cases u <;> simp [isRes, Resolution]

private theorem pctBase_eq (e : Env) (dir : Option Dir) :
    pctBase e dir / 100 = size e dir .pct := by
  cases dir with
  | none => rfl
  | some d =>
    cases d with
    | unspecified =>
      simp only [pctBase, size]
      rw [Real.sqrt_div' _ (by norm_num : (0 : ℝ) ≤ 2)]
    | horizontal => rfl
    | vertical => rfl

private theorem toPx_spec (e : Env) (dir : Option Dir) (n : ℝ) (u : LUnit) (hu : Known u) :
    toPx e dir n u = .ok (n * size e dir u) := by
  cases u with
  | other s => exact absurd rfl (hu s)
  | pct => rw [← pctBase_eq]; simp only [toPx]; congr 1; ring
  | ex => simp only [toPx, size, fontSize, orEm]; cases e.font with
    | none => simp only; congr 1; ring
    | some f => rfl
  | cap => simp only [toPx, size, fontSize, orEm]; cases e.font with
    | none => simp only; congr 1; ring
    | some f => rfl
  | ch => simp only [toPx, size, fontSize, orEm]; cases e.font with
    | none => simp only; congr 1; ring
    | some f => rfl
  | ic => simp only [toPx, size, fontSize, orEm]; cases e.font with
    | none => simp only; congr 1; ring
    | some f => rfl
  | _ => simp only [toPx, toPixelSize, size] <;> congr 1 <;> ring

theorem size_pos (e : Env) (dir : Option Dir) (u : LUnit) (hu : Known u) (h : Good e) :
    0 < size e dir u := by
  have h1 := h.em
  have h2 := h.rem
  have h3 := h.vw
  have h4 := h.vh
  have hf : ∀ v, 0 < fontSize e v := by
    intro v
    unfold fontSize
    cases hfo : e.font with
    | none => simp only; linarith
    | some f =>
      simp only
      split
      · exact h1
      · rename_i hne
        exact lt_of_le_of_ne (h.metric f hfo v) (Ne.symm hne)
  cases u with
  | other s => exact absurd rfl (hu s)
  | pct =>
    cases dir with
    | none => simp only [size]; linarith
    | some d => cases d <;> simp only [size] <;> positivity
  | vmin => simp only [size]; have := lt_min h3 h4; linarith
  | vmax => simp only [size]; have := (lt_max_of_lt_left h3 : 0 < max e.vw e.vh); linarith
  | ex => exact hf _
  | cap => exact hf _
  | ch => exact hf _
  | ic => exact hf _
  | _ => simp only [size] <;> first | assumption | linarith

private theorem div_ok (a b : ℝ) (h : 0 < b) : div a b = .ok (a / b) := by
  unfold div; rw [if_neg (ne_of_gt h)]

private theorem divPct_ok (a b : ℝ) (h : 0 < b) : divPct a b = .ok (a / (b / 100)) := by
  unfold divPct; rw [div_ok a b h]; simp only; congr 1; field_simp

private theorem fromPx_spec (e : Env) (dir : Option Dir) (p : ℝ) (v : LUnit) (hv : Known v) (h : Good e)
    (hf : e.font = none ∨ ¬ FontUnit v) : fromPx e dir p v = .ok (p / size e dir v) := by
  have hpos := size_pos e dir v hv h
  have h1 := h.em
  have hfont : ∀ w, FontUnit w → w = v → pxToFont e p w = .ok (p / fontSize e w) := by
    intro w hw hwv
    have : e.font = none := hf.resolve_right (fun hn => hn (hwv ▸ hw))
    simp only [pxToFont, fontSize, this]
    exact div_ok _ _ (by linarith)
  cases v with
  | other s => exact absurd rfl (hv s)
  | pct =>
    simp only [fromPx]
    rw [← pctBase_eq] at hpos ⊢
    exact divPct_ok _ _ (by linarith)
  | ex => exact hfont _ (by simp [FontUnit]) rfl
  | cap => exact hfont _ (by simp [FontUnit]) rfl
  | ch => exact hfont _ (by simp [FontUnit]) rfl
  | ic => exact hfont _ (by simp [FontUnit]) rfl
  | vw => exact divPct_ok _ _ h.vw
  | vh => exact divPct_ok _ _ h.vh
  | vmin => exact divPct_ok _ _ (lt_min h.vw h.vh)
  | vmax => exact divPct_ok _ _ (lt_max_of_lt_left h.vw)
  | em => exact div_ok _ _ h.em
  | rem => exact div_ok _ _ h.rem
  | _ => simp only [fromPx, toPixelSize, size] <;> congr 1 <;> first | (field_simp; done) | (field_simp; norm_num; done) | (field_simp; ring)

/-- **C34** (partial: not into `ex`, `cap`, `ch`, `ic` when there is a font).  Converting
a number of one unit into another of the same kind multiplies by the ratio of the
sizes. -/
theorem convertNumber_partial (e : Env) (dir : Option Dir) (n : ℝ) (u v : LUnit) (hu : Known u) (hv : Known v)
    (h : Good e) (hk : Resolution u ↔ Resolution v) (hf : e.font = none ∨ ¬ FontUnit v) :
    convertNumber e dir n u v = .ok (n * size e dir u / size e dir v) := by
  unfold convertNumber
  by_cases huv : v = u
  · rw [if_pos huv, huv]
    have := size_pos e dir u hu h
    congr 1; field_simp
  · rw [if_neg huv]
    have : ((isRes u && !isRes v) || (!isRes u && isRes v)) = false := by
      have hb : isRes u = isRes v := by
        rw [Bool.eq_iff_iff, isRes_iff, isRes_iff]; exact hk
      rw [hb]; cases isRes v <;> rfl
    rw [this]
    simp only [Bool.false_eq_true, if_false, toPx_spec e dir n u hu]
    exact fromPx_spec e dir _ v hv h hf

/-- **C34** (mixing).  A conversion between a length and a resolution raises
`ValueError`, and a conversion of one kind between known units never does. -/
theorem convertNumber_mixed (e : Env) (dir : Option Dir) (n : ℝ) (u v : LUnit) :
    (¬ (Resolution u ↔ Resolution v)) → convertNumber e dir n u v = .error .valueError := by
  intro h
  unfold convertNumber
  rw [if_neg (by rintro rfl; exact h Iff.rfl)]
  rw [← isRes_iff, ← isRes_iff] at h
  rw [if_pos]
  cases hu : isRes u <;> cases hv : isRes v <;> simp [hu, hv] at h ⊢

/-- **C34** (there and back). -/
theorem roundtrip_partial (e : Env) (dir : Option Dir) (n : ℝ) (u v : LUnit) (hu : Known u) (hv : Known v)
    (h : Good e) (hk : Resolution u ↔ Resolution v) (hf : e.font = none ∨ ¬ FontUnit v ∧ ¬ FontUnit u) :
    ∃ m, convertNumber e dir n u v = .ok m ∧ convertNumber e dir m v u = .ok n := by
  refine ⟨_, convertNumber_partial e dir n u v hu hv h hk (hf.imp_right And.left), ?_⟩
  rw [convertNumber_partial e dir _ v u hv hu h hk.symm (hf.imp_right And.right)]
  have h1 := size_pos e dir u hu h
  have h2 := size_pos e dir v hv h
  congr 1; field_simp

/-- **C34** (two steps). -/
theorem twoStep_partial (e : Env) (dir : Option Dir) (n : ℝ) (u v w : LUnit) (hu : Known u) (hv : Known v)
    (hw : Known w) (h : Good e) (hk : Resolution u ↔ Resolution v) (hk' : Resolution v ↔ Resolution w)
    (hf : e.font = none ∨ ¬ FontUnit v ∧ ¬ FontUnit w) :
    ∃ m r, convertNumber e dir n u v = .ok m ∧ convertNumber e dir m v w = .ok r ∧
      convertNumber e dir n u w = .ok r := by
  refine ⟨_, _, convertNumber_partial e dir n u v hu hv h hk (hf.imp_right And.left),
    convertNumber_partial e dir _ v w hv hw h hk' (hf.imp_right And.right), ?_⟩
  rw [convertNumber_partial e dir n u w hu hw h (hk.trans hk') (hf.imp_right And.right)]
  have h2 := size_pos e dir v hv h
  congr 1; field_simp

private theorem known_noUnit : Known .noUnit := by intro s; simp

private theorem not_res_noUnit : ¬ Resolution .noUnit := by simp [Resolution]

private theorem not_font_noUnit : ¬ FontUnit .noUnit := by simp [FontUnit]

private theorem size_noUnit (e : Env) (dir : Option Dir) : size e dir .noUnit = 1 := rfl

/-- The value in pixels of a length. -/
theorem value_pixels (l : Len) (hu : Known l.unit) (h : Good (env l)) (hr : ¬ Resolution l.unit) :
    value l .noUnit = .ok (l.num * size (env l) l.dir l.unit) := by
  have := convertNumber_partial (env l) l.dir l.num l.unit .noUnit hu known_noUnit h
    (iff_of_false hr not_res_noUnit) (.inr not_font_noUnit)
  rw [size_noUnit, div_one] at this
  exact this

private theorem value_unit (l : Len) (v : LUnit) (hu : Known l.unit) (hv : Known v) (h : Good (env l))
    (hk : Resolution l.unit ↔ Resolution v) (hf : (env l).font = none ∨ ¬ FontUnit v) :
    value l v = .ok (l.num * size (env l) l.dir l.unit / size (env l) l.dir v) :=
  convertNumber_partial (env l) l.dir l.num l.unit v hu hv h hk hf

/-- **C34** (`convert`).  It changes the unit to the one asked for, not the length in
pixels. -/
theorem convert_partial (l : Len) (v : LUnit) (hu : Known l.unit) (hv : Known v) (h : Good (env l))
    (hr : ¬ Resolution l.unit) (hr' : ¬ Resolution v) (hf : (env l).font = none ∨ ¬ FontUnit v) :
    ∃ l', convert l v = .ok l' ∧ l'.unit = v ∧ l'.context = l.context ∧ l'.dir = l.dir ∧
      value l' .noUnit = value l .noUnit := by
  unfold convert
  by_cases hv' : v = l.unit
  · rw [if_pos hv']; exact ⟨l, rfl, hv'.symm, rfl, rfl, rfl⟩
  · rw [if_neg hv', value_unit l v hu hv h (iff_of_false hr hr') hf]
    refine ⟨_, rfl, rfl, rfl, rfl, ?_⟩
    rw [value_pixels l hu h hr, value_pixels ⟨_, v, l.context, l.dir⟩ hv h hr']
    have := size_pos (env l) l.dir v hv h
    simp only [env] at this ⊢
    congr 1; field_simp

/-- **C34** violated.  With a font whose metrics are proportional to its size (ratio
`r`), converting any number of pixels other than zero into `ex`, `cap`, `ch` or `ic`
gives `1 / r`: the font is resized to the length being converted. -/
theorem to_font_unit_violated (e : Env) (dir : Option Dir) (f : FontMetrics) (r : ℝ) (hr : r ≠ 0)
    (hf : e.font = some f) (hp : ∀ p u, f.metricAt p u = p * r) (n : ℝ) (hn : n ≠ 0) (v : LUnit)
    (hv : FontUnit v) : convertNumber e dir n .px v = .ok (1 / r) := by
  have key : ∀ u, pxToFont e n u = .ok (1 / r) := by
    intro u
    have hne : n * r ≠ 0 := mul_ne_zero hn hr
    simp only [pxToFont, hf, orEm, hp, hne, if_false, div]
    congr 1; field_simp
  rcases hv with rfl | rfl | rfl | rfl <;>
    simp [convertNumber, isRes, toPx, fromPx, key]

/-! ### Arithmetic (C35) -/

private theorem env_deepcopy_none (a : Len) (h : a.context = none) : env (deepcopy a) = env a := by
  simp [env, deepcopy, h]

/-- The unit of a sum: the unit of the left operand if it has one. -/
def sumUnit (a b : Len) : LUnit := if a.unit = .noUnit then unitProp b else a.unit

/-- One `u` is the same number of pixels for both operands, in the document and for a
copy of the left one. -/
structure Agree (a b : Len) (u : LUnit) : Prop where
  goodA : Good (env a)
  goodC : Good (env (deepcopy a))
  goodB : Good (env b)
  fontC : (env (deepcopy a)).font = none ∨ ¬ FontUnit u
  fontB : (env b).font = none ∨ ¬ FontUnit u
  copy : size (env (deepcopy a)) a.dir u = size (env a) a.dir u
  other : size (env b) b.dir u = size (env a) a.dir u

private theorem unitProp_known (b : Len) (h : Known b.unit) : Known (unitProp b) := by
  unfold unitProp; split
  · exact known_noUnit
  · exact h

private theorem unitProp_res (b : Len) (h : ¬ Resolution b.unit) : ¬ Resolution (unitProp b) := by
  unfold unitProp; split
  · exact not_res_noUnit
  · exact h

/-- The copy after it has taken over a unit, and the other operand in that unit. -/
private theorem adopt_spec (a b : Len) (ha : Known a.unit) (hb : Known b.unit)
    (hra : ¬ Resolution a.unit) (hrb : ¬ Resolution b.unit) (hg : Agree a b (sumUnit a b)) :
    ∃ x n, adopt (deepcopy a) b = .ok x ∧ x.unit = sumUnit a b ∧ x.context = (deepcopy a).context ∧ x.dir = a.dir ∧
      value b x.unit = .ok n ∧
      x.num = a.num * size (env a) a.dir a.unit / size (env a) a.dir (sumUnit a b) ∧
      n = b.num * size (env b) b.dir b.unit / size (env a) a.dir (sumUnit a b) := by
  have hkb := unitProp_known b hb
  have hrb' := unitProp_res b hrb
  by_cases hA : a.unit = .noUnit
  · have hs : sumUnit a b = unitProp b := by simp [sumUnit, hA]
    rw [hs] at hg ⊢
    have hvb := value_unit b (unitProp b) hb hkb hg.goodB (iff_of_false hrb hrb') hg.fontB
    rw [hg.other] at hvb
    by_cases hB : unitProp b = .noUnit
    · refine ⟨deepcopy a, _, by simp [adopt, hB], ?_, rfl, rfl, ?_, ?_, rfl⟩
      · rw [hB]; exact hA
      · have : (deepcopy a).unit = unitProp b := by rw [hB]; exact hA
        rw [this]; exact hvb
      · simp [deepcopy, hA, hB, size]
    · have hval : value (deepcopy a) (unitProp b) = .ok (a.num * 1 / size (env a) a.dir (unitProp b)) := by
        have := value_unit (deepcopy a) (unitProp b) ha hkb hg.goodC (iff_of_false hra hrb') hg.fontC
        have e1 : (deepcopy a).unit = a.unit := rfl
        have e2 : (deepcopy a).dir = a.dir := rfl
        have e3 : (deepcopy a).num = a.num := rfl
        rw [e1, e2, e3, hg.copy, hA, size_noUnit] at this
        exact this
      have hu : (deepcopy a).unit = .noUnit := hA
      refine ⟨{ deepcopy a with num := a.num * 1 / size (env a) a.dir (unitProp b), unit := unitProp b }, _,
        ?_, rfl, rfl, rfl, hvb, ?_, rfl⟩
      · simp only [adopt, hu, hB, ne_eq, not_false_eq_true, and_self, if_true, convert, if_false, hval]
      · rw [hA, size_noUnit]
  · have hs : sumUnit a b = a.unit := by simp [sumUnit, hA]
    rw [hs] at hg ⊢
    have hvb := value_unit b a.unit hb ha hg.goodB (iff_of_false hrb hra) hg.fontB
    rw [hg.other] at hvb
    refine ⟨deepcopy a, _, ?_, rfl, rfl, rfl, hvb, ?_, rfl⟩
    · have hu : (deepcopy a).unit ≠ .noUnit := hA
      simp [adopt, hu]
    · have := size_pos (env a) a.dir a.unit ha hg.goodA
      simp only [deepcopy]
      field_simp

private theorem sumUnit_known (a b : Len) (ha : Known a.unit) (hb : Known b.unit) : Known (sumUnit a b) := by
  unfold sumUnit; split
  · exact unitProp_known b hb
  · exact ha

private theorem sumUnit_res (a b : Len) (ha : ¬ Resolution a.unit) (hb : ¬ Resolution b.unit) :
    ¬ Resolution (sumUnit a b) := by
  unfold sumUnit; split
  · exact unitProp_res b hb
  · exact ha

/-- **C35** (partial: when one unit of the result is the same number of pixels
everywhere).  The pixel value of a sum is the sum of the pixel values. -/
theorem add_partial (a b : Len) (ha : Known a.unit) (hb : Known b.unit) (hra : ¬ Resolution a.unit)
    (hrb : ¬ Resolution b.unit) (hg : Agree a b (sumUnit a b)) :
    ∃ c x y, add a b = .ok c ∧ value a .noUnit = .ok x ∧ value b .noUnit = .ok y ∧
      value c .noUnit = .ok (x + y) := by
  obtain ⟨x, n, h1, h2, h3, h4, h5, h6, h7⟩ := adopt_spec a b ha hb hra hrb hg
  have hp := size_pos (env a) a.dir (sumUnit a b) (sumUnit_known a b ha hb) hg.goodA
  refine ⟨{ x with num := x.num + n }, _, _, ?_, value_pixels a ha hg.goodA hra,
    value_pixels b hb hg.goodB hrb, ?_⟩
  · simp only [add, h1, h5]
  · have he : env { x with num := x.num + n } = env (deepcopy a) := by simp only [env, h3]
    rw [value_pixels _ (by rw [show ({ x with num := x.num + n } : Len).unit = x.unit from rfl, h2]; exact sumUnit_known a b ha hb)
      (he ▸ hg.goodC) (by rw [show ({ x with num := x.num + n } : Len).unit = x.unit from rfl, h2]; exact sumUnit_res a b hra hrb), he]
    simp only [h2, h4, hg.copy, h6, h7]
    congr 1; field_simp

/-- **C35** (partial, as above).  The same for differences. -/
theorem sub_partial (a b : Len) (ha : Known a.unit) (hb : Known b.unit) (hra : ¬ Resolution a.unit)
    (hrb : ¬ Resolution b.unit) (hg : Agree a b (sumUnit a b)) :
    ∃ c x y, sub a b = .ok c ∧ value a .noUnit = .ok x ∧ value b .noUnit = .ok y ∧
      value c .noUnit = .ok (x - y) := by
  obtain ⟨x, n, h1, h2, h3, h4, h5, h6, h7⟩ := adopt_spec a b ha hb hra hrb hg
  have hp := size_pos (env a) a.dir (sumUnit a b) (sumUnit_known a b ha hb) hg.goodA
  refine ⟨{ x with num := x.num - n }, _, _, ?_, value_pixels a ha hg.goodA hra,
    value_pixels b hb hg.goodB hrb, ?_⟩
  · simp only [sub, h1, h5]
  · have he : env { x with num := x.num - n } = env (deepcopy a) := by simp only [env, h3]
    rw [value_pixels _ (by rw [show ({ x with num := x.num - n } : Len).unit = x.unit from rfl, h2]; exact sumUnit_known a b ha hb)
      (he ▸ hg.goodC) (by rw [show ({ x with num := x.num - n } : Len).unit = x.unit from rfl, h2]; exact sumUnit_res a b hra hrb), he]
    simp only [h2, h4, hg.copy, h6, h7]
    congr 1; field_simp

theorem size_absolute (e e' : Env) (dir dir' : Option Dir) (u : LUnit) (h : Absolute u) :
    size e dir u = size e' dir' u := by
  rcases h with rfl | rfl | rfl | rfl | rfl | rfl | rfl | rfl | rfl <;> rfl

theorem agree_absolute (a b : Len) (u : LUnit) (hu : Absolute u) (h1 : Good (env a)) (h2 : Good (env (deepcopy a)))
    (h3 : Good (env b)) : Agree a b u := by
  have hf : ¬ FontUnit u := by
    rcases hu with rfl | rfl | rfl | rfl | rfl | rfl | rfl | rfl | rfl <;> simp [FontUnit]
  exact ⟨h1, h2, h3, .inr hf, .inr hf, size_absolute _ _ _ _ _ hu, size_absolute _ _ _ _ _ hu⟩

private theorem good_default : Good defaultEnv := by
  refine ⟨?_, ?_, ?_, ?_, by simp [defaultEnv]⟩ <;> norm_num [defaultEnv]

/-- **C35**, a sufficient condition: the unit of the result is absolute. -/
theorem add_absolute (a b : Len) (ha : Known a.unit) (hb : Known b.unit) (hra : ¬ Resolution a.unit)
    (hrb : ¬ Resolution b.unit) (hu : Absolute (sumUnit a b)) (h1 : Good (env a)) (h2 : Good (env (deepcopy a)))
    (h3 : Good (env b)) :
    ∃ c x y, add a b = .ok c ∧ value a .noUnit = .ok x ∧ value b .noUnit = .ok y ∧
      value c .noUnit = .ok (x + y) :=
  add_partial a b ha hb hra hrb (agree_absolute a b _ hu h1 h2 h3)

/-- **C35**, another: both lengths without context element and with the same
direction. -/
theorem add_no_context (a b : Len) (ha : Known a.unit) (hb : Known b.unit) (hra : ¬ Resolution a.unit)
    (hrb : ¬ Resolution b.unit) (hca : a.context = none) (hcb : b.context = none) (hd : a.dir = b.dir) :
    ∃ c x y, add a b = .ok c ∧ value a .noUnit = .ok x ∧ value b .noUnit = .ok y ∧
      value c .noUnit = .ok (x + y) := by
  have e1 : env a = defaultEnv := by simp [env, hca]
  have e2 : env b = defaultEnv := by simp [env, hcb]
  have e3 : env (deepcopy a) = defaultEnv := by rw [env_deepcopy_none a hca, e1]
  refine add_partial a b ha hb hra hrb ⟨?_, ?_, ?_, ?_, ?_, ?_, ?_⟩
  · rw [e1]; exact good_default
  · rw [e3]; exact good_default
  · rw [e2]; exact good_default
  · rw [e3]; exact .inl rfl
  · rw [e2]; exact .inl rfl
  · rw [e3, e1]
  · rw [e2, e1, hd]

/-- **C35** (partial: when a copy sees the same unit size).  Scaling by a number scales
the pixel value. -/
theorem scale_partial (a : Len) (k : ℝ) (ha : Known a.unit) (hra : ¬ Resolution a.unit) (h1 : Good (env a))
    (h2 : Good (env (deepcopy a))) (hs : size (env (deepcopy a)) a.dir a.unit = size (env a) a.dir a.unit) :
    ∃ x, value a .noUnit = .ok x ∧ value (scale a k) .noUnit = .ok (x * k) := by
  refine ⟨_, value_pixels a ha h1 hra, ?_⟩
  have he : env (scale a k) = env (deepcopy a) := rfl
  rw [value_pixels (scale a k) ha (he ▸ h2) hra, he]
  have e1 : (scale a k).dir = a.dir := rfl
  have e2 : (scale a k).unit = a.unit := rfl
  have e3 : (scale a k).num = a.num * k := rfl
  rw [e1, e2, e3, hs]
  congr 1; ring

/-- **C35** (partial, as above): negation. -/
theorem neg_partial (a : Len) (ha : Known a.unit) (hra : ¬ Resolution a.unit) (h1 : Good (env a))
    (h2 : Good (env (deepcopy a))) (hs : size (env (deepcopy a)) a.dir a.unit = size (env a) a.dir a.unit) :
    ∃ x, value a .noUnit = .ok x ∧ value (neg a) .noUnit = .ok (-x) := by
  have h := scale_partial a (-1) ha hra h1 h2 hs
  have e : scale a (-1) = neg a := by simp [scale, neg]
  obtain ⟨x, hx, hy⟩ := h
  exact ⟨x, hx, by rw [← e, hy]; congr 1; ring⟩

/-- **C35** (partial, as above): division by a number other than zero. -/
theorem divNum_partial (a : Len) (k : ℝ) (hk : k ≠ 0) (ha : Known a.unit) (hra : ¬ Resolution a.unit)
    (h1 : Good (env a)) (h2 : Good (env (deepcopy a)))
    (hs : size (env (deepcopy a)) a.dir a.unit = size (env a) a.dir a.unit) :
    ∃ c x, divNum a k = .ok c ∧ value a .noUnit = .ok x ∧ value c .noUnit = .ok (x / k) := by
  refine ⟨{ deepcopy a with num := a.num / k }, _, ?_, value_pixels a ha h1 hra, ?_⟩
  · simp only [divNum, div, hk, if_false]
  have he : env { deepcopy a with num := a.num / k } = env (deepcopy a) := rfl
  rw [value_pixels { deepcopy a with num := a.num / k } ha (he ▸ h2) hra, he]
  have e1 : ({ deepcopy a with num := a.num / k } : Len).dir = a.dir := rfl
  have e2 : ({ deepcopy a with num := a.num / k } : Len).unit = a.unit := rfl
  rw [e1, e2, hs]
  congr 1; field_simp

/-- Division by zero raises. -/
theorem divNum_zero (a : Len) : divNum a 0 = .error .zeroDivision := by simp [divNum, div]

/-- **C35** violated: doubling `1em` below a parent with font size 20 gives 32 pixels
instead of 40, because the copy of the context element has no parent. -/
theorem scale_violated :
    ∃ a : Len, Known a.unit ∧ Good (env a) ∧ Good (env (deepcopy a)) ∧
      value a .noUnit = .ok 20 ∧ value (scale a 2) .noUnit = .ok 32 := by
  refine ⟨⟨1, .em, some ⟨⟨20, 16, 100, 100, none⟩, ⟨16, 16, 100, 100, none⟩⟩, none⟩, ?_, ?_, ?_, ?_, ?_⟩
  · intro s; simp
  · refine ⟨?_, ?_, ?_, ?_, by simp [env]⟩ <;> norm_num [env]
  · refine ⟨?_, ?_, ?_, ?_, by simp [env, deepcopy]⟩ <;> norm_num [env, deepcopy]
  · simp [value, convertNumber, isRes, toPx, fromPx, env]
  · simp [value, convertNumber, isRes, toPx, fromPx, env, scale, deepcopy]; norm_num

/-- **C35** violated: percentages of the width and of the height are added as numbers. -/
theorem add_percent_violated :
    ∃ a b c : Len, a.context = b.context ∧ add a b = .ok c ∧ value a .noUnit = .ok 20 ∧ value b .noUnit = .ok 10 ∧
      value c .noUnit = .ok 40 := by
  refine ⟨⟨10, .pct, some ⟨⟨16, 16, 200, 100, none⟩, ⟨16, 16, 200, 100, none⟩⟩, some .horizontal⟩,
    ⟨10, .pct, some ⟨⟨16, 16, 200, 100, none⟩, ⟨16, 16, 200, 100, none⟩⟩, some .vertical⟩,
    ⟨10 + 10, .pct, some ⟨⟨16, 16, 200, 100, none⟩, ⟨16, 16, 200, 100, none⟩⟩, some .horizontal⟩, rfl, ?_, ?_, ?_, ?_⟩
  · simp [add, adopt, deepcopy, value, convertNumber]
  all_goals simp [value, convertNumber, isRes, toPx, fromPx, env, pctBase]
  all_goals norm_num

/-! ### Comparison (C36) -/

/-- Equality up to the tolerance, in the unit of the left operand. -/
theorem eq_iff (a b : Len) (n : ℝ) (h : value b a.unit = .ok n) :
    cmp .eq a b = .ok true ↔ |a.num - n| ≤ 1e-9 * max |a.num| |n| ∨ |a.num - n| ≤ 1e-9 := by
  simp only [cmp, h, cmpNum, isclose]
  simp only [Except.ok.injEq, decide_eq_true_eq, le_max_iff]

/-- **C36** (trichotomy).  When the right operand can be expressed in the unit of the
left one, exactly one of `<`, `==`, `>` holds, and `<=`, `>=` are `<` or `==`,
`>` or `==`. -/
theorem trichotomy (a b : Len) (n : ℝ) (h : value b a.unit = .ok n) :
    ∃ lt eq gt : Bool, cmp .lt a b = .ok lt ∧ cmp .eq a b = .ok eq ∧ cmp .gt a b = .ok gt ∧
      cmp .le a b = .ok (lt || eq) ∧ cmp .ge a b = .ok (gt || eq) ∧
      (lt, eq, gt) ∈ [(true, false, false), (false, true, false), (false, false, true)] := by
  refine ⟨cmpNum .lt a.num n, cmpNum .eq a.num n, cmpNum .gt a.num n, ?_, ?_, ?_, ?_, ?_, ?_⟩
  · simp only [cmp, h]
  · simp only [cmp, h]
  · simp only [cmp, h]
  · simp only [cmp, h, cmpNum]
    cases hc : isclose a.num n
    · have hne : a.num ≠ n := by
        rintro rfl
        simp [isclose] at hc
        have := hc.2; norm_num at this
      simp only [Bool.false_eq_true, if_false, Bool.or_false]
      congr 1
      rw [decide_eq_decide]
      exact ⟨fun hle => lt_of_le_of_ne hle hne, le_of_lt⟩
    · simp
  · simp only [cmp, h, cmpNum]
    cases hc : isclose a.num n
    · have hne : a.num ≠ n := by
        rintro rfl
        simp [isclose] at hc
        have := hc.2; norm_num at this
      simp only [Bool.false_eq_true, if_false, Bool.or_false]
      congr 1
      rw [decide_eq_decide]
      exact ⟨fun hle => lt_of_le_of_ne hle (Ne.symm hne), le_of_lt⟩
    · simp
  · simp only [cmpNum]
    cases hc : isclose a.num n
    · have hne : a.num ≠ n := by
        rintro rfl
        simp [isclose] at hc
        have := hc.2; norm_num at this
      rcases lt_or_gt_of_ne hne with hlt | hgt
      · simp [hlt, not_lt.mpr hlt.le]
      · simp [hgt, not_lt.mpr hgt.le]
    · simp

private theorem isclose_symm (a b : ℝ) : isclose a b = isclose b a := by
  unfold isclose
  rw [abs_sub_comm, max_comm |a| |b|]

/-- **C36** (side, partial: equal units).  For two lengths in the same unit equality does
not depend on the side, and `a < b` is `b > a`. -/
theorem symm_partial (a b : Len) (h : a.unit = b.unit) :
    cmp .eq a b = cmp .eq b a ∧ cmp .lt a b = cmp .gt b a ∧ cmp .le a b = cmp .ge b a := by
  have e1 : value b a.unit = .ok b.num := by simp [value, convertNumber, h]
  have e2 : value a b.unit = .ok a.num := by simp [value, convertNumber, h]
  simp only [cmp, e1, e2, cmpNum, isclose_symm a.num b.num, ge_iff_le, gt_iff_lt, and_self]

private theorem isclose_scale (a b k : ℝ) (hk : 0 < k) (h1 : 1 ≤ max |a| |b|) (h2 : 1 ≤ max |k * a| |k * b|) :
    isclose (k * a) (k * b) = isclose a b := by
  unfold isclose
  rw [decide_eq_decide, ← mul_sub, abs_mul, abs_mul, abs_mul, abs_of_pos hk, ← mul_max_of_nonneg _ _ hk.le]
  rw [abs_mul, abs_mul, abs_of_pos hk, ← mul_max_of_nonneg _ _ hk.le] at h2
  rw [max_eq_left (a := (1e-9 : ℝ) * (k * max |a| |b|)) (by linarith),
    max_eq_left (a := (1e-9 : ℝ) * max |a| |b|) (by linarith)]
  have : (1e-9 : ℝ) * (k * max |a| |b|) = k * (1e-9 * max |a| |b|) := by ring
  rw [this]
  exact mul_le_mul_iff_right₀ hk

/-- **C36** (side, partial: different units, sizes not tiny).  When both lengths mean the
same in either unit and the larger one is at least one unit in both, equality does not
depend on the side. -/
theorem symm_units_partial (a b : Len) (ha : Known a.unit) (hb : Known b.unit) (hra : ¬ Resolution a.unit)
    (hrb : ¬ Resolution b.unit) (he : env a = env b) (hd : a.dir = b.dir) (hg : Good (env a))
    (hfa : (env a).font = none ∨ ¬ FontUnit a.unit ∧ ¬ FontUnit b.unit)
    (h1 : size (env a) a.dir a.unit ≤
      max |a.num * size (env a) a.dir a.unit| |b.num * size (env a) a.dir b.unit|)
    (h2 : size (env a) a.dir b.unit ≤
      max |a.num * size (env a) a.dir a.unit| |b.num * size (env a) a.dir b.unit|) :
    cmp .eq a b = cmp .eq b a := by
  have p1 := size_pos (env a) a.dir a.unit ha hg
  have p2 := size_pos (env a) a.dir b.unit hb hg
  have v1 := value_unit b a.unit hb ha (he ▸ hg) (iff_of_false hrb hra) (he ▸ hfa.imp_right And.left)
  have v2 := value_unit a b.unit ha hb hg (iff_of_false hra hrb) (hfa.imp_right And.right)
  rw [← he, ← hd] at v1
  simp only [cmp, v1, v2, cmpNum]
  generalize size (env a) a.dir a.unit = s at *
  generalize size (env a) a.dir b.unit = t at *
  congr 1
  rw [isclose_symm b.num]
  have hs : ∀ (k x : ℝ), 0 < k → |k⁻¹ * x| = |x| / k := by
    intro k x hk; rw [abs_mul, abs_inv, abs_of_pos hk]; field_simp
  have hm : ∀ (k x y : ℝ), 0 < k → k ≤ max |x| |y| → 1 ≤ max |k⁻¹ * x| |k⁻¹ * y| := by
    intro k x y hk hle
    rw [hs k x hk, hs k y hk, max_div_div_right hk.le, le_div_iff₀ hk]
    linarith
  have m1 := hm s _ _ p1 h1
  have m2 := hm t _ _ p2 h2
  have ea : a.num = s⁻¹ * (a.num * s) := by field_simp
  have eb : b.num = t⁻¹ * (b.num * t) := by field_simp
  have key : isclose (s⁻¹ * (a.num * s)) (s⁻¹ * (b.num * t)) = isclose (t⁻¹ * (a.num * s)) (t⁻¹ * (b.num * t)) := by
    have hk : 0 < s / t := by positivity
    have e1 : t⁻¹ * (a.num * s) = (s / t) * (s⁻¹ * (a.num * s)) := by field_simp
    have e2 : t⁻¹ * (b.num * t) = (s / t) * (s⁻¹ * (b.num * t)) := by field_simp
    rw [e1, e2] at m2 ⊢
    exact (isclose_scale _ _ _ hk m1 m2).symm
  calc isclose a.num (b.num * t / s) = isclose (s⁻¹ * (a.num * s)) (s⁻¹ * (b.num * t)) := by
        rw [← ea]; congr 1; field_simp
    _ = isclose (t⁻¹ * (a.num * s)) (t⁻¹ * (b.num * t)) := key
    _ = isclose (a.num * s / t) b.num := by rw [← eb]; congr 1; field_simp

/-- **C36** (no contradiction across units).  When both lengths mean the same in either
unit, `a < b` excludes `b < a`. -/
theorem lt_asymm (a b : Len) (ha : Known a.unit) (hb : Known b.unit) (hra : ¬ Resolution a.unit)
    (hrb : ¬ Resolution b.unit) (he : env a = env b) (hd : a.dir = b.dir) (hg : Good (env a))
    (hfa : (env a).font = none ∨ ¬ FontUnit a.unit ∧ ¬ FontUnit b.unit)
    (h : cmp .lt a b = .ok true) : cmp .lt b a = .ok false := by
  have p1 := size_pos (env a) a.dir a.unit ha hg
  have p2 := size_pos (env a) a.dir b.unit hb hg
  have v1 := value_unit b a.unit hb ha (he ▸ hg) (iff_of_false hrb hra) (he ▸ hfa.imp_right And.left)
  have v2 := value_unit a b.unit ha hb hg (iff_of_false hra hrb) (hfa.imp_right And.right)
  rw [← he, ← hd] at v1
  simp only [cmp, v1, v2, cmpNum, Except.ok.injEq] at h ⊢
  generalize size (env a) a.dir a.unit = s at *
  generalize size (env a) a.dir b.unit = t at *
  split at h
  · cases h
  · simp only [decide_eq_true_eq] at h
    split
    · rfl
    · simp only [decide_eq_false_iff_not, not_lt]
      rw [div_le_iff₀ p2]
      rw [lt_div_iff₀ p1] at h
      exact h.le

/-- **C36** violated: `1e-9in == 0px` but not `0px == 1e-9in`. -/
theorem symm_violated :
    cmp .eq ⟨1e-9, .inch, none, none⟩ ⟨0, .px, none, none⟩ = .ok true ∧
    cmp .eq ⟨0, .px, none, none⟩ ⟨1e-9, .inch, none, none⟩ = .ok false := by
  constructor
  · simp [cmp, cmpNum, value, convertNumber, isRes, toPx, fromPx, toPixelSize, isclose]
    norm_num
  · simp [cmp, cmpNum, value, convertNumber, isRes, toPx, fromPx, toPixelSize, isclose]
    norm_num

/-- **C36** violated: equality is not transitive (as with any tolerance). -/
theorem eq_trans_violated :
    cmp .eq ⟨0, .px, none, none⟩ ⟨1e-9, .px, none, none⟩ = .ok true ∧
    cmp .eq ⟨1e-9, .px, none, none⟩ ⟨2e-9, .px, none, none⟩ = .ok true ∧
    cmp .eq ⟨0, .px, none, none⟩ ⟨2e-9, .px, none, none⟩ = .ok false := by
  refine ⟨?_, ?_, ?_⟩ <;> norm_num [cmp, cmpNum, value, convertNumber, isclose, abs_of_nonneg, abs_of_nonpos]

/-! ### Classification (C37) -/

/-- **C37** (partial: not `cap`).  Each known unit is in exactly one class. -/
theorem classes_partial (u : LUnit) (hu : Known u) (hc : u ≠ .cap) :
    (isabsolute u, isrelative u, isresolution u) ∈
      [(true, false, false), (false, true, false), (false, false, true)] := by
  cases u with
  | other s => exact absurd rfl (hu s)
  | cap => exact absurd rfl hc
  | _ => decide

/-- **C37** (context).  The absolute units are exactly the length units whose size does
not depend on the context. -/
theorem isabsolute_iff (u : LUnit) (hu : Known u) (hr : ¬ Resolution u) :
    isabsolute u = true ↔ ∀ c c' : Context, ∀ dir n, Good c.env → Good c'.env →
      value ⟨n, u, some c, dir⟩ .noUnit = value ⟨n, u, some c', dir⟩ .noUnit := by
  constructor
  · intro h c c' dir n g g'
    have hA : Absolute u := by cases u <;> simp_all [isabsolute, Absolute]
    rw [value_pixels ⟨n, u, some c, dir⟩ hu g hr, value_pixels ⟨n, u, some c', dir⟩ hu g' hr]
    simp only [env]
    rw [size_absolute c.env c'.env dir dir u hA]
  · intro h
    by_contra hna
    let e1 : Env := ⟨1, 1, 1, 1, none⟩
    let e2 : Env := ⟨2, 2, 2, 2, none⟩
    have g1 : Good e1 := by refine ⟨?_, ?_, ?_, ?_, by simp [e1]⟩ <;> norm_num [e1]
    have g2 : Good e2 := by refine ⟨?_, ?_, ?_, ?_, by simp [e2]⟩ <;> norm_num [e2]
    have := h ⟨e1, e1⟩ ⟨e2, e2⟩ none 1 g1 g2
    rw [value_pixels ⟨1, u, some ⟨e1, e1⟩, none⟩ hu g1 hr, value_pixels ⟨1, u, some ⟨e2, e2⟩, none⟩ hu g2 hr] at this
    simp only [env, Except.ok.injEq, one_mul] at this
    cases u with
    | other s => exact hu s rfl
    | dpi => exact hr (by simp [Resolution])
    | dpcm => exact hr (by simp [Resolution])
    | dppx => exact hr (by simp [Resolution])
    | _ => first
      | exact hna rfl
      | norm_num [size, fontSize, e1, e2] at this

/-- **C37** violated: `cap` is in no class. -/
theorem cap_violated : isabsolute .cap = false ∧ isrelative .cap = false ∧ isresolution .cap = false := by
  decide

/-! ### Non-trivial instances -/

example : ∃ m, convertNumber defaultEnv none 2 .inch .cm = .ok m ∧ convertNumber defaultEnv none m .cm .inch = .ok 2 :=
  roundtrip_partial defaultEnv none 2 .inch .cm (by intro s; simp) (by intro s; simp) good_default
    (by simp [Resolution]) (.inl rfl)

example : convertNumber defaultEnv none 2 .inch .cm = .ok 5.08 := by
  simp [convertNumber, isRes, toPx, fromPx, toPixelSize]
  norm_num

/-- Lengths with a context whose copy is different, in absolute units. -/
example : Agree ⟨1, .inch, some ⟨⟨20, 16, 300, 100, none⟩, ⟨16, 16, 100, 100, none⟩⟩, none⟩
    ⟨3, .em, none, some .vertical⟩ .inch := by
  refine agree_absolute _ _ _ (by simp [Absolute]) ?_ ?_ ?_ <;>
    refine ⟨?_, ?_, ?_, ?_, by simp [env, deepcopy, defaultEnv]⟩ <;> norm_num [env, deepcopy, defaultEnv]

end SvgPy.Length
