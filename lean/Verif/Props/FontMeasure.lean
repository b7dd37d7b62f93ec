import Mathlib.Tactic.Linarith
import Mathlib.Tactic.FieldSimp
import Mathlib.Tactic.Ring
import Mathlib.Tactic.NormNum
import Mathlib.Tactic.Positivity
import Verif.Model.FontMeasure

set_option linter.unusedSimpArgs false
set_option linter.unusedVariables false
set_option linter.unusedSectionVars false

/-!
C129. The measures of a font.
-/

namespace SvgPy.FontMeasure
open SvgPy

/-! ### Specification -/

/-- `u` font units of a face, in pixels, when its em square has `px` pixels. -/
def inPx (face : Face) (px : ℚ) (u : ℤ) : ℚ := px * (u / face.unitsPerEm)

/-- The glyph of a character. -/
def glyphOf (face : Face) (c : Char) : Glyph := face.glyph (face.index c)

/-- The writing modes with horizontal lines: the one of CSS and those of SVG 1.1. -/
inductive Horizontal : Str → Prop
  | tb : Horizontal "horizontal-tb".toList
  | lr : Horizontal "lr".toList
  | lrtb : Horizontal "lr-tb".toList
  | rl : Horizontal "rl".toList
  | rltb : Horizontal "rl-tb".toList

/-- The size after some steps: the one set last. -/
inductive SizeAfter (start : ℚ) : List Step → ℚ → Prop
  | begin : SizeAfter start [] start
  | asked {ss a px} : SizeAfter start ss px → SizeAfter start (ss ++ [.ask a]) px
  | set {ss : List Step} {h : ℤ} {v : ℚ} : SizeAfter start (ss ++ [.size h v]) ((h : ℚ) / 64 * (v / 72))

/-- The six properties that make a font. -/
def SameProperties (s t : Style) : Prop :=
  s.family = t.family ∧ s.size = t.size ∧ s.sizeAdjust = t.sizeAdjust ∧ s.stretch = t.stretch ∧
    s.style = t.style ∧ s.weight = t.weight

/-! ### Lemmas -/

theorem horizontal_iff (m : Str) : isHorizontal m = true ↔ Horizontal m := by
  constructor
  · intro h
    simp only [isHorizontal, List.contains_cons, List.contains_nil, Bool.or_false, Bool.or_eq_true,
      beq_iff_eq] at h
    rcases h with h | h | h | h | h <;> subst h <;> constructor
  · intro h
    cases h <;> decide

/-- Two fonts that differ at most in what is in the glyph slot. -/
def Alike (f g : Font) : Prop := f.style = g.style ∧ f.face = g.face ∧ f.ppem = g.ppem

theorem alike_refl (f : Font) : Alike f f := ⟨rfl, rfl, rfl⟩

theorem alike_trans {f g h : Font} : Alike f g → Alike g h → Alike f h := by
  rintro ⟨a, b, c⟩ ⟨d, e, k⟩
  exact ⟨a.trans d, b.trans e, c.trans k⟩

theorem loadGlyph_alike (f : Font) (i : ℕ) : Alike (loadGlyph f i) f := ⟨rfl, rfl, rfl⟩

theorem loadGlyph_congr {f g : Font} (h : Alike f g) (i : ℕ) : loadGlyph f i = loadGlyph g i := by
  obtain ⟨s, a, p, l⟩ := f
  obtain ⟨s', a', p', l'⟩ := g
  obtain ⟨rfl, rfl, rfl⟩ := h
  rfl

theorem capLoop_alike (f : Font) : ∀ cs, Alike (capLoop f cs).2 f
  | [] => alike_refl f
  | c :: cs => by
    simp only [capLoop]
    split
    · exact loadGlyph_alike f _
    · exact capLoop_alike f cs

theorem capLoop_congr {f g : Font} (h : Alike f g) : ∀ cs, (capLoop f cs).1 = (capLoop g cs).1
  | [] => rfl
  | c :: cs => by
    have e : f.face = g.face := h.2.1
    simp only [capLoop, loadChar, e, loadGlyph_congr h]
    split
    · rfl
    · exact capLoop_congr h cs

theorem ask_alike (f : Font) (a : Ask) : Alike (ask f a).2 f := by
  cases a <;> simp only [ask]
  case capHeight => exact capLoop_alike f _
  case icAdvance => split; exact alike_refl f; exact loadGlyph_alike f _
  all_goals exact ⟨rfl, rfl, rfl⟩

theorem ask_congr {f g : Font} (h : Alike f g) (a : Ask) : (ask f a).1 = (ask g a).1 := by
  have e : f.face = g.face := h.2.1
  have p : f.ppem = g.ppem := h.2.2
  cases a
  case capHeight => exact capLoop_congr h _
  case icAdvance =>
    simp only [ask, e, loadGlyph_congr h]
    split <;> rfl
  all_goals simp only [ask, loadChar, scaled, e, p, loadGlyph_congr h]

theorem step_congr {f g : Font} (h : Alike f g) (s : Step) : Alike (step f s) (step g s) := by
  cases s with
  | ask a =>
    obtain ⟨x, y, z⟩ := ask_alike f a
    obtain ⟨x', y', z'⟩ := ask_alike g a
    exact ⟨x.trans (h.1.trans x'.symm), y.trans (h.2.1.trans y'.symm), z.trans (h.2.2.trans z'.symm)⟩
  | size n v => exact ⟨h.1, h.2.1, rfl⟩

theorem run_append (f : Font) : ∀ ss ts, run f (ss ++ ts) = run (run f ss) ts
  | [], _ => rfl
  | s :: ss, ts => run_append (step f s) ss ts

theorem run_style (f : Font) : ∀ ss, (run f ss).style = f.style ∧ (run f ss).face = f.face
  | [] => ⟨rfl, rfl⟩
  | s :: ss => by
    obtain ⟨a, b⟩ := run_style (step f s) ss
    have : (step f s).style = f.style ∧ (step f s).face = f.face := by
      cases s with
      | ask c => exact ⟨(ask_alike f c).1, (ask_alike f c).2.1⟩
      | size n v => exact ⟨rfl, rfl⟩
    exact ⟨a.trans this.1, b.trans this.2⟩

theorem scaled_px (f : Font) (u : ℤ) : scaled f u / 64 = inPx f.face f.ppem u := by
  simp only [scaled, inPx]
  ring

/-! ### Asking does not disturb -/

/-- Whatever was asked before and however often the size was set: the answer is the one of a font
that has just been given the size set last. -/
theorem ask_stable {f : Font} {ss : List Step} {px : ℚ} (h : SizeAfter f.ppem ss px) (a : Ask) :
    (ask (run f ss) a).1 = (ask { f with ppem := px } a).1 := by
  apply ask_congr
  refine ⟨(run_style f ss).1, (run_style f ss).2, ?_⟩
  induction h with
  | begin => rfl
  | @asked ss a px _ ih =>
    rw [run_append]
    exact ((ask_alike _ a).2.2).trans ih
  | @set ss n v =>
    rw [run_append]
    simp only [run, step, setPointSize, requestSize]
    ring

/-- Every list of steps has a size after it. -/
theorem sizeAfter_total (start : ℚ) (ss : List Step) : ∃ px, SizeAfter start ss px := by
  induction ss using List.reverseRecOn with
  | nil => exact ⟨start, .begin⟩
  | append_singleton ss s ih =>
    obtain ⟨px, h⟩ := ih
    cases s with
    | ask a => exact ⟨px, .asked h⟩
    | size n v => exact ⟨_, .set⟩

/-! ### The size -/

/-- The size a font is opened with is the font size at the resolution of the screen, at most 1/48 of
a pixel (of 1/96 inch) smaller. -/
theorem size_spec (style : Style) (face : Face) (screen : Option ℚ) {r : ℚ}
    (hr : r = screen.getD 96) (h0 : 0 ≤ r) (hs : 0 ≤ style.size) :
    (openFont style face screen).ppem ≤ style.size * (r / 96) ∧
      (style.size - 1 / 48) * (r / 96) ≤ (openFont style face screen).ppem := by
  have key : (openFont style face screen).ppem = (⌊style.size * 48⌋ : ℤ) / 48 * (r / 96) := by
    have hn : ¬ style.size * 48 < 0 := by linarith
    have e : style.size / (96 / 72) * 64 = style.size * 48 := by ring
    cases screen with
    | none =>
      simp only [Option.getD] at hr
      simp only [openFont, requestSize, toInt, e, hn, if_false, defaultResolution, hr]
      ring
    | some q =>
      simp only [Option.getD] at hr
      simp only [openFont, requestSize, toInt, e, hn, if_false, hr]
      ring
  have h1 : ((⌊style.size * 48⌋ : ℤ) : ℚ) ≤ style.size * 48 := Int.floor_le _
  have h2 : style.size * 48 < (⌊style.size * 48⌋ : ℤ) + 1 := Int.lt_floor_add_one _
  have hq : 0 ≤ r / 96 := by positivity
  rw [key]
  constructor
  · apply mul_le_mul_of_nonneg_right _ hq
    linarith
  · apply mul_le_mul_of_nonneg_right _ hq
    linarith

/-- Whole numbers of pixels on a screen with the usual resolution are met exactly. -/
theorem size_exact (style : Style) (face : Face) (n : ℕ) (hs : style.size = n) :
    (openFont style face none).ppem = n ∧ (openFont style face (some 96)).ppem = n := by
  have hn : ¬ ((n * 48 : ℤ) : ℚ) < 0 := by
    have : (0 : ℚ) ≤ n := Nat.cast_nonneg n
    push_cast
    linarith
  have e : (n : ℚ) / (96 / 72) * 64 = ((n * 48 : ℤ) : ℚ) := by push_cast; ring
  constructor <;>
  · simp only [openFont, requestSize, toInt, hs, e, hn, if_false, Int.floor_intCast, defaultResolution]
    push_cast
    ring

/-! ### The measures -/

theorem x_height_raw (f : Font) :
    (ask f .xHeight).1 = .ok (inPx f.face f.ppem (glyphOf f.face 'x').height) := by
  simp only [ask, loadChar, loadGlyph, scaled_px, glyphOf]

/-- `ex` is the height of the letter x. -/
theorem x_height_spec (f : Font) (hx : f.face.index 'x' ≠ 0) :
    (ask f .xHeight).1 = .ok (inPx f.face f.ppem (glyphOf f.face 'x').height) := x_height_raw f

theorem ch_raw (f : Font) (h : Horizontal f.style.writingMode) :
    (ask f .chAdvance).1 = .ok (inPx f.face f.ppem (glyphOf f.face '0').hori) := by
  have h' : isHorizontal f.style.writingMode = true := (horizontal_iff _).2 h
  simp only [ask, loadChar, loadGlyph, advance, h', if_true, scaled_px, glyphOf]

/-- `ch` is the advance of the digit zero, on horizontal lines. -/
theorem ch_spec (f : Font) (h : Horizontal f.style.writingMode) (h0 : f.face.index '0' ≠ 0) :
    (ask f .chAdvance).1 = .ok (inPx f.face f.ppem (glyphOf f.face '0').hori) := ch_raw f h

/-- `ic` is the advance of the water ideograph, on horizontal lines. -/
theorem ic_spec (f : Font) (h : Horizontal f.style.writingMode) (hi : f.face.index '水' ≠ 0) :
    (ask f .icAdvance).1 = .ok (inPx f.face f.ppem (glyphOf f.face '水').hori) := by
  have h' : isHorizontal f.style.writingMode = true := (horizontal_iff _).2 h
  simp only [ask, loadGlyph, advance, h', if_true, scaled_px, glyphOf, beq_iff_eq, hi, if_false]

/-- On vertical lines, where the ideograph stands upright beside turned letters, it is its advance
downwards. -/
theorem ic_vertical (f : Font) (h : ¬ Horizontal f.style.writingMode)
    (ho : f.style.textOrientation = "mixed".toList) (hi : f.face.index '水' ≠ 0) :
    (ask f .icAdvance).1 = .ok (inPx f.face f.ppem (glyphOf f.face '水').vert) := by
  have h' : ¬ isHorizontal f.style.writingMode = true := fun x => h ((horizontal_iff _).1 x)
  have ho' : ¬ (f.style.textOrientation == "upright".toList) = true := by rw [ho]; decide
  simp only [ask, loadGlyph, advance, h', if_false, scaled_px, glyphOf, beq_iff_eq, hi,
    Bool.false_eq_true]
  simp only [ho, scaled_px]
  rw [if_neg (by decide)]

/-- A font without the ideograph: one em. -/
theorem ic_missing (f : Font) (em : ℚ) (hi : f.face.index '水' = 0) : unitPx f em .ic = .ok em := by
  simp [unitPx, measure, ask, hi]

/-- On vertical lines with upright digits `ch` is one em. -/
theorem ch_upright (f : Font) (em : ℚ) (h : ¬ Horizontal f.style.writingMode)
    (ho : f.style.textOrientation = "upright".toList) : unitPx f em .ch = .ok em := by
  have h' : ¬ isHorizontal f.style.writingMode = true := fun x => h ((horizontal_iff _).1 x)
  simp [unitPx, measure, ask, advance, loadChar, loadGlyph, h', ho]

/-- A measure that is not zero is what the unit stands for. -/
theorem unit_spec (f : Font) (em k : ℚ) (u : FontUnit) (hk : k ≠ 0)
    (h : (ask f (measure u)).1 = .ok k) : unitPx f em u = .ok k := by
  simp [unitPx, h, hk]

/-- The height of lines, and the size of the em square. -/
theorem line_spec (f : Font) :
    (ask f .lineHeight).1 = .ok (inPx f.face f.ppem f.face.line) ∧ (ask f .height).1 = .ok f.ppem := by
  simp only [ask, scaled_px, and_self]

/-- At `k` times the size the units `ex`, `ch`, `ic` and the line are `k` times as long. -/
theorem scale_spec (f : Font) (k : ℚ) (a : Ask) (ha : a = .xHeight ∨ a = .chAdvance ∨ a = .icAdvance ∨
    a = .lineHeight ∨ a = .height) {x : ℚ} (hx : (ask f a).1 = .ok x) :
    (ask { f with ppem := k * f.ppem } a).1 = .ok (k * x) := by
  rcases ha with rfl | rfl | rfl | rfl | rfl
  · simp only [ask, loadChar, loadGlyph, scaled, Except.ok.injEq] at hx ⊢
    rw [← hx]; ring
  · simp only [ask, loadChar, loadGlyph, scaled, Except.ok.injEq, advance] at hx ⊢
    rw [← hx]
    by_cases hm : isHorizontal f.style.writingMode = true <;>
    by_cases ho : (f.style.textOrientation == "upright".toList) = true <;>
    simp only [hm, ho, if_true, if_false, Bool.false_eq_true] <;> ring
  · simp only [ask] at hx ⊢
    split at hx
    · rename_i hi
      rw [if_pos hi]
      simp only [Except.ok.injEq] at hx ⊢
      rw [← hx]; ring
    · rename_i hi
      rw [if_neg hi]
      simp only [loadGlyph, scaled, Except.ok.injEq, advance] at hx ⊢
      rw [← hx]
      by_cases hm : isHorizontal f.style.writingMode = true <;>
      by_cases ho : (f.style.textOrientation == "upright".toList) = true <;>
      simp only [hm, ho, if_true, if_false, Bool.false_eq_true] <;> ring
  · simp only [ask, scaled, Except.ok.injEq] at hx ⊢
    rw [← hx]; ring
  · simp only [ask, Except.ok.injEq] at hx ⊢
    rw [← hx]

/-! ### Equality -/

/-- Fonts are equal when they agree in the six properties. -/
theorem eq_iff (f g : Font) : eq f g = true ↔ SameProperties f.style g.style := by
  simp [eq, SameProperties, and_assoc]

/-- Equality of fonts is an equivalence, and asking or setting the size does not change it. -/
theorem eq_equiv : (∀ f, eq f f = true) ∧ (∀ f g, eq f g = true → eq g f = true) ∧
    (∀ f g h, eq f g = true → eq g h = true → eq f h = true) ∧
    (∀ f g ss, eq (run f ss) g = eq f g) := by
  refine ⟨fun f => ?_, fun f g h => ?_, fun f g h hfg hgh => ?_, fun f g ss => ?_⟩
  · rw [eq_iff]; exact ⟨rfl, rfl, rfl, rfl, rfl, rfl⟩
  · rw [eq_iff] at h ⊢
    obtain ⟨a, b, c, d, e, k⟩ := h
    exact ⟨a.symm, b.symm, c.symm, d.symm, e.symm, k.symm⟩
  · rw [eq_iff] at hfg hgh ⊢
    obtain ⟨a, b, c, d, e, k⟩ := hfg
    obtain ⟨a', b', c', d', e', k'⟩ := hgh
    exact ⟨a.trans a', b.trans b', c.trans c', d.trans d', e.trans e', k.trans k'⟩
  · simp only [eq, (run_style f ss).1]

/-! ### A concrete font -/

/-- A face with 1000 units per em and the glyphs of x, 0, H and the ideograph. -/
def sample : Face where
  unitsPerEm := 1000
  ascender := 800
  descender := -200
  line := 1200
  index c := if c = 'x' then 1 else if c = '0' then 2 else if c = 'H' then 3 else
    if c = '水' then 4 else 0
  glyph i := match i with
    | 1 => ⟨500, 450, 1000⟩
    | 2 => ⟨700, 600, 1000⟩
    | 3 => ⟨720, 750, 1100⟩
    | 4 => ⟨900, 980, 990⟩
    | _ => ⟨600, 300, 1000⟩

/-- A style. -/
def plain (mode orientation : String) : Style :=
  ⟨["sans-serif".toList], 20, "none".toList, "normal".toList, "normal".toList, 400,
    mode.toList, orientation.toList⟩

theorem sample_em : (sample.unitsPerEm : ℚ) = 1000 := by norm_num [sample]
theorem sample_x : sample.glyph (sample.index 'x') = ⟨500, 450, 1000⟩ := rfl
theorem sample_0 : sample.glyph (sample.index '0') = ⟨700, 600, 1000⟩ := rfl
theorem sample_H : sample.glyph (sample.index 'H') = ⟨720, 750, 1100⟩ := rfl
theorem sample_ic : sample.glyph (sample.index '水') = ⟨900, 980, 990⟩ := rfl

example : Horizontal (plain "lr-tb" "mixed").writingMode := .lrtb
example : ¬ Horizontal (plain "vertical-rl" "upright").writingMode := by
  rw [← horizontal_iff]; decide
example : sample.index '水' ≠ 0 ∧ sample.index 'x' ≠ 0 ∧ sample.index '0' ≠ 0 := by decide
example : inPx sample 20 (glyphOf sample 'x').height = 10 := by
  norm_num [inPx, glyphOf, sample_em, sample_x, sample_0, sample_H, sample_ic]
example : SizeAfter 20 [.ask .capHeight, .size 768 96, .ask .chAdvance] 16 := by
  have h : SizeAfter 20 ([.ask .capHeight] ++ [.size 768 96]) (((768 : ℤ) : ℚ) / 64 * (96 / 72)) := .set
  have e : ((768 : ℤ) : ℚ) / 64 * (96 / 72) = 16 := by norm_num
  rw [e] at h
  exact .asked h

/-! ### What the code does not do -/

/-- `cap` should be the height of the capital letters. It is the distance of lines of vertical text:
on every font with an H. -/
theorem cap_violated (f : Font) (h : f.face.index 'H' ≠ 0) :
    (ask f .capHeight).1 = .ok (inPx f.face f.ppem (glyphOf f.face 'H').vert) ∧
    ∃ g : Font, g.face.index 'H' ≠ 0 ∧
      (ask g .capHeight).1 ≠ .ok (inPx g.face g.ppem (glyphOf g.face 'H').height) := by
  have key : ∀ f : Font, f.face.index 'H' ≠ 0 →
      (ask f .capHeight).1 = .ok (inPx f.face f.ppem (glyphOf f.face 'H').vert) := by
    intro f h
    have h' : (f.face.index 'H' != 0) = true := by simpa using h
    simp only [ask, capLoop, h', if_true, loadChar, loadGlyph, scaled_px, glyphOf]
  refine ⟨key f h, ⟨plain "lr-tb" "mixed", sample, 20, ⟨0, 0, 0⟩⟩, by decide, ?_⟩
  rw [key _ (by decide)]
  simp only [ne_eq, Except.ok.injEq]
  norm_num [inPx, glyphOf, sample_em, sample_x, sample_0, sample_H, sample_ic]

/-- A font without H and h (of symbols, or of a script without case): reading a length in `cap` raises
`AttributeError` instead of using the ascent. -/
theorem cap_missing_violated (f : Font) (em : ℚ) (h : f.face.index 'H' = 0) (h' : f.face.index 'h' = 0) :
    unitPx f em .cap = .error .attributeError := by
  simp [unitPx, measure, ask, capLoop, h, h']

/-- A font without the digit zero: `ch` should be half an em; it is the advance of the glyph that
stands for missing characters. -/
theorem ch_missing_violated :
    ∃ (f : Font) (em : ℚ), f.face.index '0' = 0 ∧ Horizontal f.style.writingMode ∧ f.ppem = em ∧
      unitPx f em .ch = .ok 6 ∧ (6 : ℚ) ≠ em / 2 := by
  refine ⟨⟨plain "lr-tb" "mixed", { sample with index := fun _ => 0 }, 20, ⟨0, 0, 0⟩⟩, 20, rfl,
    .lrtb, rfl, ?_, by norm_num⟩
  apply unit_spec _ _ _ _ (by norm_num)
  show (ask _ .chAdvance).1 = _
  rw [ch_raw _ .lrtb]
  simp only [Except.ok.injEq]
  norm_num [inPx, glyphOf, sample]

/-- A font without the letter x: `ex` should be half an em; it is the height of the glyph that
stands for missing characters. -/
theorem ex_missing_violated :
    ∃ (f : Font) (em : ℚ), f.face.index 'x' = 0 ∧ f.ppem = em ∧
      unitPx f em .ex = .ok 12 ∧ (12 : ℚ) ≠ em / 2 := by
  refine ⟨⟨plain "lr-tb" "mixed", { sample with index := fun _ => 0 }, 20, ⟨0, 0, 0⟩⟩, 20, rfl,
    rfl, ?_, by norm_num⟩
  apply unit_spec _ _ _ _ (by norm_num)
  show (ask _ .xHeight).1 = _
  rw [x_height_raw _]
  simp only [Except.ok.injEq]
  norm_num [inPx, glyphOf, sample]

/-- On vertical lines digits are turned, and take their width of the line; `ch` is their advance
downwards. -/
theorem ch_turned_violated :
    ∃ f : Font, ¬ Horizontal f.style.writingMode ∧ f.style.textOrientation = "mixed".toList ∧
      f.face.index '0' ≠ 0 ∧
      (ask f .chAdvance).1 ≠ .ok (inPx f.face f.ppem (glyphOf f.face '0').hori) := by
  refine ⟨⟨plain "vertical-rl" "mixed", sample, 20, ⟨0, 0, 0⟩⟩, ?_, rfl, by decide, ?_⟩
  · rw [← horizontal_iff]; decide
  · have h' : isHorizontal (plain "vertical-rl" "mixed").writingMode = false := by decide
    have ho : ((plain "vertical-rl" "mixed").textOrientation == "upright".toList) = false := by decide
    simp only [ask, loadChar, loadGlyph, advance, h', ho, scaled_px, ne_eq, Except.ok.injEq,
      Bool.false_eq_true, if_false]
    norm_num [inPx, glyphOf, sample_em, sample_x, sample_0, sample_H, sample_ic]

/-- With upright letters `ic` is one em although the font has the ideograph. -/
theorem ic_upright_violated :
    ∃ f : Font, ¬ Horizontal f.style.writingMode ∧ f.style.textOrientation = "upright".toList ∧
      f.face.index '水' ≠ 0 ∧ unitPx f f.ppem .ic = .ok f.ppem ∧
      f.ppem ≠ inPx f.face f.ppem (glyphOf f.face '水').vert := by
  refine ⟨⟨plain "vertical-rl" "upright", sample, 20, ⟨0, 0, 0⟩⟩, ?_, rfl, by decide, ?_, ?_⟩
  · rw [← horizontal_iff]; decide
  · have h' : isHorizontal (plain "vertical-rl" "upright").writingMode = false := by decide
    have ho : ((plain "vertical-rl" "upright").textOrientation == "upright".toList) = true := by decide
    have hi : (sample.index '水' == 0) = false := by decide
    simp only [unitPx, measure, ask, hi, loadGlyph, advance, h', ho, if_true, if_false,
      Bool.false_eq_true]
  · norm_num [inPx, glyphOf, sample_em, sample_x, sample_0, sample_H, sample_ic]

/-- `ascent` and `descent` do not grow with the size: they are font units divided by 64. -/
theorem ascent_violated (f : Font) (px : ℚ) :
    (ask { f with ppem := px } .ascent).1 = (ask f .ascent).1 ∧
    (ask { f with ppem := px } .descent).1 = (ask f .descent).1 ∧
    ∃ g : Font, (ask g .ascent).1 ≠ .ok (inPx g.face g.ppem g.face.ascender) := by
  refine ⟨rfl, rfl, ⟨plain "lr-tb" "mixed", sample, 20, ⟨0, 0, 0⟩⟩, ?_⟩
  simp only [ask, ne_eq, Except.ok.injEq]
  norm_num [inPx, sample]

/-- Equal fonts, even with the same face and size, can measure differently. -/
theorem eq_violated :
    ∃ f g : Font, eq f g = true ∧ f.face = g.face ∧ f.ppem = g.ppem ∧
      (ask f .chAdvance).1 ≠ (ask g .chAdvance).1 := by
  refine ⟨⟨plain "lr-tb" "mixed", sample, 20, ⟨0, 0, 0⟩⟩,
    ⟨plain "vertical-rl" "mixed", sample, 20, ⟨0, 0, 0⟩⟩, by decide, rfl, rfl, ?_⟩
  rw [ch_raw _ .lrtb]
  have h' : isHorizontal (plain "vertical-rl" "mixed").writingMode = false := by decide
  have ho : ((plain "vertical-rl" "mixed").textOrientation == "upright".toList) = false := by decide
  simp only [ask, loadChar, loadGlyph, advance, h', ho, scaled_px, ne_eq, Except.ok.injEq,
    Bool.false_eq_true, if_false]
  norm_num [inPx, glyphOf, sample_em, sample_x, sample_0, sample_H, sample_ic]

end SvgPy.FontMeasure
