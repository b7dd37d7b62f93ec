import Verif.Model.MediaFeatures
import Verif.Props.MediaQuery
import Mathlib.Tactic.Linarith
import Mathlib.Tactic.NormNum
import Mathlib.Tactic.FieldSimp

/-! C123: media features describe the window and its screen. -/

set_option linter.unusedSimpArgs false
set_option linter.unusedVariables false

namespace SvgPy.MediaFeatures

open SvgPy.MediaQuery

/-! ### Specification -/

namespace Spec

/-- The features with a numeric value. -/
inductive Feature
  | width | height | resolution | grid | color | colorIndex | monochrome | deviceWidth | deviceHeight

/-- How the feature is written. -/
def Feature.text : Feature → String
  | .width => "width"
  | .height => "height"
  | .resolution => "resolution"
  | .grid => "grid"
  | .color => "color"
  | .colorIndex => "color-index"
  | .monochrome => "monochrome"
  | .deviceWidth => "device-width"
  | .deviceHeight => "device-height"

/-- What the feature is: sizes in pixels, the resolution in dots per pixel as zoomed, the bits of a pixel, the number of
colours these can tell apart, the bits of grey. -/
def Feature.value (e : Env) : Feature → ℚ
  | .width => e.vw
  | .height => e.vh
  | .resolution => e.zoom * e.pixelRatio
  | .grid => 0
  | .color => e.colorDepth
  | .colorIndex => 2 ^ e.colorDepth
  | .monochrome => e.monochrome
  | .deviceWidth => e.sw
  | .deviceHeight => e.sh

/-- The number `x` in the unit of the feature. -/
def Feature.literal (x : ℚ) : Feature → Val
  | .width | .height | .deviceWidth | .deviceHeight => .px x
  | .resolution => .dppx x
  | _ => .num x

/-- The numbers are equal, or further apart than the documented tolerance of lengths. -/
def Apart (a b : ℚ) : Prop := a = b ∨ (|a - b| > 1e-9 ∧ |a - b| > 1e-9 * |a| ∧ |a - b| > 1e-9 * |b|)

/-- A query of one term. -/
def single (t : Term) : List (Node Term) := [.boolOp none [] [.leaf t]]

/-- The screen as it is held is at least as high as wide: quarter turns exchange its sides. -/
def Upright (sw sh : Int) (turns : Int) : Prop := if turns % 2 = 0 then sw ≤ sh else sh ≤ sw

end Spec

open Spec

/-! ### Proofs -/

private theorem three_of_apart (a b : ℚ) (h : Apart a b) :
    three a b = if a = b then 0 else if a > b then 1 else -1 := by
  have e : (isclose a b = true) ↔ a = b := by
    unfold isclose
    rw [decide_eq_true_iff]
    constructor
    · intro hc
      rcases h with h | ⟨h1, h2, h3⟩
      · exact h
      · exfalso
        rcases le_max_iff.mp hc with hc | hc
        · rcases max_choice |a| |b| with hm | hm <;> rw [hm] at hc <;> norm_num at h2 h3 <;> linarith
        · norm_num at h1; linarith
    · rintro rfl; simp
  unfold three
  by_cases hab : a = b
  · rw [if_pos (e.mpr hab), if_pos hab]
  · rw [if_neg (fun x => hab (e.mp x)), if_neg hab]

private theorem trunc_ne {x : ℚ} (h : 1 ≤ x) : trunc x ≠ 0 := by
  have : (1 : ℤ) ≤ ⌊x⌋ := Int.le_floor.mpr (by exact_mod_cast h)
  unfold trunc
  rw [if_neg (by linarith)]
  omega

private theorem single_ok (e : Env) (hv : 1 ≤ e.vh) (hs : e.sh ≠ 0) (t : Term) (c : String → Option Val)
    (hc : conditions e = .ok c) : queryMatches e (single t) = .ok (evalTerm c t) := by
  unfold queryMatches
  rw [hc]
  cases h : evalTerm c t <;>
    simp [single, matchList, matchNode, matchChildren, stops, h]

private theorem conditions_ok (e : Env) (hv : 1 ≤ e.vh) (hs : e.sh ≠ 0) : ∃ c, conditions e = .ok c ∧
    (∀ f : Feature, c f.text = some (f.literal (f.value e))) ∧
    c "aspect-ratio" = some (ofFraction (trunc e.vw / trunc e.vh)) ∧
    c "orientation" = some (.word (orientationType e)) ∧
    c "device-aspect-ratio" = some (ofFraction (e.sw / e.sh)) ∧ c "media" = some (.word e.media) := by
  refine ⟨_, by rw [conditions, if_neg (trunc_ne hv), if_neg hs], ?_, by simp, by simp, by simp, by simp⟩
  intro f
  cases f <;> simp [Feature.text, Feature.literal, Feature.value, mul_comm]

private theorem numeric_text (f : Feature) : Numeric f.text := by
  cases f <;> first | exact Or.inl rfl | exact Or.inr ⟨by decide, by decide⟩

private theorem cmp_literal (f : Feature) (a b : ℚ) (h : Apart a b) :
    mqlCompare (f.literal a) (f.literal b) = some (if a = b then 0 else if a > b then 1 else -1) := by
  rw [← three_of_apart a b h]
  cases f <;> simp [mqlCompare, length, Feature.literal]

private theorem step (f : Feature) (anyName : Bool) (a b : ℚ) (op : Cmp) (h : Apart a b) :
    (compareStep values anyName (some f.text) (f.literal a) (f.literal b) op = some (f.literal b) ∧ op.rel a b) ∨
    (compareStep values anyName (some f.text) (f.literal a) (f.literal b) op = none ∧ ¬ op.rel a b) := by
  have h1 : ¬ (anyName = true ∧ some f.text ≠ some "grid" ∧ (∃ n ∈ discreteFeatures, some f.text = some n)) := by
    rintro ⟨_, hg, n, hd, hn⟩
    rcases numeric_text f with h | ⟨h, _⟩
    · exact hg (by rw [h])
    · cases hn; exact h hd
  have h2 : ¬ (anyName = true ∧ some f.text = some "aspect-ratio") := by
    rintro ⟨_, hn⟩
    cases f <;> simp [Feature.text] at hn
  have hc : values.cmp (f.literal a) (f.literal b) = _ := cmp_literal f a b h
  simp only [compareStep, h1, h2, if_false, hc]
  rcases lt_trichotomy a b with h | h | h
  · have x : ¬ a = b := ne_of_lt h
    have y : ¬ a > b := not_lt.mpr h.le
    cases op <;> simp [Cmp.rel, Cmp.first, Cmp.last, x, y, h, h.le, not_le.mpr h]
  · cases op <;> simp [Cmp.rel, Cmp.first, Cmp.last, h]
  · have x : ¬ a = b := ne_of_gt h
    cases op <;> simp [Cmp.rel, Cmp.first, Cmp.last, x, h, h.le, not_le.mpr h, not_lt.mpr h.le]

/-- **C123** (numeric features): `(feature op x)` matches exactly if the window or screen has a value in that
relation to `x`.  Missing: viewports lower than one pixel, screens without height (`zero_height_violated`), and numbers
within the tolerance of lengths. -/
theorem numeric_partial (e : Env) (hv : 1 ≤ e.vh) (hs : e.sh ≠ 0) (f : Feature) (op : Cmp) (x : ℚ)
    (ha : Apart (f.value e) x) :
    ∃ b, queryMatches e (single (.compare (.name f.text) [(op, .num (f.literal x))])) = .ok b ∧
      (b = true ↔ op.rel (f.value e) x) := by
  obtain ⟨c, hc, hf, -⟩ := conditions_ok e hv hs
  refine ⟨_, single_ok e hv hs _ c hc, ?_⟩
  simp only [evalTerm, evalCompare, Operand.value, hf f, compareLoop, Operand.isName, Operand.nameOr, Bool.or_false,
    Bool.or_true, Bool.true_or, Bool.false_or]
  rcases step f true (f.value e) x op ha with ⟨h, hr⟩ | ⟨h, hr⟩ <;> simp [h, hr]

/-- **C123** (ranges): `(x op feature op' y)` matches exactly if both relations hold. -/
theorem range_partial (e : Env) (hv : 1 ≤ e.vh) (hs : e.sh ≠ 0) (f : Feature) (op op' : Cmp) (x y : ℚ)
    (hx : Apart x (f.value e)) (hy : Apart (f.value e) y) :
    ∃ b, queryMatches e (single (.compare (.num (f.literal x)) [(op, .name f.text), (op', .num (f.literal y))])) =
        .ok b ∧
      (b = true ↔ op.rel x (f.value e) ∧ op'.rel (f.value e) y) := by
  obtain ⟨c, hc, hf, -⟩ := conditions_ok e hv hs
  refine ⟨_, single_ok e hv hs _ c hc, ?_⟩
  simp only [evalTerm, evalCompare, Operand.value, hf f, compareLoop, Operand.isName, Operand.nameOr, Bool.or_false,
    Bool.or_true, Bool.true_or, Bool.false_or]
  rcases step f true x (f.value e) op hx with ⟨h, hr⟩ | ⟨h, hr⟩
  · rcases step f true (f.value e) y op' hy with ⟨h', hr'⟩ | ⟨h', hr'⟩ <;> simp [h, hr, h', hr']
  · simp [h, hr]

/-- **C123** (units): a resolution is not compared with a length or a number, nor a length or number with a
resolution: such a query never matches. -/
theorem unit_mismatch (e : Env) (hv : 1 ≤ e.vh) (hs : e.sh ≠ 0) (f : Feature) (op : Cmp) (x : ℚ) :
    (f = .resolution → ∀ v, v = .px x ∨ v = .num x →
      queryMatches e (single (.compare (.name f.text) [(op, .num v)])) = .ok false) ∧
    (f ≠ .resolution → queryMatches e (single (.compare (.name f.text) [(op, .num (.dppx x))])) = .ok false) := by
  obtain ⟨c, hc, hf, -⟩ := conditions_ok e hv hs
  have h1 : ¬ (some f.text ≠ some "grid" ∧ (∃ n ∈ discreteFeatures, some f.text = some n)) := by
    rintro ⟨hg, n, hd, hn⟩
    rcases numeric_text f with h | ⟨h, _⟩
    · exact hg (by rw [h])
    · cases hn; exact h hd
  have h2 : ¬ (some f.text = some "aspect-ratio") := by
    intro hn
    cases f <;> simp [Feature.text] at hn
  have key : ∀ v, mqlCompare (f.literal (f.value e)) v = none →
      queryMatches e (single (.compare (.name f.text) [(op, .num v)])) = .ok false := by
    intro v hv'
    rw [single_ok e hv hs _ c hc]
    have hv2 : values.cmp (f.literal (f.value e)) v = none := hv'
    simp only [evalTerm, evalCompare, Operand.value, hf f, compareLoop, Operand.isName, Operand.nameOr, Bool.or_false,
      compareStep, true_and, h1, h2, if_false, hv2]
  constructor
  · rintro rfl v (rfl | rfl) <;> apply key <;> simp [mqlCompare, length, Feature.literal]
  · intro hne
    apply key
    cases f <;> simp_all [mqlCompare, length, Feature.literal]

/-- **C123** (aspect ratio): for a viewport whose sides are whole numbers of pixels, `(aspect-ratio op p/q)` compares
the quotient of its sides.  Missing: other sides (`fraction_violated`), `=` and `<` of equal ratios
(`evalCompare_aspect_eq_violated`, `evalCompare_aspect_lt_violated`), and the denominator 0. -/
theorem aspect_partial (e : Env) (w h : Nat) (hw : e.vw = w) (hh : e.vh = h) (h1 : 1 ≤ h) (hs : e.sh ≠ 0) (op : Cmp)
    (p : Int) (q : Nat) (hq : 1 ≤ q) (hop : op ≠ .eq) (hlt : op = .lt → e.vw / e.vh ≠ p / q) :
    ∃ b, queryMatches e (single (.compare (.name "aspect-ratio") [(op, .num (.ratio p q))])) = .ok b ∧
      (b = true ↔ op.rel (e.vw / e.vh) ((p : ℚ) / q)) := by
  have hv : 1 ≤ e.vh := by rw [hh]; exact_mod_cast h1
  obtain ⟨c, hc, -, ha, -⟩ := conditions_ok e hv hs
  refine ⟨_, single_ok e hv hs _ c hc, ?_⟩
  have tr : ∀ n : Nat, trunc (n : ℚ) = n := by
    intro n
    unfold trunc
    rw [if_neg (by simp)]
    simp
  have hr : values.ratio (ofFraction (trunc e.vw / trunc e.vh)) = e.vw / e.vh := by
    rw [hw, hh, tr, tr]
    simp only [values, fraction, ofFraction]
    rw [Rat.num_div_den]
    simp
  have := evalCompare_aspect_iff_partial values c _ (.ratio p q) op ha hop (by rw [hr]; exact hlt)
  rw [evalTerm, this]
  simp only [ChainHolds, Operand.value, ha, Option.some.injEq]
  constructor
  · rintro ⟨⟨v, w', rfl, rfl, hrel⟩, -⟩
    rw [hr] at hrel
    exact hrel
  · intro hrel
    exact ⟨⟨_, _, rfl, rfl, by rw [hr]; exact hrel⟩, ⟨_, rfl⟩⟩

private theorem down (n : Nat) : ∀ a : Int, a.natAbs ≤ n → (a ≥ 0 → reduceDown n a = a % 360) ∧
    (a < 0 → reduceDown n a = a) := by
  induction n with
  | zero => intro a h; have : a = 0 := by omega
            subst this; simp [reduceDown]
  | succ n ih =>
    intro a h
    constructor
    · intro h0
      simp only [reduceDown]
      split
      · rw [(ih (a - 360) (by omega)).1 (by omega)]; omega
      · omega
    · intro h0
      simp only [reduceDown]
      rw [if_neg (by omega)]

private theorem up (n : Nat) : ∀ a : Int, a.natAbs ≤ n → a < 360 → reduceUp n a = a % 360 := by
  induction n with
  | zero => intro a h _; have : a = 0 := by omega
            subst this; simp [reduceUp]
  | succ n ih =>
    intro a h h3
    simp only [reduceUp]
    split
    · by_cases hb : (a + 360).natAbs ≤ n
      · rw [ih _ hb (by omega)]; omega
      · have h4 : 0 ≤ a + 360 := by omega
        have : reduceUp n (a + 360) = a + 360 := by
          cases n with
          | zero => rfl
          | succ m => simp only [reduceUp]; rw [if_neg (by omega)]
        rw [this]; omega
    · omega

/-- **C123** (angle): setting any angle keeps the number of whole quarter turns, up to full turns. -/
theorem angle_quarters (a : ℚ) : setAngle a = 90 * (⌊a / 90⌋ % 4) := by
  unfold setAngle
  set k := ⌊a / 90⌋ with hk
  have hd := down (k * 90).natAbs (k * 90) le_rfl
  by_cases h0 : k * 90 ≥ 0
  · have := hd.1 h0
    simp only [this]
    rw [up _ _ le_rfl (by omega)]; omega
  · have := hd.2 (by omega)
    simp only [this]
    rw [up _ _ le_rfl (by omega)]; omega

/-- **C123** (orientation of the screen): `(orientation: portrait)` matches exactly if the screen, turned by the angle
that was set, is at least as high as wide, and `landscape` otherwise.  Missing: the viewport, which is what the feature
is about (`orientation_violated`), and square screens turned by a quarter (`square_violated`). -/
theorem orientation_partial (e : Env) (a : ℚ) (he : e.angle = setAngle a) (hv : 1 ≤ e.vh) (hs : e.sh ≠ 0)
    (hq : e.sw = e.sh → ⌊a / 90⌋ % 2 = 0) :
    ∃ p l, queryMatches e (single (.compare (.name "orientation") [(.eq, .num (.word "portrait"))])) = .ok p ∧
      queryMatches e (single (.compare (.name "orientation") [(.eq, .num (.word "landscape"))])) = .ok l ∧
      (p = true ↔ Upright e.sw e.sh ⌊a / 90⌋) ∧ (l = true ↔ ¬ Upright e.sw e.sh ⌊a / 90⌋) := by
  obtain ⟨c, hc, -, -, ho, -⟩ := conditions_ok e hv hs
  refine ⟨_, _, single_ok e hv hs _ c hc, single_ok e hv hs _ c hc, ?_⟩
  have key : ∀ t w, c "orientation" = some (.word t) →
      (evalTerm c (.compare (.name "orientation") [(.eq, .num (.word w))]) =
        (compareStep values true (some "orientation") (.word t) (.word w) .eq).isSome) := by
    intro t w ht
    simp only [evalTerm, evalCompare, Operand.value, ht, compareLoop, Operand.isName, Operand.nameOr, Bool.or_false]
    cases compareStep values true (some "orientation") (.word t) (.word w) .eq <;> rfl
  rw [key _ _ ho, key _ _ ho]
  rw [angle_quarters] at he
  generalize ⌊a / 90⌋ = k at he hq ⊢
  have tp : ∀ s, s = "portrait-primary" ∨ s = "portrait-secondary" →
      (compareStep values true (some "orientation") (.word s) (.word "portrait") .eq).isSome = true ∧
      (compareStep values true (some "orientation") (.word s) (.word "landscape") .eq).isSome = false := by
    rintro s (rfl | rfl) <;> decide +kernel
  have tl : ∀ s, s = "landscape-primary" ∨ s = "landscape-secondary" →
      (compareStep values true (some "orientation") (.word s) (.word "portrait") .eq).isSome = false ∧
      (compareStep values true (some "orientation") (.word s) (.word "landscape") .eq).isSome = true := by
    rintro s (rfl | rfl) <;> decide +kernel
  have hk : k % 4 = 0 ∨ k % 4 = 1 ∨ k % 4 = 2 ∨ k % 4 = 3 := by omega
  have fin : (orientationType e = "portrait-primary" ∨ orientationType e = "portrait-secondary") ∧
        Upright e.sw e.sh k ∨
      (orientationType e = "landscape-primary" ∨ orientationType e = "landscape-secondary") ∧
        ¬ Upright e.sw e.sh k := by
    unfold Upright
    by_cases hw : e.sw > e.sh
    · rcases hk with h | h | h | h <;> rw [h] at he <;> norm_num at he
      · right; exact ⟨by simp [orientationType, hw, he], by rw [if_pos (by omega)]; omega⟩
      · left; exact ⟨by simp [orientationType, hw, he], by rw [if_neg (by omega)]; omega⟩
      · right; exact ⟨by simp [orientationType, hw, he], by rw [if_pos (by omega)]; omega⟩
      · left; exact ⟨by simp [orientationType, hw, he], by rw [if_neg (by omega)]; omega⟩
    · rcases hk with h | h | h | h <;> rw [h] at he <;> norm_num at he
      · left; exact ⟨by simp [orientationType, hw, he], by rw [if_pos (by omega)]; omega⟩
      · right; exact ⟨by simp [orientationType, hw, he], by rw [if_neg (by omega)]; omega⟩
      · left; exact ⟨by simp [orientationType, hw, he], by rw [if_pos (by omega)]; omega⟩
      · right; exact ⟨by simp [orientationType, hw, he], by rw [if_neg (by omega)]; omega⟩
  rcases fin with ⟨ht, hu⟩ | ⟨ht, hu⟩
  · rw [(tp _ ht).1, (tp _ ht).2]; simp [hu]
  · rw [(tl _ ht).1, (tl _ ht).2]; simp [hu]

/-- **C123** (media types): the name of a media type matches exactly if it is `all` or that of the screen. -/
theorem media_type (e : Env) (hv : 1 ≤ e.vh) (hs : e.sh ≠ 0) (n : String)
    (hn : n = "all" ∨ n = "print" ∨ n = "screen" ∨ n = "speech") :
    ∃ b, queryMatches e (single (.name n)) = .ok b ∧ (b = true ↔ n = "all" ∨ e.media = n) := by
  obtain ⟨c, hc, -, -, -, -, hm⟩ := conditions_ok e hv hs
  refine ⟨_, single_ok e hv hs _ c hc, ?_⟩
  have : n ∈ mediaTypes := by rcases hn with rfl | rfl | rfl | rfl <;> decide
  simp [evalTerm, evalName, this, hm]

/-- **C123** (features alone): `(feature)` matches exactly if the value is not zero.  Missing: sizes and resolutions
that are zero (`zero_width_violated`). -/
theorem boolean_partial (e : Env) (hv : 1 ≤ e.vh) (hs : e.sh ≠ 0) (f : Feature)
    (hf : f = .grid ∨ f = .color ∨ f = .colorIndex ∨ f = .monochrome ∨ f.value e ≠ 0) :
    ∃ b, queryMatches e (single (.name f.text)) = .ok b ∧ (b = true ↔ f.value e ≠ 0) := by
  obtain ⟨c, hc, hc', -⟩ := conditions_ok e hv hs
  refine ⟨_, single_ok e hv hs _ c hc, ?_⟩
  have hcf := hc' f
  cases f <;> simp only [Feature.text, Feature.literal, Feature.value] at hcf hf ⊢ <;>
    simp [evalTerm, evalName, mediaTypes, discreteFeatures, hcf, positive, Nat.pos_iff_ne_zero] <;>
    simpa using hf

/-! ### Violations and examples -/

/-- The window as it is made: 1280 by 720 on such a screen. -/
def plain : Env :=
  ⟨1280, 720, 1280, 720, 0, 24, 0, 1, 1, "screen", "progressive", "none", "srgb"⟩

/-- **C123** is violated: a viewport lower than a pixel, or a screen without height, makes every query raise. -/
theorem zero_height_violated (e : Env) (h : (0 ≤ e.vh ∧ e.vh < 1) ∨ e.sh = 0) (t : List (Node Term)) :
    queryMatches e t = .error .zeroDivision := by
  unfold queryMatches conditions
  rcases h with ⟨h0, h1⟩ | h
  · have : trunc e.vh = 0 := by
      unfold trunc
      rw [if_neg (by linarith), Int.floor_eq_iff]
      constructor <;> push_cast <;> linarith
    rw [if_pos this]
  · by_cases ht : trunc e.vh = 0
    · rw [if_pos ht]
    · rw [if_neg ht, if_pos h]

/-- **C123** is violated: `(width)` matches though the width is zero. -/
theorem zero_width_violated : queryMatches { plain with vw := 0 } (single (.name "width")) = .ok true := by
  obtain ⟨c, hc, hc', -⟩ := conditions_ok { plain with vw := 0 } (by norm_num [plain]) (by decide)
  rw [single_ok _ (by norm_num [plain]) (by decide) _ c hc]
  have h : c "width" = _ := hc' .width
  simp [evalTerm, evalName, mediaTypes, discreteFeatures, h]

/-- **C123** is violated: the sides are cut to whole pixels, so a viewport of 100.5 by 100 is not wider than high. -/
theorem fraction_violated :
    queryMatches { plain with vw := 201 / 2, vh := 100 }
      (single (.compare (.name "aspect-ratio") [(.gt, .num (.ratio 1 1))])) = .ok false ∧
    (201 / 2 : ℚ) / (100) > ((1 : Int) : ℚ) / ((1 : Nat) : ℚ) := by
  constructor
  · have : compareStep values true (some "aspect-ratio") (.ratio 1 1) (.ratio 1 1) .gt = none := by decide +kernel
    obtain ⟨c, hc, -, ha, -⟩ := conditions_ok { plain with vw := 201 / 2, vh := 100 } (by norm_num)
      (by decide)
    rw [single_ok _ (by norm_num) (by decide) _ c hc]
    have hr : ofFraction (trunc (201 / 2) / trunc (100)) = .ratio 1 1 := by decide +kernel
    simp only at ha
    rw [hr] at ha
    simp [evalTerm, evalCompare, Operand.value, ha, compareLoop, Operand.isName, Operand.nameOr, this]
  · norm_num

/-- **C123** is violated: a viewport higher than wide on a wide screen is not `portrait`. -/
theorem orientation_violated : ∃ e : Env, e.vw < e.vh ∧
    queryMatches e (single (.compare (.name "orientation") [(.eq, .num (.word "portrait"))])) = .ok false := by
  refine ⟨{ plain with vw := 100, vh := 200 }, by norm_num, ?_⟩
  obtain ⟨p, l, hp, -, h, -⟩ := orientation_partial { plain with vw := 100, vh := 200 } 0 (by decide +kernel)
    (by norm_num) (by decide) (by decide +kernel)
  rw [hp]
  have : ¬ Upright plain.sw plain.sh ⌊(0 : ℚ) / 90⌋ := by simp [Upright, plain]
  have := fun x => this (h.mp x)
  simpa using this

/-- **C123** is violated: a square screen is called `landscape` once it is turned by a quarter. -/
theorem square_violated : ∃ e : Env, e.angle = setAngle 90 ∧ Upright e.sw e.sh ⌊(90 : ℚ) / 90⌋ ∧
    orientationType e = "landscape-primary" :=
  ⟨{ plain with sw := 720, angle := 90 }, by decide +kernel, by norm_num [Upright, plain], by decide⟩

/-- **C123** is violated: of the ratio of the screen only the numerators in lowest terms are compared.  A screen of 1280
by 720 is `16/1`, and one of 1280 by 800 is not `16/10`. -/
theorem device_aspect_violated :
    queryMatches plain (single (.compare (.name "device-aspect-ratio") [(.eq, .num (.ratio 16 1))])) = .ok true ∧
    queryMatches { plain with sh := 800 }
      (single (.compare (.name "device-aspect-ratio") [(.eq, .num (.ratio 16 10))])) = .ok false := by
  constructor
  · obtain ⟨c, hc, -, -, -, ha, -⟩ := conditions_ok plain (by norm_num [plain]) (by decide)
    rw [single_ok _ (by norm_num [plain]) (by decide) _ c hc]
    have hr : ofFraction ((plain.sw : ℚ) / plain.sh) = .ratio 16 9 := by decide +kernel
    rw [hr] at ha
    have : compareStep values true (some "device-aspect-ratio") (.ratio 16 9) (.ratio 16 1) .eq =
        some (.ratio 16 1) := by decide +kernel
    simp [evalTerm, evalCompare, Operand.value, ha, compareLoop, Operand.isName, Operand.nameOr, this]
  · obtain ⟨c, hc, -, -, -, ha, -⟩ := conditions_ok { plain with sh := 800 } (by norm_num [plain]) (by decide)
    rw [single_ok _ (by norm_num [plain]) (by decide) _ c hc]
    have hr : ofFraction ((plain.sw : ℚ) / (800 : Int)) = .ratio 8 5 := by decide +kernel
    simp only at ha
    rw [hr] at ha
    have : compareStep values true (some "device-aspect-ratio") (.ratio 8 5) (.ratio 16 10) .eq = none := by
      decide +kernel
    simp [evalTerm, evalCompare, Operand.value, ha, compareLoop, Operand.isName, Operand.nameOr, this]

/-- Non-trivial instance: a window of 600 by 400 on a screen turned twice over, asked for `400px <= width < 700px`. -/
example : (1 : ℚ) ≤ 400 ∧ Apart 400 600 ∧ Apart 600 700 ∧ setAngle 810 = 90 ∧ setAngle (-100) = 180 ∧
    Upright 1280 720 ⌊(810 : ℚ) / 90⌋ := by
  refine ⟨by norm_num, Or.inr (by norm_num [abs_of_pos, abs_of_neg]), Or.inr (by norm_num [abs_of_pos, abs_of_neg]),
    by decide +kernel, by decide +kernel, by norm_num [Upright]⟩

end SvgPy.MediaFeatures
