import Verif.Model.FontStyle
import Mathlib.Tactic.Linarith
import Mathlib.Tactic.NormNum
import Mathlib.Tactic.IntervalCases

/-! Properties C53 (relative font sizes), C73 (inherited font sizes), C74 (absolute font sizes),
C75 (font weights) and C76 (line heights). -/

set_option linter.unusedSimpArgs false

namespace SvgPy.FontStyle

/-! ### Specification -/

/-- The size in CSS of the first element of a chain (itself first, then its ancestors), given the
specified values; `m` is the initial size, `kw` gives the sizes of the keywords, and sizes that are
not relative keywords are limited by the minimum size 10. -/
def css (m : ℚ) (kw : Abs → ℚ) : List (Option Size) → ℚ
  | [] => m
  | none :: c => css m kw c
  | some .larger :: c => 6 / 5 * css m kw c
  | some .smaller :: c => css m kw c / (6 / 5)
  | some (.px x) :: _ => max 10 x
  | some (.abs k) :: _ => max 10 (kw k)
  | some (.em k) :: c => max 10 (k * css m kw c)
  | some (.pct k) :: c => max 10 (k / 100 * css m kw c)

/-- The specified values. -/
def values {α : Type} (c : List (Elem α)) : List (Option α) := c.map Elem.attr

/-- All values are given by attributes, without style sheets. -/
def Attributes {α : Type} (c : List (Elem α)) : Prop := ∀ e ∈ c, e.attr = e.cascaded

/-- Up to the nearest length in pixels or keyword for an absolute size, only the relative keyword `v`
is used. -/
def Only (v : Size) : List (Option Size) → Prop
  | [] => True
  | none :: c => Only v c
  | some (.px _) :: _ => True
  | some (.abs _) :: _ => True
  | some w :: c => w = v ∧ Only v c

/-! ### Lemmas -/

theorem clampMin_eq (x : ℚ) : clampMin x = max 10 x := by
  unfold clampMin
  split
  · rw [max_eq_left (by linarith)]
  · rw [max_eq_right (by linarith)]

theorem computeAt_min (m : ℚ) (v : Size) (c : List (Elem Size)) : 10 ≤ computeAt m v c := by
  cases c <;> rw [computeAt.eq_def] <;> simp only [clampMin_eq] <;> exact le_max_left _ _

theorem computeAt_px (m x : ℚ) (c : List (Elem Size)) : computeAt m (.px x) c = max 10 x := by
  cases c <;> rw [computeAt, clampMin_eq]

theorem computeAt_abs (m : ℚ) (k : Abs) (c : List (Elem Size)) : computeAt m (.abs k) c = max 10 (absSize m k) := by
  cases c <;> rw [computeAt, clampMin_eq]

theorem computeAt_rel (m : ℚ) (v : Size) (hv : v = .larger ∨ v = .smaller) (c : List (Elem Size)) :
    computeAt m v c = max 10 (fromParents m v c) := by
  rcases hv with rfl | rfl <;> cases c <;> rw [computeAt, clampMin_eq] <;> simp only [fromParents]

/-! ### Minimum -/

/-- **C53** The computed size is never below the minimum. -/
theorem size_minimum (m : ℚ) (e : Elem Size) (c : List (Elem Size)) : 10 ≤ fontSize m (e :: c) := computeAt_min m _ c

/-! ### Relative sizes -/

theorem fromParents_css (m : ℚ) (v : Size) (hv : v = .larger ∨ v = .smaller) :
    ∀ c : List (Elem Size), Only v (values c) → fromParents m v c = css m (absSize m) (values c)
  | [], _ => by simp [fromParents, values, css]
  | e :: c, h => by
    obtain ⟨a, s⟩ := e
    have hrec := fromParents_css m v hv c
    rw [fromParents]
    simp only [values, List.map_cons] at h ⊢ hrec
    cases a with
    | none => simp only [Only] at h; simp only [css]; exact hrec h
    | some w =>
      cases w with
      | abs k => simp only [css]; exact computeAt_abs m k c
      | px x => simp only [css]; exact computeAt_px m x c
      | larger =>
        simp only [Only] at h
        simp only [css]
        rw [hrec h.2, ← h.1]
        simp only [factor, if_true]
        ring
      | smaller =>
        simp only [Only] at h
        simp only [css]
        rw [hrec h.2, ← h.1]
        simp only [factor]
        rw [if_neg (by decide)]
        ring
      | em k => simp only [Only] at h; rcases hv with rfl | rfl <;> exact absurd h.1 (by simp)
      | pct k => simp only [Only] at h; rcases hv with rfl | rfl <;> exact absurd h.1 (by simp)

/-- What is inherited along such a chain: the initial size, an absolute size or the relative keyword. -/
theorem inherited_cases (m : ℚ) (v : Size) :
    ∀ c : List (Elem Size), Attributes c → Only v (values c) →
      (inherited (.abs .medium) c = .abs .medium ∧ css m (absSize m) (values c) = m) ∨
      inherited (.abs .medium) c = v ∨
      (∃ x, inherited (.abs .medium) c = .px x ∧ css m (absSize m) (values c) = max 10 x) ∨
      ∃ k, inherited (.abs .medium) c = .abs k ∧ css m (absSize m) (values c) = max 10 (absSize m k)
  | [], _, _ => .inl ⟨rfl, rfl⟩
  | e :: c, ha, h => by
    obtain ⟨a, s⟩ := e
    have e1 : a = s := ha _ (List.mem_cons_self ..)
    subst e1
    have hrec := inherited_cases m v c (fun e he => ha e (List.mem_cons_of_mem _ he))
    simp only [values, List.map_cons, inherited] at h ⊢ hrec
    cases a with
    | none => simp only [Only] at h; simp only [css]; exact hrec h
    | some w =>
      cases w with
      | abs k => exact .inr (.inr (.inr ⟨k, rfl, rfl⟩))
      | px x => exact .inr (.inr (.inl ⟨x, rfl, rfl⟩))
      | larger => simp only [Only] at h; exact .inr (.inl h.1)
      | smaller => simp only [Only] at h; exact .inr (.inl h.1)
      | em k => simp only [Only] at h; exact .inr (.inl h.1)
      | pct k => simp only [Only] at h; exact .inr (.inl h.1)

/-- **C53** The size of an element without own value below any chain of elements that use attributes,
lengths in pixels, absolute keywords and only one of the two relative keywords is the one of CSS, but
not below the minimum.  Missing: elements with an own relative keyword, `larger` and `smaller` mixed,
style sheets and style attributes, see the `_violated` theorems. -/
theorem relative_partial (m : ℚ) (v : Size) (hv : v = .larger ∨ v = .smaller) (hm : absSize m .medium = m)
    (c : List (Elem Size)) (ha : Attributes c) (h : Only v (values c)) :
    fontSize m (bare :: c) = max 10 (css m (absSize m) (values c)) := by
  have hi : inherited (.abs .medium) (bare :: c) = inherited (.abs .medium) c := rfl
  show computeAt m (inherited (.abs .medium) (bare :: c)) c = _
  rw [hi]
  rcases inherited_cases m v c ha h with ⟨e, e'⟩ | e | ⟨x, e, e'⟩ | ⟨k, e, e'⟩
  · rw [e, e', computeAt_abs, hm]
  · rw [e, computeAt_rel m v hv, fromParents_css m v hv c h]
  · rw [e, e', computeAt_px, ← max_assoc, max_self]
  · rw [e, e', computeAt_abs, ← max_assoc, max_self]

/-- A non-trivial instance: `larger` twice below 20 pixels, with an element without value between. -/
example : fontSize 16 [bare, own .larger, bare, own .larger, own (.px 20)] = 144 / 5 := by
  rw [relative_partial 16 .larger (.inl rfl) (by decide +kernel) [own .larger, bare, own .larger, own (.px 20)] (by simp [Attributes, own, bare]) (by simp [Only, values, own, bare])]
  simp [css, values, own, bare]
  norm_num

theorem css_pos (m : ℚ) (kw : Abs → ℚ) (hm : 0 < m) : ∀ l, 0 < css m kw l
  | [] => hm
  | none :: c => by rw [css]; exact css_pos m kw hm c
  | some (.px x) :: _ => by rw [css]; exact lt_of_lt_of_le (by norm_num) (le_max_left _ _)
  | some (.abs k) :: _ => by rw [css]; exact lt_of_lt_of_le (by norm_num) (le_max_left _ _)
  | some (.em k) :: _ => by rw [css]; exact lt_of_lt_of_le (by norm_num) (le_max_left _ _)
  | some (.pct k) :: _ => by rw [css]; exact lt_of_lt_of_le (by norm_num) (le_max_left _ _)
  | some .larger :: c => by rw [css]; have := css_pos m kw hm c; linarith
  | some .smaller :: c => by rw [css]; have := css_pos m kw hm c; linarith

/-- **C53** Inside an element with `larger` text is larger than outside, unless both sizes are the
minimum. -/
theorem larger_partial (m : ℚ) (hm : absSize m .medium = m) (h0 : 0 < m) (c : List (Elem Size)) (ha : Attributes c) (h : Only .larger (values c)) :
    fontSize m (bare :: c) < fontSize m (bare :: own .larger :: c) ∨
      (fontSize m (bare :: c) = 10 ∧ fontSize m (bare :: own .larger :: c) = 10) := by
  rw [relative_partial m .larger (.inl rfl) hm c ha h, relative_partial m .larger (.inl rfl) hm (own .larger :: c)
    (by intro e he; rcases List.mem_cons.1 he with rfl | he; rfl; exact ha e he) ⟨rfl, h⟩]
  have hp := css_pos m (absSize m) h0 (values c)
  have e : css m (absSize m) (values (own .larger :: c)) = 6 / 5 * css m (absSize m) (values c) := rfl
  rw [e]
  by_cases hc : 6 / 5 * css m (absSize m) (values c) ≤ 10
  · right
    exact ⟨max_eq_left (by linarith), max_eq_left hc⟩
  · left
    rw [max_eq_right (le_of_not_ge hc)]
    exact max_lt (lt_of_not_ge hc) (by linarith)

/-- **C53** Inside an element with `smaller` text is smaller than outside, unless the size outside is
the minimum. -/
theorem smaller_partial (m : ℚ) (hm : absSize m .medium = m) (h0 : 0 < m) (c : List (Elem Size)) (ha : Attributes c) (h : Only .smaller (values c)) :
    fontSize m (bare :: own .smaller :: c) < fontSize m (bare :: c) ∨
      (fontSize m (bare :: c) = 10 ∧ fontSize m (bare :: own .smaller :: c) = 10) := by
  rw [relative_partial m .smaller (.inr rfl) hm c ha h, relative_partial m .smaller (.inr rfl) hm (own .smaller :: c)
    (by intro e he; rcases List.mem_cons.1 he with rfl | he; rfl; exact ha e he) ⟨rfl, h⟩]
  have hp := css_pos m (absSize m) h0 (values c)
  have e : css m (absSize m) (values (own .smaller :: c)) = css m (absSize m) (values c) / (6 / 5) := rfl
  rw [e]
  by_cases hc : css m (absSize m) (values c) ≤ 10
  · right
    exact ⟨max_eq_left hc, max_eq_left (by linarith)⟩
  · left
    rw [max_eq_right (le_of_not_ge hc)]
    exact max_lt (lt_of_not_ge hc) (by linarith)

/-- A non-trivial instance: inside and outside of `smaller` below 20 pixels. -/
example : fontSize 16 [bare, own .smaller, own (.px 20)] < fontSize 16 [bare, own (.px 20)] :=
  (smaller_partial 16 (by decide +kernel) (by norm_num) [own (.px 20)] (by simp [Attributes, own]) (by simp [Only, values, own])).resolve_right
    (fun h => absurd h.1 (by
      rw [relative_partial 16 .smaller (.inr rfl) (by decide +kernel) [own (.px 20)] (by simp [Attributes, own]) (by simp [Only, values, own])]
      simp [css, values, own]
      norm_num))

/-- **C53** is violated: an element that has `larger` itself has the size of its parent, whatever the
ancestors; `smaller` likewise. -/
theorem own_violated (m : ℚ) (v : Size) (hv : v = .larger ∨ v = .smaller) (hm : absSize m .medium = m) (c : List (Elem Size))
    (ha : Attributes c) (h : Only v (values c)) : fontSize m (own v :: c) = fontSize m (bare :: c) := by
  rw [relative_partial m v hv hm c ha h, ← fromParents_css m v hv c h, ← computeAt_rel m v hv]
  rfl

/-- **C53** is violated for mixed keywords: text in `larger` inside `smaller` inside 20 pixels has 28.8
instead of 20 pixels. -/
theorem mixed_violated : fontSize 16 [bare, own .larger, own .smaller, own (.px 20)] = 144 / 5 := by
  show computeAt 16 .larger _ = _
  rw [computeAt_rel 16 .larger (.inl rfl)]
  simp only [fromParents, own, computeAt_px]
  simp [factor]
  norm_num

/-- **C53** is violated for style attributes: text in `larger` inside an element with 20 pixels given by
its style has 19.2 instead of 24 pixels. -/
theorem style_violated : fontSize 16 [bare, own .larger, ⟨none, some (.px 20)⟩] = 96 / 5 := by
  show computeAt 16 .larger _ = _
  rw [computeAt_rel 16 .larger (.inl rfl)]
  simp only [fromParents, own, computeAt_px, bare]
  simp [factor]
  norm_num

/-! ### Inherited sizes -/

/-- **C73** An element without own value has the size of its parent if the inherited value is a length in
pixels or an absolute keyword (or there is none).  Missing: `em`, percentages and relative keywords, see
`inherit_violated` and `em_compounds`. -/
theorem inherit_partial (m : ℚ) (e : Elem Size) (c : List (Elem Size))
    (h : (∃ x, inherited (.abs .medium) (e :: c) = .px x) ∨ ∃ k, inherited (.abs .medium) (e :: c) = .abs k) :
    fontSize m (bare :: e :: c) = fontSize m (e :: c) := by
  show computeAt m (inherited (.abs .medium) (e :: c)) (e :: c) = computeAt m (inherited (.abs .medium) (e :: c)) c
  rcases h with ⟨x, h⟩ | ⟨x, h⟩
  · rw [h, computeAt_px, computeAt_px]
  · rw [h, computeAt_abs, computeAt_abs]

/-- A non-trivial instance: 20 pixels given by the style of the grandparent. -/
example : fontSize 16 [bare, bare, ⟨none, some (.px 20)⟩] = fontSize 16 [bare, ⟨none, some (.px 20)⟩] :=
  inherit_partial 16 bare [⟨none, some (.px 20)⟩] (.inl ⟨20, rfl⟩)

/-- **C73** is violated for lengths in `em`: they are applied again for every element that inherits them. -/
theorem em_compounds (m k : ℚ) (e : Elem Size) (c : List (Elem Size)) (h : inherited (.abs .medium) (e :: c) = .em k) :
    fontSize m (bare :: e :: c) = max 10 (k * fontSize m (e :: c)) := by
  show computeAt m (inherited (.abs .medium) (e :: c)) (e :: c) = _
  rw [h, computeAt, clampMin_eq]
  rfl

/-- **C73** is violated: below an element with 2 em (or 200%) in 20 pixels text has 80 pixels, the element
40 pixels; below an element with `larger` text has 24 pixels, the element 20 pixels. -/
theorem inherit_violated :
    fontSize 16 [own (.em 2), own (.px 20)] = 40 ∧ fontSize 16 [bare, own (.em 2), own (.px 20)] = 80 ∧
      fontSize 16 [own (.pct 200), own (.px 20)] = 40 ∧ fontSize 16 [bare, own (.pct 200), own (.px 20)] = 80 ∧
      fontSize 16 [own .larger, own (.px 20)] = 20 ∧ fontSize 16 [bare, own .larger, own (.px 20)] = 24 := by
  simp only [fontSize, inherited, own, bare, computeAt, fromParents, clampMin_eq, computeAt_px, factor]
  norm_num

/-! ### Absolute sizes -/

/-- The order of the keywords. -/
def Abs.rank : Abs → Nat
  | .xxSmall => 1 | .xSmall => 2 | .small => 3 | .medium => 4 | .large => 5 | .xLarge => 6 | .xxLarge => 7

/-- **C74** For every default size, a keyword for a larger size does not give a smaller size. -/
theorem keywords_order (m : ℚ) (h0 : 0 ≤ m) (j k : Abs) (h : j.rank ≤ k.rank) : absSize m j ≤ absSize m k := by
  unfold absSize
  split
  · rename_i hr
    have hf0 : 0 ≤ ⌊m - 9⌋ := Int.floor_nonneg.2 (by linarith)
    have hf : ⌊m - 9⌋ ≤ 7 := by
      have h2 : (⌊m - 9⌋ : ℚ) ≤ m - 9 := Int.floor_le _
      have h3 : (⌊m - 9⌋ : ℚ) ≤ 7 := by linarith
      exact_mod_cast h3
    obtain ⟨n, hn⟩ := Int.eq_ofNat_of_zero_le hf0
    rw [hn] at hf ⊢
    have hn7 : n ≤ 7 := by omega
    show (quirksTable.getD n []).getD _ 0 ≤ (quirksTable.getD n []).getD _ 0
    interval_cases n <;> cases j <;> cases k <;> simp [Abs.rank] at h <;> simp [quirksTable, absEntry] <;> norm_num
  · apply mul_le_mul_of_nonneg_right _ h0
    cases j <;> cases k <;> simp [Abs.rank] at h <;> simp [absEntry] <;> norm_num

/-- **C74** `medium` is the default size, unless this is a fraction between 9 and 16. -/
theorem keywords_medium (m : ℚ) (h : (∃ n : ℕ, m = n) ∨ m < 9 ∨ 16 < m) : absSize m .medium = m := by
  unfold absSize
  split
  · rename_i hr
    rcases h with ⟨n, rfl⟩ | h | h
    · have h1 : 9 ≤ n := by exact_mod_cast hr.1
      have h2 : n ≤ 16 := by exact_mod_cast hr.2
      interval_cases n <;> decide +kernel
    · exact absurd hr.1 (not_le.2 h)
    · exact absurd hr.2 (not_le.2 h)
  · simp [absEntry]

/-- **C74** The factors of CSS 2.1 and CSS Fonts apply to default sizes outside the table. -/
theorem keywords_factor (m : ℚ) (h : m < 9 ∨ 16 < m) :
    absSize m .xxSmall = 3 / 5 * m ∧ absSize m .xSmall = 3 / 4 * m ∧ absSize m .small = 8 / 9 * m ∧ absSize m .medium = m ∧
      absSize m .large = 6 / 5 * m ∧ absSize m .xLarge = 3 / 2 * m ∧ absSize m .xxLarge = 2 * m := by
  have hn : ¬ (9 ≤ m ∧ m ≤ 16) := by
    rintro ⟨a, b⟩
    rcases h with h | h <;> linarith
  simp only [absSize, if_neg hn, absEntry]
  norm_num

/-- **C74** The sizes of the keywords for the default size 16, in order; they are all different. -/
theorem keywords_default : [Abs.xxSmall, .xSmall, .small, .medium, .large, .xLarge, .xxLarge].map (absSize 16) = [9, 10, 13, 16, 18, 24, 32] := by
  decide +kernel

/-- **C74** Fractions are violated: with the default size 12.5, `medium` is 12. -/
theorem keywords_violated : absSize (25 / 2) .medium = 12 := by decide +kernel

/-! ### Weights -/

/-- `bolder`, CSS Fonts 4, 2.2.1. -/
def cssBolder (w : ℚ) : ℚ := if w < 350 then 400 else if w < 550 then 700 else if w < 900 then 900 else w

/-- `lighter`, CSS Fonts 4, 2.2.1. -/
def cssLighter (w : ℚ) : ℚ := if w < 100 then w else if w < 550 then 100 else if w < 750 then 400 else 700

/-- The weight in CSS of the first element of a chain. -/
def cssWeight : List (Option Weight) → ℚ
  | [] => 400
  | none :: c => cssWeight c
  | some .normal :: _ => 400
  | some .bold :: _ => 700
  | some (.num n) :: _ => n
  | some .bolder :: c => cssBolder (cssWeight c)
  | some .lighter :: c => cssLighter (cssWeight c)

/-- The numbers CSS 2.1 allows. -/
def Hundreds (l : List (Option Weight)) : Prop := ∀ n, some (.num n) ∈ l → ∃ j, 1 ≤ j ∧ j ≤ 9 ∧ n = 100 * j

theorem cssWeight_hundreds : ∀ l, Hundreds l → ∃ j : ℕ, 1 ≤ j ∧ j ≤ 9 ∧ cssWeight l = 100 * j
  | [], _ => ⟨4, by decide, by decide, by norm_num [cssWeight]⟩
  | a :: l, h => by
    obtain ⟨j, h1, h9, hj⟩ := cssWeight_hundreds l (fun n hn => h n (List.mem_cons_of_mem _ hn))
    cases a with
    | none => exact ⟨j, h1, h9, hj⟩
    | some w =>
      cases w with
      | normal => exact ⟨4, by decide, by decide, by norm_num [cssWeight]⟩
      | bold => exact ⟨7, by decide, by decide, by norm_num [cssWeight]⟩
      | num n =>
        obtain ⟨i, i1, i9, hi⟩ := h n (List.mem_cons_self ..)
        exact ⟨i, i1, i9, by rw [cssWeight, hi]; push_cast; rfl⟩
      | bolder =>
        rw [cssWeight, hj]
        interval_cases j
        · exact ⟨4, by decide, by decide, by norm_num [cssBolder]⟩
        · exact ⟨4, by decide, by decide, by norm_num [cssBolder]⟩
        · exact ⟨4, by decide, by decide, by norm_num [cssBolder]⟩
        · exact ⟨7, by decide, by decide, by norm_num [cssBolder]⟩
        · exact ⟨7, by decide, by decide, by norm_num [cssBolder]⟩
        · exact ⟨9, by decide, by decide, by norm_num [cssBolder]⟩
        · exact ⟨9, by decide, by decide, by norm_num [cssBolder]⟩
        · exact ⟨9, by decide, by decide, by norm_num [cssBolder]⟩
        · exact ⟨9, by decide, by decide, by norm_num [cssBolder]⟩
      | lighter =>
        rw [cssWeight, hj]
        interval_cases j
        · exact ⟨1, by decide, by decide, by norm_num [cssLighter]⟩
        · exact ⟨1, by decide, by decide, by norm_num [cssLighter]⟩
        · exact ⟨1, by decide, by decide, by norm_num [cssLighter]⟩
        · exact ⟨1, by decide, by decide, by norm_num [cssLighter]⟩
        · exact ⟨1, by decide, by decide, by norm_num [cssLighter]⟩
        · exact ⟨4, by decide, by decide, by norm_num [cssLighter]⟩
        · exact ⟨4, by decide, by decide, by norm_num [cssLighter]⟩
        · exact ⟨7, by decide, by decide, by norm_num [cssLighter]⟩
        · exact ⟨7, by decide, by decide, by norm_num [cssLighter]⟩

theorem interp_bolder (j : ℕ) (h1 : 1 ≤ j) (h9 : j ≤ 9) : interp bolderList (100 * j) = cssBolder (100 * j) := by
  interval_cases j <;> norm_num [interp, bolderList, cssBolder]

theorem interp_lighter (j : ℕ) (h1 : 1 ≤ j) (h9 : j ≤ 9) : interp lighterList (100 * j) = cssLighter (100 * j) := by
  interval_cases j <;> norm_num [interp, lighterList, cssLighter]

theorem trunc_nat (n : ℕ) : trunc n = n := by unfold trunc; simp

theorem weightFromParents_css : ∀ c : List (Elem Weight), Hundreds (values c) → weightFromParents 400 c = cssWeight (values c)
  | [], _ => rfl
  | e :: c, h => by
    obtain ⟨a, s⟩ := e
    have hl : Hundreds (values c) := fun n hn => h n (List.mem_cons_of_mem _ hn)
    have hrec := weightFromParents_css c hl
    obtain ⟨j, h1, h9, hj⟩ := cssWeight_hundreds _ hl
    unfold values at *
    simp only [List.map_cons]
    cases a with
    | none => exact hrec
    | some w =>
      cases w with
      | normal => simp only [weightFromParents, cssWeight, absWeight]; exact_mod_cast trunc_nat 400
      | bold => simp only [weightFromParents, cssWeight, absWeight]; exact_mod_cast trunc_nat 700
      | num n => simp only [weightFromParents, cssWeight, absWeight]; exact trunc_nat n
      | bolder => simp only [weightFromParents, cssWeight]; rw [hrec, hj]; exact interp_bolder j h1 h9
      | lighter => simp only [weightFromParents, cssWeight]; rw [hrec, hj]; exact interp_lighter j h1 h9

/-- What is inherited along a chain of attributes. -/
theorem inherited_weight : ∀ c : List (Elem Weight), Attributes c →
    (inherited .normal c = .bolder ∨ inherited .normal c = .lighter) ∨ absWeight (inherited .normal c) = cssWeight (values c)
  | [], _ => .inr rfl
  | e :: c, ha => by
    obtain ⟨a, s⟩ := e
    have e1 : a = s := ha _ (List.mem_cons_self ..)
    subst e1
    have hrec := inherited_weight c (fun e he => ha e (List.mem_cons_of_mem _ he))
    simp only [values, List.map_cons, inherited] at hrec ⊢
    cases a with
    | none => exact hrec
    | some w =>
      cases w with
      | normal => exact .inr rfl
      | bold => exact .inr rfl
      | num n => exact .inr rfl
      | bolder => exact .inl (.inl rfl)
      | lighter => exact .inl (.inr rfl)

theorem trunc_hundreds (l : List (Option Weight)) (h : Hundreds l) : trunc (cssWeight l) = cssWeight l := by
  obtain ⟨j, _, _, hj⟩ := cssWeight_hundreds l h
  rw [hj]
  have := trunc_nat (100 * j)
  push_cast at this
  exact this

/-- **C75** The weight of an element without own weight, or with an own absolute weight, below any chain
of elements with weights given by attributes is the one of CSS, if numbers are multiples of 100 from 100
to 900.  Missing: elements with `bolder` or `lighter` themselves, other numbers, style sheets, see
`weight_violated`. -/
theorem weight_partial (e : Elem Weight) (c : List (Elem Weight)) (ha : Attributes (e :: c)) (h : Hundreds (values (e :: c)))
    (hb : e.attr ≠ some .bolder) (hl : e.attr ≠ some .lighter) : fontWeight 400 (e :: c) = cssWeight (values (e :: c)) := by
  unfold fontWeight
  obtain ⟨a, s⟩ := e
  have e1 : a = s := ha _ (List.mem_cons_self ..)
  subst e1
  have hc : Hundreds (values c) := fun n hn => h n (List.mem_cons_of_mem _ hn)
  have hac : Attributes c := fun e he => ha e (List.mem_cons_of_mem _ he)
  simp only [values, List.map_cons, inherited]
  cases a with
  | none =>
    simp only [cssWeight]
    rcases inherited_weight c hac with (e | e) | e
    · simp only [e]; rw [weightFromParents_css c hc]; exact trunc_hundreds _ hc
    · simp only [e]; rw [weightFromParents_css c hc]; exact trunc_hundreds _ hc
    · cases hi : inherited .normal c with
      | bolder => simp only []; rw [weightFromParents_css c hc]; exact trunc_hundreds _ hc
      | lighter => simp only []; rw [weightFromParents_css c hc]; exact trunc_hundreds _ hc
      | normal => simp only []; rw [← hi, e]; exact trunc_hundreds _ hc
      | bold => simp only []; rw [← hi, e]; exact trunc_hundreds _ hc
      | num n => simp only []; rw [← hi, e]; exact trunc_hundreds _ hc
  | some w =>
    cases w with
    | normal => simp only [cssWeight, absWeight]; exact_mod_cast trunc_nat 400
    | bold => simp only [cssWeight, absWeight]; exact_mod_cast trunc_nat 700
    | num n => simp only [cssWeight, absWeight]; exact trunc_nat n
    | bolder => exact absurd rfl hb
    | lighter => exact absurd rfl hl

/-- A non-trivial instance: `lighter` inside `bolder` inside `bold`. -/
example : fontWeight 400 [bare, own .lighter, own .bolder, own .bold] = 700 := by
  rw [weight_partial bare [own .lighter, own .bolder, own .bold] (by simp [Attributes, own, bare]) (by simp [Hundreds, values, own, bare]) (by simp [bare]) (by simp [bare])]
  norm_num [cssWeight, values, own, bare, cssBolder, cssLighter]

/-- **C75** Computed weights of such chains are between 100 and 900, and `bolder` does not give a lighter
weight, nor `lighter` a bolder one. -/
theorem weight_order (c : List (Elem Weight)) (ha : Attributes c) (h : Hundreds (values c)) :
    fontWeight 400 (bare :: own .lighter :: c) ≤ fontWeight 400 (bare :: c) ∧ fontWeight 400 (bare :: c) ≤ fontWeight 400 (bare :: own .bolder :: c) ∧
      100 ≤ fontWeight 400 (bare :: c) ∧ fontWeight 400 (bare :: c) ≤ 900 := by
  have hb : ∀ l : List (Elem Weight), Attributes l → Hundreds (values l) → fontWeight 400 (bare :: l) = cssWeight (values l) := by
    intro l h1 h2
    rw [weight_partial bare l (by intro e he; rcases List.mem_cons.1 he with rfl | he; rfl; exact h1 e he)
      (by intro n hn; rcases List.mem_cons.1 hn with e | hn; cases e; exact h2 n hn) (by simp [bare]) (by simp [bare])]
    rfl
  have hx : ∀ w, (w = .bolder ∨ w = .lighter) → Attributes (own w :: c) ∧ Hundreds (values (own w :: c)) := by
    intro w hw
    constructor
    · intro e he; rcases List.mem_cons.1 he with rfl | he; rfl; exact ha e he
    · intro n hn
      rcases List.mem_cons.1 hn with e | hn
      · rcases hw with rfl | rfl <;> cases e
      · exact h n hn
  rw [hb c ha h, hb _ (hx .bolder (.inl rfl)).1 (hx .bolder (.inl rfl)).2, hb _ (hx .lighter (.inr rfl)).1 (hx .lighter (.inr rfl)).2]
  obtain ⟨j, h1, h9, hj⟩ := cssWeight_hundreds _ h
  have e1 : cssWeight (values (own .bolder :: c)) = cssBolder (100 * j) := by rw [← hj]; rfl
  have e2 : cssWeight (values (own .lighter :: c)) = cssLighter (100 * j) := by rw [← hj]; rfl
  rw [e1, e2, hj]
  interval_cases j <;> norm_num [cssBolder, cssLighter]

/-- **C75** is violated: an element with `bolder` itself has the weight of its parent; `bolder` than 350 is
550 instead of 700; a weight given by the style of an ancestor is ignored. -/
theorem weight_violated :
    fontWeight 400 [own .bolder, own .normal] = 400 ∧ cssWeight [some .bolder, some .normal] = 700 ∧
      fontWeight 400 [bare, own .bolder, own (.num 350)] = 550 ∧ cssWeight [none, some .bolder, some (.num 350)] = 700 ∧
      fontWeight 400 [bare, own .bolder, ⟨none, some .bold⟩] = 700 ∧ cssWeight [none, some .bolder, some .bold] = 900 := by
  decide +kernel

/-! ### Line height -/

/-- **C76** `normal` is 1.2 times the font size, percentages refer to the font size, lengths in pixels are
kept.  Missing: numbers and `em`, see `line_violated`. -/
theorem line_partial (fs parent x : ℚ) :
    lineHeight fs parent .normal = 1.2 * fs ∧ lineHeight fs parent (.pct x) = fs * x / 100 ∧ lineHeight fs parent (.px x) = x := by
  refine ⟨?_, ?_, rfl⟩
  · show 6 / 5 * fs = _; norm_num
  · show x / 100 * fs = _; ring

/-- **C76** is violated: the line height 1.5 is 1.5 pixels for every font size instead of 1.5 times the
size, and 2 em refers to the size of the parent. -/
theorem line_violated (fs parent : ℚ) (h : fs ≠ 1) (h2 : fs ≠ parent) :
    lineHeight fs parent (.num (3 / 2)) ≠ 3 / 2 * fs ∧ lineHeight fs parent (.em 2) ≠ 2 * fs := by
  constructor
  · show (3 / 2 : ℚ) ≠ 3 / 2 * fs
    intro e; exact h (by linarith)
  · show 2 * parent ≠ 2 * fs
    intro e; exact h2 (by linarith)

/-- A non-trivial instance: font size 20 inside 16. -/
example : lineHeight 20 16 (.num (3 / 2)) ≠ 30 ∧ lineHeight 20 16 (.em 2) ≠ 40 := by
  have := line_violated 20 16 (by norm_num) (by norm_num)
  norm_num at this ⊢
  exact this

end SvgPy.FontStyle
