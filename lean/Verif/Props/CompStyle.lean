import Mathlib.Tactic.Linarith
import Mathlib.Tactic.NormNum
import Mathlib.Tactic.Ring
import Verif.Lemmas.PyStr
import Verif.Lemmas.PyDict
import Verif.Props.Length
import Verif.Model.CompStyle

set_option linter.unusedSimpArgs false
set_option linter.unusedVariables false
set_option linter.unusedSectionVars false

/-!
C130. The computed style of an element.
-/

namespace SvgPy.CompStyle
open SvgPy SvgPy.Length SvgPy.PyStr

/-! ### Specification -/

/-- The properties whose values are computed. -/
def nine : List Str :=
  ["font-feature-settings".toList, "font-size".toList, "font-size-adjust".toList,
   "font-synthesis".toList, "font-weight".toList, "line-height".toList, "inline-size".toList,
   "stroke-width".toList, "tab-size".toList]

/-- The text is a length, and it has `px` pixels, where lengths refer to `env` and percentages to the
direction `dir`. -/
def LengthPx (e : Elem) (env : Env) (dir : Option Dir) (t : Str) (px : ℝ) : Prop :=
  ∃ n u, e.parse t = some (n, u) ∧ Known u ∧ ¬ Resolution u ∧ px = n * size env dir u

/-- The computed font size: that of the keyword or of the length, where percentages refer to the font
size of the parent; sizes below ten pixels are raised to ten. -/
inductive SizeOf (e : Elem) (t : Str) : ℝ → Prop
  | keyword {px} : e.keywordSize t = some px → SizeOf e t (max 10 px)
  | length {px} : e.keywordSize t = none → LengthPx e e.env none t px → SizeOf e t (max 10 px)

/-- The computed line height where the computed font size is `fs`. -/
inductive LineOf (e : Elem) (fs : ℝ) (t : Str) : ℝ → Prop
  | normal : t = "normal".toList → LineOf e fs t (1.2 * fs)
  | percent {n} : t ≠ "normal".toList → e.parse t = some (n, .pct) → LineOf e fs t (n / 100 * fs)
  | length {n u} : t ≠ "normal".toList → e.parse t = some (n, u) → u ≠ .pct → u ≠ .noUnit →
      u ≠ .number → Known u → ¬ Resolution u → LineOf e fs t (n * size e.env none u)

/-- A text that is made of words with white space around. -/
inductive Spaced : Str → List Str → Prop
  | nil {w : Str} : (∀ c ∈ w, isSpace c = true) → Spaced w []
  | last {w p : Str} : (∀ c ∈ w, isSpace c = true) → Word p → Spaced (w ++ p) [p]
  | word {w p rest : Str} {c : Char} {ps : List Str} : (∀ c ∈ w, isSpace c = true) → Word p →
      isSpace c = true → Spaced rest ps → Spaced (w ++ (p ++ c :: rest)) (p :: ps)

/-- `none | [ weight || style ]`. -/
inductive Synthesis : List Str → Prop
  | no : Synthesis ["none".toList]
  | weight : Synthesis ["weight".toList]
  | style : Synthesis ["style".toList]
  | weightStyle : Synthesis ["weight".toList, "style".toList]
  | styleWeight : Synthesis ["style".toList, "weight".toList]

/-- What the computed style `s` of an element has to be. -/
structure IsComputed (e : Elem) (s : Sty) : Prop where
  /-- properties that are not computed have the inherited value -/
  others : ∀ k, k ∉ nine → k ∉ e.geometry.map (·.1) → s.get? k = (e.inherited.get? k).map .text
  features : ∀ t, e.inherited.get? "font-feature-settings".toList = some t →
    s.get? "font-feature-settings".toList = some (.features (e.features t))
  size : ∀ t px, e.inherited.get? "font-size".toList = some t → SizeOf e t px →
    s.get? "font-size".toList = some (.num px)
  adjustNone : e.inherited.get? "font-size-adjust".toList = some "none".toList →
    s.get? "font-size-adjust".toList = some (.text "none".toList)
  adjust : ∀ t n, e.inherited.get? "font-size-adjust".toList = some t → t ≠ "none".toList →
    e.parse t = some (n, .noUnit) → s.get? "font-size-adjust".toList = some (.num n)
  synthesis : ∀ t ws, e.inherited.get? "font-synthesis".toList = some t → Spaced t ws → Synthesis ws →
    s.get? "font-synthesis".toList = some (.words ws)
  weight : ∀ t w, e.inherited.get? "font-weight".toList = some t → e.weight t = some w →
    s.get? "font-weight".toList = some (.num w)
  /-- the line height refers to the computed font size -/
  line : ∀ t fs y, e.inherited.get? "line-height".toList = some t →
    s.get? "font-size".toList = some (.num fs) → LineOf e fs t y →
    s.get? "line-height".toList = some (.num y)
  inlineAbsolute : ∀ t n u, e.inherited.get? "inline-size".toList = some t → e.parse t = some (n, u) →
    Absolute u → s.get? "inline-size".toList = some (.num (n * Length.size e.env none u))
  stroke : ∀ t px, e.inherited.get? "stroke-width".toList = some t →
    LengthPx e e.env (some .unspecified) t px → s.get? "stroke-width".toList = some (.num px)
  tab : ∀ t px, e.inherited.get? "tab-size".toList = some t →
    LengthPx e e.env (some .unspecified) t px → s.get? "tab-size".toList = some (.num px)
  /-- the geometry wins over properties of the same name -/
  geometry : ∀ name t dir px, (name, t, dir) ∈ e.geometry → LengthPx e e.env (some dir) t px →
    s.get? name = some (.num px)

/-- The geometry is a dictionary with names of its own. -/
structure Geometry (e : Elem) : Prop where
  nodup : (e.geometry.map (·.1)).Nodup
  apart : ∀ k ∈ e.geometry.map (·.1), k ∉ nine

/-- A length that is not measured in a font. -/
def FreeLength (e : Elem) (t : Str) : Prop :=
  ∃ n u, e.parse t = some (n, u) ∧ Known u ∧ ¬ Resolution u ∧ ¬ FontUnit u

/-- The properties of the text have values of their syntax, without units of the font. -/
structure TextReadable (e : Elem) : Prop where
  features : ∃ t, e.inherited.get? "font-feature-settings".toList = some t
  size : ∃ t, e.inherited.get? "font-size".toList = some t ∧
    ((∃ px, e.keywordSize t = some px) ∨ FreeLength e t)
  adjust : ∃ t, e.inherited.get? "font-size-adjust".toList = some t ∧
    (t = "none".toList ∨ FreeLength e t)
  synthesis : ∃ t, e.inherited.get? "font-synthesis".toList = some t
  weight : ∃ t w, e.inherited.get? "font-weight".toList = some t ∧ e.weight t = some w
  line : ∃ t, e.inherited.get? "line-height".toList = some t ∧
    (t = "normal".toList ∨ FreeLength e t)
  inline : ∃ t, e.inherited.get? "inline-size".toList = some t ∧ FreeLength e t
  mode : ∃ t, e.inherited.get? "writing-mode".toList = some t

/-- All of them have. -/
structure Readable (e : Elem) : Prop extends TextReadable e where
  stroke : ∃ t, e.inherited.get? "stroke-width".toList = some t ∧ FreeLength e t
  tab : ∃ t, e.inherited.get? "tab-size".toList = some t ∧ FreeLength e t
  geometry : ∀ g ∈ e.geometry, FreeLength e g.2.1

/-! ### Lengths -/

theorem isFontUnit_iff (u : LUnit) : isFontUnit u = true ↔ FontUnit u := by
  cases u <;> simp [isFontUnit, FontUnit]

theorem noUnit_known : Known .noUnit := by intro s h; cases h
theorem noUnit_res : ¬ Resolution .noUnit := by simp [Resolution]
theorem noUnit_font : ¬ FontUnit .noUnit := by simp [FontUnit]

theorem defaultEnv_good : Good defaultEnv := by
  refine ⟨?_, ?_, ?_, ?_, ?_⟩ <;> simp [defaultEnv]

theorem convert_ok {env : Env} (h : Good env) (dir : Option Dir) (n : ℝ) {u : LUnit} (hu : Known u)
    (hr : ¬ Resolution u) : convertNumber env dir n u .noUnit = .ok (n * size env dir u) := by
  rw [convertNumber_partial env dir n u .noUnit hu noUnit_known h
    ⟨fun x => absurd x hr, fun x => absurd x noUnit_res⟩ (.inr noUnit_font)]
  simp [size]

theorem lenIn_ok {e : Elem} {env : Env} (h : Good env) {again : Except Err Unit} {dir : Option Dir}
    {t : Str} {n : ℝ} {u : LUnit} (hp : e.parse t = some (n, u)) (hu : Known u) (hr : ¬ Resolution u)
    (hf : ¬ FontUnit u) : lenIn e env again dir t = .ok (n * size env dir u) := by
  have hb : (isFontUnit u && env.font.isSome) = false := by
    cases hx : isFontUnit u
    · rfl
    · exact absurd ((isFontUnit_iff u).1 hx) hf
  simp only [lenIn, hp, hb, Bool.false_eq_true, if_false, convert_ok h dir n hu hr]

/-- A length that is read has the pixels it should have. -/
theorem lenIn_value {e : Elem} {env : Env} (h : Good env) {again : Except Err Unit} {dir : Option Dir}
    {t : Str} {x px : ℝ} (hx : lenIn e env again dir t = .ok x) (hl : LengthPx e env dir t px) :
    x = px := by
  obtain ⟨n, u, hp, hu, hr, rfl⟩ := hl
  simp only [lenIn, hp, convert_ok h dir n hu hr] at hx
  split at hx
  · cases hx
  · simpa using hx.symm

/-- A length in a unit of the font asks for the computed style again. -/
theorem lenIn_again {e : Elem} {env : Env} {again : Except Err Unit} {dir : Option Dir}
    {t : Str} {x n : ℝ} {u : LUnit} (hp : e.parse t = some (n, u)) (hu : FontUnit u)
    (hf : env.font.isSome = true) (hx : lenIn e env again dir t = .ok x) : again = .ok () := by
  have hb : isFontUnit u = true := (isFontUnit_iff u).2 hu
  simp only [lenIn, hp, hb, hf, Bool.and_self, if_true] at hx
  cases again with
  | error x => simp at hx
  | ok y => rfl

theorem atLeast_eq (px : ℝ) : atLeast px = max 10 px := by
  have e : (10 : ℝ) = minimumFontSize := rfl
  rw [atLeast, e]
  by_cases h : px < minimumFontSize
  · rw [if_pos h]; exact (max_eq_left h.le).symm
  · rw [if_neg h]; exact (max_eq_right (not_lt.1 h)).symm

/-! ### The steps -/

/-- The steps one after the other: names that are not assigned keep their value. -/
theorem runSteps_other {fs : List (Str × (Sty → Except Err Val))} : ∀ {s s' : Sty},
    runSteps fs s = .ok s' → ∀ k, k ∉ fs.map (·.1) → s'.get? k = s.get? k := by
  induction fs with
  | nil => intro s s' h k _; simp only [runSteps, Except.ok.injEq] at h; rw [h]
  | cons f fs ih =>
    intro s s' h k hk
    obtain ⟨name, f⟩ := f
    simp only [runSteps] at h
    cases hf : f s with
    | error x => rw [hf] at h; simp at h
    | ok v =>
      rw [hf] at h
      simp only [List.map_cons, List.mem_cons, not_or] at hk
      rw [ih h k hk.2, Dict.get?_set, if_neg (Ne.symm hk.1)]

/-- An assignment in the middle. -/
theorem runSteps_at {pre post : List (Str × (Sty → Except Err Val))} {name : Str}
    {f : Sty → Except Err Val} : ∀ {s s' : Sty},
    runSteps (pre ++ (name, f) :: post) s = .ok s' → name ∉ post.map (·.1) →
    ∃ s1 v, runSteps pre s = .ok s1 ∧ f s1 = .ok v ∧ s'.get? name = some v := by
  induction pre with
  | nil =>
    intro s s' h hn
    simp only [List.nil_append, runSteps] at h
    cases hf : f s with
    | error x => rw [hf] at h; simp at h
    | ok v =>
      rw [hf] at h
      refine ⟨s, v, rfl, hf, ?_⟩
      rw [runSteps_other h name hn, Dict.get?_set, if_pos rfl]
  | cons g gs ih =>
    intro s s' h hn
    obtain ⟨nm, g⟩ := g
    simp only [List.cons_append, runSteps] at h
    cases hg : g s with
    | error x => rw [hg] at h; simp at h
    | ok v =>
      rw [hg] at h
      obtain ⟨s1, w, h1, h2, h3⟩ := ih h hn
      exact ⟨s1, w, by simp only [runSteps, hg]; exact h1, h2, h3⟩

/-- The style at the beginning. -/
def start (e : Elem) : Sty := e.inherited.map fun p => (p.1, Val.text p.2)

theorem get?_start (d : Dict Str Str) (k : Str) :
    Dict.get? (d.map fun p => (p.1, Val.text p.2)) k = (Dict.get? d k).map Val.text := by
  induction d with
  | nil => rfl
  | cons p d ih =>
    obtain ⟨a, b⟩ := p
    by_cases h : a = k
    · simp [Dict.get?, h]
    · simp only [List.map_cons, Dict.get?, h, if_false]
      exact ih

theorem getText_of {s : Sty} {k t : Str} (h : s.get? k = some (.text t)) : getText s k = .ok t := by
  simp [getText, h]

/-- An assignment that reads the text of its own property. -/
theorem text_step {e : Elem} {pre post : List (Str × (Sty → Except Err Val))} {name : Str}
    {f : Str → Except Err Val} {s' : Sty} {t : Str}
    (h : runSteps (pre ++ (name, fromText name f) :: post) (start e) = .ok s')
    (hpost : name ∉ post.map (·.1)) (hpre : name ∉ pre.map (·.1))
    (ht : e.inherited.get? name = some t) : ∃ v, f t = .ok v ∧ s'.get? name = some v := by
  obtain ⟨s1, v, h1, h2, h3⟩ := runSteps_at h hpost
  have : s1.get? name = some (.text t) := by
    rw [runSteps_other h1 name hpre, start, get?_start, ht]; rfl
  refine ⟨v, ?_, h3⟩
  rw [fromText, getText_of this] at h2
  exact h2

theorem asNum_ok {x : Except Err ℝ} {v : Val} (h : asNum x = .ok v) : ∃ y, x = .ok y ∧ v = .num y := by
  cases x with
  | error x => simp [asNum] at h
  | ok y => simp only [asNum, Except.ok.injEq] at h; exact ⟨y, rfl, h.symm⟩

theorem steps_names (e : Elem) (again : Except Err Unit) : (steps e again).map (·.1) = nine := rfl

theorem geometryOf_names {e : Elem} {again : Except Err Unit} : ∀ {gs : List (Str × Str × Dir)} {r},
    geometryOf e again gs = .ok r → r.map (·.1) = gs.map (·.1)
  | [], r, h => by simp only [geometryOf, Except.ok.injEq] at h; rw [← h]; rfl
  | (name, t, dir) :: gs, r, h => by
    simp only [geometryOf] at h
    split at h
    · cases h
    · split at h
      · cases h
      · rename_i rest hr
        simp only [Except.ok.injEq] at h
        rw [← h]
        simp only [List.map_cons, geometryOf_names hr]

theorem geometryOf_mem {e : Elem} {again : Except Err Unit} {name t : Str} {dir : Dir} :
    ∀ {gs : List (Str × Str × Dir)} {r}, geometryOf e again gs = .ok r → (name, t, dir) ∈ gs →
    ∃ px, lenIn e e.env again (some dir) t = .ok px ∧ (name, Val.num px) ∈ r
  | [], r, h, hm => by simp at hm
  | (nm, t', dir') :: gs, r, h, hm => by
    simp only [geometryOf] at h
    split at h
    · cases h
    · rename_i px hpx
      split at h
      · cases h
      · rename_i rest hr
        simp only [Except.ok.injEq] at h
        subst h
        rcases List.mem_cons.1 hm with heq | hm
        · cases heq
          exact ⟨px, hpx, by simp⟩
        · obtain ⟨q, hq, hmem⟩ := geometryOf_mem hr hm
          exact ⟨q, hq, List.mem_cons_of_mem _ hmem⟩

theorem once_ok {e : Elem} {again : Except Err Unit} {s : Sty} (h : once e again = .ok s) :
    ∃ s1 g, runSteps (steps e again) (start e) = .ok s1 ∧ geometryOf e again e.geometry = .ok g ∧
      s = s1.update g := by
  simp only [once] at h
  split at h
  · cases h
  · rename_i s1 h1
    split at h
    · cases h
    · rename_i g hg
      simp only [Except.ok.injEq] at h
      exact ⟨s1, g, h1, hg, h.symm⟩

/-! ### Words -/

theorem splitWs_white {w : Str} (hw : ∀ c ∈ w, isSpace c = true) (x : Str) :
    splitWs (w ++ x) = splitWs x := by
  induction w with
  | nil => rfl
  | cons c w ih =>
    have hc := hw c (by simp)
    have ih' := ih (fun d hd => hw d (by simp [hd]))
    simp only [splitWs] at ih' ⊢
    simp only [List.cons_append, splitWsAux, hc, if_true, List.isEmpty_nil]
    exact ih'

theorem splitWs_spaced {t : Str} {ws : List Str} (h : Spaced t ws) : splitWs t = ws := by
  induction h with
  | @nil w hw =>
    have := splitWs_white hw []
    rw [List.append_nil] at this
    rw [this]; rfl
  | @last w p hw hp =>
    rw [splitWs_white hw]
    have := splitWsAux_append p [] hp.2 []
    rw [List.append_nil] at this
    rw [splitWs, this]
    have hne : (p.reverse ++ []).isEmpty = false := by
      obtain ⟨a, as, rfl⟩ := List.exists_cons_of_ne_nil hp.1
      simp
    simp only [splitWsAux, hne, Bool.false_eq_true, if_false]
    simp
  | @word w p rest c ps hw hp hc _ ih =>
    rw [splitWs_white hw, splitWs, splitWsAux_append p _ hp.2 []]
    have hne : (p.reverse ++ []).isEmpty = false := by
      obtain ⟨a, as, rfl⟩ := List.exists_cons_of_ne_nil hp.1
      simp
    simp only [splitWsAux, hc, if_true, hne, Bool.false_eq_true, if_false]
    rw [splitWs] at ih
    rw [ih]
    simp

/-- The words of `font-synthesis`. -/
theorem synthesis_spec {t : Str} {ws : List Str} (h : Spaced t ws) (hs : Synthesis ws) :
    synthesis t = ws := by
  simp only [synthesis, splitWs_spaced h]
  cases hs <;> decide

/-! ### The computed style -/

theorem computed_once {e : Elem} {limit : ℕ} {s : Sty} (h : computed e limit = .ok s) :
    ∃ n, once e (done (computed e n)) = .ok s ∧ limit = n + 1 := by
  cases limit with
  | zero => simp [computed] at h
  | succ n => exact ⟨n, h, rfl⟩

theorem update_apart {e : Elem} {again : Except Err Unit} {s1 : Sty} {g : List (Str × Val)}
    (hg : geometryOf e again e.geometry = .ok g) (hn : (e.geometry.map (·.1)).Nodup) {k : Str}
    (hk : k ∉ e.geometry.map (·.1)) : (Dict.update s1 g).get? k = s1.get? k := by
  have hnames := geometryOf_names hg
  have hnd : (Dict.keys g).Nodup := by rw [Dict.keys, hnames]; exact hn
  rw [Dict.get?_update _ _ _ hnd]
  have : Dict.get? g k = none := by
    rw [Dict.get?_eq_none_iff, Dict.keys, hnames]; exact hk
  rw [this]; rfl

local macro "apart" : tactic =>
  `(tactic| first | decide | (simp only [List.map_take, List.map_drop, steps_names]; decide))

/-- The style that is computed is the one it should be. -/
theorem computed_spec {e : Elem} (hgood : Good e.env) (hgeo : Geometry e) {limit : ℕ} {s : Sty}
    (h : computed e limit = .ok s) : IsComputed e s := by
  obtain ⟨m, h, _⟩ := computed_once h
  generalize done (computed e m) = again at h
  obtain ⟨s1, g, h1, hg, rfl⟩ := once_ok h
  have upd : ∀ k ∈ nine, (Dict.update s1 g).get? k = s1.get? k := fun k hk =>
    update_apart hg hgeo.nodup (fun hm => hgeo.apart k hm hk)
  -- the font size as a number
  have hsize : ∀ t, e.inherited.get? "font-size".toList = some t →
      ∃ px, fontSize e again t = .ok px ∧ s1.get? "font-size".toList = some (.num px) := by
    intro t ht
    obtain ⟨v, hv, hs⟩ := text_step (pre := (steps e again).take 1) (post := (steps e again).drop 2)
      (f := fun t => asNum (fontSize e again t)) h1 (by apart) (by apart) ht
    obtain ⟨px, hpx, rfl⟩ := asNum_ok hv
    exact ⟨px, hpx, hs⟩
  refine ⟨?_, ?_, ?_, ?_, ?_, ?_, ?_, ?_, ?_, ?_, ?_, ?_⟩
  · intro k hk hkg
    rw [update_apart hg hgeo.nodup hkg, runSteps_other h1 k (by rw [steps_names]; exact hk), start,
      get?_start]
  · intro t ht
    rw [upd _ (by decide)]
    obtain ⟨v, hv, hs⟩ := text_step (pre := []) (post := (steps e again).drop 1)
      (f := fun t => .ok (.features (e.features t))) h1 (by apart) (by apart) ht
    simp only [Except.ok.injEq] at hv
    rw [hs, ← hv]
  · intro t px ht hpx
    rw [upd _ (by decide)]
    obtain ⟨x, hx, hs⟩ := hsize t ht
    rw [hs]
    cases hpx with
    | keyword hk =>
      simp only [fontSize, hk, Except.ok.injEq, atLeast_eq] at hx
      rw [hx]
    | @length p hk hl =>
      simp only [fontSize, hk] at hx
      split at hx
      · cases hx
      · rename_i y hy
        simp only [Except.ok.injEq, atLeast_eq] at hx
        rw [lenIn_value hgood hy hl] at hx
        rw [hx]
  · intro ht
    rw [upd _ (by decide)]
    obtain ⟨v, hv, hs⟩ := text_step (pre := (steps e again).take 2) (post := (steps e again).drop 3)
      (f := fun t => sizeAdjust e t) h1 (by apart) (by apart) ht
    simp only [sizeAdjust, if_true, Except.ok.injEq] at hv
    rw [hs, ← hv]
  · intro t n ht hne hp
    rw [upd _ (by decide)]
    obtain ⟨v, hv, hs⟩ := text_step (pre := (steps e again).take 2) (post := (steps e again).drop 3)
      (f := fun t => sizeAdjust e t) h1 (by apart) (by apart) ht
    simp only [sizeAdjust, hne, if_false,
      lenIn_ok defaultEnv_good hp noUnit_known noUnit_res noUnit_font, Except.ok.injEq, size,
      mul_one] at hv
    rw [hs, ← hv]
  · intro t ws ht hsp hsy
    rw [upd _ (by decide)]
    obtain ⟨v, hv, hs⟩ := text_step (pre := (steps e again).take 3) (post := (steps e again).drop 4)
      (f := fun t => .ok (.words (synthesis t))) h1 (by apart) (by apart) ht
    simp only [Except.ok.injEq, synthesis_spec hsp hsy] at hv
    rw [hs, ← hv]
  · intro t w ht hw
    rw [upd _ (by decide)]
    obtain ⟨v, hv, hs⟩ := text_step (pre := (steps e again).take 4) (post := (steps e again).drop 5)
      (f := fun t => fontWeight e t) h1 (by apart) (by apart) ht
    simp only [fontWeight, hw, Except.ok.injEq] at hv
    rw [hs, ← hv]
  · intro t fs y ht hfs hy
    rw [upd _ (by decide)] at hfs ⊢
    obtain ⟨s2, v, ha, hb, hc⟩ := runSteps_at (pre := (steps e again).take 5)
      (post := (steps e again).drop 6) (name := "line-height".toList) (f := lineStep e again) h1
      (by apart)
    have hlt : s2.get? "line-height".toList = some (.text t) := by
      rw [runSteps_other ha _ (by apart), start, get?_start, ht]; rfl
    have hf2 : s2.get? "font-size".toList = some (.num fs) := by
      obtain ⟨sa, va, haa, hab, hac⟩ := runSteps_at (pre := (steps e again).take 1)
        (post := ((steps e again).drop 2).take 3) (name := "font-size".toList)
        (f := fromText "font-size".toList fun t => asNum (fontSize e again t)) ha (by apart)
      obtain ⟨sb, vb, hba, hbb, hbc⟩ := runSteps_at (pre := (steps e again).take 1)
        (post := (steps e again).drop 2) (name := "font-size".toList)
        (f := fromText "font-size".toList fun t => asNum (fontSize e again t)) h1 (by apart)
      rw [haa] at hba
      simp only [Except.ok.injEq] at hba
      subst hba
      rw [hab] at hbb
      simp only [Except.ok.injEq] at hbb
      subst hbb
      rw [hac, ← hbc, hfs]
    have hn : getNum s2 "font-size".toList = .ok fs := by simp only [getNum, hf2]
    rw [lineStep, getText_of hlt, hn] at hb
    obtain ⟨z, hz, rfl⟩ := asNum_ok hb
    rw [hc]
    cases hy with
    | normal he =>
      simp only [lineHeight, he, if_true, Except.ok.injEq] at hz
      rw [hz]
    | percent hne hp =>
      simp only [lineHeight, hne, if_false, hp, Except.ok.injEq] at hz
      rw [hz]
    | @length n u hne hp h1 h2 h3 hk hr =>
      have : lineHeight e again fs t = lenIn e e.env again none t := by
        simp only [lineHeight, hne, if_false, hp]
        cases u <;> first | rfl | exact absurd rfl h1
      rw [this] at hz
      rw [lenIn_value hgood hz ⟨n, u, hp, hk, hr, rfl⟩]
  · intro t n u ht hp hu
    rw [upd _ (by decide)]
    obtain ⟨s2, v, ha, hb, hc⟩ := runSteps_at (pre := (steps e again).take 6)
      (post := (steps e again).drop 7) (name := "inline-size".toList) (f := inlineStep e) h1
      (by apart)
    have hlt : s2.get? "inline-size".toList = some (.text t) := by
      rw [runSteps_other ha _ (by apart), start, get?_start, ht]; rfl
    rw [inlineStep, getText_of hlt] at hb
    simp only at hb
    split at hb
    · cases hb
    · obtain ⟨z, hz, rfl⟩ := asNum_ok hb
      have hk : Known u := by rcases hu with h | h | h | h | h | h | h | h | h <;> subst h <;> (intro s hs; cases hs)
      have hr : ¬ Resolution u := by
        rcases hu with h | h | h | h | h | h | h | h | h <;> subst h <;> simp [Resolution]
      rw [hc, lenIn_value defaultEnv_good hz ⟨n, u, hp, hk, hr, rfl⟩]
      rcases hu with h | h | h | h | h | h | h | h | h <;> subst h <;> rfl
  · intro t px ht hl
    rw [upd _ (by decide)]
    obtain ⟨v, hv, hs⟩ := text_step (pre := (steps e again).take 7) (post := (steps e again).drop 8)
      (f := fun t => asNum (lenIn e e.env again (some .unspecified) t)) h1 (by apart) (by apart) ht
    obtain ⟨z, hz, rfl⟩ := asNum_ok hv
    rw [hs, lenIn_value hgood hz hl]
  · intro t px ht hl
    rw [upd _ (by decide)]
    obtain ⟨v, hv, hs⟩ := text_step (pre := (steps e again).take 8) (post := [])
      (f := fun t => asNum (lenIn e e.env again (some .unspecified) t)) h1 (by apart) (by apart) ht
    obtain ⟨z, hz, rfl⟩ := asNum_ok hv
    rw [hs, lenIn_value hgood hz hl]
  · intro name t dir px hm hl
    obtain ⟨z, hz, hmem⟩ := geometryOf_mem hg hm
    have hnd : (Dict.keys g).Nodup := by rw [Dict.keys, geometryOf_names hg]; exact hgeo.nodup
    rw [Dict.get?_update _ _ _ hnd, (Dict.mem_iff_get? g hnd name (.num z)).1 hmem,
      lenIn_value hgood hz hl]
    rfl


/-! ### A style is computed -/

theorem runSteps_cons {name : Str} {f : Sty → Except Err Val} {fs : List (Str × (Sty → Except Err Val))}
    {s : Sty} (hf : ∃ v, f s = .ok v)
    (h : ∀ v, f s = .ok v → ∃ s', runSteps fs (s.set name v) = .ok s') :
    ∃ s', runSteps ((name, f) :: fs) s = .ok s' := by
  obtain ⟨v, hv⟩ := hf
  obtain ⟨s', h'⟩ := h v hv
  exact ⟨s', by simp only [runSteps, hv]; exact h'⟩

theorem runSteps_append {fs gs : List (Str × (Sty → Except Err Val))} : ∀ {s s' : Sty},
    runSteps fs s = .ok s' → runSteps (fs ++ gs) s = runSteps gs s' := by
  induction fs with
  | nil => intro s s' h; simp only [runSteps, Except.ok.injEq] at h; rw [h]; rfl
  | cons f fs ih =>
    intro s s' h
    obtain ⟨name, f⟩ := f
    simp only [List.cons_append, runSteps] at h ⊢
    cases hf : f s with
    | error x => rw [hf] at h; simp at h
    | ok v => rw [hf] at h; exact ih h

theorem free_ok {e : Elem} {env : Env} (h : Good env) {again : Except Err Unit} {dir : Option Dir}
    {t : Str} (hl : FreeLength e t) : ∃ px, lenIn e env again dir t = .ok px := by
  obtain ⟨n, u, hp, hu, hr, hf⟩ := hl
  exact ⟨_, lenIn_ok h hp hu hr hf⟩

theorem start_text {e : Elem} {k t : Str} (h : e.inherited.get? k = some t) :
    (start e).get? k = some (.text t) := by
  rw [start, get?_start, h]; rfl

local macro "look" h:term : tactic =>
  `(tactic| ((repeat rw [Dict.get?_set, if_neg (by decide)]); exact start_text $h))

/-- The assignments to the properties of text are made. -/
theorem text_steps {e : Elem} (hgood : Good e.env) (h : TextReadable e) (again : Except Err Unit) :
    ∃ s, runSteps ((steps e again).take 7) (start e) = .ok s := by
  obtain ⟨t1, h1⟩ := h.features
  obtain ⟨t2, h2, l2⟩ := h.size
  obtain ⟨t3, h3, l3⟩ := h.adjust
  obtain ⟨t4, h4⟩ := h.synthesis
  obtain ⟨t5, w5, h5, l5⟩ := h.weight
  obtain ⟨t6, h6, l6⟩ := h.line
  obtain ⟨t7, h7, l7⟩ := h.inline
  obtain ⟨t8, h8⟩ := h.mode
  simp only [steps, List.take]
  refine runSteps_cons ⟨.features (e.features t1), ?_⟩ fun v1 _ => ?_
  · rw [fromText, getText_of (start_text h1)]
  have q2 : ∃ px, fontSize e again t2 = .ok px := by
    cases hk : e.keywordSize t2 with
    | some px => exact ⟨atLeast px, by simp only [fontSize, hk]⟩
    | none =>
      rcases l2 with ⟨px, hpx⟩ | hl
      · rw [hk] at hpx; cases hpx
      · obtain ⟨px, hpx⟩ := free_ok (again := again) (dir := none) hgood hl
        exact ⟨atLeast px, by simp only [fontSize, hk, hpx]⟩
  obtain ⟨px, hpx⟩ := q2
  have g2 : getText ((start e).set "font-feature-settings".toList v1) "font-size".toList = .ok t2 :=
    getText_of (by look h2)
  refine runSteps_cons ⟨.num px, ?_⟩ fun v2 hv2 => ?_
  · simp only [fromText, g2, hpx, asNum]
  have e2 : v2 = .num px := by
    simp only [fromText, g2, hpx, asNum, Except.ok.injEq] at hv2
    exact hv2.symm
  subst e2
  refine runSteps_cons ?_ fun v3 _ => ?_
  · rw [fromText, getText_of (t := t3) (by look h3)]
    rcases l3 with rfl | hl
    · exact ⟨.text "none".toList, by simp only [sizeAdjust, if_true]⟩
    · by_cases hne : t3 = "none".toList
      · exact ⟨.text t3, by simp only [sizeAdjust, hne, if_true]⟩
      · obtain ⟨y, hy⟩ := free_ok (again := .ok ()) (dir := none) defaultEnv_good hl
        exact ⟨.num y, by simp only [sizeAdjust, hne, if_false, hy]⟩
  refine runSteps_cons ?_ fun v4 _ => ?_
  · rw [fromText, getText_of (t := t4) (by look h4)]
    exact ⟨_, rfl⟩
  refine runSteps_cons ?_ fun v5 _ => ?_
  · rw [fromText, getText_of (t := t5) (by look h5)]
    exact ⟨.num w5, by simp only [fontWeight, l5]⟩
  refine runSteps_cons ?_ fun v6 _ => ?_
  · rw [lineStep, getText_of (t := t6) (by look h6)]
    have : getNum (((((start e).set "font-feature-settings".toList v1).set "font-size".toList
        (.num px)).set "font-size-adjust".toList v3).set "font-synthesis".toList v4 |>.set
        "font-weight".toList v5) "font-size".toList = .ok px := by
      have : Dict.get? (((((start e).set "font-feature-settings".toList v1).set "font-size".toList
        (.num px)).set "font-size-adjust".toList v3).set "font-synthesis".toList v4 |>.set
        "font-weight".toList v5) "font-size".toList = some (.num px) := by
        rw [Dict.get?_set, if_neg (by decide), Dict.get?_set, if_neg (by decide), Dict.get?_set,
          if_neg (by decide), Dict.get?_set, if_pos rfl]
      simp only [getNum, this]
    simp only [this]
    by_cases hn : t6 = "normal".toList
    · exact ⟨.num (1.2 * px), by simp only [lineHeight, hn, if_true, asNum]⟩
    · rcases l6 with h | hl
      · exact absurd h hn
      · obtain ⟨n, u, hp, hk, hr, hf⟩ := hl
        by_cases hu : u = .pct
        · subst hu
          exact ⟨.num (n / 100 * px), by simp only [lineHeight, hn, if_false, hp, asNum]⟩
        · have : lineHeight e again px t6 = lenIn e e.env again none t6 := by
            simp only [lineHeight, hn, if_false, hp]
            cases u <;> first | rfl | exact absurd rfl hu
          rw [this, lenIn_ok hgood hp hk hr hf]
          exact ⟨_, rfl⟩
  refine runSteps_cons ?_ fun v7 _ => ⟨_, rfl⟩
  rw [inlineStep, getText_of (t := t7) (by look h7)]
  simp only []
  rw [getText_of (t := t8) (by look h8)]
  simp only []
  obtain ⟨y, hy⟩ := free_ok (again := .ok ())
    (dir := some (if horizontal t8 then .horizontal else .vertical)) defaultEnv_good l7
  exact ⟨.num y, by rw [hy]; rfl⟩

theorem steps_split (e : Elem) (again : Except Err Unit) :
    steps e again = (steps e again).take 7 ++ (steps e again).drop 7 := rfl

/-- With readable values a style is computed; one call is enough. -/
theorem computed_total {e : Elem} (hgood : Good e.env) (h : Readable e) (limit : ℕ) :
    ∃ s, computed e (limit + 1) = .ok s := by
  rw [computed]
  generalize done (computed e limit) = again
  obtain ⟨s7, hs⟩ := text_steps hgood h.toTextReadable again
  obtain ⟨t8, h8, l8⟩ := h.stroke
  obtain ⟨t9, h9, l9⟩ := h.tab
  obtain ⟨x8, hx8⟩ := free_ok (again := again) (dir := some .unspecified) hgood l8
  obtain ⟨x9, hx9⟩ := free_ok (again := again) (dir := some .unspecified) hgood l9
  have k8 : s7.get? "stroke-width".toList = some (.text t8) := by
    rw [runSteps_other hs _ (by apart)]; exact start_text h8
  have k9 : s7.get? "tab-size".toList = some (.text t9) := by
    rw [runSteps_other hs _ (by apart)]; exact start_text h9
  have hall : ∃ s9, runSteps (steps e again) (start e) = .ok s9 := by
    rw [steps_split, runSteps_append hs]
    simp only [steps, List.drop]
    refine runSteps_cons ⟨.num x8, ?_⟩ fun v8 _ => runSteps_cons ⟨.num x9, ?_⟩ fun v9 _ => ⟨_, rfl⟩
    · rw [fromText, getText_of k8]; simp only [hx8, asNum]
    · rw [fromText, getText_of (t := t9)]
      · simp only [hx9, asNum]
      · rw [Dict.get?_set, if_neg (by decide)]; exact k9
  have hgeo : ∀ gs : List (Str × Str × Dir), (∀ g ∈ gs, FreeLength e g.2.1) →
      ∃ r, geometryOf e again gs = .ok r := by
    intro gs
    induction gs with
    | nil => intro _; exact ⟨[], rfl⟩
    | cons g gs ih =>
      intro hg
      obtain ⟨name, t, dir⟩ := g
      obtain ⟨px, hpx⟩ := free_ok (again := again) (dir := some dir) hgood (hg _ List.mem_cons_self)
      obtain ⟨r, hr⟩ := ih fun g' h' => hg g' (List.mem_cons_of_mem _ h')
      exact ⟨(name, .num px) :: r, by simp only [geometryOf] at *; rw [hpx]; simp only [hr]⟩
  obtain ⟨s9, h9'⟩ := hall
  obtain ⟨r, hr⟩ := hgeo e.geometry h.geometry
  exact ⟨s9.update r, by simp only [once]; rw [show (e.inherited.map fun p => (p.1, Val.text p.2)) = start e from rfl, h9']; simp only [hr]⟩

/-! ### What the code does not do -/

/-- Some length is given in a unit of the font. -/
inductive UsesFontUnit (e : Elem) : Prop
  | size {t n u} : e.inherited.get? "font-size".toList = some t → e.keywordSize t = none →
      e.parse t = some (n, u) → FontUnit u → UsesFontUnit e
  | stroke {t n u} : e.inherited.get? "stroke-width".toList = some t →
      e.parse t = some (n, u) → FontUnit u → UsesFontUnit e
  | tab {t n u} : e.inherited.get? "tab-size".toList = some t →
      e.parse t = some (n, u) → FontUnit u → UsesFontUnit e
  | geometry {name t dir n u} : (name, t, dir) ∈ e.geometry → e.parse t = some (n, u) → FontUnit u →
      UsesFontUnit e

theorem done_ok {x : Except Err Sty} (h : done x = .ok ()) : ∃ s, x = .ok s := by
  cases x with
  | error x => simp [done] at h
  | ok s => exact ⟨s, rfl⟩

/-- With a font size, a stroke width, a tab size or a geometry attribute in `ex`, `cap`, `ch` or `ic`
an element never has a computed style: computing it asks for the computed style of the same element
again. -/
theorem font_unit_violated {e : Elem} (hf : e.env.font.isSome = true) (h : UsesFontUnit e)
    (limit : ℕ) (s : Sty) : computed e limit ≠ .ok s := by
  induction limit generalizing s with
  | zero => simp [computed]
  | succ m ih =>
    intro hc
    rw [computed] at hc
    have key : done (computed e m) = .ok () := by
      generalize done (computed e m) = again at hc ⊢
      obtain ⟨s1, g, h1, hg, rfl⟩ := once_ok hc
      cases h with
      | @size t n u ht hk hp hu =>
        obtain ⟨v, hv, _⟩ := text_step (pre := (steps e again).take 1)
          (post := (steps e again).drop 2)
          (f := fun t => asNum (fontSize e again t)) h1 (by apart) (by apart) ht
        obtain ⟨px, hpx, rfl⟩ := asNum_ok hv
        simp only [fontSize, hk] at hpx
        split at hpx
        · cases hpx
        · rename_i y hy
          exact lenIn_again hp hu hf hy
      | @stroke t n u ht hp hu =>
        obtain ⟨v, hv, _⟩ := text_step (pre := (steps e again).take 7)
          (post := (steps e again).drop 8)
          (f := fun t => asNum (lenIn e e.env again (some .unspecified) t)) h1 (by apart) (by apart) ht
        obtain ⟨z, hz, rfl⟩ := asNum_ok hv
        exact lenIn_again hp hu hf hz
      | @tab t n u ht hp hu =>
        obtain ⟨v, hv, _⟩ := text_step (pre := (steps e again).take 8) (post := [])
          (f := fun t => asNum (lenIn e e.env again (some .unspecified) t)) h1 (by apart) (by apart) ht
        obtain ⟨z, hz, rfl⟩ := asNum_ok hv
        exact lenIn_again hp hu hf hz
      | @geometry name t dir n u hm hp hu =>
        obtain ⟨z, hz, _⟩ := geometryOf_mem hg hm
        exact lenIn_again hp hu hf hz
    obtain ⟨s', hs'⟩ := done_ok key
    exact ih s' hs'

/-- The exception is `RecursionError`, however deep calls may be nested. -/
theorem recursion_violated {e : Elem} (hgood : Good e.env) (hf : e.env.font.isSome = true)
    (h : TextReadable e) {t : Str} {n : ℝ} {u : LUnit}
    (ht : e.inherited.get? "stroke-width".toList = some t) (hp : e.parse t = some (n, u))
    (hu : FontUnit u) (limit : ℕ) : computed e limit = .error .recursion := by
  induction limit with
  | zero => rfl
  | succ m ih =>
    rw [computed, ih]
    obtain ⟨s7, hs⟩ := text_steps hgood h (.error .recursion)
    have k8 : s7.get? "stroke-width".toList = some (.text t) := by
      rw [runSteps_other hs _ (by apart)]; exact start_text ht
    have hl : lenIn e e.env (.error .recursion) (some .unspecified) t = .error .recursion := by
      simp only [lenIn, hp, (isFontUnit_iff u).2 hu, hf, Bool.and_self, if_true]
    have : runSteps (steps e (.error .recursion)) (start e) = .error .recursion := by
      rw [steps_split, runSteps_append hs]
      simp only [steps, List.drop, runSteps]
      rw [fromText, getText_of k8]
      simp only [hl, asNum]
    simp only [once, done]
    rw [show (e.inherited.map fun p => (p.1, Val.text p.2)) = start e from rfl, this]

/-- Percentages of the inline size should refer to the viewport, and `em` to the font size. They refer
to 100 pixels and to 16 pixels on every element. -/
theorem inline_violated {e : Elem} (hgeo : Geometry e) {limit : ℕ} {s : Sty}
    (h : computed e limit = .ok s) {t : Str} {n : ℝ}
    (ht : e.inherited.get? "inline-size".toList = some t) :
    (e.parse t = some (n, .pct) → s.get? "inline-size".toList = some (.num n) ∧
      (n ≠ 0 → e.env.vw ≠ 100 → n ≠ n * size e.env (some .horizontal) .pct)) ∧
    (e.parse t = some (n, .em) → s.get? "inline-size".toList = some (.num (n * 16)) ∧
      (n ≠ 0 → e.env.em ≠ 16 → n * 16 ≠ n * size e.env (some .horizontal) .em)) := by
  obtain ⟨m, h, _⟩ := computed_once h
  generalize done (computed e m) = again at h
  obtain ⟨s1, g, h1, hg, rfl⟩ := once_ok h
  rw [update_apart hg hgeo.nodup (fun hm => hgeo.apart _ hm (by decide))]
  obtain ⟨s2, v, ha, hb, hc⟩ := runSteps_at (pre := (steps e again).take 6)
    (post := (steps e again).drop 7) (name := "inline-size".toList) (f := inlineStep e) h1
    (by apart)
  have hlt : s2.get? "inline-size".toList = some (.text t) := by
    rw [runSteps_other ha _ (by apart), start, get?_start, ht]; rfl
  rw [inlineStep, getText_of hlt] at hb
  simp only at hb
  split at hb
  · cases hb
  · rename_i md _
    obtain ⟨z, hz, rfl⟩ := asNum_ok hb
    constructor
    · intro hp
      have := lenIn_value defaultEnv_good hz ⟨n, .pct, hp, (by intro s hs; cases hs), by simp [Resolution], rfl⟩
      constructor
      · rw [hc, this]
        by_cases hm : horizontal md = true <;> simp [hm, size, defaultEnv]
      · intro hn hv heq
        simp only [size] at heq
        have : n * (e.env.vw / 100 - 1) = 0 := by linarith
        rcases mul_eq_zero.1 this with h | h
        · exact hn h
        · exact hv (by linarith)
    · intro hp
      have := lenIn_value defaultEnv_good hz ⟨n, .em, hp, (by intro s hs; cases hs), by simp [Resolution], rfl⟩
      constructor
      · rw [hc, this]; simp [size, defaultEnv]
      · intro hn hv heq
        simp only [size] at heq
        have : n * (e.env.em - 16) = 0 := by linarith
        rcases mul_eq_zero.1 this with h | h
        · exact hn h
        · exact hv (by linarith)

/-! ### A concrete element -/

/-- A rectangle with a stroke. -/
noncomputable def sample (stroke : String) : Elem where
  inherited := [("font-feature-settings".toList, "normal".toList), ("font-size".toList, "medium".toList),
    ("font-size-adjust".toList, "none".toList), ("font-synthesis".toList, " weight\n style".toList),
    ("font-weight".toList, "bold".toList), ("line-height".toList, "150%".toList),
    ("inline-size".toList, "50%".toList), ("writing-mode".toList, "lr-tb".toList),
    ("stroke-width".toList, stroke.toList), ("tab-size".toList, "8".toList),
    ("fill".toList, "red".toList)]
  env := ⟨20, 16, 300, 400, some ⟨fun _ => 8, fun _ _ => 8⟩⟩
  parse t := if t = "8".toList then some (8, .noUnit) else if t = "50%".toList then some (50, .pct)
    else if t = "150%".toList then some (150, .pct) else if t = "2em".toList then some (2, .em)
    else if t = "2ex".toList then some (2, .ex) else none
  features _ := []
  keywordSize t := if t = "medium".toList then some 16 else none
  weight t := if t = "bold".toList then some 700 else none
  geometry := [("width".toList, "50%".toList, .horizontal), ("height".toList, "2em".toList, .vertical)]

theorem sample_50 (s : String) : (sample s).parse "50%".toList = some (50, .pct) := by
  simp [sample]

theorem sample_2em (s : String) : (sample s).parse "2em".toList = some (2, .em) := by
  simp [sample]

theorem sample_good (s : String) : Good (sample s).env := by
  refine ⟨?_, ?_, ?_, ?_, ?_⟩ <;> simp [sample]

theorem sample_text (s : String) : TextReadable (sample s) where
  features := ⟨_, rfl⟩
  size := ⟨_, rfl, .inl ⟨16, by simp [sample]⟩⟩
  adjust := ⟨_, rfl, .inl rfl⟩
  synthesis := ⟨_, rfl⟩
  weight := ⟨_, 700, rfl, by simp [sample]⟩
  line := ⟨_, rfl, .inr ⟨150, .pct, by simp [sample],
    (by intro s hs; cases hs), by simp [Resolution], by simp [FontUnit]⟩⟩
  inline := ⟨_, rfl, ⟨50, .pct, sample_50 s,
    (by intro s hs; cases hs), by simp [Resolution], by simp [FontUnit]⟩⟩
  mode := ⟨_, rfl⟩

example : Readable (sample "2em") where
  toTextReadable := sample_text _
  stroke := ⟨_, rfl, ⟨2, .em, sample_2em _,
    (by intro s hs; cases hs), by simp [Resolution], by simp [FontUnit]⟩⟩
  tab := ⟨_, rfl, ⟨8, .noUnit, by simp [sample],
    (by intro s hs; cases hs), by simp [Resolution], by simp [FontUnit]⟩⟩
  geometry := by
    intro g hg
    simp only [sample, List.mem_cons, List.not_mem_nil, or_false] at hg
    rcases hg with rfl | rfl
    · exact ⟨50, .pct, sample_50 _, (by intro s hs; cases hs), by simp [Resolution], by simp [FontUnit]⟩
    · exact ⟨2, .em, sample_2em _, (by intro s hs; cases hs), by simp [Resolution], by simp [FontUnit]⟩

example (s : String) : Geometry (sample s) := by
  have : (sample s).geometry.map (·.1) = ["width".toList, "height".toList] := rfl
  constructor
  · rw [this]; decide
  · rw [this]; decide

/-- `stroke-width: 2ex` on this element. -/
example (limit : ℕ) : computed (sample "2ex") limit = .error .recursion :=
  recursion_violated (n := 2) (u := .ex) (sample_good _) rfl (sample_text _) rfl
    (by simp [sample])
    (.inl rfl) limit

example : Spaced " weight\n style".toList ["weight".toList, "style".toList] := by
  have h : Spaced ([' '] ++ "style".toList) ["style".toList] :=
    .last (by decide) ⟨by decide, by decide⟩
  exact Spaced.word (w := [' ']) (p := "weight".toList) (c := '\n') (by decide)
    ⟨by decide, by decide⟩ (by decide) h

end SvgPy.CompStyle
