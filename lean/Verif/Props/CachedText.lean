import Verif.Model.CachedText
import Verif.Props.Formatter

/-! Property C69: the text of a changed value. -/

set_option linter.unusedSimpArgs false

namespace SvgPy.CachedText

open SvgPy.Unparsed

/-- The texts that show a content: the keyword; the number rounded to `p` decimals, followed by
`%`, nothing or the unit; the texts and references of an unparsed value one after the other. -/
def Shows (p : Nat) : Body → Str → Prop
  | .keyword s, t => t = s
  | .unit x u, t => ∃ n r, Formatter.readNum n = some r ∧ Formatter.Rounded p x r ∧
      ((u = "number".toList ∧ t = n) ∨ (u = "percent".toList ∧ t = n ++ "%".toList) ∨
        (u ≠ "number".toList ∧ u ≠ "percent".toList ∧ t = n ++ u))
  | .unparsed l, t => t = (l.map Member.ser).flatten

theorem sers_flatten (l : List Member) : sers l = (l.map Member.ser).flatten := by
  induction l with
  | nil => simp [sers]
  | cons m l ih => simp [sers, ih]

theorem shows_none (p : Nat) (hp : p ≠ 0) (v : Value) (h : v.cssText = none) : Shows p v.body (tostring p v) := by
  unfold tostring
  rw [h]
  obtain ⟨b, t⟩ := v
  cases b with
  | keyword s => rfl
  | unparsed l => exact sers_flatten l
  | unit x u =>
    obtain ⟨r, h1, h2⟩ := Formatter.format_read p hp x
    refine ⟨_, r, h1, h2, ?_⟩
    simp only [suffix]
    by_cases e1 : u = "number".toList
    · left; rw [if_pos e1]; exact ⟨e1, by simp⟩
    · rw [if_neg e1]
      by_cases e2 : u = "percent".toList
      · right; left; rw [if_pos e2]; exact ⟨e2, rfl⟩
      · right; right; rw [if_neg e2]; exact ⟨e1, e2, rfl⟩

theorem change_cssText (v v' : Value) (c : Change) (h : change v c = .ok v') : v'.cssText = v.cssText := by
  obtain ⟨b, t⟩ := v
  unfold change at h
  split at h
  · split at h
    · cases h
    · cases h; rfl
  · cases h
  · cases h; rfl
  · split at h
    · cases h; rfl
    · cases h
  · split at h
    · cases h; rfl
    · cases h
  · cases h

theorem run_cssText (v : Value) (cs : List Change) : (run v cs).cssText = v.cssText := by
  induction cs generalizing v with
  | nil => rfl
  | cons c cs ih =>
    rw [run]
    cases h : change v c with
    | ok v' => simp only; rw [ih, change_cssText v v' c h]
    | error e => exact ih v

/-- **C69** After any changes the text of a value shows its content.  Missing: values that were
parsed, see `text_stale` and `text_violated`. -/
theorem text_partial (p : Nat) (hp : p ≠ 0) (b : Body) (cs : List Change) :
    Shows p (run (construct b) cs).body (tostring p (run (construct b) cs)) :=
  shows_none p hp _ (by rw [run_cssText]; rfl)

/-- **C69** The text of a parsed value is the text it was parsed from, whatever the changes. -/
theorem text_stale (p : Nat) (b : Body) (text : Str) (cs : List Change) : tostring p (run (parsed b text) cs) = text := by
  unfold tostring
  rw [run_cssText]
  rfl

/-- **C69** is violated: `CSSStyleValue.parse('color', 'red')` set to `blue` still has the text
`red`, although its value is `blue`. -/
theorem text_violated (p : Nat) : ∃ v, v = run (parsed (.keyword "red".toList) "red".toList) [.setKeyword (some "blue".toList)] ∧
    v.body = .keyword "blue".toList ∧ tostring p v = "red".toList ∧ ¬ Shows p v.body (tostring p v) := by
  refine ⟨_, rfl, rfl, rfl, ?_⟩
  intro h
  exact absurd (show "red".toList = "blue".toList from h) (by decide)

/-- **C69** The changes do what they say: the value is the one assigned, the unit stays; empty
keywords are refused and nothing is changed. -/
theorem change_spec (v : Value) :
    (∀ a s, v.body = .keyword a → s ≠ [] → change v (.setKeyword (some s)) = .ok { v with body := .keyword s }) ∧
      (∀ a, v.body = .keyword a → change v (.setKeyword (some [])) = .error .valueError ∧ change v (.setKeyword none) = .error .valueError) ∧
      (∀ y u x, v.body = .unit y u → change v (.setNumber x) = .ok { v with body := .unit x u }) := by
  refine ⟨?_, ?_, ?_⟩
  · intro a s h hs
    unfold change
    rw [h]
    have : s.length ≠ 0 := by simpa using hs
    simp only
    rw [if_neg this]
  · intro a h
    unfold change
    rw [h]
    exact ⟨rfl, rfl⟩
  · intro y u x h
    unfold change
    rw [h]

/-- A non-trivial instance: `10PX` set to `12.5` reads `12.5px`. -/
example : tostring 6 (run (construct (.unit 10 "PX".toList)) [.setNumber (25 / 2)]) = "12.5px".toList := by decide +kernel

end SvgPy.CachedText
