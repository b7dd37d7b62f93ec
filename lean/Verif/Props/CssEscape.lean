import Verif.Model.CssEscape
import Mathlib.Data.Nat.Basic
import Mathlib.Tactic.IntervalCases

/-! Property C21: `CSS.escape` against the tokenizer of CSS Syntax Level 3. -/

set_option linter.unusedSimpArgs false

namespace SvgPy.CssEscape

/-! ### Specification: reading an identifier (CSS Syntax 3, sections 4.3.7-4.3.11) -/

/-- Value of a hexadecimal digit. -/
def hexVal (c : Char) : Option Nat :=
  if '0'.toNat ≤ c.toNat ∧ c.toNat ≤ '9'.toNat then some (c.toNat - 48)
  else if 'a'.toNat ≤ c.toNat ∧ c.toNat ≤ 'f'.toNat then some (c.toNat - 87)
  else if 'A'.toNat ≤ c.toNat ∧ c.toNat ≤ 'F'.toNat then some (c.toNat - 55)
  else none

/-- Up to `n` hexadecimal digits: the number they denote (after `acc`) and the rest. -/
def readHex : Nat → Nat → Str → Nat × Str
  | 0, acc, s => (acc, s)
  | _ + 1, acc, [] => (acc, [])
  | n + 1, acc, c :: s =>
    match hexVal c with
    | none => (acc, c :: s)
    | some d => readHex n (16 * acc + d) s

/-- White space: newline, tab, space (others are gone after preprocessing). -/
def isWs (c : Char) : Bool := c = '\n' || c = '\t' || c = ' '

/-- One white space character after a hexadecimal escape is dropped. -/
def dropWs : Str → Str
  | [] => []
  | c :: s => if isWs c then s else c :: s

/-- The character a code point stands for; invalid ones are replaced. -/
def codePoint (n : Nat) : Char :=
  if n = 0 ∨ (0xD800 ≤ n ∧ n ≤ 0xDFFF) ∨ 0x10FFFF < n then '�' else Char.ofNat n

/-- An escaped code point, after the backslash (4.3.7). -/
def readEscape : Str → Char × Str
  | [] => ('�', [])
  | c :: s =>
    if (hexVal c).isSome then (codePoint (readHex 6 0 (c :: s)).1, dropWs (readHex 6 0 (c :: s)).2)
    else (c, s)

/-- Letter, underscore or not ASCII. -/
def identStart (c : Char) : Bool :=
  ('A'.toNat ≤ c.toNat && c.toNat ≤ 'Z'.toNat) || ('a'.toNat ≤ c.toNat && c.toNat ≤ 'z'.toNat) ||
  c = '_' || 0x80 ≤ c.toNat

/-- Identifier code point. -/
def identChar (c : Char) : Bool :=
  identStart c || ('0'.toNat ≤ c.toNat && c.toNat ≤ '9'.toNat) || c = '-'

/-- A backslash not followed by a newline (4.3.8). -/
def validEscape : Str → Bool
  | '\\' :: '\n' :: _ => false
  | '\\' :: _ => true
  | _ => false

/-- Would the text start an identifier (4.3.9)? -/
def startsIdent : Str → Bool
  | '-' :: '-' :: _ => true
  | '-' :: c :: s => identStart c || validEscape (c :: s)
  | '-' :: [] => false
  | c :: s => identStart c || validEscape (c :: s)
  | [] => false

/-- Consume an identifier (4.3.11): its value and the rest.  The first argument bounds
the number of steps; the length of the text is enough. -/
def readName : Nat → Str → Str × Str
  | 0, s => ([], s)
  | _ + 1, [] => ([], [])
  | n + 1, c :: s =>
    if identChar c then (c :: (readName n s).1, (readName n s).2)
    else if validEscape (c :: s) then
      ((readEscape s).1 :: (readName n (readEscape s).2).1, (readName n (readEscape s).2).2)
    else ([], c :: s)

/-- NUL cannot be expressed in CSS. -/
def noNul (c : Char) : Char := if c = '\x00' then '�' else c

/-! ### Proofs -/

private theorem hexVal_hexDigit (d : Nat) (h : d < 16) : hexVal (hexDigit d) = some d := by
  interval_cases d <;> decide

private theorem readHex_space (n acc : Nat) (r : Str) : readHex n acc (' ' :: r) = (acc, ' ' :: r) := by
  cases n with
  | zero => rfl
  | succ n => simp [readHex, show hexVal ' ' = none by decide]

private theorem hexDigit_ne_nl (d : Nat) (h : d < 16) : hexDigit d ≠ '\n' := by
  interval_cases d <;> decide

private theorem char_ofNat (c : Char) : Char.ofNat c.toNat = c := by
  simp

private theorem codePoint_small (c : Char) (h0 : c.toNat ≠ 0) (h : c.toNat < 256) :
    codePoint c.toNat = c := by
  unfold codePoint
  rw [if_neg (by omega)]
  exact char_ofNat c

private theorem readEscape_hex (c : Char) (h0 : c.toNat ≠ 0) (h : c.toNat < 256) (r : Str) :
    readEscape (hex c.toNat ++ ' ' :: r) = (c, r) := by
  unfold hex
  by_cases hs : c.toNat < 16
  · rw [if_pos hs]
    have h1 := hexVal_hexDigit c.toNat hs
    simp only [List.cons_append, List.nil_append, readEscape, h1, Option.isSome_some, if_true]
    simp only [readHex, h1, show hexVal ' ' = none by decide, Nat.mul_zero, Nat.zero_add, codePoint_small c h0 h]
    simp [dropWs, isWs]
  · rw [if_neg hs]
    have h1 := hexVal_hexDigit (c.toNat / 16) (by omega)
    have h2 := hexVal_hexDigit (c.toNat % 16) (by omega)
    simp only [List.cons_append, List.nil_append, readEscape, h1, Option.isSome_some, if_true]
    simp only [readHex, h1, h2, show hexVal ' ' = none by decide, Nat.mul_zero, Nat.zero_add]
    have e : 16 * (c.toNat / 16) + c.toNat % 16 = c.toNat := by omega
    rw [e, codePoint_small c h0 h]
    simp [dropWs, isWs]

private theorem validEscape_hex (n : Nat) (h : n < 256) (r : Str) : validEscape ('\\' :: (hex n ++ r)) = true := by
  unfold hex
  by_cases hs : n < 16
  · rw [if_pos hs]
    have := hexDigit_ne_nl n hs
    simp only [List.cons_append, List.nil_append]
    rw [validEscape]
    · intro a e; simp only [List.cons.injEq, true_and] at e; exact this e.1
  · rw [if_neg hs]
    have := hexDigit_ne_nl (n / 16) (by omega)
    simp only [List.cons_append, List.nil_append]
    rw [validEscape]
    · intro a e; simp only [List.cons.injEq, true_and] at e; exact this e.1

private theorem validEscape_char (c : Char) (h : c ≠ '\n') (r : Str) : validEscape ('\\' :: c :: r) = true := by
  rw [validEscape]
  intro a e; simp only [List.cons.injEq, true_and] at e; exact h e.1

private theorem toNat_inj {a b : Char} (h : a.toNat = b.toNat) : a = b := by
  rw [← char_ofNat a, ← char_ofNat b, h]

private theorem safe_ident (c : Char) (h : isSafe c = true) : identChar c = true := by
  simp only [isSafe, isDigit, Bool.or_eq_true, decide_eq_true_eq, Bool.and_eq_true] at h
  simp only [identChar, identStart, Bool.or_eq_true, decide_eq_true_eq, Bool.and_eq_true]
  tauto

private theorem not_safe (c : Char) (h : isSafe c = false) : hexVal c = none := by
  have e1 : '0'.toNat = 48 := rfl
  have e2 : '9'.toNat = 57 := rfl
  have e3 : 'a'.toNat = 97 := rfl
  have e4 : 'f'.toNat = 102 := rfl
  have e5 : 'z'.toNat = 122 := rfl
  have e6 : 'A'.toNat = 65 := rfl
  have e7 : 'F'.toNat = 70 := rfl
  have e8 : 'Z'.toNat = 90 := rfl
  simp only [isSafe, isDigit, Bool.or_eq_false_iff, decide_eq_false_iff_not, Bool.and_eq_false_iff] at h
  obtain ⟨⟨⟨⟨⟨_, _⟩, _⟩, h1⟩, h2⟩, h3⟩ := h
  unfold hexVal
  rw [if_neg (by omega), if_neg (by omega), if_neg (by omega)]

private theorem backslash_not_ident : identChar '\\' = false := by decide

private theorem readName_esc (n : Nat) (t : Str) (c : Char) (r : Str) (hv : validEscape ('\\' :: t) = true)
    (he : readEscape t = (c, r)) :
    readName (n + 1) ('\\' :: t) = (c :: (readName n r).1, (readName n r).2) := by
  simp only [readName, backslash_not_ident, Bool.false_eq_true, if_false, hv, if_true, he]

private theorem escapeChar_pos (dash single : Bool) (i : Nat) (c : Char) :
    1 ≤ (escapeChar dash single i c).length := by
  unfold escapeChar
  split
  · simp
  split
  · simp
  split
  · simp
  split <;> simp

/-- Reading the escaped form of one character. -/
private theorem readName_escapeChar (dash single : Bool) (i : Nat) (c : Char) (n : Nat) (r : Str) :
    readName (n + 1) (escapeChar dash single i c ++ r) = (noNul c :: (readName n r).1, (readName n r).2) := by
  unfold escapeChar
  by_cases h0 : c = '\x00'
  · rw [if_pos h0]
    subst h0
    simp [readName, show identChar '�' = true by decide, noNul]
  rw [if_neg h0]
  have hn0 : c.toNat ≠ 0 := fun e => h0 (toNat_inj (by rw [e]; rfl))
  have hnn : noNul c = c := by simp [noNul, h0]
  rw [hnn]
  by_cases hx : (isControl c || (i = 0 && isDigit c) || (i = 1 && isDigit c && dash)) = true
  · rw [if_pos hx]
    have hlt : c.toNat < 256 := by
      have e2 : '9'.toNat = 57 := rfl
      simp only [isControl, isDigit, Bool.or_eq_true, Bool.and_eq_true, decide_eq_true_eq] at hx
      omega
    have e : '\\' :: hex c.toNat ++ [' '] ++ r = '\\' :: (hex c.toNat ++ ' ' :: r) := by simp
    rw [e]
    exact readName_esc n _ c r (validEscape_hex _ hlt _) (readEscape_hex c hn0 hlt r)
  rw [if_neg hx]
  have hnl : c ≠ '\n' := by
    rintro rfl
    exact hx (by simp [isControl])
  by_cases hd : (i = 0 && c = '-' && single) = true
  · rw [if_pos hd]
    have hc : c = '-' := by
      simp only [Bool.and_eq_true, decide_eq_true_eq] at hd; exact hd.1.2
    subst hc
    refine readName_esc n _ '-' r (validEscape_char _ (by decide) r) ?_
    simp [readEscape, show hexVal '-' = none by decide]
  rw [if_neg hd]
  by_cases hs : isSafe c = true
  · rw [if_pos hs]
    simp [readName, safe_ident c hs]
  · rw [if_neg hs]
    have hs' : isSafe c = false := by simpa using hs
    refine readName_esc n _ c r (validEscape_char _ hnl r) ?_
    simp [readEscape, not_safe c hs']

/-- What follows does not continue the identifier. -/
def Ends (r : Str) : Prop := (∀ c t, r = c :: t → identChar c = false) ∧ validEscape r = false

private theorem readName_ends (n : Nat) (r : Str) (h : Ends r) : readName n r = ([], r) := by
  cases n with
  | zero => rfl
  | succ n =>
    cases r with
    | nil => rfl
    | cons c t => simp [readName, h.1 c t rfl, h.2]

private theorem readName_escapeFrom (dash single : Bool) (s : Str) (r : Str) (h : Ends r) : ∀ (i n : Nat),
    s.length ≤ n → readName n (escapeFrom dash single i s ++ r) = (s.map noNul, r) := by
  induction s with
  | nil => intro i n _; simp only [escapeFrom, List.nil_append, readName_ends n r h, List.map_nil]
  | cons c s ih =>
    intro i n hn
    obtain ⟨m, rfl⟩ : ∃ m, n = m + 1 := ⟨n - 1, by simp at hn; omega⟩
    simp only [escapeFrom, List.append_assoc, readName_escapeChar]
    rw [ih (i + 1) m (by simpa using hn)]
    rfl

private theorem length_escapeFrom (dash single : Bool) (s : Str) : ∀ i,
    s.length ≤ (escapeFrom dash single i s).length := by
  induction s with
  | nil => intro i; simp
  | cons c s ih =>
    intro i
    have := escapeChar_pos dash single i c
    have := ih (i + 1)
    simp only [escapeFrom, List.length_append, List.length_cons]
    omega

/-- **C21** (value).  A tokenizer reads the escaped text as one name whose value is the
string (NUL replaced), and stops exactly at the end of the escaped text. -/
theorem readName_escape (s r : Str) (h : Ends r) :
    readName (escape s ++ r).length (escape s ++ r) = (s.map noNul, r) := by
  refine readName_escapeFrom _ _ s r h 0 _ ?_
  have := length_escapeFrom (s.head? = some '-') (s.length = 1) s 0
  simp only [List.length_append]
  unfold escape
  omega

private theorem startsIdent_of (c : Char) (t : Str) (hd : c ≠ '-')
    (h : identStart c = true ∨ validEscape (c :: t) = true) : startsIdent (c :: t) = true := by
  rw [startsIdent]
  · rcases h with h | h <;> simp [h]
  all_goals intros; simp_all

/-- Escaped characters other than a plain hyphen start an identifier at index 0, and
after a hyphen at index 1. -/
private theorem start_char (dash single : Bool) (i : Nat) (c : Char) (r : Str)
    (hi : i = 0 ∨ (i = 1 ∧ dash = true)) (hd : c ≠ '-') :
    ∃ x t, escapeChar dash single i c ++ r = x :: t ∧ x ≠ '-' ∧
      (identStart x = true ∨ validEscape (x :: t) = true) := by
  unfold escapeChar
  by_cases h0 : c = '\x00'
  · rw [if_pos h0]; exact ⟨'�', r, rfl, by decide, .inl (by decide)⟩
  rw [if_neg h0]
  by_cases hx : (isControl c || (i = 0 && isDigit c) || (i = 1 && isDigit c && dash)) = true
  · rw [if_pos hx]
    have hlt : c.toNat < 256 := by
      have e2 : '9'.toNat = 57 := rfl
      simp only [isControl, isDigit, Bool.or_eq_true, Bool.and_eq_true, decide_eq_true_eq] at hx
      omega
    refine ⟨'\\', hex c.toNat ++ ([' '] ++ r), by simp, by decide, .inr (validEscape_hex _ hlt _)⟩
  rw [if_neg hx, if_neg (by simp [hd])]
  have hnl : c ≠ '\n' := by
    rintro rfl
    exact hx (by simp [isControl])
  have hdig : isDigit c = false := by
    by_contra hb
    have hb : isDigit c = true := by simpa using hb
    rcases hi with rfl | ⟨rfl, rfl⟩ <;> simp [hb] at hx
  by_cases hs : isSafe c = true
  · rw [if_pos hs]
    refine ⟨c, r, rfl, hd, .inl ?_⟩
    simp only [isSafe, hdig, hd, Bool.or_eq_true, decide_eq_true_eq, Bool.and_eq_true, Bool.false_eq_true,
      or_false] at hs
    simp only [identStart, Bool.or_eq_true, decide_eq_true_eq, Bool.and_eq_true]
    tauto
  · rw [if_neg hs]
    exact ⟨'\\', c :: r, rfl, by decide, .inr (validEscape_char c hnl r)⟩

/-- **C21** (identifier).  The escaped form of any non-empty string starts an
identifier. -/
theorem startsIdent_escape (s : Str) (hs : s ≠ []) (r : Str) : startsIdent (escape s ++ r) = true := by
  cases s with
  | nil => exact absurd rfl hs
  | cons c s =>
    unfold escape
    simp only [escapeFrom, List.append_assoc]
    by_cases hd : c = '-'
    · subst hd
      cases s with
      | nil =>
        have e : escapeChar (decide (['-'].head? = some '-')) (decide (['-'].length = 1)) 0 '-' = ['\\', '-'] := by
          decide
        rw [e]
        exact startsIdent_of _ _ (by decide) (.inr (validEscape_char '-' (by decide) _))
      | cons c2 s =>
        have e : escapeChar (decide (('-' :: c2 :: s).head? = some '-'))
            (decide (('-' :: c2 :: s).length = 1)) 0 '-' = ['-'] := by
          simp [escapeChar, isControl, isDigit, isSafe]
        rw [e]
        simp only [escapeFrom, List.append_assoc, List.cons_append, List.nil_append]
        by_cases hd2 : c2 = '-'
        · subst hd2
          have e2 : escapeChar (decide (('-' :: '-' :: s).head? = some '-'))
              (decide (('-' :: '-' :: s).length = 1)) (0 + 1) '-' = ['-'] := by
            simp [escapeChar, isControl, isDigit, isSafe]
          rw [e2]
          rfl
        · obtain ⟨x, t, h1, h2, h3⟩ := start_char (decide (('-' :: c2 :: s).head? = some '-'))
            (decide (('-' :: c2 :: s).length = 1)) 1 c2
            (escapeFrom (decide (('-' :: c2 :: s).head? = some '-'))
              (decide (('-' :: c2 :: s).length = 1)) (0 + 1 + 1) s ++ r) (.inr ⟨rfl, by simp⟩) hd2
          simp only [Nat.zero_add] at h1 ⊢
          rw [h1, startsIdent]
          · rcases h3 with h | h <;> simp [h]
          · exact h2
    · obtain ⟨x, t, h1, h2, h3⟩ := start_char (decide ((c :: s).head? = some '-'))
        (decide ((c :: s).length = 1)) 0 c
        (escapeFrom (decide ((c :: s).head? = some '-')) (decide ((c :: s).length = 1)) (0 + 1) s ++ r)
        (.inl rfl) hd
      rw [h1]
      exact startsIdent_of x t h2 h3

private theorem ends_nil : Ends [] := ⟨by simp, rfl⟩

/-- **C21** (no collisions).  Different strings without NUL have different escaped
forms. -/
theorem escape_injective (s t : Str) (hs : '\x00' ∉ s) (ht : '\x00' ∉ t) (h : escape s = escape t) :
    s = t := by
  have h1 := readName_escape s [] ends_nil
  have h2 := readName_escape t [] ends_nil
  rw [h, h2] at h1
  have hm : ∀ u : Str, '\x00' ∉ u → u.map noNul = u := by
    intro u hu
    conv_rhs => rw [← List.map_id u]
    apply List.map_congr_left
    intro c hc
    have : c ≠ '\x00' := fun e => hu (e ▸ hc)
    simp [noNul, this]
  have := congrArg Prod.fst h1
  simp only [hm s hs, hm t ht] at this
  exact this.symm

/-- **C21** (transport).  The escaped text has no NUL, form feed, carriage return or
newline, so the preprocessing of a style sheet leaves it alone. -/
theorem escape_no_control (s : Str) (c : Char) (h : c ∈ escape s) :
    c ≠ '\x00' ∧ c ≠ '\x0c' ∧ c ≠ '\r' ∧ c ≠ '\n' := by
  have hexOk : ∀ d, d < 16 → ∀ c, c = hexDigit d → c ≠ '\x00' ∧ c ≠ '\x0c' ∧ c ≠ '\r' ∧ c ≠ '\n' := by
    intro d hd c hc
    subst hc
    interval_cases d <;> decide
  have key : ∀ (dash single : Bool) (i : Nat) (x : Char), c ∈ escapeChar dash single i x →
      c ≠ '\x00' ∧ c ≠ '\x0c' ∧ c ≠ '\r' ∧ c ≠ '\n' := by
    intro dash single i x hc
    unfold escapeChar at hc
    by_cases h0 : x = '\x00'
    · rw [if_pos h0] at hc
      simp only [List.mem_cons, List.not_mem_nil, or_false] at hc
      subst hc; decide
    rw [if_neg h0] at hc
    by_cases hx : (isControl x || (i = 0 && isDigit x) || (i = 1 && isDigit x && dash)) = true
    · rw [if_pos hx] at hc
      have hlt : x.toNat < 256 := by
        have e2 : '9'.toNat = 57 := rfl
        simp only [isControl, isDigit, Bool.or_eq_true, Bool.and_eq_true, decide_eq_true_eq] at hx
        omega
      simp only [List.cons_append, List.mem_cons, List.mem_append, List.not_mem_nil, or_false] at hc
      rcases hc with rfl | hc | rfl
      · decide
      · unfold hex at hc
        split at hc
        · rename_i h16
          simp only [List.mem_cons, List.not_mem_nil, or_false] at hc
          exact hexOk _ h16 _ hc
        · simp only [List.mem_cons, List.not_mem_nil, or_false] at hc
          rcases hc with hc | hc
          · exact hexOk _ (by omega) _ hc
          · exact hexOk _ (by omega) _ hc
      · decide
    rw [if_neg hx] at hc
    have hcc : c = x ∨ c = '\\' := by
      split at hc
      · simp at hc; tauto
      split at hc
      · simp at hc; tauto
      · simp at hc; tauto
    rcases hcc with rfl | rfl
    · refine ⟨h0, ?_, ?_, ?_⟩ <;> rintro rfl <;> exact hx (by simp [isControl])
    · decide
  have all : ∀ (dash single : Bool) (s : Str) (i : Nat), c ∈ escapeFrom dash single i s →
      c ≠ '\x00' ∧ c ≠ '\x0c' ∧ c ≠ '\r' ∧ c ≠ '\n' := by
    intro dash single s
    induction s with
    | nil => intro i hc; simp [escapeFrom] at hc
    | cons x s ih =>
      intro i hc
      simp only [escapeFrom, List.mem_append] at hc
      rcases hc with hc | hc
      · exact key _ _ _ _ hc
      · exact ih _ hc
  exact all _ _ s 0 h

/-- Non-trivial instances. -/
example : escape "-1a b\x01f".toList = "-\\31 a\\ b\\1 f".toList := by decide

example : readName 20 "-\\31 a\\ b\\1 f{".toList = ("-1a b\x01f".toList, "{".toList) := by decide

example : Ends "{".toList := by
  refine ⟨?_, by decide⟩
  intro c t h
  have h : ['{'] = c :: t := h
  simp only [List.cons.injEq] at h
  rw [← h.1]; decide

end SvgPy.CssEscape
