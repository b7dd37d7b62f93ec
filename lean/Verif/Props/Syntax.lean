import Verif.Model.Syntax
import Mathlib.Data.List.Chain

/-!
C109: a property supports exactly the values that its syntax names.
-/

set_option linter.unusedSimpArgs false
set_option linter.unusedVariables false

namespace SvgPy.Syntax

open SvgPy.PyStr

/-! ### Specification -/

namespace Spec

/-- A term of a syntax: a type such as `<length>`, a function such as `<blur()>`, a keyword, or a type
that is not known. -/
inductive Term
  | type (t : Ty)
  | func (name args : Str)
  | word (w : Str)
  | foreign (name : Str)
  deriving DecidableEq

def tyName : Ty → String
  | .length => "length"
  | .number => "number"
  | .percentage => "percentage"
  | .lengthPercentage => "length-percentage"
  | .color => "color"
  | .image => "image"
  | .url => "url"
  | .integer => "integer"
  | .angle => "angle"
  | .time => "time"
  | .resolution => "resolution"
  | .transformFunction => "transform-function"
  | .customIdent => "custom-ident"
  | .transformList => "transform-list"
  | .any => "any"
  | .string => "string"

def Term.text : Term → Str
  | .type t => '<' :: ((tyName t).toList ++ ['>'])
  | .func n a => '<' :: (n ++ '(' :: (a ++ [')', '>']))
  | .word w => w
  | .foreign n => '<' :: (n ++ ['>'])

def signs : List Char := ['*', '+', '?', '#', '!']

def combinatorChars : List Char := [' ', '|', '[', ']', '&']

def Digits (s : Str) : Prop := s ≠ [] ∧ ∀ c ∈ s, '0' ≤ c ∧ c ≤ '9'

/-- How often a term may occur: a sign, a range such as `{1,4}`, or both. -/
inductive Range : Str → Prop
  | exact (a : Str) : Digits a → Range ('{' :: (a ++ ['}']))
  | atLeast (a : Str) : Digits a → Range ('{' :: (a ++ [',', '}']))
  | between (a b : Str) : Digits a → Digits b → Range ('{' :: (a ++ ',' :: (b ++ ['}'])))

inductive Multiplier : Str → Prop
  | none : Multiplier []
  | sign (c : Char) : c ∈ signs → Multiplier [c]
  | signs (c d : Char) : c ∈ signs → d ∈ signs → Multiplier [c, d]
  | range (r : Str) : Range r → Multiplier r
  | both (c : Char) (r : Str) : c ∈ signs → Range r → Multiplier (c :: r)

def NameChar (c : Char) : Prop :=
  ('a' ≤ c ∧ c ≤ 'z') ∨ ('A' ≤ c ∧ c ≤ 'Z') ∨ ('0' ≤ c ∧ c ≤ '9') ∨ c = '_' ∨ c = '-'

def Term.Ok : Term → Prop
  | .type t => t ≠ .any
  | .func n a => (∃ c l, n = c :: l ∧ ¬('0' ≤ c ∧ c ≤ '9')) ∧ (∀ c ∈ n, NameChar c) ∧
      ∀ c ∈ a, c ≠ ')' ∧ c ∉ combinatorChars
  | .word w => w ≠ [] ∧ (∀ c ∈ w, c ∉ combinatorChars ∧ c ∉ signs ∧ c ≠ '{') ∧ w.head? ≠ some '<' ∧
      w.getLast? ≠ some '>'
  | .foreign n => (∀ c ∈ n, NameChar c) ∧ ∀ t, n ≠ (tyName t).toList

/-- A syntax is a sequence of terms with multipliers, of combinators, and of closing brackets with
multipliers. -/
inductive Elem
  | item (t : Term) (m : Str)
  | comb (s : String)
  | close (m : Str)

def Elem.text : Elem → Str
  | .item t m => t.text ++ m
  | .comb s => s.toList
  | .close m => ']' :: m

def Elem.Ok : Elem → Prop
  | .item t m => t.Ok ∧ Multiplier m
  | .comb s => s ∈ [" ", "|", "||", "&&", "["]
  | .close m => Multiplier m

/-- A term stands after a combinator or a bracket. -/
def Fits : Elem → Elem → Prop
  | .item _ _, .item _ _ => False
  | .close m, .item _ _ => m = []
  | _, _ => True

structure Wf (es : List Elem) : Prop where
  ok : ∀ e ∈ es, e.Ok
  fits : es.IsChain Fits

def text (es : List Elem) : Str := es.flatMap Elem.text

def terms : List Elem → List Term
  | [] => []
  | .item t _ :: es => t :: terms es
  | _ :: es => terms es

def wides : List String := ["default", "inherit", "initial", "revert", "unset"]

def angles : List String := ["deg", "grad", "rad", "turn"]

def times : List String := ["s", "ms"]

def resolutions : List String := ["dpi", "dpcm", "dppx"]

def lengths : List String := ["em", "ex", "cap", "ch", "ic", "rem", "lh", "rlh", "vw", "vh", "vi", "vb", "vmin",
  "vmax", "cm", "mm", "q", "in", "pt", "pc", "px"]

def colors : List String := ["rgb", "rgba", "hsl", "hsla", "hwb", "gray", "device-cmyk"]

def images : List String := ["cross-fade", "image", "image-set", "conic-gradient", "linear-gradient",
  "radial-gradient", "repeating-conic-gradient", "repeating-linear-gradient", "repeating-radial-gradient"]

def maths : List String := ["calc", "min", "max", "clamp"]

def transforms : List String := ["matrix", "translate", "translatex", "translatey", "scale", "scalex", "scaley",
  "rotate", "skew", "skewx", "skewy"]

/-- The word is one of the list. -/
def In (s : Str) (l : List String) : Prop := ∃ w ∈ l, s = w.toList

def Hex (c : Char) : Prop := ('0' ≤ c ∧ c ≤ '9') ∨ ('a' ≤ c ∧ c ≤ 'f') ∨ ('A' ≤ c ∧ c ≤ 'F')

/-- Which tokens a term stands for. -/
def Accepts (named : Str → Bool) (low : Str → Str) : Term → Tok → Prop
  | .type .length, .dimension u => In u lengths
  | .type .length, .number _ => True
  | .type .number, .number _ => True
  | .type .integer, .number i => i = true
  | .type .percentage, .percentage => True
  | .type .lengthPercentage, .dimension u => In u lengths
  | .type .lengthPercentage, .number _ => True
  | .type .lengthPercentage, .percentage => True
  | .type .lengthPercentage, .func n => In n maths
  | .type .angle, .dimension u => In u angles
  | .type .time, .dimension u => In u times
  | .type .resolution, .dimension u => In u resolutions
  | .type .color, .func n => In n colors
  | .type .color, .hash v => (∀ c ∈ v, Hex c) ∧ (v.length = 3 ∨ v.length = 4 ∨ v.length = 6 ∨ v.length = 8)
  | .type .color, .ident v l => l = "currentcolor".toList ∨ named v = true
  | .type .image, .func n => In n images
  | .type .image, .url => True
  | .type .url, .url => True
  | .type .transformFunction, .func n => In n transforms
  | .type .transformList, .func n => In n transforms
  | .type .customIdent, .ident _ _ => True
  | .type .string, .string _ _ => True
  | .func f _, .func n => low f = n ∧ ¬In n (colors ++ images ++ maths ++ transforms)
  | .word w, .ident v _ => v = w ∧ ¬In (low w) (["currentcolor", "transparent"] ++ wides)
  | .word w, .literal v => v = w ∧ ¬In (low w) (["currentcolor", "transparent"] ++ wides)
  | _, _ => False

/-- Tokens that are let through besides. -/
def Lenient (named : Str → Bool) (low : Str → Str) : Term → Tok → Prop
  | .type .length, .dimension u => In u ["hz", "khz", "fr"]
  | .type .lengthPercentage, .dimension u => In u ["hz", "khz", "fr"]
  | .type .string, .ident _ _ => True
  | .type .string, .number _ => True
  | .type .customIdent, .number _ => True
  | .type .customIdent, .string _ _ => True
  | .type .customIdent, .literal _ => True
  | .type .color, .string v l => l = "currentcolor".toList ∨ named v = true
  | .word w, .string v _ => v = w ∧ ¬In (low w) (["currentcolor", "transparent"] ++ wides)
  | _, _ => False

/-- A CSS-wide keyword, which every property supports. -/
def Wide : Tok → Prop
  | .ident _ l => In l wides
  | _ => False

def WideString : Tok → Prop
  | .string _ l => In l wides
  | _ => False

/-- Tokens that are no values. -/
def Bad : Tok → Prop
  | .error => True
  | .another => True
  | .whitespace => True
  | _ => False

/-- The property with this syntax supports the token. -/
def Supported (named : Str → Bool) (low : Str → Str) (es : List Elem) (tok : Tok) : Prop :=
  Wide tok ∨ WideString tok ∨ tok = .func "var".toList ∨
    ∃ t ∈ terms es, Accepts named low t tok ∨ Lenient named low t tok

end Spec

open Spec

/-! ### Splitting -/

theorem sign_iff (c : Char) : isSign c = true ↔ c ∈ signs := by
  simp [isSign, signs, or_assoc]

theorem digit_iff (c : Char) : isDigit c = true ↔ '0' ≤ c ∧ c ≤ '9' := by
  simp [isDigit]

def keep (x : Str) : List Str := if isMultiplier x then [] else [x]

def parts (cur s : Str) : List Str := (split cur s).filter fun x => !isMultiplier x

theorem parts_nil (cur : Str) : parts cur [] = keep cur := by
  unfold parts keep
  rw [split, List.filter_cons]
  cases isMultiplier cur <;> rfl

theorem parts_cons (cur s r : Str) (h : split cur s = cur :: split [] r) : parts cur s = keep cur ++ parts [] r := by
  unfold parts keep
  rw [h, List.filter_cons]
  cases isMultiplier cur <;> rfl

theorem keep_nil : keep [] = [] := rfl

theorem components_eq (s : Str) : components s = parts [] s := by
  unfold components parts
  rw [List.filter_filter]
  congr 1
  funext x
  have : ∀ x ∈ ["", "*", "+", "?", "#", "!"].map String.toList, isMultiplier x = true := by decide +kernel
  by_cases h : x ∈ ["", "*", "+", "?", "#", "!"].map String.toList
  · rw [this x h]; rfl
  · have : (["", "*", "+", "?", "#", "!"].map String.toList).contains x = false := by
      rw [Bool.eq_false_iff]
      exact fun hc => h (List.contains_iff_mem.1 hc)
    rw [this, Bool.not_false, Bool.and_true]

theorem split_plain (cur : Str) (c : Char) (l : Str) (h : c ∉ combinatorChars) :
    split cur (c :: l) = split (cur ++ [c]) l := by
  simp only [combinatorChars, List.mem_cons, List.not_mem_nil, or_false, not_or] at h
  obtain ⟨h1, h2, h3, h4, h5⟩ := h
  cases l with
  | nil => simp [split, h1, h2, h3, h4]
  | cons d l =>
    rw [split]
    · simp [h1, h2, h3, h4]
    · intro l' h6; simp_all
    · intro l' h6; simp_all

theorem parts_word (w cur s : Str) (h : ∀ c ∈ w, c ∉ combinatorChars) : parts cur (w ++ s) = parts (cur ++ w) s := by
  induction w generalizing cur with
  | nil => simp
  | cons c w ih =>
    have : split cur (c :: (w ++ s)) = split (cur ++ [c]) (w ++ s) := split_plain _ _ _ (h c List.mem_cons_self)
    have e : parts cur (c :: w ++ s) = parts (cur ++ [c]) (w ++ s) := by
      unfold parts; rw [List.cons_append, this]
    rw [e, ih _ (fun d hd => h d (List.mem_cons_of_mem _ hd)), List.append_assoc]
    rfl

theorem split_single (cur : Str) (c : Char) (l : Str) (h : c = ' ' ∨ c = '[' ∨ c = ']') :
    split cur (c :: l) = cur :: split [] l := by
  rcases h with rfl | rfl | rfl <;> cases l <;> simp [split]

theorem split_bar (cur : Str) (l : Str) (h : l.head? ≠ some '|') : split cur ('|' :: l) = cur :: split [] l := by
  cases l with
  | nil => simp [split]
  | cons d l =>
    rw [split]
    · simp
    · intro l' h6; simp_all
    · intro l' h6; simp_all

theorem bar_nil (l : Str) : parts [] ('|' :: l) = parts [] l := by
  have key : ∀ n (l : Str), l.length ≤ n → parts [] ('|' :: l) = parts [] l := by
    intro n
    induction n with
    | zero =>
      intro l hl
      cases l with
      | nil => rw [parts_cons [] ['|'] [] (split_bar _ _ (by simp)), keep_nil]; rfl
      | cons c l => simp at hl
    | succ n ih =>
      intro l hl
      by_cases hc : l.head? = some '|'
      · obtain ⟨c, l', rfl⟩ : ∃ c l', l = c :: l' := by cases l <;> simp_all
        simp at hc
        subst hc
        have e : split [] ('|' :: '|' :: l') = [] :: split [] l' := by rw [split]
        rw [parts_cons [] _ l' e, keep_nil, List.nil_append, ih l' (by simp at hl; omega)]
      · rw [parts_cons [] _ l (split_bar _ _ hc), keep_nil]; rfl
  exact key _ l (Nat.le_refl _)

theorem parts_bar (cur l : Str) : parts cur ('|' :: l) = keep cur ++ parts [] l := by
  by_cases hc : l.head? = some '|'
  · obtain ⟨c, l', rfl⟩ : ∃ c l', l = c :: l' := by cases l <;> simp_all
    simp at hc
    subst hc
    have e : split cur ('|' :: '|' :: l') = cur :: split [] l' := by rw [split]
    rw [parts_cons cur _ l' e, bar_nil]
  · exact parts_cons cur _ l (split_bar _ _ hc)

theorem parts_comb (s : String) (h : s ∈ [" ", "|", "||", "&&", "["]) (cur l : Str) :
    parts cur (s.toList ++ l) = keep cur ++ parts [] l := by
  simp only [List.mem_cons, List.not_mem_nil, or_false] at h
  rcases h with rfl | rfl | rfl | rfl | rfl
  · exact parts_cons _ _ _ (split_single _ _ _ (Or.inl rfl))
  · exact parts_bar _ _
  · exact parts_cons _ _ _ (by show split cur ('|' :: '|' :: l) = _; rw [split])
  · exact parts_cons _ _ _ (by show split cur ('&' :: '&' :: l) = _; rw [split])
  · exact parts_cons _ _ _ (split_single _ _ _ (Or.inr (Or.inl rfl)))

/-! ### Multipliers -/

theorem digits_take (a l : Str) (h : Digits a) (hl : ∀ c, l.head? = some c → isDigit c = false) :
    (a ++ l).takeWhile isDigit = a ∧ (a ++ l).dropWhile isDigit = l := by
  have ha : ∀ c ∈ a, isDigit c = true := fun c hc => (digit_iff c).2 (h.2 c hc)
  constructor
  · rw [List.takeWhile_append_of_pos ha]
    cases l with
    | nil => simp
    | cons c l => simp [hl c rfl]
  · rw [List.dropWhile_append_of_pos ha]
    cases l with
    | nil => simp
    | cons c l => simp [hl c rfl]

theorem range_ok (r : Str) (h : Range r) : isRange r = true := by
  cases h with
  | exact a ha =>
    obtain ⟨h1, h2⟩ := digits_take a ['}'] ha (by intro c hc; simp at hc; subst hc; decide)
    rw [isRange, h1, h2]
    simp [ha.1]
  | atLeast a ha =>
    obtain ⟨h1, h2⟩ := digits_take a [',', '}'] ha (by intro c hc; simp at hc; subst hc; decide)
    rw [isRange, h1, h2]
    simp [ha.1]
    decide
  | between a b ha hb =>
    obtain ⟨h1, h2⟩ := digits_take a (',' :: (b ++ ['}'])) ha (by intro c hc; simp at hc; subst hc; decide)
    obtain ⟨-, h3⟩ := digits_take b ['}'] hb (by intro c hc; simp at hc; subst hc; decide)
    rw [isRange, h1, h2]
    simp only
    rw [h3]
    simp [ha.1]

theorem range_long (r : Str) (h : Range r) : ∃ a b l, r = a :: b :: l := by
  cases h with
  | exact a ha => obtain ⟨c, l, rfl⟩ := List.exists_cons_of_ne_nil ha.1; exact ⟨_, _, _, rfl⟩
  | atLeast a ha => obtain ⟨c, l, rfl⟩ := List.exists_cons_of_ne_nil ha.1; exact ⟨_, _, _, rfl⟩
  | between a b ha hb => obtain ⟨c, l, rfl⟩ := List.exists_cons_of_ne_nil ha.1; exact ⟨_, _, _, rfl⟩

theorem tail_range (r : Str) (h : Range r) : isTail r = true := by
  obtain ⟨a, b, l, rfl⟩ := range_long r h
  exact range_ok _ h

theorem mult_ok (m : Str) (h : Multiplier m) : isMultiplier m = true := by
  cases h with
  | none => rfl
  | sign c hc => simp [isMultiplier, isTail, (sign_iff c).2 hc]
  | signs c d hc hd => simp [isMultiplier, isTail, (sign_iff c).2 hc, (sign_iff d).2 hd]
  | range r hr =>
    obtain ⟨a, b, l, rfl⟩ := range_long _ hr
    rw [isMultiplier, tail_range _ hr]
    rfl
  | both c r hc hr => rw [isMultiplier, (sign_iff c).2 hc, tail_range _ hr]; simp

theorem tail_start (c : Char) (l : Str) (h : isTail (c :: l) = true) : c ∈ signs ∨ c = '{' := by
  cases l with
  | nil => exact Or.inl ((sign_iff c).1 h)
  | cons d l =>
    right
    have h : isRange (c :: d :: l) = true := h
    by_contra hc
    rw [isRange] at h
    · cases h
    · intro r hr; simp at hr; exact hc hr.1

theorem mult_start (c : Char) (l : Str) (h : isMultiplier (c :: l) = true) : c ∈ signs ∨ c = '{' := by
  rw [isMultiplier, Bool.or_eq_true, Bool.and_eq_true] at h
  rcases h with h | h
  · exact tail_start c l h
  · exact Or.inl ((sign_iff c).1 h.1)

theorem while_chars (l : Str) (c : Char) (h : c ∈ l) : isDigit c = true ∨ c ∈ l.dropWhile isDigit := by
  induction l with
  | nil => cases h
  | cons d l ih =>
    by_cases hd : isDigit d = true
    · rw [List.dropWhile_cons_of_pos hd]
      rcases List.mem_cons.1 h with rfl | h
      · exact Or.inl hd
      · exact ih h
    · rw [List.dropWhile_cons_of_neg hd]
      exact Or.inr h

theorem range_no_gt (r : Str) (h : isRange r = true) : '>' ∉ r := by
  intro hm
  unfold isRange at h
  split at h
  · rename_i r
    rw [Bool.and_eq_true] at h
    have hm : '>' ∈ r := by simpa using hm
    have hd : isDigit '>' = false := by decide
    have h1 := while_chars _ _ hm
    rw [hd] at h1
    have h1 := h1.resolve_left (by simp)
    have h2 := h.2
    split at h2
    · rename_i l hl
      rw [hl] at h1
      simp at h2
      subst h2
      simp at h1
    · rename_i l hl
      rw [hl] at h1
      have h1 : '>' ∈ l := by simpa using h1
      have h3 := while_chars _ _ h1
      rw [hd] at h3
      have h3 := h3.resolve_left (by simp)
      have h2 : l.dropWhile isDigit = ['}'] := by simpa using h2
      rw [h2] at h3
      simp at h3
    · cases h2
  · cases h

theorem tail_no_gt (s : Str) (h : isTail s = true) : '>' ∉ s := by
  unfold isTail at h
  split at h
  · simp
  · rename_i c
    intro hm
    simp at hm
    subst hm
    revert h
    decide
  · exact range_no_gt _ h

theorem mult_no_gt (s : Str) (h : isMultiplier s = true) : '>' ∉ s := by
  cases s with
  | nil => simp
  | cons c l =>
    rw [isMultiplier, Bool.or_eq_true, Bool.and_eq_true] at h
    rcases h with h | ⟨h1, h2⟩
    · exact tail_no_gt _ h
    · intro hm
      rcases List.mem_cons.1 hm with hm | hm
      · subst hm; revert h1; decide
      · exact tail_no_gt _ h2 hm

theorem strip_mult (m : Str) (h : isMultiplier m = true) : stripMultiplier m = [] := by
  cases m with
  | nil => rfl
  | cons c l => rw [stripMultiplier, if_pos h]

theorem strip_term (t m : Str) (hm : isMultiplier m = true)
    (h : ∀ u v, t = u ++ v → v ≠ [] → isMultiplier (v ++ m) = false) : stripMultiplier (t ++ m) = t := by
  induction t with
  | nil => exact strip_mult m hm
  | cons c t ih =>
    have h0 := h [] (c :: t) rfl (by simp)
    rw [List.cons_append] at h0 ⊢
    rw [stripMultiplier, h0, if_neg (by simp), ih (fun u v hv hne => h (c :: u) v (by rw [hv]; rfl) hne)]

/-! ### Terms -/

theorem name_plain (c : Char) (h : NameChar c) : c ∉ combinatorChars ∧ c ≠ '>' ∧ c ≠ '(' ∧ c ≠ ')' := by
  have key : ∀ d ∈ ([' ', '|', '[', ']', '&', '>', '(', ')'] : List Char), ¬NameChar d := by
    unfold NameChar
    decide
  refine ⟨?_, ?_, ?_, ?_⟩
  · intro hc
    apply key c _ h
    simp only [combinatorChars, List.mem_cons, List.not_mem_nil, or_false] at hc
    rcases hc with rfl | rfl | rfl | rfl | rfl <;> simp
  · rintro rfl; exact key _ (by simp) h
  · rintro rfl; exact key _ (by simp) h
  · rintro rfl; exact key _ (by simp) h

theorem tyName_chars (t : Ty) : ∀ c ∈ (tyName t).toList, NameChar c := by
  unfold NameChar
  cases t <;> decide +kernel

theorem term_plain (t : Term) (h : t.Ok) : ∀ c ∈ t.text, c ∉ combinatorChars := by
  have lt : '<' ∉ combinatorChars := by decide
  have gt : '>' ∉ combinatorChars := by decide
  have p1 : '(' ∉ combinatorChars := by decide
  have p2 : ')' ∉ combinatorChars := by decide
  intro c hc
  cases t with
  | type t =>
    simp only [Term.text, List.mem_cons, List.mem_append, List.not_mem_nil, or_false] at hc
    rcases hc with rfl | hc | rfl
    · exact lt
    · exact (name_plain c (tyName_chars t c hc)).1
    · exact gt
  | func n a =>
    simp only [Term.text, List.mem_cons, List.mem_append, List.not_mem_nil, or_false] at hc
    rcases hc with rfl | hc | rfl | hc | rfl | rfl
    · exact lt
    · exact (name_plain c (h.2.1 c hc)).1
    · exact p1
    · exact (h.2.2 c hc).2
    · exact p2
    · exact gt
  | word w => exact (h.2.1 c hc).1
  | foreign n =>
    simp only [Term.text, List.mem_cons, List.mem_append, List.not_mem_nil, or_false] at hc
    rcases hc with rfl | hc | rfl
    · exact lt
    · exact (name_plain c (h.1 c hc)).1
    · exact gt

theorem range_plain (r : Str) (h : Range r) : ∀ c ∈ r, c ∉ combinatorChars := by
  have hd : ∀ a, Digits a → ∀ c ∈ a, c ∉ combinatorChars := fun a ha c hc =>
    (name_plain c (Or.inr (Or.inr (Or.inl (ha.2 c hc))))).1
  have k : ∀ c ∈ ['{', '}', ','], c ∉ combinatorChars := by decide
  intro c hc
  cases h with
  | exact a ha =>
    simp only [List.mem_cons, List.mem_append, List.not_mem_nil, or_false] at hc
    rcases hc with rfl | hc | rfl
    · exact k _ (by simp)
    · exact hd a ha c hc
    · exact k _ (by simp)
  | atLeast a ha =>
    simp only [List.mem_cons, List.mem_append, List.not_mem_nil, or_false] at hc
    rcases hc with rfl | hc | rfl | rfl
    · exact k _ (by simp)
    · exact hd a ha c hc
    · exact k _ (by simp)
    · exact k _ (by simp)
  | between a b ha hb =>
    simp only [List.mem_cons, List.mem_append, List.not_mem_nil, or_false] at hc
    rcases hc with rfl | hc | rfl | hc | rfl
    · exact k _ (by simp)
    · exact hd a ha c hc
    · exact k _ (by simp)
    · exact hd b hb c hc
    · exact k _ (by simp)

theorem mult_plain (m : Str) (h : Multiplier m) : ∀ c ∈ m, c ∉ combinatorChars := by
  have k : ∀ c ∈ signs, c ∉ combinatorChars := by decide
  intro c hc
  cases h with
  | none => cases hc
  | sign d hd => simp at hc; subst hc; exact k _ hd
  | signs d e hd he =>
    simp at hc
    rcases hc with rfl | rfl
    · exact k _ hd
    · exact k _ he
  | range r hr => exact range_plain _ hr c hc
  | both d r hd hr =>
    rcases List.mem_cons.1 hc with rfl | hc
    · exact k _ hd
    · exact range_plain _ hr c hc

theorem term_start (t : Term) (h : t.Ok) : ∃ c l, t.text = c :: l ∧ c ∉ signs ∧ c ≠ '{' := by
  cases t with
  | type t => exact ⟨'<', _, rfl, by decide, by decide⟩
  | func n a => exact ⟨'<', _, rfl, by decide, by decide⟩
  | foreign n => exact ⟨'<', _, rfl, by decide, by decide⟩
  | word w =>
    obtain ⟨c, l, rfl⟩ := List.exists_cons_of_ne_nil h.1
    exact ⟨c, l, rfl, (h.2.1 c List.mem_cons_self).2.1, (h.2.1 c List.mem_cons_self).2.2⟩

theorem item_keep (t : Term) (h : t.Ok) (m : Str) : keep (t.text ++ m) = [t.text ++ m] := by
  obtain ⟨c, l, hc, h1, h2⟩ := term_start t h
  unfold keep
  rw [hc, List.cons_append, if_neg]
  intro hm
  rcases mult_start _ _ hm with hx | hx
  · exact h1 hx
  · exact h2 hx

theorem term_strip (t : Term) (h : t.Ok) (m : Str) (hm : Multiplier m) : stripMultiplier (t.text ++ m) = t.text := by
  have angle : ∀ w : Str, t.text = w ++ ['>'] → stripMultiplier (t.text ++ m) = t.text := by
    intro w hw
    refine strip_term _ _ (mult_ok m hm) ?_
    intro u v huv hv
    rw [Bool.eq_false_iff]
    intro hmm
    apply mult_no_gt _ hmm
    apply List.mem_append_left
    have : v.getLast? = some '>' := by
      have h5 := congrArg List.getLast? huv
      rw [hw, List.getLast?_append, List.getLast?_append] at h5
      obtain ⟨x, hx⟩ : ∃ x, v.getLast? = some x := by
        cases hx : v.getLast? with
        | none => rw [List.getLast?_eq_none_iff] at hx; exact absurd hx hv
        | some x => exact ⟨x, rfl⟩
      rw [hx] at h5 ⊢
      simpa using h5.symm
    exact List.mem_of_getLast? this
  cases t with
  | type t => exact angle ('<' :: (tyName t).toList) (by simp [Term.text])
  | func n a => exact angle ('<' :: (n ++ '(' :: (a ++ [')']))) (by simp [Term.text])
  | foreign n => exact angle ('<' :: n) (by simp [Term.text])
  | word w =>
    refine strip_term _ _ (mult_ok m hm) ?_
    intro u v huv hv
    obtain ⟨c, l, rfl⟩ := List.exists_cons_of_ne_nil hv
    have hc : c ∈ w := by
      have huv : w = u ++ c :: l := huv
      rw [huv]; simp
    rw [Bool.eq_false_iff]
    intro hmm
    rcases mult_start _ _ hmm with hx | hx
    · exact (h.2.1 c hc).2.1 hx
    · exact (h.2.1 c hc).2.2 hx

/-! ### Components -/

def items : List Elem → List (Term × Str)
  | [] => []
  | .item t m :: es => (t, m) :: items es
  | _ :: es => items es

theorem terms_items (es : List Elem) : terms es = (items es).map Prod.fst := by
  induction es with
  | nil => rfl
  | cons e es ih => cases e <;> simp [terms, items, ih]

def itemText (i : Term × Str) : Str := i.1.text ++ i.2

theorem parts_elems (es : List Elem) (h : ∀ e ∈ es, e.Ok) (hf : es.IsChain Fits) (cur : Str)
    (hc : ∀ t m es', es = .item t m :: es' → cur = []) :
    parts cur (text es) = keep cur ++ (items es).map itemText := by
  induction es generalizing cur with
  | nil => simp [text, items, parts_nil]
  | cons e es ih =>
    have h1 := h e List.mem_cons_self
    have h2 : ∀ e ∈ es, e.Ok := fun x hx => h x (List.mem_cons_of_mem _ hx)
    have hf2 : es.IsChain Fits := hf.tail
    have hnext : ∀ t m es', es = .item t m :: es' → Fits e (.item t m) := by
      intro t m es' he
      subst he
      exact (List.isChain_cons_cons.1 hf).1
    have e0 : text (e :: es) = e.text ++ text es := rfl
    rw [e0]
    cases e with
    | item t m =>
      rw [hc t m es rfl, Elem.text, parts_word _ _ _ (by
        intro c hcm
        rcases List.mem_append.1 hcm with hcm | hcm
        · exact term_plain t h1.1 c hcm
        · exact mult_plain m h1.2 c hcm), List.nil_append,
        ih h2 hf2 _ (fun t' m' es' he => (hnext t' m' es' he).elim), item_keep t h1.1, keep_nil]
      rfl
    | comb s =>
      rw [Elem.text, parts_comb s h1, ih h2 hf2 [] (fun _ _ _ _ => rfl), keep_nil]
      rfl
    | close m =>
      have e1 : parts cur ((Elem.close m).text ++ text es) = keep cur ++ parts [] (m ++ text es) :=
        parts_cons _ _ _ (split_single _ _ _ (Or.inr (Or.inr rfl)))
      rw [e1, parts_word _ _ _ (mult_plain m h1), List.nil_append,
        ih h2 hf2 m (fun t' m' es' he => hnext t' m' es' he)]
      have : keep m = [] := by
        unfold keep
        rw [mult_ok m h1]; rfl
      rw [this]
      rfl

theorem components_text (es : List Elem) (h : Wf es) : components (text es) = (items es).map itemText := by
  rw [components_eq, parts_elems es h.ok h.fits [] (fun _ _ _ _ => rfl), keep_nil]
  rfl

theorem items_ok (es : List Elem) (h : ∀ e ∈ es, e.Ok) : ∀ i ∈ items es, i.1.Ok ∧ Multiplier i.2 := by
  induction es with
  | nil => intro i hi; cases hi
  | cons e es ih =>
    intro i hi
    have h2 := ih (fun x hx => h x (List.mem_cons_of_mem _ hx))
    cases e with
    | item t m =>
      rcases List.mem_cons.1 hi with rfl | hi
      · exact h _ List.mem_cons_self
      · exact h2 i hi
    | comb s => exact h2 i hi
    | close m => exact h2 i hi

theorem stripped (es : List Elem) (h : Wf es) :
    (components (text es)).map stripMultiplier = (terms es).map Term.text := by
  rw [components_text es h, terms_items, List.map_map, List.map_map]
  apply List.map_congr_left
  intro i hi
  obtain ⟨h1, h2⟩ := items_ok es h.ok i hi
  exact term_strip i.1 h1 i.2 h2

/-! ### What the descriptor knows -/

theorem ty_text (t : Ty) (h : t ≠ .any) : t.text = (Term.type t).text := by
  cases t <;> first | exact absurd rfl h | rfl

/-- The text before the first `>`. -/
theorem angle_prefix (a b : Str) (ha : '>' ∉ a) (hb : '>' ∉ b) (m : Str)
    (h : ('<' :: (a ++ ['>'])) <+: ('<' :: (b ++ '>' :: m))) : a = b := by
  obtain ⟨s, hs⟩ := h
  replace hs : a ++ '>' :: s = b ++ '>' :: m := by simpa using hs
  induction a generalizing b with
  | nil =>
    cases b with
    | nil => rfl
    | cons y b =>
      simp at hs
      exact absurd List.mem_cons_self (hs.1 ▸ hb)
  | cons x a ih =>
    cases b with
    | nil =>
      simp at hs
      exact absurd List.mem_cons_self (hs.1 ▸ ha)
    | cons y b =>
      simp only [List.cons_append, List.cons.injEq] at hs
      rw [hs.1, ih b (fun h => ha (List.mem_cons_of_mem _ h)) (fun h => hb (List.mem_cons_of_mem _ h)) hs.2]

theorem func_prefix (a n : Str) (ha : '(' ∉ a) (hn : '>' ∉ n) (m : Str)
    (h : ('<' :: (a ++ ['>'])) <+: ('<' :: (n ++ '(' :: m))) : False := by
  obtain ⟨s, hs⟩ := h
  replace hs : a ++ '>' :: s = n ++ '(' :: m := by simpa using hs
  induction a generalizing n with
  | nil =>
    cases n with
    | nil => simp at hs
    | cons y n =>
      simp at hs
      exact absurd List.mem_cons_self (hs.1 ▸ hn)
  | cons x a ih =>
    cases n with
    | nil =>
      simp at hs
      exact absurd List.mem_cons_self (hs.1 ▸ ha)
    | cons y n =>
      simp only [List.cons_append, List.cons.injEq] at hs
      exact ih n (fun h => ha (List.mem_cons_of_mem _ h)) (fun h => hn (List.mem_cons_of_mem _ h)) hs.2

theorem ty_inj (t u : Ty) (h : (tyName t).toList = (tyName u).toList) : t = u := by
  revert t u
  have key : ∀ t u : Ty, tyName t = tyName u → t = u := by
    intro t u
    cases t <;> cases u <;> simp [tyName]
  intro t u h
  exact key t u (String.toList_inj.1 h)

theorem prefix_iff (t : Ty) (ht : t ≠ .any) (u : Term) (hu : u.Ok) (m : Str) :
    t.text.isPrefixOf (u.text ++ m) = true ↔ u = .type t := by
  have gt : ∀ t, '>' ∉ (tyName t).toList := fun t h => (name_plain _ (tyName_chars t _ h)).2.1 rfl
  have pa : ∀ t, '(' ∉ (tyName t).toList := fun t h => (name_plain _ (tyName_chars t _ h)).2.2.1 rfl
  rw [ty_text t ht, List.isPrefixOf_iff_prefix]
  constructor
  · intro h
    cases u with
    | type u =>
      have h : ('<' :: ((tyName t).toList ++ ['>'])) <+: ('<' :: ((tyName u).toList ++ '>' :: m)) := by
        simpa [Term.text] using h
      rw [ty_inj _ _ (angle_prefix _ _ (gt t) (gt u) m h)]
    | func n a =>
      have h : ('<' :: ((tyName t).toList ++ ['>'])) <+: ('<' :: (n ++ '(' :: (a ++ [')', '>'] ++ m))) := by
        simpa [Term.text] using h
      exact (func_prefix _ _ (pa t) (fun hx => (name_plain _ (hu.2.1 _ hx)).2.1 rfl) _ h).elim
    | word w =>
      obtain ⟨c, l, rfl⟩ := List.exists_cons_of_ne_nil hu.1
      obtain ⟨s, hs⟩ := h
      simp only [Term.text, List.cons_append, List.cons.injEq] at hs
      exact (hu.2.2.1 (by simp [← hs.1])).elim
    | foreign n =>
      have h : ('<' :: ((tyName t).toList ++ ['>'])) <+: ('<' :: (n ++ '>' :: m)) := by
        simpa [Term.text] using h
      exact (hu.2 t (angle_prefix _ _ (gt t) (fun hx => (name_plain _ (hu.1 _ hx)).2.1 rfl) m h).symm).elim
  · rintro rfl
    exact List.prefix_append _ _

theorem not_star (es : List Elem) (h : Wf es) (hn : terms es ≠ []) : text es ≠ "*".toList := by
  intro he
  have := components_text es h
  rw [he] at this
  rw [terms_items] at hn
  apply hn
  cases hi : items es with
  | nil => rfl
  | cons i l =>
    rw [hi] at this
    have h0 : components "*".toList = [] := by decide +kernel
    rw [h0] at this
    cases this

theorem types_all (t : Ty) (h : t ≠ .any) : t ∈ types := by
  cases t <;> first | exact absurd rfl h | decide

theorem get_map (l : List Ty) (f : Ty → Bool) (t : Ty) (h : t ∈ l) : Dict.get? (l.map fun x => (x, f x)) t = some (f t) := by
  induction l with
  | nil => cases h
  | cons x l ih =>
    rw [List.map_cons, Dict.get?]
    by_cases hx : x = t
    · rw [if_pos hx, hx]
    · rw [if_neg hx]
      exact ih ((List.mem_cons.1 h).resolve_left (fun e => hx e.symm))

/-- The syntax has this type. -/
def has (es : List Elem) (t : Ty) : Bool := (terms es).contains (.type t)

theorem look_any (low : Str → Str) (es : List Elem) (h : Wf es) (hs : text es ≠ "*".toList) :
    look (build low (text es)).map .any = .ok false := by
  show look (typeMap (text es)) .any = _
  unfold typeMap
  rw [if_neg hs]
  rfl

theorem look_type (low : Str → Str) (es : List Elem) (h : Wf es) (hs : text es ≠ "*".toList) (t : Ty) (ht : t ≠ .any) :
    look (build low (text es)).map t = .ok (has es t) := by
  show look (typeMap (text es)) t = _
  unfold typeMap look
  rw [if_neg hs, Dict.get?, if_neg (fun e => ht e.symm), get_map _ _ _ (types_all t ht)]
  simp only
  congr 1
  rw [components_text es h, Bool.eq_iff_iff, List.any_eq_true, has, List.contains_iff_mem, terms_items, List.mem_map]
  constructor
  · rintro ⟨x, hx, hp⟩
    obtain ⟨i, hi, rfl⟩ := List.mem_map.1 hx
    exact ⟨i, hi, (prefix_iff t ht i.1 (items_ok es h.ok i hi).1 i.2).1 hp⟩
  · rintro ⟨i, hi, hp⟩
    exact ⟨itemText i, List.mem_map.2 ⟨i, hi, rfl⟩, (prefix_iff t ht i.1 (items_ok es h.ok i hi).1 i.2).2 hp⟩

theorem look_or (low : Str → Str) (es : List Elem) (h : Wf es) (hs : text es ≠ "*".toList) (t : Ty) (ht : t ≠ .any) :
    anyOr (build low (text es)).map t = .ok (has es t) := by
  unfold anyOr
  rw [look_any low es h hs]
  exact look_type low es h hs t ht

theorem name_iff (c : Char) : isNameChar c = true ↔ NameChar c := by
  simp [isNameChar, NameChar, isDigit, or_assoc]

theorem take_name (n l : Str) (h : ∀ c ∈ n, NameChar c) (hl : ∀ c, l.head? = some c → ¬NameChar c) :
    (n ++ l).takeWhile isNameChar = n ∧ (n ++ l).dropWhile isNameChar = l := by
  have ha : ∀ c ∈ n, isNameChar c = true := fun c hc => (name_iff c).2 (h c hc)
  have hl : ∀ c, l.head? = some c → isNameChar c = false := by
    intro c hc
    rw [Bool.eq_false_iff]
    exact fun hx => hl c hc ((name_iff c).1 hx)
  constructor
  · rw [List.takeWhile_append_of_pos ha]
    cases l with
    | nil => simp
    | cons c l => simp [hl c rfl]
  · rw [List.dropWhile_append_of_pos ha]
    cases l with
    | nil => simp
    | cons c l => simp [hl c rfl]

theorem func_name (t : Term) (h : t.Ok) (f : Str) : functionName t.text = some f ↔ ∃ a, t = .func f a := by
  have plain : ∀ n : Str, (∀ c ∈ n, NameChar c) → functionName ('<' :: (n ++ ['>'])) = none := by
    intro n hn
    obtain ⟨h1, h2⟩ := take_name n ['>'] hn (by
      intro c hc
      simp at hc
      subst hc
      exact fun hx => (name_plain _ hx).2.1 rfl)
    unfold functionName
    simp only
    rw [h1, h2]
    cases n <;> rfl
  cases t with
  | type t => simp [Term.text, plain _ (tyName_chars t)]
  | foreign n => simp [Term.text, plain _ h.1]
  | word w =>
    obtain ⟨c, l, rfl⟩ := List.exists_cons_of_ne_nil h.1
    have hc : c ≠ '<' := by
      intro e
      exact h.2.2.1 (by simp [e])
    have : functionName (c :: l) = none := by
      unfold functionName
      split
      · rename_i heq; simp at heq; exact absurd heq.1 hc
      · rfl
    simp [Term.text, this]
  | func n a =>
    obtain ⟨⟨c, l, rfl, hc⟩, h2, h3⟩ := h
    obtain ⟨e1, e2⟩ := take_name (c :: l) ('(' :: (a ++ [')', '>'])) h2 (by
      intro c hc
      simp at hc
      subst hc
      exact fun hx => (name_plain _ hx).2.2.1 rfl)
    have e3 : (a ++ [')', '>']).dropWhile (· ≠ ')') = [')', '>'] := by
      rw [List.dropWhile_append_of_pos (fun x hx => by simpa using (h3 x hx).1)]
      simp
    have : functionName (Term.func (c :: l) a).text = some (c :: l) := by
      unfold functionName
      simp only [Term.text]
      rw [e1, e2]
      simp only
      rw [if_neg (fun hx => hc ((digit_iff c).1 hx)), if_pos e3]
    rw [this]
    constructor
    · intro he
      exact ⟨a, by rw [Option.some.inj he]⟩
    · rintro ⟨b, hb⟩
      simp at hb
      simp [hb.1]

theorem functions_iff (low : Str → Str) (es : List Elem) (h : Wf es) (n : Str) :
    n ∈ (build low (text es)).functions ↔ n = "var".toList ∨ ∃ f a, Term.func f a ∈ terms es ∧ low f = n := by
  show n ∈ "var".toList :: List.filterMap _ ((components (text es)).map stripMultiplier) ↔ _
  rw [stripped es h, List.mem_cons, List.mem_filterMap]
  have hok : ∀ t ∈ terms es, t.Ok := by
    intro t ht
    rw [terms_items] at ht
    obtain ⟨i, hi, rfl⟩ := List.mem_map.1 ht
    exact (items_ok es h.ok i hi).1
  apply or_congr Iff.rfl
  constructor
  · rintro ⟨x, hx, hn⟩
    obtain ⟨t, ht, rfl⟩ := List.mem_map.1 hx
    cases hf : functionName t.text with
    | none => rw [hf] at hn; cases hn
    | some f =>
      rw [hf] at hn
      obtain ⟨a, rfl⟩ := (func_name t (hok t ht) f).1 hf
      exact ⟨f, a, ht, Option.some.inj hn⟩
  · rintro ⟨f, a, ht, rfl⟩
    refine ⟨_, List.mem_map.2 ⟨_, ht, rfl⟩, ?_⟩
    rw [(func_name _ (hok _ ht) f).2 ⟨a, rfl⟩]
    rfl

theorem identifiers_iff (low : Str → Str) (es : List Elem) (h : Wf es) (w : Str) :
    w ∈ (build low (text es)).identifiers ↔
      Term.word w ∈ terms es ∧ ¬In (low w) (["currentcolor", "transparent"] ++ wides) := by
  show w ∈ List.filter _ ((components (text es)).map stripMultiplier) ↔ _
  rw [stripped es h, List.mem_filter]
  have hok : ∀ t ∈ terms es, t.Ok := by
    intro t ht
    rw [terms_items] at ht
    obtain ⟨i, hi, rfl⟩ := List.mem_map.1 ht
    exact (items_ok es h.ok i hi).1
  have hin : low w ∉ colorKeywords ++ wideKeywords ↔ ¬In (low w) (["currentcolor", "transparent"] ++ wides) := by
    have : colorKeywords ++ wideKeywords = (["currentcolor", "transparent"] ++ wides).map String.toList := rfl
    rw [this, In, List.mem_map]
    apply not_congr
    constructor
    · rintro ⟨a, h1, h2⟩; exact ⟨a, h1, h2.symm⟩
    · rintro ⟨a, h1, h2⟩; exact ⟨a, h1, h2.symm⟩
  rw [decide_eq_true_eq, hin]
  constructor
  · rintro ⟨hx, h1, h2, h3⟩
    obtain ⟨t, ht, rfl⟩ := List.mem_map.1 hx
    refine ⟨?_, h3⟩
    cases t with
    | type t => exact absurd rfl h1
    | func n a => exact absurd rfl h1
    | foreign n => exact absurd rfl h1
    | word w => exact ht
  · rintro ⟨hx, h3⟩
    exact ⟨List.mem_map.2 ⟨_, hx, rfl⟩, (hok _ hx).2.2.1, (hok _ hx).2.2.2, h3⟩

/-! ### Tokens -/

theorem has_iff (es : List Elem) (t : Ty) : has es t = true ↔ Term.type t ∈ terms es := by
  rw [has, List.contains_iff_mem]

/-- The result is true. -/
def Yes (r : Py (Bool × Option Ty)) : Prop := ∃ ty, r = .ok (true, ty)

theorem yes_branch (b : Bool) (x : Option Ty) (rest : Py (Bool × Option Ty)) :
    Yes (branch (.ok b) (true, x) rest) ↔ b = true ∨ Yes rest := by
  cases b with
  | true => exact ⟨fun _ => Or.inl rfl, fun _ => ⟨x, rfl⟩⟩
  | false => exact ⟨fun h => Or.inr h, fun h => h.resolve_left (by simp)⟩

theorem yes_no : Yes no ↔ False := by
  constructor
  · rintro ⟨ty, h⟩
    simp [no] at h
  · exact False.elim

theorem yes_ok (x : Option Ty) : Yes (.ok (true, x)) ↔ True := ⟨fun _ => trivial, fun _ => ⟨x, rfl⟩⟩

theorem expand (es : List Elem) (P : Term → Prop) : (∃ t ∈ terms es, P t) ↔
    (has es .length = true ∧ P (.type .length)) ∨ (has es .number = true ∧ P (.type .number)) ∨
    (has es .percentage = true ∧ P (.type .percentage)) ∨
    (has es .lengthPercentage = true ∧ P (.type .lengthPercentage)) ∨
    (has es .color = true ∧ P (.type .color)) ∨ (has es .image = true ∧ P (.type .image)) ∨
    (has es .url = true ∧ P (.type .url)) ∨ (has es .integer = true ∧ P (.type .integer)) ∨
    (has es .angle = true ∧ P (.type .angle)) ∨ (has es .time = true ∧ P (.type .time)) ∨
    (has es .resolution = true ∧ P (.type .resolution)) ∨
    (has es .transformFunction = true ∧ P (.type .transformFunction)) ∨
    (has es .customIdent = true ∧ P (.type .customIdent)) ∨
    (has es .transformList = true ∧ P (.type .transformList)) ∨
    (has es .any = true ∧ P (.type .any)) ∨ (has es .string = true ∧ P (.type .string)) ∨
    (∃ f a, Term.func f a ∈ terms es ∧ P (.func f a)) ∨ (∃ w, Term.word w ∈ terms es ∧ P (.word w)) ∨
    (∃ n, Term.foreign n ∈ terms es ∧ P (.foreign n)) := by
  simp only [has_iff]
  constructor
  · rintro ⟨t, ht, h⟩
    cases t with
    | type t => cases t <;> simp only [ht, h, true_and, true_or, or_true]
    | func f a =>
      have : ∃ f a, Term.func f a ∈ terms es ∧ P (.func f a) := ⟨f, a, ht, h⟩
      simp only [this, true_or, or_true]
    | word w =>
      have : ∃ w, Term.word w ∈ terms es ∧ P (.word w) := ⟨w, ht, h⟩
      simp only [this, true_or, or_true]
    | foreign n =>
      have : ∃ n, Term.foreign n ∈ terms es ∧ P (.foreign n) := ⟨n, ht, h⟩
      simp only [this, true_or, or_true]
  · intro h
    rcases h with h | h | h | h | h | h | h | h | h | h | h | h | h | h | h | h | ⟨f, a, h⟩ | ⟨w, h⟩ | ⟨n, h⟩ <;>
    exact ⟨_, h.1, h.2⟩

theorem in_iff (s : Str) (l : List String) : s ∈ l.map String.toList ↔ In s l := by
  rw [In, List.mem_map]
  constructor
  · rintro ⟨a, h1, h2⟩; exact ⟨a, h1, h2.symm⟩
  · rintro ⟨a, h1, h2⟩; exact ⟨a, h1, h2.symm⟩

theorem in_append (s : Str) (l m : List String) : In s (l ++ m) ↔ In s l ∨ In s m := by
  simp only [In, List.mem_append, or_and_right, exists_or]

theorem units_iff (u : Str) (h1 : ¬In u angles) (h2 : ¬In u times) (h3 : ¬In u resolutions) :
    u ∈ lengthUnits ↔ In u lengths ∨ In u ["hz", "khz", "fr"] := by
  have e : u ∈ lengthUnits ↔ In u (lengths ++ (angles ++ (times ++ (["hz", "khz"] ++ (resolutions ++ ["fr"]))))) :=
    in_iff _ _
  have e2 : In u ["hz", "khz", "fr"] ↔ In u (["hz", "khz"] ++ ["fr"]) := Iff.rfl
  rw [e, e2]
  simp only [in_append, h1, h2, h3, false_or, or_false]

theorem disjoint_angles : ∀ w ∈ angles, ¬In w.toList times ∧ ¬In w.toList resolutions ∧ ¬In w.toList lengths ∧
    ¬In w.toList ["hz", "khz", "fr"] := by
  unfold In; decide +kernel

theorem disjoint_times : ∀ w ∈ times, ¬In w.toList resolutions ∧ ¬In w.toList lengths ∧
    ¬In w.toList ["hz", "khz", "fr"] := by
  unfold In; decide +kernel

theorem disjoint_resolutions : ∀ w ∈ resolutions, ¬In w.toList lengths ∧ ¬In w.toList ["hz", "khz", "fr"] := by
  unfold In; decide +kernel

theorem disjoint_colors : ∀ w ∈ colors, ¬In w.toList images ∧ ¬In w.toList maths ∧ ¬In w.toList transforms ∧
    w.toList ≠ "var".toList := by
  unfold In; decide +kernel

theorem disjoint_images : ∀ w ∈ images, ¬In w.toList maths ∧ ¬In w.toList transforms ∧ w.toList ≠ "var".toList := by
  unfold In; decide +kernel

theorem disjoint_maths : ∀ w ∈ maths, ¬In w.toList transforms ∧ w.toList ≠ "var".toList := by
  unfold In; decide +kernel

theorem disjoint_transforms : ∀ w ∈ transforms, w.toList ≠ "var".toList := by
  decide +kernel

theorem hex_iff (v : Str) : isHexColor v = true ↔
    (∀ c ∈ v, Hex c) ∧ (v.length = 3 ∨ v.length = 4 ∨ v.length = 6 ∨ v.length = 8) := by
  have h1 : (v.all isHexDigit = true) ↔ ∀ c ∈ v, Hex c := by
    rw [List.all_eq_true]
    apply forall_congr'
    intro c
    apply imp_congr Iff.rfl
    simp [isHexDigit, Hex, isDigit, or_assoc]
  have h2 : ([8, 6, 4, 3].contains v.length = true) ↔
      (v.length = 3 ∨ v.length = 4 ∨ v.length = 6 ∨ v.length = 8) := by
    rw [List.contains_iff_mem]
    simp only [List.mem_cons, List.not_mem_nil, or_false]
    omega
  rw [isHexColor, Bool.and_eq_true, h1, h2]

/-- C109: the property supports a token if it is a CSS-wide keyword, a `var()`, or if a term of the
syntax accepts it. -/
theorem support_iff (named : Str → Bool) (low : Str → Str) (es : List Elem) (h : Wf es)
    (hs : text es ≠ "*".toList) (tok : Tok) :
    (∃ ty, support named (build low (text es)) tok = .ok (true, ty)) ↔ Supported named low es tok := by
  have l1 : ∀ t, t ≠ .any → look (build low (text es)).map t = .ok (has es t) :=
    fun t ht => look_type low es h hs t ht
  have l2 : ∀ t, t ≠ .any → anyOr (build low (text es)).map t = .ok (has es t) :=
    fun t ht => look_or low es h hs t ht
  have f1 := functions_iff low es h
  have f2 := identifiers_iff low es h
  show Yes _ ↔ _
  unfold Supported
  rw [expand]
  generalize build low (text es) = D at *
  cases tok with
  | dimension u =>
    simp only [support, l1, l2, ne_eq, reduceCtorEq, not_false_eq_true, Accepts, Lenient, Wide, WideString,
      or_false, false_or, and_false, exists_false]
    by_cases a1 : In u angles
    · rw [if_pos (show u ∈ angleUnits from (in_iff u angles).2 a1), yes_branch, yes_no]
      obtain ⟨w, hw, rfl⟩ := a1
      obtain ⟨b1, b2, b3, b4⟩ := disjoint_angles w hw
      simp only [b1, b2, b3, b4, or_false, false_or, and_false, show In w.toList angles from ⟨w, hw, rfl⟩, and_true]
    · rw [if_neg (show ¬u ∈ angleUnits from fun hx => a1 ((in_iff u angles).1 hx))]
      by_cases a2 : In u times
      · rw [if_pos (show u ∈ timeUnits from (in_iff u times).2 a2), yes_branch, yes_no]
        obtain ⟨w, hw, rfl⟩ := a2
        obtain ⟨b2, b3, b4⟩ := disjoint_times w hw
        simp only [a1, b2, b3, b4, or_false, false_or, and_false, show In w.toList times from ⟨w, hw, rfl⟩, and_true]
      · rw [if_neg (show ¬u ∈ timeUnits from fun hx => a2 ((in_iff u times).1 hx))]
        by_cases a3 : In u resolutions
        · rw [if_pos (show u ∈ resolutionUnits from (in_iff u resolutions).2 a3), yes_branch, yes_no]
          obtain ⟨w, hw, rfl⟩ := a3
          obtain ⟨b3, b4⟩ := disjoint_resolutions w hw
          simp only [a1, a2, b3, b4, or_false, false_or, and_false,
            show In w.toList resolutions from ⟨w, hw, rfl⟩, and_true]
        · rw [if_neg (show ¬u ∈ resolutionUnits from fun hx => a3 ((in_iff u resolutions).1 hx))]
          have e := units_iff u a1 a2 a3
          by_cases a4 : u ∈ lengthUnits
          · rw [if_pos a4, yes_branch, yes_branch, yes_no]
            simp only [e.1 a4, a1, a2, a3, or_false, and_false, and_true]
          · rw [if_neg a4, yes_no]
            have a5 : ¬(In u lengths ∨ In u ["hz", "khz", "fr"]) := fun hx => a4 (e.2 hx)
            simp only [a5, a1, a2, a3, or_false, and_false]
  | func n =>
    simp only [support, l1, l2, ne_eq, reduceCtorEq, not_false_eq_true, Accepts, Lenient, Wide, WideString,
      or_false, false_or, and_false, exists_false, Tok.func.injEq]
    by_cases a1 : In n colors
    · rw [if_pos (show n ∈ colorFunctions from (in_iff n colors).2 a1), yes_branch, yes_no]
      obtain ⟨w, hw, rfl⟩ := a1
      obtain ⟨b1, b2, b3, b4⟩ := disjoint_colors w hw
      simp only [in_append, b1, b2, b3, b4, or_false, false_or, and_false, show In w.toList colors from ⟨w, hw, rfl⟩,
        and_true, true_or, not_true_eq_false, exists_false]
    · rw [if_neg (show ¬n ∈ colorFunctions from fun hx => a1 ((in_iff n colors).1 hx))]
      by_cases a2 : In n images
      · rw [if_pos (show n ∈ imageFunctions from (in_iff n images).2 a2), yes_branch, yes_no]
        obtain ⟨w, hw, rfl⟩ := a2
        obtain ⟨b2, b3, b4⟩ := disjoint_images w hw
        simp only [in_append, a1, b2, b3, b4, or_false, false_or, and_false,
          show In w.toList images from ⟨w, hw, rfl⟩, and_true, true_or, or_true, not_true_eq_false, exists_false]
      · rw [if_neg (show ¬n ∈ imageFunctions from fun hx => a2 ((in_iff n images).1 hx))]
        by_cases a3 : In n maths
        · rw [if_pos (show n ∈ mathFunctions from (in_iff n maths).2 a3), yes_branch, yes_no]
          obtain ⟨w, hw, rfl⟩ := a3
          obtain ⟨b3, b4⟩ := disjoint_maths w hw
          simp only [in_append, a1, a2, b3, b4, or_false, false_or, and_false,
            show In w.toList maths from ⟨w, hw, rfl⟩, and_true, true_or, or_true, not_true_eq_false, exists_false]
        · rw [if_neg (show ¬n ∈ mathFunctions from fun hx => a3 ((in_iff n maths).1 hx))]
          by_cases a4 : In n transforms
          · rw [if_pos (show n ∈ transformFunctions from (in_iff n transforms).2 a4), yes_branch, yes_branch, yes_no]
            obtain ⟨w, hw, rfl⟩ := a4
            have b4 := disjoint_transforms w hw
            simp only [in_append, a1, a2, a3, b4, or_false, false_or, and_false,
              show In w.toList transforms from ⟨w, hw, rfl⟩, and_true, true_or, or_true, not_true_eq_false,
              exists_false]
          · rw [if_neg (show ¬n ∈ transformFunctions from fun hx => a4 ((in_iff n transforms).1 hx))]
            simp only [in_append, a1, a2, a3, a4, or_false, and_false, not_false_eq_true, and_true, false_or]
            by_cases a5 : n ∈ D.functions
            · rw [if_pos a5, yes_ok]
              simpa using (f1 n).1 a5
            · rw [if_neg a5, yes_no]
              simpa using fun hx => a5 ((f1 n).2 hx)
  | hash v =>
    simp only [support, l1, l2, ne_eq, reduceCtorEq, not_false_eq_true, Accepts, Lenient, Wide, WideString,
      or_false, false_or, and_false, exists_false]
    rw [← hex_iff]
    cases hc : isHexColor v with
    | true => rw [if_pos rfl, yes_branch, yes_no]; simp
    | false =>
      rw [if_neg (by simp)]
      have : ¬Yes (branch (.ok (has es .color)) (false, none) no) := by
        rintro ⟨ty, hx⟩
        cases hb : has es .color <;> rw [hb] at hx <;> simp [branch, no] at hx
      simp [this]
  | ident v l =>
    simp only [support, l1, l2, ne_eq, reduceCtorEq, not_false_eq_true, Accepts, Lenient, Wide, WideString,
      or_false, false_or, and_false, exists_false, and_true, or_true, true_or]
    have e1 : l ∈ wideKeywords ↔ In l wides := in_iff l wides
    by_cases a1 : In l wides
    · rw [if_pos (e1.2 a1), yes_ok]; simp [a1]
    · rw [if_neg (fun hx => a1 (e1.1 hx))]
      simp only [a1, false_or]
      have e2 := f2 v
      by_cases a2 : v ∈ D.identifiers
      · rw [if_pos a2, yes_ok]
        have : ∃ w, Term.word w ∈ terms es ∧ v = w ∧ ¬In (low w) (["currentcolor", "transparent"] ++ wides) :=
          ⟨v, (e2.1 a2).1, rfl, (e2.1 a2).2⟩
        simp only [this, or_true]
      · rw [if_neg a2]
        have hno : ¬∃ w, Term.word w ∈ terms es ∧ v = w ∧ ¬In (low w) (["currentcolor", "transparent"] ++ wides) := by
          rintro ⟨w, h1, rfl, h3⟩
          exact a2 (e2.2 ⟨h1, h3⟩)
        simp only [hno, or_false]
        cases hc : has es .color with
        | false =>
          simp only [Bool.false_eq_true, false_and, false_or]
          rw [yes_branch, yes_branch, yes_no]
          simp
        | true =>
          simp only [true_and]
          by_cases a3 : l = "currentcolor".toList
          · rw [if_pos a3, yes_ok]; simp [a3]
          · rw [if_neg a3]
            by_cases a4 : named v = true
            · rw [if_pos a4, yes_ok]; simp [a4]
            · rw [if_neg a4, yes_branch, yes_branch, yes_no]
              simp only [a3, a4, or_false, false_or, Bool.false_eq_true]
  | string v l =>
    simp only [support, l1, l2, ne_eq, reduceCtorEq, not_false_eq_true, Accepts, Lenient, Wide, WideString,
      or_false, false_or, and_false, exists_false, and_true, or_true, true_or]
    have e1 : l ∈ wideKeywords ↔ In l wides := in_iff l wides
    by_cases a1 : In l wides
    · rw [if_pos (e1.2 a1), yes_ok]; simp [a1]
    · rw [if_neg (fun hx => a1 (e1.1 hx))]
      simp only [a1, false_or]
      have e2 := f2 v
      by_cases a2 : v ∈ D.identifiers
      · rw [if_pos a2, yes_ok]
        have : ∃ w, Term.word w ∈ terms es ∧ v = w ∧ ¬In (low w) (["currentcolor", "transparent"] ++ wides) :=
          ⟨v, (e2.1 a2).1, rfl, (e2.1 a2).2⟩
        simp only [this, or_true]
      · rw [if_neg a2]
        have hno : ¬∃ w, Term.word w ∈ terms es ∧ v = w ∧ ¬In (low w) (["currentcolor", "transparent"] ++ wides) := by
          rintro ⟨w, h1, rfl, h3⟩
          exact a2 (e2.2 ⟨h1, h3⟩)
        simp only [hno, or_false]
        cases hc : has es .color with
        | false =>
          simp only [Bool.false_eq_true, false_and, false_or]
          rw [yes_branch, yes_branch, yes_no]
          simp
        | true =>
          simp only [true_and]
          by_cases a3 : l = "currentcolor".toList
          · rw [if_pos a3, yes_ok]; simp [a3]
          · rw [if_neg a3]
            by_cases a4 : named v = true
            · rw [if_pos a4, yes_ok]; simp [a4]
            · rw [if_neg a4, yes_branch, yes_branch, yes_no]
              simp only [a3, a4, or_false, false_or, Bool.false_eq_true]
  | literal v =>
    simp only [support, l1, l2, ne_eq, reduceCtorEq, not_false_eq_true, Accepts, Lenient, Wide, WideString,
      or_false, false_or, and_false, exists_false, and_true, or_true, true_or]
    have e2 := f2 v
    by_cases a2 : v ∈ D.identifiers
    · rw [if_pos a2, yes_ok]
      have : ∃ w, Term.word w ∈ terms es ∧ v = w ∧ ¬In (low w) (["currentcolor", "transparent"] ++ wides) :=
        ⟨v, (e2.1 a2).1, rfl, (e2.1 a2).2⟩
      simp only [this, or_true]
    · rw [if_neg a2, yes_branch, yes_no]
      have hno : ¬∃ w, Term.word w ∈ terms es ∧ v = w ∧ ¬In (low w) (["currentcolor", "transparent"] ++ wides) := by
        rintro ⟨w, h1, rfl, h3⟩
        exact a2 (e2.2 ⟨h1, h3⟩)
      simp only [hno, or_false]
  | number i =>
    simp only [support, l1, l2, ne_eq, reduceCtorEq, not_false_eq_true, Accepts, Lenient, Wide, WideString,
      or_false, false_or, and_false, exists_false, and_true, or_true, true_or]
    cases i with
    | true =>
      rw [if_pos rfl, yes_branch, yes_branch, yes_branch, yes_branch, yes_branch, yes_branch, yes_no]
      simp only [or_false, and_true]
      constructor
      · rintro (h | h | h | h | h | h) <;> simp [h]
      · rintro (h | h | h | h | h | h) <;> simp [h]
    | false =>
      rw [if_neg (by simp), yes_branch, yes_branch, yes_branch, yes_branch, yes_branch, yes_no]
      simp only [or_false, and_false, Bool.false_eq_true, false_or]
      constructor
      · rintro (h | h | h | h | h) <;> simp [h]
      · rintro (h | h | h | h | h) <;> simp [h]
  | percentage =>
    simp only [support, l1, l2, ne_eq, reduceCtorEq, not_false_eq_true, Accepts, Lenient, Wide, WideString,
      or_false, false_or, and_false, exists_false, and_true, or_true, true_or]
    rw [yes_branch, yes_branch, yes_no, or_false]
  | url =>
    simp only [support, l1, l2, ne_eq, reduceCtorEq, not_false_eq_true, Accepts, Lenient, Wide, WideString,
      or_false, false_or, and_false, exists_false, and_true, or_true, true_or]
    rw [yes_branch, yes_branch, yes_no, or_false, or_comm]
  | whitespace => simp [support, Accepts, Lenient, Wide, WideString, Yes]
  | error => simp [support, Accepts, Lenient, Wide, WideString, Yes]
  | another => simp [support, Accepts, Lenient, Wide, WideString, Yes]

theorem branch_total (b : Bool) (r : Bool × Option Ty) (rest : Py (Bool × Option Ty)) (h : ∃ x, rest = .ok x) :
    ∃ x, branch (.ok b) r rest = .ok x := by
  cases b with
  | true => exact ⟨r, rfl⟩
  | false => exact h

/-- C109: there is an answer for every token that may be part of a value. -/
theorem support_total (named : Str → Bool) (low : Str → Str) (es : List Elem) (h : Wf es)
    (hs : text es ≠ "*".toList) (tok : Tok) (hb : ¬Bad tok) :
    ∃ b ty, support named (build low (text es)) tok = .ok (b, ty) := by
  have l1 : ∀ t, t ≠ .any → look (build low (text es)).map t = .ok (has es t) :=
    fun t ht => look_type low es h hs t ht
  have l2 : ∀ t, t ≠ .any → anyOr (build low (text es)).map t = .ok (has es t) :=
    fun t ht => look_or low es h hs t ht
  generalize build low (text es) = D at *
  suffices hx : ∃ x, support named D tok = .ok x by
    obtain ⟨⟨b, ty⟩, hx⟩ := hx
    exact ⟨b, ty, hx⟩
  have hno : ∃ x, no = .ok x := ⟨_, rfl⟩
  have hi : ∀ v l : Str, ∃ x, support named D (.ident v l) = .ok x := by
    intro v l
    simp only [support, l1, l2, ne_eq, reduceCtorEq, not_false_eq_true]
    split
    · exact ⟨_, rfl⟩
    · split
      · exact ⟨_, rfl⟩
      · have hr := branch_total (has es .customIdent) (true, some .customIdent) _
          (branch_total (has es .string) (true, some .customIdent) no hno)
        cases has es .color with
        | false => exact hr
        | true =>
          simp only []
          split
          · exact ⟨_, rfl⟩
          · split
            · exact ⟨_, rfl⟩
            · exact hr
  cases tok with
  | ident v l => exact hi v l
  | string v l => exact hi v l
  | error => exact absurd trivial hb
  | another => exact absurd trivial hb
  | whitespace => exact absurd trivial hb
  | _ =>
    simp only [support, l1, l2, ne_eq, reduceCtorEq, not_false_eq_true]
    repeat' split
    all_goals first
      | exact ⟨_, rfl⟩
      | exact hno
      | (apply branch_total
         first
           | exact hno
           | (apply branch_total
              first
                | exact hno
                | (apply branch_total
                   first
                     | exact hno
                     | (apply branch_total
                        first
                          | exact hno
                          | (apply branch_total
                             first
                               | exact hno
                               | (apply branch_total; exact hno))))))

/-- C109: a token is supported if and only if CSS says so, but for the cases of `Lenient` and the strings
with the text of a CSS-wide keyword. -/
theorem support_partial (named : Str → Bool) (low : Str → Str) (es : List Elem) (h : Wf es)
    (hs : text es ≠ "*".toList) (tok : Tok) (hw : ¬WideString tok) (hl : ∀ t ∈ terms es, ¬Lenient named low t tok)
    (hb : ¬Bad tok) :
    ∃ b ty, support named (build low (text es)) tok = .ok (b, ty) ∧
      (b = true ↔ Wide tok ∨ tok = .func "var".toList ∨ ∃ t ∈ terms es, Accepts named low t tok) := by
  obtain ⟨b, ty, e⟩ := support_total named low es h hs tok hb
  have hi := support_iff named low es h hs tok
  refine ⟨b, ty, e, ?_⟩
  have e1 : b = true ↔ ∃ ty, support named (build low (text es)) tok = .ok (true, ty) := by
    rw [e]
    constructor
    · rintro rfl; exact ⟨ty, rfl⟩
    · rintro ⟨ty', hx⟩
      injection hx with hx
      exact congrArg Prod.fst hx
  rw [e1, hi]
  unfold Supported
  simp only [hw, false_or]
  apply or_congr Iff.rfl
  apply or_congr Iff.rfl
  constructor
  · rintro ⟨t, ht, hx⟩
    exact ⟨t, ht, hx.resolve_right (hl t ht)⟩
  · rintro ⟨t, ht, hx⟩
    exact ⟨t, ht, Or.inl hx⟩

theorem branch_kind {b : Bool} {t ty : Ty} {rest : Py (Bool × Option Ty)}
    (h : branch (.ok b) (true, some t) rest = .ok (true, some ty)) : b = true ∧ t = ty ∨ rest = .ok (true, some ty) := by
  cases b with
  | true =>
    left
    simpa [branch] using h
  | false => exact Or.inr h

/-- C109: the type that is named for a token is one of the syntax and stands for the token. -/
theorem support_type (named : Str → Bool) (low : Str → Str) (es : List Elem) (h : Wf es)
    (hs : text es ≠ "*".toList) (tok : Tok) (ty : Ty) (hc : ty ≠ .customIdent)
    (e : support named (build low (text es)) tok = .ok (true, some ty)) :
    Term.type ty ∈ terms es ∧ (Accepts named low (.type ty) tok ∨ Lenient named low (.type ty) tok) := by
  have l1 : ∀ t, t ≠ .any → look (build low (text es)).map t = .ok (has es t) :=
    fun t ht => look_type low es h hs t ht
  have l2 : ∀ t, t ≠ .any → anyOr (build low (text es)).map t = .ok (has es t) :=
    fun t ht => look_or low es h hs t ht
  have hno : no ≠ .ok (true, some ty) := by simp [no]
  generalize build low (text es) = D at *
  rw [← has_iff]
  have hi : ∀ v l, support named D (.ident v l) = .ok (true, some ty) →
      has es .color = true ∧ ty = .color ∧ (l = "currentcolor".toList ∨ named v = true) := by
    intro v l e
    have hr : branch (.ok (has es .customIdent)) (true, some .customIdent)
      (branch (.ok (has es .string)) (true, some .customIdent) no) ≠ .ok (true, some ty) := by
      intro hx
      rcases branch_kind hx with ⟨_, hy⟩ | hx
      · exact hc hy.symm
      · rcases branch_kind hx with ⟨_, hy⟩ | hx
        · exact hc hy.symm
        · exact hno hx
    simp only [support, l1, l2, ne_eq, reduceCtorEq, not_false_eq_true] at e
    split at e
    · simp at e
    · split at e
      · simp at e; exact absurd e.symm hc
      · cases hcol : has es .color with
        | false => rw [hcol] at e; exact absurd e hr
        | true =>
          rw [hcol] at e
          simp only [] at e
          split at e
          · simp at e; exact absurd e.symm hc
          · split at e
            · rename_i hn
              simp at e
              exact ⟨rfl, e.symm, Or.inr hn⟩
            · exact absurd e hr
  cases tok with
  | dimension u =>
    simp only [support, l1, l2, ne_eq, reduceCtorEq, not_false_eq_true] at e
    split at e
    · rename_i hu
      rcases branch_kind e with ⟨hb, rfl⟩ | e
      · exact ⟨hb, Or.inl ((in_iff u angles).1 hu)⟩
      · exact absurd e hno
    · rename_i n1
      split at e
      · rename_i hu
        rcases branch_kind e with ⟨hb, rfl⟩ | e
        · exact ⟨hb, Or.inl ((in_iff u times).1 hu)⟩
        · exact absurd e hno
      · rename_i n2
        split at e
        · rename_i hu
          rcases branch_kind e with ⟨hb, rfl⟩ | e
          · exact ⟨hb, Or.inl ((in_iff u resolutions).1 hu)⟩
          · exact absurd e hno
        · rename_i n3
          split at e
          · rename_i hu
            have hu' := (units_iff u (fun hx => n1 ((in_iff u angles).2 hx)) (fun hx => n2 ((in_iff u times).2 hx))
              (fun hx => n3 ((in_iff u resolutions).2 hx))).1 hu
            rcases branch_kind e with ⟨hb, rfl⟩ | e
            · exact ⟨hb, hu'⟩
            · rcases branch_kind e with ⟨hb, rfl⟩ | e
              · exact ⟨hb, hu'⟩
              · exact absurd e hno
          · exact absurd e hno
  | func n =>
    simp only [support, l1, l2, ne_eq, reduceCtorEq, not_false_eq_true] at e
    split at e
    · rename_i hu
      rcases branch_kind e with ⟨hb, rfl⟩ | e
      · exact ⟨hb, Or.inl ((in_iff n colors).1 hu)⟩
      · exact absurd e hno
    · split at e
      · rename_i hu
        rcases branch_kind e with ⟨hb, rfl⟩ | e
        · exact ⟨hb, Or.inl ((in_iff n images).1 hu)⟩
        · exact absurd e hno
      · split at e
        · rename_i hu
          rcases branch_kind e with ⟨hb, rfl⟩ | e
          · exact ⟨hb, Or.inl ((in_iff n maths).1 hu)⟩
          · exact absurd e hno
        · split at e
          · rename_i hu
            rcases branch_kind e with ⟨hb, rfl⟩ | e
            · exact ⟨hb, Or.inl ((in_iff n transforms).1 hu)⟩
            · rcases branch_kind e with ⟨hb, rfl⟩ | e
              · exact ⟨hb, Or.inl ((in_iff n transforms).1 hu)⟩
              · exact absurd e hno
          · split at e
            · simp at e
            · exact absurd e hno
  | hash v =>
    simp only [support, l1, l2, ne_eq, reduceCtorEq, not_false_eq_true] at e
    cases hx : isHexColor v with
    | true =>
      rw [hx, if_pos rfl] at e
      rcases branch_kind e with ⟨hb, rfl⟩ | e
      · exact ⟨hb, Or.inl ((hex_iff v).1 hx)⟩
      · exact absurd e hno
    | false =>
      rw [hx] at e
      cases hb : has es .color <;> rw [hb] at e <;> simp [branch, no] at e
  | ident v l =>
    obtain ⟨h1, rfl, h3⟩ := hi v l e
    exact ⟨h1, Or.inl h3⟩
  | string v l =>
    obtain ⟨h1, rfl, h3⟩ := hi v l e
    exact ⟨h1, Or.inr h3⟩
  | literal v =>
    simp only [support, l1, l2, ne_eq, reduceCtorEq, not_false_eq_true] at e
    split at e
    · simp at e; exact absurd e.symm hc
    · rcases branch_kind e with ⟨hb, hy⟩ | e
      · exact absurd hy.symm hc
      · exact absurd e hno
  | number i =>
    simp only [support, l1, l2, ne_eq, reduceCtorEq, not_false_eq_true] at e
    have hr : branch (.ok (has es .number)) (true, some .number)
      (branch (.ok (has es .length)) (true, some .length)
        (branch (.ok (has es .lengthPercentage)) (true, some .lengthPercentage)
          (branch (.ok (has es .customIdent)) (true, some .customIdent)
            (branch (.ok (has es .string)) (true, some .customIdent) no)))) = .ok (true, some ty) →
        has es ty = true ∧ (Accepts named low (.type ty) (.number i) ∨ Lenient named low (.type ty) (.number i)) := by
      intro e
      rcases branch_kind e with ⟨hb, rfl⟩ | e
      · exact ⟨hb, Or.inl trivial⟩
      · rcases branch_kind e with ⟨hb, rfl⟩ | e
        · exact ⟨hb, Or.inl trivial⟩
        · rcases branch_kind e with ⟨hb, rfl⟩ | e
          · exact ⟨hb, Or.inl trivial⟩
          · rcases branch_kind e with ⟨hb, hy⟩ | e
            · exact absurd hy.symm hc
            · rcases branch_kind e with ⟨hb, hy⟩ | e
              · exact absurd hy.symm hc
              · exact absurd e hno
    cases i with
    | true =>
      rw [if_pos rfl] at e
      rcases branch_kind e with ⟨hb, rfl⟩ | e
      · exact ⟨hb, Or.inl rfl⟩
      · exact hr e
    | false =>
      rw [if_neg (by simp)] at e
      exact hr e
  | percentage =>
    simp only [support, l1, l2, ne_eq, reduceCtorEq, not_false_eq_true] at e
    rcases branch_kind e with ⟨hb, rfl⟩ | e
    · exact ⟨hb, Or.inl trivial⟩
    · rcases branch_kind e with ⟨hb, rfl⟩ | e
      · exact ⟨hb, Or.inl trivial⟩
      · exact absurd e hno
  | url =>
    simp only [support, l1, l2, ne_eq, reduceCtorEq, not_false_eq_true] at e
    rcases branch_kind e with ⟨hb, rfl⟩ | e
    · exact ⟨hb, Or.inl trivial⟩
    · rcases branch_kind e with ⟨hb, rfl⟩ | e
      · exact ⟨hb, Or.inl trivial⟩
      · exact absurd e hno
  | whitespace => simp [support] at e
  | error => simp [support] at e
  | another => simp [support] at e

/-- C109: a number without unit stands for a length if and only if lengths are allowed and numbers are
not. -/
theorem unitless (named : Str → Bool) (low : Str → Str) (es : List Elem) (h : Wf es)
    (hs : text es ≠ "*".toList) (i : Bool) :
    support named (build low (text es)) (.number i) = .ok (true, some .length) ↔
      Term.type .length ∈ terms es ∧ Term.type .number ∉ terms es ∧ ¬(i = true ∧ Term.type .integer ∈ terms es) := by
  have l1 : ∀ t, t ≠ .any → look (build low (text es)).map t = .ok (has es t) :=
    fun t ht => look_type low es h hs t ht
  have l2 : ∀ t, t ≠ .any → anyOr (build low (text es)).map t = .ok (has es t) :=
    fun t ht => look_or low es h hs t ht
  generalize build low (text es) = D at *
  simp only [support, l1, l2, ne_eq, reduceCtorEq, not_false_eq_true, ← has_iff]
  cases i <;> cases has es .integer <;> cases has es .number <;> cases has es .length <;>
    cases has es .lengthPercentage <;> cases has es .customIdent <;> cases has es .string <;>
    simp [branch, no]

/-! ### Values -/

namespace Spec

/-- A comma is part of values whose syntax has a `#`, or whose syntax names it. -/
def CommaOk (low : Str → Str) (es : List Elem) : Prop :=
  '#' ∈ text es ∨ Term.word [','] ∈ terms es ∧ ¬In (low [',']) (["currentcolor", "transparent"] ++ wides)

/-- Every token is supported, and a CSS-wide keyword is the only one. -/
def SupportedAll (named : Str → Bool) (low : Str → Str) (es : List Elem) (ts : List Tok) : Prop :=
  (∀ t ∈ ts, (t = .literal [','] ∧ CommaOk low es) ∨ (t ≠ .literal [','] ∧ Supported named low es t)) ∧
  ((∃ t ∈ ts, Wide t) → ts.length = 1)

end Spec

theorem isWide_iff (t : Tok) : isWide t = true ↔ Wide t := by
  cases t <;> simp only [isWide, Wide, Bool.false_eq_true]
  rw [List.contains_iff_mem]
  exact in_iff _ wides

/-- What the loop finds. -/
def Scanned (named : Str → Bool) (low : Str → Str) (es : List Elem) (k : Nat) (ts : List Tok) : Prop :=
  scan named (build low (text es)) k ts = .ok none ∧
      (∃ t ∈ ts, ¬((t = .literal [','] ∧ CommaOk low es) ∨ (t ≠ .literal [','] ∧ Supported named low es t))) ∨
  scan named (build low (text es)) k ts = .ok (some (k + ts.countP isWide)) ∧
      (∀ t ∈ ts, (t = .literal [','] ∧ CommaOk low es) ∨ (t ≠ .literal [','] ∧ Supported named low es t))

theorem scan_eq (named : Str → Bool) (low : Str → Str) (es : List Elem) (h : Wf es)
    (hs : text es ≠ "*".toList) (ts : List Tok) (k : Nat) (hb : ∀ t ∈ ts, ¬Bad t) :
    Scanned named low es k ts := by
  induction ts generalizing k with
  | nil => exact Or.inr ⟨rfl, fun _ h => by cases h⟩
  | cons t l ih =>
    have hbl : ∀ t ∈ l, ¬Bad t := fun t ht => hb t (List.mem_cons_of_mem _ ht)
    have step : ∀ j, scan named (build low (text es)) k (t :: l) = scan named (build low (text es)) j l →
        j = k + (if isWide t then 1 else 0) →
        ((t = .literal [','] ∧ CommaOk low es) ∨ (t ≠ .literal [','] ∧ Supported named low es t)) →
        Scanned named low es k (t :: l) := by
      intro j e hj ht
      rcases ih j hbl with ⟨e1, t', ht', hn⟩ | ⟨e1, ha⟩
      · exact Or.inl ⟨e.trans e1, t', List.mem_cons_of_mem _ ht', hn⟩
      · refine Or.inr ⟨?_, List.forall_mem_cons.2 ⟨ht, ha⟩⟩
        rw [e, e1, hj, List.countP_cons, Nat.add_assoc, Nat.add_comm (if isWide t then 1 else 0)]
    have stop : scan named (build low (text es)) k (t :: l) = .ok none →
        ¬((t = .literal [','] ∧ CommaOk low es) ∨ (t ≠ .literal [','] ∧ Supported named low es t)) →
        Scanned named low es k (t :: l) :=
      fun e hn => Or.inl ⟨e, t, List.mem_cons_self, hn⟩
    by_cases hc : t = .literal [',']
    · have hci : ('#' ∈ (build low (text es)).syn ∨ [','] ∈ (build low (text es)).identifiers) ↔ CommaOk low es := by
        rw [identifiers_iff low es h]; exact Iff.rfl
      by_cases ho : CommaOk low es
      · refine step k ?_ ?_ (Or.inl ⟨hc, ho⟩)
        · rw [scan, if_pos hc, if_pos (hci.2 ho)]
        · rw [hc]; rfl
      · refine stop ?_ ?_
        · rw [scan, if_pos hc, if_neg (fun hx => ho (hci.1 hx))]
        · rintro (⟨_, h2⟩ | ⟨h1, _⟩)
          · exact ho h2
          · exact h1 hc
    · by_cases hw : isWide t = true
      · refine step (k + 1) ?_ ?_ (Or.inr ⟨hc, Or.inl ((isWide_iff t).1 hw)⟩)
        · rw [scan, if_neg hc, if_pos hw]
        · rw [if_pos hw]
      · obtain ⟨b, ty, e⟩ := support_total named low es h hs t (hb t List.mem_cons_self)
        have hi := support_iff named low es h hs t
        cases b with
        | true =>
          refine step k ?_ ?_ (Or.inr ⟨hc, hi.1 ⟨ty, e⟩⟩)
          · rw [scan, if_neg hc, if_neg hw, e]
          · rw [if_neg hw, Nat.add_zero]
        | false =>
          refine stop ?_ ?_
          · rw [scan, if_neg hc, if_neg hw, e]
          · rintro (⟨h1, _⟩ | ⟨_, h2⟩)
            · exact hc h1
            · obtain ⟨ty', hx⟩ := hi.2 h2
              rw [e] at hx
              simp at hx

/-- C109: a value is supported if every token of it is and a CSS-wide keyword stands alone. -/
theorem supports_iff (named : Str → Bool) (low : Str → Str) (es : List Elem) (h : Wf es)
    (hs : text es ≠ "*".toList) (ts : List Tok) (hb : ∀ t ∈ ts, t = .whitespace ∨ ¬Bad t) :
    ∃ b, supports named (build low (text es)) ts = .ok b ∧
      (b = true ↔ SupportedAll named low es (ts.filter (· ≠ .whitespace))) := by
  have hb' : ∀ t ∈ ts.filter (· ≠ .whitespace), ¬Bad t := by
    intro t ht
    rw [List.mem_filter] at ht
    exact (hb t ht.1).resolve_left (by simpa using ht.2)
  unfold supports
  generalize ts.filter (· ≠ .whitespace) = l at *
  rcases scan_eq named low es h hs l 0 hb' with ⟨e, t, ht, hn⟩ | ⟨e, ha⟩
  · refine ⟨false, by simp only [e], ?_⟩
    simp only [Bool.false_eq_true, false_iff]
    intro hx
    exact hn (hx.1 t ht)
  · refine ⟨!((0 + l.countP isWide) > 0 && l.length > 1), by simp only [e], ?_⟩
    have hp : 0 < l.countP isWide ↔ ∃ t ∈ l, Wide t := by
      rw [List.countP_pos_iff]
      simp only [isWide_iff]
    have hone : (∃ t ∈ l, Wide t) → 0 < l.length := by
      rintro ⟨t, ht, _⟩
      exact List.length_pos_of_mem ht
    rw [SupportedAll, Nat.zero_add]
    simp only [Bool.not_eq_true', Bool.and_eq_false_iff, decide_eq_false_iff_not, gt_iff_lt]
    rw [hp]
    constructor
    · intro hx
      refine ⟨ha, fun hw => ?_⟩
      have := hone hw
      rcases hx with hx | hx
      · exact absurd hw hx
      · omega
    · rintro ⟨_, hx⟩
      by_cases hw : ∃ t ∈ l, Wide t
      · right; rw [hx hw]; omega
      · exact Or.inl hw

/-- C109: the same without the tokens that are let through against CSS. -/
theorem supports_partial (named : Str → Bool) (low : Str → Str) (es : List Elem) (h : Wf es)
    (hs : text es ≠ "*".toList) (ts : List Tok) (hb : ∀ t ∈ ts, t = .whitespace ∨ ¬Bad t)
    (hw : ∀ t ∈ ts, ¬WideString t) (hl : ∀ tok ∈ ts, ∀ t ∈ terms es, ¬Lenient named low t tok)
    (hc : ∀ t ∈ ts, t ≠ .literal [',']) :
    ∃ b, supports named (build low (text es)) ts = .ok b ∧
      (b = true ↔ (∀ tok ∈ ts, tok = .whitespace ∨ Wide tok ∨ tok = .func "var".toList ∨
          ∃ t ∈ terms es, Accepts named low t tok) ∧
        ((∃ tok ∈ ts, Wide tok) → (ts.filter (· ≠ .whitespace)).length = 1)) := by
  obtain ⟨b, e, hi⟩ := supports_iff named low es h hs ts hb
  refine ⟨b, e, hi.trans ?_⟩
  unfold SupportedAll
  have h1 : (∃ t ∈ ts.filter (· ≠ .whitespace), Wide t) ↔ ∃ t ∈ ts, Wide t := by
    constructor
    · rintro ⟨t, ht, hx⟩
      exact ⟨t, (List.mem_filter.1 ht).1, hx⟩
    · rintro ⟨t, ht, hx⟩
      refine ⟨t, List.mem_filter.2 ⟨ht, ?_⟩, hx⟩
      cases t <;> simp_all [Wide]
  rw [h1]
  apply and_congr _ Iff.rfl
  constructor
  · intro hx tok ht
    by_cases hq : tok = .whitespace
    · exact Or.inl hq
    · right
      rcases hx tok (List.mem_filter.2 ⟨ht, by simpa using hq⟩) with ⟨h2, _⟩ | ⟨_, h2⟩
      · exact absurd h2 (hc tok ht)
      · rcases h2 with h2 | h2 | h2 | ⟨t, ht', h2⟩
        · exact Or.inl h2
        · exact absurd h2 (hw tok ht)
        · exact Or.inr (Or.inl h2)
        · exact Or.inr (Or.inr ⟨t, ht', h2.resolve_right (hl tok ht t ht')⟩)
  · intro hx tok ht
    obtain ⟨h2, h3⟩ := List.mem_filter.1 ht
    refine Or.inr ⟨hc tok h2, ?_⟩
    rcases hx tok h2 with h4 | h4 | h4 | ⟨t, ht', h4⟩
    · simp [h4] at h3
    · exact Or.inl h4
    · exact Or.inr (Or.inr (Or.inl h4))
    · exact Or.inr (Or.inr (Or.inr ⟨t, ht', Or.inl h4⟩))

/-! ### The universal syntax -/

namespace Spec

/-- What a property for everything supports. -/
def Known : Tok → Prop
  | .dimension u => In u (angles ++ (times ++ (resolutions ++ (lengths ++ ["hz", "khz", "fr"]))))
  | .func n => In n (colors ++ (images ++ (maths ++ (transforms ++ ["var"]))))
  | .hash v => (∀ c ∈ v, Hex c) ∧ (v.length = 3 ∨ v.length = 4 ∨ v.length = 6 ∨ v.length = 8)
  | _ => True

end Spec

theorem star_any (low : Str → Str) (t : Ty) : anyOr (build low "*".toList).map t = .ok true := rfl

theorem star_functions (low : Str → Str) : (build low "*".toList).functions = ["var".toList] := rfl

/-- C109: the syntax `*` supports all tokens but unknown units, unknown functions and hashes that are no
colours. -/
theorem star_iff (named : Str → Bool) (low : Str → Str) (tok : Tok) (hb : ¬Bad tok) :
    (∃ ty, support named (build low "*".toList) tok = .ok (true, ty)) ↔ Known tok := by
  show Yes _ ↔ _
  have l2 := star_any low
  have f1 := star_functions low
  have hi : ∀ v l : Str, Yes (support named (build low "*".toList) (.ident v l)) := by
    intro v l
    simp only [support, l2, branch]
    repeat' split
    all_goals exact ⟨_, rfl⟩
  generalize build low "*".toList = D at *
  cases tok with
  | dimension u =>
    simp only [support, l2, branch, Known, in_append]
    by_cases a1 : In u angles
    · rw [if_pos (show u ∈ angleUnits from (in_iff u angles).2 a1), yes_ok]
      simp only [a1, true_or]
    · rw [if_neg (show ¬u ∈ angleUnits from fun hx => a1 ((in_iff u angles).1 hx))]
      by_cases a2 : In u times
      · rw [if_pos (show u ∈ timeUnits from (in_iff u times).2 a2), yes_ok]
        simp only [a2, true_or, or_true]
      · rw [if_neg (show ¬u ∈ timeUnits from fun hx => a2 ((in_iff u times).1 hx))]
        by_cases a3 : In u resolutions
        · rw [if_pos (show u ∈ resolutionUnits from (in_iff u resolutions).2 a3), yes_ok]
          simp only [a3, true_or, or_true]
        · rw [if_neg (show ¬u ∈ resolutionUnits from fun hx => a3 ((in_iff u resolutions).1 hx))]
          have e := units_iff u a1 a2 a3
          simp only [a1, a2, a3, false_or, ← e]
          by_cases a4 : u ∈ lengthUnits
          · rw [if_pos a4, yes_ok]; simp only [a4]
          · rw [if_neg a4, yes_no]; simp only [a4]
  | func n =>
    simp only [support, l2, branch, Known, in_append]
    by_cases a1 : In n colors
    · rw [if_pos (show n ∈ colorFunctions from (in_iff n colors).2 a1), yes_ok]
      simp only [a1, true_or]
    · rw [if_neg (show ¬n ∈ colorFunctions from fun hx => a1 ((in_iff n colors).1 hx))]
      by_cases a2 : In n images
      · rw [if_pos (show n ∈ imageFunctions from (in_iff n images).2 a2), yes_ok]
        simp only [a2, true_or, or_true]
      · rw [if_neg (show ¬n ∈ imageFunctions from fun hx => a2 ((in_iff n images).1 hx))]
        by_cases a3 : In n maths
        · rw [if_pos (show n ∈ mathFunctions from (in_iff n maths).2 a3), yes_ok]
          simp only [a3, true_or, or_true]
        · rw [if_neg (show ¬n ∈ mathFunctions from fun hx => a3 ((in_iff n maths).1 hx))]
          by_cases a4 : In n transforms
          · rw [if_pos (show n ∈ transformFunctions from (in_iff n transforms).2 a4), yes_ok]
            simp only [a4, true_or, or_true]
          · rw [if_neg (show ¬n ∈ transformFunctions from fun hx => a4 ((in_iff n transforms).1 hx)), f1]
            have hv : In n ["var"] ↔ n = "var".toList := by simp only [In, List.mem_singleton, exists_eq_left]
            simp only [a1, a2, a3, a4, false_or, List.mem_singleton, hv]
            by_cases a5 : n = "var".toList
            · rw [if_pos a5, yes_ok]; simp only [a5]
            · rw [if_neg a5, yes_no]; simp only [a5]
  | hash v =>
    simp only [support, l2, branch, Known]
    rw [← hex_iff]
    cases isHexColor v with
    | true => rw [if_pos rfl, yes_ok]; simp
    | false =>
      rw [if_neg (by simp)]
      simp [Yes]
  | ident v l => exact ⟨fun _ => trivial, fun _ => hi v l⟩
  | string v l => exact ⟨fun _ => trivial, fun _ => hi v l⟩
  | error => exact absurd trivial hb
  | another => exact absurd trivial hb
  | whitespace => exact absurd trivial hb
  | _ =>
    refine ⟨fun _ => trivial, fun _ => ?_⟩
    simp only [support, l2, branch]
    repeat' split
    all_goals exact ⟨_, rfl⟩

/-! ### A syntax with everything -/

def sample : List Elem :=
  [.item (.word "none".toList) [], .comb " ", .comb "|", .comb " ", .comb "[", .comb " ", .item (.type .length) [],
    .comb " ", .comb "|", .comb " ", .item (.func "blur".toList []) [], .comb " ", .close "#".toList, .comb " ",
    .comb "&&", .comb " ", .item (.type .color) "{1,2}".toList]

example : text sample = "none | [ <length> | <blur()> ]# && <color>{1,2}".toList := by decide +kernel

theorem sample_wf : Wf sample := by
  refine ⟨?_, ?_⟩
  · have hn : ∀ c ∈ "none".toList, c ∉ combinatorChars ∧ c ∉ signs ∧ c ≠ '{' := by decide +kernel
    have hf : ∀ c ∈ "blur".toList, NameChar c := by unfold NameChar; decide +kernel
    have hr : Multiplier "{1,2}".toList :=
      .range _ (.between ['1'] ['2'] ⟨by decide, by decide⟩ ⟨by decide, by decide⟩)
    simp only [sample, List.forall_mem_cons, Elem.Ok, Term.Ok, List.not_mem_nil, false_implies, implies_true,
      and_true]
    refine ⟨⟨⟨by decide, hn, by decide, by decide⟩, .none⟩, by decide, by decide, by decide, by decide, by decide,
      ⟨by decide, .none⟩, by decide, by decide, by decide,
      ⟨⟨⟨'b', "lur".toList, by decide, by decide⟩, hf⟩, .none⟩, by decide, .sign '#' (by decide), by decide,
      by decide, by decide, by decide, hr⟩
  · simp [sample, Fits]

example : text sample ≠ "*".toList := not_star sample sample_wf (by simp [sample, terms])

def lower (s : Str) : Str := s.map Char.toLower

example : Supported (fun _ => false) lower sample (.dimension "px".toList) :=
  Or.inr (Or.inr (Or.inr ⟨.type .length, by simp [sample, terms], Or.inl ⟨"px", by decide, rfl⟩⟩))

example : Supported (fun _ => false) lower sample (.func "blur".toList) :=
  Or.inr (Or.inr (Or.inr ⟨.func "blur".toList [], by simp [sample, terms], Or.inl ⟨by decide, by
    unfold In; decide +kernel⟩⟩))

example : ¬Supported (fun _ => false) lower sample .percentage := by
  rintro (h | h | h | ⟨t, ht, h⟩)
  · exact h
  · exact h
  · cases h
  · simp only [sample, terms, List.mem_cons, List.not_mem_nil, or_false] at ht
    rcases ht with rfl | rfl | rfl | rfl <;> rcases h with h | h <;> exact h

example : SupportedAll (fun _ => false) lower sample [.number true, .literal [','], .number false] := by
  have hn : ∀ i, Supported (fun _ => false) lower sample (.number i) := fun i =>
    Or.inr (Or.inr (Or.inr ⟨.type .length, by simp [sample, terms], Or.inl trivial⟩))
  refine ⟨?_, ?_⟩
  · simp only [List.forall_mem_cons, List.not_mem_nil, false_implies, implies_true, and_true]
    refine ⟨Or.inr ⟨by simp, hn _⟩, Or.inl ⟨trivial, Or.inl ?_⟩, Or.inr ⟨by simp, hn _⟩⟩
    decide +kernel
  · rintro ⟨t, ht, hw⟩
    simp only [List.mem_cons, List.not_mem_nil, or_false] at ht
    rcases ht with rfl | rfl | rfl <;> exact absurd hw id

/-! ### Where the code departs from CSS -/

def plain (s : String) (ts : List Tok) : Py Bool := supports (fun _ => false) (build lower s.toList) ts

/-- C109, violated: `1hz` and `1fr` are lengths. -/
theorem frequency_violated : plain "<length>" [.dimension "hz".toList] = .ok true ∧
    plain "<length>" [.dimension "fr".toList] = .ok true := by decide +kernel

/-- C109, violated: `calc()` is no length and no number. -/
theorem calc_violated : plain "<length>" [.func "calc".toList] = .ok false ∧
    plain "<number>" [.func "calc".toList] = .ok false := by decide +kernel

/-- C109, violated: nothing is a length, and so are three lengths. -/
theorem count_violated : plain "<length>" [] = .ok true ∧
    plain "<length>" [.dimension "px".toList, .dimension "px".toList, .dimension "px".toList] = .ok true := by
  decide +kernel

/-- C109, violated: keywords are compared with case. -/
theorem case_violated : plain "none" [.ident "none".toList "none".toList] = .ok true ∧
    plain "none" [.ident "NONE".toList "none".toList] = .ok false := by decide +kernel

/-- C109, violated: a string is as good as the keyword, or as the CSS-wide keyword. -/
theorem string_violated : plain "none" [.string "none".toList "none".toList] = .ok true ∧
    plain "none" [.string "inherit".toList "inherit".toList] = .ok true := by decide +kernel

/-- C109, violated: a value with a block is an exception and not a value that is not supported. -/
theorem block_violated : plain "<length>" [.another] = .error .notImplemented := by decide +kernel

/-- C109, violated: the `#` of an argument allows commas everywhere. -/
theorem comma_violated : plain "<styleset(<feature-value-name>#)>" [.literal [','], .literal [',']] = .ok true := by
  decide +kernel

/-- C109, violated: the syntax that allows everything does not. -/
theorem anything_violated : plain "*" [.func "attr".toList] = .ok false ∧
    plain "*" [.dimension "foo".toList] = .ok false ∧ plain "*" [.literal [',']] = .ok false := by decide +kernel

end SvgPy.Syntax
