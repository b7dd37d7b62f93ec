import Verif.Model.TextContent
import Batteries.Tactic.Init

/-! Property C90: white space of text content. -/

set_option linter.unusedSimpArgs false

namespace SvgPy.TextContent

open SvgPy.PyStr

/-! ### Specification -/

/-- White space of XML (without carriage returns, which an XML parser turns into line feeds). -/
def Space (c : Char) : Prop := c = ' ' ∨ c = '\t' ∨ c = '\n'

/-- White space only. -/
def Gap (s : Str) : Prop := ∀ c ∈ s, Space c

/-- Something without white space. -/
def IsWord (s : Str) : Prop := s ≠ [] ∧ ∀ c ∈ s, ¬ Space c ∧ c ≠ '\r'

/-- A text in pieces: each word with the white space before it, and the white space at the end. -/
def flat : List (Str × Str) → Str → Str
  | [], last => last
  | (g, w) :: l, last => g ++ w ++ flat l last

/-- The pieces are words with white space between them. -/
def Pieces : Bool → List (Str × Str) → Str → Prop
  | _, [], last => Gap last
  | first, (g, w) :: l, last => Gap g ∧ (first = false → g ≠ []) ∧ IsWord w ∧ Pieces false l last

/-- Hangul: syllables, jamo, compatibility jamo and the two extensions of jamo. -/
def Hangul (c : Char) : Prop :=
  0xAC00 ≤ c.toNat ∧ c.toNat ≤ 0xD7AF ∨ 0x1100 ≤ c.toNat ∧ c.toNat ≤ 0x11FF ∨ 0x3130 ≤ c.toNat ∧ c.toNat ≤ 0x318F ∨
  0xA960 ≤ c.toNat ∧ c.toNat ≤ 0xA97F ∨ 0xD7B0 ≤ c.toNat ∧ c.toNat ≤ 0xD7FF

/-- No space is put where lines are joined: next to a zero width space, and between wide
characters other than Hangul (css-text-3, segment break transformation). -/
def Joined (wide : Char → Bool) (a b : Option Char) : Prop :=
  a = some (Char.ofNat 0x200B) ∨ b = some (Char.ofNat 0x200B) ∨
  ∃ x y, a = some x ∧ b = some y ∧ wide x = true ∧ wide y = true ∧ ¬ Hangul x ∧ ¬ Hangul y

open Classical in
/-- What is left of the white space `g` between the characters `a` and `b`: one space; nothing
where lines are joined without one, or at the ends of the text if there is no line feed. -/
noncomputable def gapText (wide : Char → Bool) (a : Option Char) (g : Str) (b : Option Char) : Str :=
  if '\n' ∈ g then (if Joined wide a b then [] else [' '])
  else if a = none ∨ b = none then [] else [' ']

/-- The words with what is left of the white space between them. -/
noncomputable def spaced (wide : Char → Bool) : Option Char → List (Str × Str) → Str → Str
  | a, [], last => gapText wide a last none
  | a, (g, w) :: l, last => gapText wide a g w.head? ++ w ++ spaced wide w.getLast? l last

/-! ### Characters -/

theorem isHangul_iff (c : Char) : isHangul c = false ↔ ¬ Hangul c := by
  rw [← Bool.not_eq_true]
  refine not_congr ?_
  simp only [isHangul, Hangul, Bool.or_eq_true, Bool.and_eq_true, decide_eq_true_eq, or_assoc]

theorem blank_iff (c : Char) : blank c = true ↔ c = ' ' ∨ c = '\t' := by simp [blank]

theorem isBreak_iff (c : Char) : isBreak c = true ↔ c = '\r' ∨ c = '\n' := by simp [isBreak]

theorem word_blank {w : Str} (h : IsWord w) {c : Char} (hc : c ∈ w) : blank c = false := by
  have := (h.2 c hc).1
  rw [Bool.eq_false_iff]
  intro h
  rcases (blank_iff c).1 h with rfl | rfl <;> exact this (by simp [Space])

theorem word_break {w : Str} (h : IsWord w) {c : Char} (hc : c ∈ w) : isBreak c = false := by
  rw [Bool.eq_false_iff]
  intro h'
  rcases (isBreak_iff c).1 h' with rfl | rfl
  · exact (h.2 _ hc).2 rfl
  · exact (h.2 _ hc).1 (by simp [Space])

theorem word_newline {w : Str} (h : IsWord w) {c : Char} (hc : c ∈ w) : (c == '\n') = false := by
  rw [beq_eq_false_iff_ne]
  rintro rfl
  exact (h.2 _ hc).1 (by simp [Space])

theorem word_space {w : Str} (h : IsWord w) {c : Char} (hc : c ∈ w) : (c == ' ') = false := by
  rw [beq_eq_false_iff_ne]
  rintro rfl
  exact (h.2 _ hc).1 (by simp [Space])

theorem word_tab {w : Str} (h : IsWord w) {c : Char} (hc : c ∈ w) : c ≠ '\t' := by
  rintro rfl
  exact (h.2 _ hc).1 (by simp [Space])

/-! ### The passes over words -/

/-- Characters that are neither blank nor line breaks. -/
def Ink (w : Str) : Prop := ∀ c ∈ w, blank c = false ∧ isBreak c = false

theorem word_ink {w : Str} (h : IsWord w) : Ink w := fun _ hc => ⟨word_blank h hc, word_break h hc⟩

theorem lead_ink (w s : Str) (h : Ink w) : lead false (w ++ s) = w ++ lead false s := by
  induction w with
  | nil => rfl
  | cons c w ih =>
    have hc := h c (by simp)
    have : (c == '\n') = false := by
      rw [beq_eq_false_iff_ne]; rintro rfl; simp [isBreak] at hc
    simp only [List.cons_append, lead, Bool.false_and, Bool.false_eq_true, if_false, this]
    rw [ih (fun c hc => h c (by simp [hc]))]

theorem lead_word (b : Bool) (w s : Str) (h : IsWord w) : lead b (w ++ s) = w ++ lead false s := by
  obtain ⟨h1, h2⟩ := h
  cases w with
  | nil => exact absurd rfl h1
  | cons c w =>
    have hw : IsWord (c :: w) := ⟨h1, h2⟩
    simp only [List.cons_append, lead, word_blank hw (List.mem_cons_self ..), word_newline hw (List.mem_cons_self ..), Bool.and_false,
      Bool.false_eq_true, if_false]
    rw [lead_ink w s (fun c hc => word_ink hw c (by simp [hc]))]

theorem trail_ink (w s : Str) (h : Ink w) : trail (w ++ s) = w ++ trail s := by
  induction w with
  | nil => rfl
  | cons c w ih =>
    simp only [List.cons_append, trail, (h c (by simp)).1, Bool.false_and, Bool.false_eq_true, if_false]
    rw [ih (fun c hc => h c (by simp [hc]))]

theorem segments_ink (lib : Lib) (w s : Str) (h : Ink w) (a : Option Char) :
    segments lib a false (w ++ s) = w ++ segments lib (w.getLast?.or a) false s := by
  induction w generalizing a with
  | nil => simp
  | cons c w ih =>
    simp only [List.cons_append, segments, (h c (by simp)).2, Bool.false_eq_true, if_false, List.nil_append]
    rw [ih (fun c hc => h c (by simp [hc]))]
    congr 3
    cases w with
    | nil => rfl
    | cons d w => rw [List.getLast?_cons_cons]; simp [List.getLast?_cons]

theorem segments_blanks (lib : Lib) (g s : Str) (h : ∀ c ∈ g, blank c = true) (a : Option Char) :
    ∃ b, segments lib a false (g ++ s) = g ++ segments lib b false s := by
  induction g generalizing a with
  | nil => exact ⟨a, rfl⟩
  | cons c g ih =>
    have hc : isBreak c = false := by
      rcases (blank_iff c).1 (h c (by simp)) with rfl | rfl <;> rfl
    obtain ⟨b, hb⟩ := ih (fun c hc => h c (by simp [hc])) (some c)
    exact ⟨b, by simp only [List.cons_append, segments, hc, Bool.false_eq_true, if_false, List.nil_append, hb]⟩

theorem segments_word (lib : Lib) (w s : Str) (h : IsWord w) (a : Option Char) :
    segments lib a false (w ++ s) = w ++ segments lib w.getLast? false s := by
  rw [segments_ink lib w s (word_ink h)]
  congr 2
  cases w with
  | nil => exact absurd rfl h.1
  | cons c w => simp [List.getLast?_cons]

theorem segments_run (lib : Lib) (a : Option Char) (k : Nat) (w s : Str) (h : IsWord w) :
    segments lib a false (List.replicate (k + 1) '\n' ++ (w ++ s)) = breakText lib a w.head? ++ w ++ segments lib w.getLast? false s := by
  have run : ∀ k, segments lib a true (List.replicate k '\n' ++ (w ++ s)) = breakText lib a w.head? ++ w ++ segments lib w.getLast? false s := by
    intro k
    induction k with
    | zero =>
      cases w with
      | nil => exact absurd rfl h.1
      | cons c w =>
        have := segments_word lib (c :: w) s h none
        simp only [List.cons_append, segments, word_break h (List.mem_cons_self ..), Bool.false_eq_true, if_false, List.nil_append,
          List.cons.injEq, true_and] at this
        simp only [List.replicate_zero, List.nil_append, List.cons_append, segments, word_break h (List.mem_cons_self ..), Bool.false_eq_true,
          if_false, if_true, List.head?_cons, List.append_assoc, this]
    | succ k ih =>
      have : isBreak '\n' = true := rfl
      rw [List.replicate_succ, List.cons_append, segments, if_pos this, ih]
  have : isBreak '\n' = true := rfl
  rw [List.replicate_succ, List.cons_append, segments, if_pos this, run]

theorem segments_end (lib : Lib) (a : Option Char) (k : Nat) : segments lib a false (List.replicate (k + 1) '\n') = breakText lib a none := by
  have run : ∀ k, segments lib a true (List.replicate k '\n') = breakText lib a none := by
    intro k
    induction k with
    | zero => simp [segments]
    | succ k ih =>
      have : isBreak '\n' = true := rfl
      rw [List.replicate_succ, segments, if_pos this, ih]
  have : isBreak '\n' = true := rfl
  rw [List.replicate_succ, segments, if_pos this, run]

theorem tabs_append (a b : Str) : tabs (a ++ b) = tabs a ++ tabs b := by simp [tabs]

theorem tabs_word (w : Str) (h : IsWord w) : tabs w = w := by
  have e : ∀ s : Str, (∀ c ∈ s, c ≠ '\t') → tabs s = s := by
    intro s hs
    induction s with
    | nil => rfl
    | cons c s ih =>
      have e : tabs (c :: s) = (if c = '\t' then ' ' else c) :: tabs s := rfl
      rw [e, if_neg (hs c (by simp)), ih (fun c hc => hs c (by simp [hc]))]
  exact e w (fun c hc => word_tab h hc)

theorem tabs_blanks (g : Str) (h : ∀ c ∈ g, blank c = true) : tabs g = List.replicate g.length ' ' := by
  induction g with
  | nil => rfl
  | cons c g ih =>
    have e : tabs (c :: g) = (if c = '\t' then ' ' else c) :: tabs g := rfl
    rw [e, ih (fun c hc => h c (by simp [hc]))]
    rcases (blank_iff c).1 (h c (by simp)) with rfl | rfl <;> rfl

theorem collapse_word (w s : Str) (h : IsWord w) (b : Bool) : collapse b (w ++ s) = w ++ collapse false s := by
  have ink : ∀ (w : Str), (∀ c ∈ w, (c == ' ') = false) → collapse false (w ++ s) = w ++ collapse false s := by
    intro w hw
    induction w with
    | nil => rfl
    | cons c w ih =>
      simp only [List.cons_append, collapse, hw c (by simp), Bool.and_false, Bool.false_eq_true, if_false]
      rw [ih (fun c hc => hw c (by simp [hc]))]
  cases w with
  | nil => exact absurd rfl h.1
  | cons c w =>
    simp only [List.cons_append, collapse, word_space h (List.mem_cons_self ..), Bool.and_false, Bool.false_eq_true, if_false]
    rw [ink w (fun c hc => word_space h (by simp [hc]))]

theorem collapse_spaces (k : Nat) (s : Str) : collapse false (List.replicate (k + 1) ' ' ++ s) = ' ' :: collapse true s := by
  have more : ∀ k, collapse true (List.replicate k ' ' ++ s) = collapse true s := by
    intro k
    induction k with
    | zero => rfl
    | succ k ih => simp [List.replicate_succ, collapse, ih]
  simp [List.replicate_succ, collapse, more]

/-! ### The passes over white space -/

theorem lead_blanks (g s : Str) (h : ∀ c ∈ g, blank c = true) : lead true (g ++ s) = lead true s := by
  induction g with
  | nil => rfl
  | cons c g ih =>
    simp only [List.cons_append, lead, h c (by simp), Bool.and_self, if_true]
    exact ih (fun c hc => h c (by simp [hc]))

theorem lead_keep (g s : Str) (h : ∀ c ∈ g, blank c = true) : lead false (g ++ s) = g ++ lead false s := by
  induction g with
  | nil => rfl
  | cons c g ih =>
    have : (c == '\n') = false := by
      rcases (blank_iff c).1 (h c (by simp)) with rfl | rfl <;> rfl
    simp only [List.cons_append, lead, Bool.false_and, Bool.false_eq_true, if_false, this]
    rw [ih (fun c hc => h c (by simp [hc]))]

/-- After a line feed only line feeds are left of white space. -/
theorem lead_gap_true (g s : Str) (h : Gap g) : ∃ k, lead true (g ++ s) = List.replicate k '\n' ++ lead true s ∧ ('\n' ∈ g → 0 < k) ∧
    ('\n' ∉ g → k = 0) := by
  induction g with
  | nil => exact ⟨0, rfl, by simp, by simp⟩
  | cons c g ih =>
    obtain ⟨k, h1, h2, h3⟩ := ih (fun c hc => h c (by simp [hc]))
    rcases h c (by simp) with rfl | rfl | rfl
    · exact ⟨k, by simpa [lead, blank] using h1, by simpa using h2, by simpa using h3⟩
    · exact ⟨k, by simpa [lead, blank] using h1, by simpa using h2, by simpa using h3⟩
    · refine ⟨k + 1, ?_, by simp, by simp⟩
      simp [lead, blank, h1, List.replicate_succ]

theorem gap_split (g : Str) (h : Gap g) (hn : '\n' ∈ g) : ∃ b g', g = b ++ '\n' :: g' ∧ (∀ c ∈ b, blank c = true) ∧ Gap g' := by
  induction g with
  | nil => cases hn
  | cons c g ih =>
    by_cases hc : c = '\n'
    · exact ⟨[], g, by simp [hc], by simp, fun c hc => h c (by simp [hc])⟩
    · obtain ⟨b, g', h1, h2, h3⟩ := ih (fun c hc => h c (by simp [hc])) (by
        rcases List.mem_cons.1 hn with h | h
        · exact absurd h.symm hc
        · exact h)
      refine ⟨c :: b, g', by rw [h1]; rfl, ?_, h3⟩
      intro x hx
      rcases List.mem_cons.1 hx with rfl | hx
      · rcases h x (by simp) with rfl | rfl | rfl
        · rfl
        · rfl
        · exact absurd rfl hc
      · exact h2 x hx

theorem gap_blanks (g : Str) (h : Gap g) (hn : '\n' ∉ g) : ∀ c ∈ g, blank c = true := by
  intro c hc
  rcases h c hc with rfl | rfl | rfl
  · rfl
  · rfl
  · exact absurd hc hn

theorem lineEnds_blanks (b s : Str) (h : ∀ c ∈ b, blank c = true) : lineEnds (b ++ s) = lineEnds s := by
  induction b with
  | nil => rfl
  | cons c b ih =>
    simp only [List.cons_append, lineEnds, h c (by simp), if_true]
    exact ih (fun c hc => h c (by simp [hc]))

theorem trail_drop (b s : Str) (h : ∀ c ∈ b, blank c = true) (hs : lineEnds s = true) : trail (b ++ s) = trail s := by
  induction b with
  | nil => rfl
  | cons c b ih =>
    have hb : ∀ c ∈ b, blank c = true := fun c hc => h c (by simp [hc])
    simp only [List.cons_append, trail, h c (by simp), lineEnds_blanks b s hb, hs, Bool.and_self, if_true]
    exact ih hb

theorem trail_keep (b s : Str) (h : ∀ c ∈ b, blank c = true) (hs : lineEnds s = false) : trail (b ++ s) = b ++ trail s := by
  induction b with
  | nil => rfl
  | cons c b ih =>
    have hb : ∀ c ∈ b, blank c = true := fun c hc => h c (by simp [hc])
    simp only [List.cons_append, trail, h c (by simp), lineEnds_blanks b s hb, hs, Bool.and_false, Bool.false_eq_true, if_false]
    rw [ih hb]

theorem trail_feeds (k : Nat) (s : Str) : trail (List.replicate k '\n' ++ s) = List.replicate k '\n' ++ trail s := by
  induction k with
  | zero => rfl
  | succ k ih =>
    have : blank '\n' = false := rfl
    simp only [List.replicate_succ, List.cons_append, trail, this, Bool.false_and, Bool.false_eq_true, if_false, ih]

theorem lineEnds_word (w s : Str) (h : IsWord w) : lineEnds (w ++ s) = false := by
  cases w with
  | nil => exact absurd rfl h.1
  | cons c w => simp only [List.cons_append, lineEnds, word_blank h (List.mem_cons_self ..), Bool.false_eq_true, if_false, word_newline h (List.mem_cons_self ..)]

/-- White space with a line feed becomes line feeds. -/
theorem feeds (b : Bool) (g s : Str) (h : Gap g) (hn : '\n' ∈ g) (hs : lead true s = s' ∧ lead false s = s') :
    ∃ k, trail (lead b (g ++ s)) = List.replicate (k + 1) '\n' ++ trail s' := by
  obtain ⟨a, g', rfl, h1, h2⟩ := gap_split g h hn
  obtain ⟨k, e1, -, -⟩ := lead_gap_true g' s h2
  have e2 : lead false ('\n' :: g' ++ s) = '\n' :: (List.replicate k '\n' ++ s') := by
    have : ('\n' == '\n') = true := rfl
    simp only [List.cons_append, lead, Bool.false_and, Bool.false_eq_true, if_false, this, e1, hs.1]
  have e2' : lead true ('\n' :: g' ++ s) = '\n' :: (List.replicate k '\n' ++ s') := by
    have : ('\n' == '\n') = true := rfl
    have h0 : blank '\n' = false := rfl
    simp only [List.cons_append, lead, h0, Bool.and_false, Bool.false_eq_true, if_false, this, e1, hs.1]
  have e3 : ∀ x : Str, lineEnds ('\n' :: x) = true := fun x => rfl
  have e4 : '\n' :: (List.replicate k '\n' ++ s') = List.replicate (k + 1) '\n' ++ s' := by rw [List.replicate_succ]; rfl
  refine ⟨k, ?_⟩
  rw [List.append_assoc]
  cases b with
  | true => rw [lead_blanks a _ h1, e2', e4, trail_feeds]
  | false => rw [lead_keep a _ h1, e2, trail_drop a _ h1 (e3 _), e4, trail_feeds]

/-- The whole of the processing, in the middle of a text. -/
def rest (lib : Lib) (b : Bool) (a : Option Char) (s : Str) : Str := collapse false (tabs (segments lib a false (trail (lead b s))))

theorem breakText_eq (lib : Lib) (a b : Option Char) (g : Str) (hn : '\n' ∈ g) : breakText lib a b = gapText lib.wide a g b := by
  unfold breakText gapText
  rw [if_pos hn]
  by_cases hj : Joined lib.wide a b
  · rw [if_pos hj]
    rcases hj with h | h | ⟨x, y, rfl, rfl, h1, h2, h3, h4⟩
    · rw [if_pos (.inl h)]
    · rw [if_pos (.inr h)]
    · split
      · rfl
      · simp [h1, h2, (isHangul_iff x).2 h3, (isHangul_iff y).2 h4]
  · rw [if_neg hj, if_neg (fun h => hj (h.elim .inl (fun h => .inr (.inl h))))]
    split
    · rename_i x y
      rw [if_neg]
      intro h
      simp only [Bool.and_eq_true, Bool.not_eq_true'] at h
      exact hj (.inr (.inr ⟨x, y, rfl, rfl, h.1.1.1, h.1.2, (isHangul_iff x).1 h.1.1.2, (isHangul_iff y).1 h.2⟩))
    · rfl

theorem gapText_cases (wide : Char → Bool) (a b : Option Char) (g : Str) : gapText wide a g b = [] ∨ gapText wide a g b = [' '] := by
  unfold gapText
  split
  · split
    · exact .inl rfl
    · exact .inr rfl
  · split
    · exact .inl rfl
    · exact .inr rfl

theorem rest_step (lib : Lib) (b : Bool) (a : Option Char) (g w s : Str) (hb : b = true ↔ a = none) (hg : Gap g) (h0 : b = false → g ≠ [])
    (hw : IsWord w) : rest lib b a (g ++ w ++ s) = gapText lib.wide a g w.head? ++ w ++ rest lib false w.getLast? s := by
  have hh : w.head? ≠ none := by cases w with | nil => exact absurd rfl hw.1 | cons c w => simp
  unfold rest
  rw [List.append_assoc]
  by_cases hn : '\n' ∈ g
  · obtain ⟨k, e⟩ := feeds (s' := w ++ lead false s) b g (w ++ s) hg hn ⟨lead_word _ _ _ hw, lead_word _ _ _ hw⟩
    rw [e, trail_ink _ _ (word_ink hw), segments_run lib a k w _ hw, breakText_eq lib a w.head? g hn, tabs_append, tabs_append, tabs_word w hw]
    rcases gapText_cases lib.wide a w.head? g with h | h
    · rw [h]
      exact collapse_word w _ hw false
    · rw [h]
      have : tabs [' '] = [' '] := rfl
      rw [this, List.append_assoc]
      have := collapse_spaces 0 (w ++ tabs (segments lib w.getLast? false (trail (lead false s))))
      rw [show List.replicate (0 + 1) ' ' = [' '] from rfl] at this
      rw [this, collapse_word w _ hw true]
      rfl
  · have hgb := gap_blanks g hg hn
    cases b with
    | true =>
      have ha := hb.1 rfl
      rw [lead_blanks g _ hgb, lead_word true w s hw, trail_ink _ _ (word_ink hw), segments_word lib w _ hw, tabs_append, tabs_word w hw,
        collapse_word w _ hw]
      rw [gapText, if_neg hn, if_pos (.inl ha)]
      rfl
    | false =>
      have ha : a ≠ none := fun h => by have := hb.2 h; cases this
      rw [lead_keep g _ hgb, lead_word false w s hw, trail_keep g _ hgb (lineEnds_word w _ hw), trail_ink _ _ (word_ink hw)]
      obtain ⟨a', e⟩ := segments_blanks lib g (w ++ trail (lead false s)) hgb a
      rw [e, segments_word lib w _ hw, tabs_append, tabs_append, tabs_word w hw, tabs_blanks g hgb]
      have hl : ∃ k, g.length = k + 1 := by
        cases g with
        | nil => exact absurd rfl (h0 rfl)
        | cons c g => exact ⟨g.length, rfl⟩
      obtain ⟨k, hl⟩ := hl
      rw [hl, collapse_spaces, collapse_word w _ hw true, gapText, if_neg hn, if_neg (by simp [ha, hh])]
      rfl

theorem rest_end (lib : Lib) (b : Bool) (a : Option Char) (g : Str) (hb : b = true ↔ a = none) (hg : Gap g) :
    rest lib b a g = gapText lib.wide a g none := by
  unfold rest
  by_cases hn : '\n' ∈ g
  · obtain ⟨k, e⟩ := feeds (s' := []) b g [] hg hn ⟨rfl, rfl⟩
    rw [List.append_nil] at e
    rw [e, show trail [] = [] from rfl, List.append_nil, segments_end, breakText_eq lib a none g hn]
    rcases gapText_cases lib.wide a none g with h | h <;> rw [h] <;> rfl
  · have hgb := gap_blanks g hg hn
    have e : trail (lead b g) = [] := by
      cases b with
      | true =>
        have := lead_blanks g [] hgb
        rw [List.append_nil] at this
        rw [this]; rfl
      | false =>
        have := lead_keep g [] hgb
        rw [List.append_nil] at this
        rw [this, show lead false [] = [] from rfl, trail_drop g [] hgb rfl]
        rfl
    rw [e, gapText, if_neg hn, if_pos (.inr rfl)]
    rfl

theorem rest_pieces (lib : Lib) (b : Bool) (a : Option Char) (l : List (Str × Str)) (last : Str) (hb : b = true ↔ a = none) (h : Pieces b l last) :
    rest lib b a (flat l last) = spaced lib.wide a l last := by
  induction l generalizing b a with
  | nil => exact rest_end lib b a last hb h
  | cons p l ih =>
    obtain ⟨g, w⟩ := p
    obtain ⟨h1, h2, h3, h4⟩ := h
    rw [flat, rest_step lib b a g w _ hb h1 h2 h3, spaced]
    congr 1
    refine ih false _ ?_ h4
    cases w with
    | nil => exact absurd rfl h3.1
    | cons c w => simp [List.getLast?_cons]

/-! ### C90 -/

/-- Every text without carriage returns is made of such pieces. -/
theorem pieces_exist (s : Str) (h : '\r' ∉ s) : ∃ l last, s = flat l last ∧ Pieces true l last := by
  have key : ∀ s : Str, '\r' ∉ s → ∃ l last, s = flat l last ∧ Pieces true l last ∧
      (∀ c t, s = c :: t → ¬ Space c → ∃ w l', l = ([], w) :: l') := by
    intro s
    induction s with
    | nil => exact fun _ => ⟨[], [], rfl, by simp [Pieces, Gap], by simp⟩
    | cons c s ih =>
      intro hr
      obtain ⟨l, last, h1, h2, h3⟩ := ih (fun h => hr (by simp [h]))
      have hc : c ≠ '\r' := fun h => hr (by simp [h])
      by_cases hs : Space c
      · cases l with
        | nil =>
          refine ⟨[], c :: last, by rw [h1]; rfl, ?_, ?_⟩
          · intro x hx
            rcases List.mem_cons.1 hx with rfl | hx
            · exact hs
            · exact h2 x hx
          · rintro c' t ⟨⟩ hn
            exact absurd hs hn
        | cons p l =>
          obtain ⟨g, w⟩ := p
          obtain ⟨p1, p2, p3, p4⟩ := h2
          refine ⟨(c :: g, w) :: l, last, by rw [h1]; rfl, ⟨?_, by simp, p3, p4⟩, ?_⟩
          · intro x hx
            rcases List.mem_cons.1 hx with rfl | hx
            · exact hs
            · exact p1 x hx
          · rintro c' t ⟨⟩ hn
            exact absurd hs hn
      · have one : IsWord [c] := ⟨by simp, by simp [hs, hc]⟩
        cases l with
        | nil =>
          refine ⟨[([], [c])], last, by rw [h1]; rfl, ⟨by simp [Gap], by simp, one, h2⟩, ?_⟩
          rintro c' t ⟨⟩ _
          exact ⟨_, _, rfl⟩
        | cons p l =>
          obtain ⟨g, w⟩ := p
          obtain ⟨p1, p2, p3, p4⟩ := h2
          cases g with
          | nil =>
            refine ⟨([], c :: w) :: l, last, by rw [h1]; rfl, ⟨by simp [Gap], by simp, ⟨by simp, ?_⟩, p4⟩, ?_⟩
            · intro x hx
              rcases List.mem_cons.1 hx with rfl | hx
              · exact ⟨hs, hc⟩
              · exact p3.2 x hx
            · rintro c' t ⟨⟩ _
              exact ⟨_, _, rfl⟩
          | cons d g =>
            refine ⟨([], [c]) :: (d :: g, w) :: l, last, by rw [h1]; rfl, ⟨by simp [Gap], by simp, one, p1, by simp, p3, p4⟩, ?_⟩
            rintro c' t ⟨⟩ _
            exact ⟨_, _, rfl⟩
  obtain ⟨l, last, h1, h2, -⟩ := key s h
  exact ⟨l, last, h1, h2⟩

/-- **C90** With `white-space: normal` or `nowrap`, a text alone keeps all its words in order, with one space for
the white space between two words, or none where lines are joined between wide characters. -/
theorem normal_partial (lib : Lib) (ws : WhiteSpace) (hws : ws = .normal ∨ ws = .nowrap) (text : Str) (l : List (Str × Str)) (last : Str)
    (hu : lib.unescape text = flat l last) (h : Pieces true l last) : normalizeText lib ws text none false false = spaced lib.wide none l last := by
  have := rest_pieces lib true none l last (by simp) h
  rw [← this]
  simp only [normalizeText, after, process, hu, Bool.false_eq_true, if_false, rest]
  rcases hws with rfl | rfl <;> simp [segmentBreaks]

/-- **C90** The first text of an element has no white space at its beginning. -/
theorem first_partial (lib : Lib) (ws : WhiteSpace) (hws : ws = .normal ∨ ws = .nowrap) (text g w : Str) (l : List (Str × Str)) (last : Str)
    (hu : lib.unescape text = flat ((g, w) :: l) last) (h : Pieces true ((g, w) :: l) last) :
    normalizeText lib ws text none true false = w ++ spaced lib.wide w.getLast? l last := by
  have e := normal_partial lib ws hws text _ _ hu h
  have hw : IsWord w := h.2.2.1
  have hl : ∀ s, lstripSpace (w ++ s) = w ++ s := by
    intro s
    cases w with
    | nil => exact absurd rfl hw.1
    | cons c w =>
      have := word_space hw (List.mem_cons_self ..)
      simp only [lstripSpace, List.cons_append, List.dropWhile, this]
  simp only [normalizeText, Bool.false_eq_true, if_false, if_true] at e ⊢
  rw [e, spaced, List.append_assoc]
  rcases gapText_cases lib.wide none w.head? g with k | k
  · rw [k]; exact hl _
  · rw [k]
    have : lstripSpace ([' '] ++ (w ++ spaced lib.wide w.getLast? l last)) = lstripSpace (w ++ spaced lib.wide w.getLast? l last) := by
      simp [lstripSpace]
    rw [this]; exact hl _

/-- The words of pieces. -/
def wordsOf (l : List (Str × Str)) : List Str := l.map (·.2)

theorem spaced_words (wide : Char → Bool) (l : List (Str × Str)) (last : Str) (a : Option Char) (h : ∀ p ∈ l, '\n' ∉ p.1 ∧ p.2 ≠ []) (hl : '\n' ∉ last)
    (ha : a ≠ none) : spaced wide a l last = (wordsOf l).flatMap fun w => ' ' :: w := by
  induction l generalizing a with
  | nil => simp [spaced, gapText, hl, wordsOf]
  | cons p l ih =>
    obtain ⟨h1, h2⟩ := h p (by simp)
    obtain ⟨g, w⟩ := p
    simp only at h1 h2
    have hh : w.head? ≠ none := by cases w with | nil => exact absurd rfl h2 | cons c w => simp
    have hh' : w.getLast? ≠ none := by cases w with | nil => exact absurd rfl h2 | cons c w => simp [List.getLast?_cons]
    rw [spaced, ih _ (fun p hp => h p (by simp [hp])) hh', gapText, if_neg h1, if_neg (by simp [ha, hh])]
    simp [wordsOf]

/-- On one line: the words with one space between them. -/
theorem spaced_line (wide : Char → Bool) (l : List (Str × Str)) (last : Str) (h : ∀ p ∈ l, '\n' ∉ p.1 ∧ p.2 ≠ []) (hl : '\n' ∉ last) :
    spaced wide none l last = join [' '] (wordsOf l) := by
  have hj : ∀ (w : Str) (l : List Str), join [' '] (w :: l) = w ++ l.flatMap fun w => ' ' :: w := by
    intro w l
    induction l generalizing w with
    | nil => simp [join]
    | cons v l ih =>
      have : join [' '] (w :: v :: l) = w ++ [' '] ++ join [' '] (v :: l) := rfl
      rw [this, ih]; simp
  cases l with
  | nil => simp [spaced, gapText, hl, wordsOf, join]
  | cons p l =>
    obtain ⟨h1, h2⟩ := h p (by simp)
    obtain ⟨g, w⟩ := p
    simp only at h1 h2
    have hh' : w.getLast? ≠ none := by cases w with | nil => exact absurd rfl h2 | cons c w => simp [List.getLast?_cons]
    rw [spaced, spaced_words wide l last _ (fun p hp => h p (by simp [hp])) hl hh', gapText, if_neg h1, if_pos (.inl rfl)]
    simp only [wordsOf, List.map_cons, hj, List.nil_append]

/-- **C90** On a single line of text the words are joined by single spaces. -/
theorem line_words_partial (lib : Lib) (ws : WhiteSpace) (hws : ws = .normal ∨ ws = .nowrap) (text : Str) (l : List (Str × Str)) (last : Str)
    (hu : lib.unescape text = flat l last) (h : Pieces true l last) (hn : '\n' ∉ lib.unescape text) :
    normalizeText lib ws text none false false = join [' '] (wordsOf l) := by
  have key : ∀ (l : List (Str × Str)) (b : Bool), Pieces b l last → '\n' ∉ flat l last → (∀ p ∈ l, '\n' ∉ p.1 ∧ p.2 ≠ []) ∧ '\n' ∉ last := by
    intro l
    induction l with
    | nil => exact fun _ _ h => ⟨by simp, h⟩
    | cons p l ih =>
      obtain ⟨g, w⟩ := p
      rintro b ⟨h1, h2, h3, h4⟩ hf
      rw [flat] at hf
      simp only [List.mem_append, not_or] at hf
      obtain ⟨k1, k2⟩ := ih false h4 hf.2
      refine ⟨?_, k2⟩
      intro p hp
      rcases List.mem_cons.1 hp with rfl | hp
      · exact ⟨hf.1.1, h3.1⟩
      · exact k1 p hp
  rw [hu] at hn
  obtain ⟨k1, k2⟩ := key l true h hn
  rw [normal_partial lib ws hws text l last hu h, spaced_line lib.wide l last k1 k2]

/-! ### Lines -/

theorem crlf_plain (s : Str) (h : '\r' ∉ s) : crlf false s = s := by
  induction s with
  | nil => rfl
  | cons c s ih =>
    have hc : c ≠ '\r' := fun e => h (by simp [e])
    rw [crlf, if_neg hc, if_neg (by simp), ih (fun e => h (by simp [e]))]

/-- What is left of a text whose line breaks are kept. -/
def keptLines (s : Str) : Str := collapse false (tabs (trail (lead true s)))

theorem segments_none (lib : Lib) (s : Str) (h : ∀ c ∈ s, isBreak c = false) (a : Option Char) : segments lib a false s = s := by
  induction s generalizing a with
  | nil => rfl
  | cons c s ih =>
    simp only [segments, h c (by simp), Bool.false_eq_true, if_false, List.nil_append]
    rw [ih (fun c hc => h c (by simp [hc]))]

theorem lead_mem (s : Str) (b : Bool) : ∀ c ∈ lead b s, c ∈ s := by
  induction s generalizing b with
  | nil => simp [lead]
  | cons d s ih =>
    intro c hc
    rw [lead] at hc
    split at hc
    · exact List.mem_cons_of_mem _ (ih _ c hc)
    · rcases List.mem_cons.1 hc with rfl | hc
      · simp
      · exact List.mem_cons_of_mem _ (ih _ c hc)

theorem trail_mem (s : Str) : ∀ c ∈ trail s, c ∈ s := by
  induction s with
  | nil => simp [trail]
  | cons d s ih =>
    intro c hc
    rw [trail] at hc
    split at hc
    · exact List.mem_cons_of_mem _ (ih c hc)
    · rcases List.mem_cons.1 hc with rfl | hc
      · simp
      · exact List.mem_cons_of_mem _ (ih c hc)

theorem keptLines_line (lib : Lib) (s : Str) (hn : '\n' ∉ s) (hr : '\r' ∉ s) : keptLines s = rest lib true none s := by
  rw [keptLines, rest, segments_none]
  intro c hc
  rw [Bool.eq_false_iff]
  intro h
  have := lead_mem _ _ _ (trail_mem _ _ hc)
  rcases (isBreak_iff c).1 h with rfl | rfl
  · exact hr this
  · exact hn this

theorem lead_line (x y : Str) (b : Bool) (h : '\n' ∉ x) : lead b (x ++ '\n' :: y) = lead b x ++ '\n' :: lead true y := by
  induction x generalizing b with
  | nil =>
    have : blank '\n' = false := rfl
    simp [lead, this]
  | cons c x ih =>
    have hx : '\n' ∉ x := fun e => h (by simp [e])
    simp only [List.cons_append, lead]
    split
    · exact ih b hx
    · rw [ih _ hx]; rfl

theorem lineEnds_line (x y : Str) (h : '\n' ∉ x) : lineEnds (x ++ '\n' :: y) = lineEnds x := by
  induction x with
  | nil => rfl
  | cons c x ih =>
    simp only [List.cons_append, lineEnds]
    split
    · exact ih (fun e => h (by simp [e]))
    · rfl

theorem trail_line (x y : Str) (h : '\n' ∉ x) : trail (x ++ '\n' :: y) = trail x ++ '\n' :: trail y := by
  induction x with
  | nil =>
    have : blank '\n' = false := rfl
    simp [trail, this]
  | cons c x ih =>
    have hx : '\n' ∉ x := fun e => h (by simp [e])
    simp only [List.cons_append, trail, lineEnds_line x y hx]
    split
    · exact ih hx
    · rw [ih hx]; rfl

theorem collapse_line (x y : Str) (b : Bool) : collapse b (x ++ '\n' :: y) = collapse b x ++ '\n' :: collapse false y := by
  induction x generalizing b with
  | nil => simp [collapse]
  | cons c x ih =>
    simp only [List.cons_append, collapse]
    split
    · exact ih true
    · rw [ih]; rfl

theorem keptLines_cons (x y : Str) (h : '\n' ∉ x) : keptLines (x ++ '\n' :: y) = keptLines x ++ '\n' :: keptLines y := by
  have hx : '\n' ∉ lead true x := fun e => h (lead_mem _ _ _ e)
  rw [keptLines, lead_line x y true h, trail_line _ _ hx, tabs_append]
  have : tabs ('\n' :: trail (lead true y)) = '\n' :: tabs (trail (lead true y)) := rfl
  rw [this, collapse_line]
  rfl

/-- **C90** With `white-space: pre-line` every line of the text stays a line, and its words are joined by single spaces. -/
theorem pre_line_partial (lib : Lib) (text : Str) (lines : List (List (Str × Str) × Str)) (hne : lines ≠ [])
    (hu : lib.unescape text = join ['\n'] (lines.map fun p => flat p.1 p.2))
    (h : ∀ p ∈ lines, Pieces true p.1 p.2 ∧ (∀ q ∈ p.1, '\n' ∉ q.1) ∧ '\n' ∉ p.2) :
    normalizeText lib .preLine text none false false = join ['\n'] (lines.map fun p => join [' '] (wordsOf p.1)) := by
  have flatNo : ∀ (l : List (Str × Str)) (last : Str) (b : Bool) (c : Char), Pieces b l last → (∀ q ∈ l, c ∉ q.1) → c ∉ last →
      (c = '\n' ∨ c = '\r') → c ∉ flat l last := by
    intro l
    induction l with
    | nil => intro last b c _ _ h _; exact h
    | cons p l ih =>
      obtain ⟨g, w⟩ := p
      rintro last b c ⟨h1, h2, h3, h4⟩ hq hl hc
      rw [flat]
      simp only [List.mem_append, not_or]
      refine ⟨⟨hq (g, w) (by simp), fun hw => ?_⟩, ih last false c h4 (fun q hq' => hq q (by simp [hq'])) hl hc⟩
      rcases hc with rfl | rfl
      · exact (h3.2 _ hw).1 (by simp [Space])
      · exact (h3.2 _ hw).2 rfl
  have gapNo : ∀ g : Str, Gap g → '\r' ∉ g := by
    intro g hg hr
    rcases hg _ hr with h | h | h <;> cases h
  have piecesNo : ∀ (l : List (Str × Str)) (last : Str) (b : Bool), Pieces b l last → (∀ q ∈ l, '\r' ∉ q.1 ∧ q.2 ≠ []) ∧ '\r' ∉ last := by
    intro l
    induction l with
    | nil => exact fun last b h => ⟨by simp, gapNo _ h⟩
    | cons p l ih =>
      obtain ⟨g, w⟩ := p
      rintro last b ⟨h1, h2, h3, h4⟩
      obtain ⟨k1, k2⟩ := ih last false h4
      refine ⟨?_, k2⟩
      intro q hq
      rcases List.mem_cons.1 hq with rfl | hq
      · exact ⟨gapNo _ h1, h3.1⟩
      · exact k1 q hq
  have line : ∀ p ∈ lines, keptLines (flat p.1 p.2) = join [' '] (wordsOf p.1) ∧ '\n' ∉ flat p.1 p.2 ∧ '\r' ∉ flat p.1 p.2 := by
    intro p hp
    obtain ⟨h1, h2, h3⟩ := h p hp
    obtain ⟨k1, k2⟩ := piecesNo _ _ _ h1
    have e1 := flatNo _ _ _ '\n' h1 h2 h3 (.inl rfl)
    have e2 := flatNo _ _ _ '\r' h1 (fun q hq => (k1 q hq).1) k2 (.inr rfl)
    refine ⟨?_, e1, e2⟩
    rw [keptLines_line lib _ e1 e2, rest_pieces lib true none _ _ (by simp) h1,
      spaced_line lib.wide _ _ (fun q hq => ⟨h2 q hq, (k1 q hq).2⟩) h3]
  have all : keptLines (join ['\n'] (lines.map fun p => flat p.1 p.2)) = join ['\n'] (lines.map fun p => join [' '] (wordsOf p.1)) ∧
      '\r' ∉ join ['\n'] (lines.map fun p => flat p.1 p.2) := by
    clear hu h
    induction lines with
    | nil => exact absurd rfl hne
    | cons p l ih =>
      obtain ⟨a1, a2, a3⟩ := line p (by simp)
      cases l with
      | nil => exact ⟨by simpa [join] using a1, by simpa [join] using a3⟩
      | cons q l =>
        obtain ⟨b1, b2⟩ := ih (by simp) (fun p hp => line p (by simp [hp]))
        simp only [List.map_cons, join] at b1 b2 ⊢
        constructor
        · rw [show flat p.1 p.2 ++ ['\n'] ++ join ['\n'] (flat q.1 q.2 :: l.map fun p => flat p.1 p.2) =
            flat p.1 p.2 ++ '\n' :: join ['\n'] (flat q.1 q.2 :: l.map fun p => flat p.1 p.2) by simp, keptLines_cons _ _ a2, a1, b1]
          simp
        · simp only [List.mem_append, not_or]
          exact ⟨⟨a3, by simp⟩, b2⟩
  have e : ∀ s : Str, '\r' ∉ s → process lib .preLine s = keptLines s := by
    intro s hs
    have : '\r' ∉ trail (lead true s) := fun h => hs (lead_mem _ _ _ (trail_mem _ _ h))
    simp only [process, segmentBreaks, reduceCtorEq, or_true, if_true, crlf_plain _ this, keptLines]
  simp only [normalizeText, after, Bool.false_eq_true, if_false, hu]
  rw [e _ all.2, all.1]

/-- **C90** With `white-space: pre` or `pre-wrap` a text alone keeps everything. -/
theorem pre_partial (lib : Lib) (ws : WhiteSpace) (hws : ws = .pre ∨ ws = .preWrap) (text : Str) (hr : '\r' ∉ lib.unescape text) :
    normalizeText lib ws text none false false = lib.unescape text := by
  rcases hws with rfl | rfl <;>
    simp only [normalizeText, after, process, segmentBreaks, reduceCtorEq, or_self, or_true, true_or, if_true, if_false, Bool.false_eq_true,
      crlf_plain _ hr]

/-- **C90** A value of `white-space` the code does not know keeps everything. -/
theorem other_partial (lib : Lib) (text : Str) : normalizeText lib .other text none false false = lib.unescape text := by
  simp [normalizeText, after, process]

/-- The last text of an element has no spaces at its end. -/
theorem last_strip (lib : Lib) (ws : WhiteSpace) (prev : Option Str) (first : Bool) (text : Str) :
    normalizeText lib ws text prev first true = rstripSpace (normalizeText lib ws text prev first false) := by
  simp [normalizeText]

/-- The library of the witnesses: no references, no wide characters. -/
def plain : Lib := ⟨id, fun _ => false⟩

/-- **C90** In `<text>foo<tspan>bar</tspan></text>` there is no white space; the code puts one. -/
theorem inserted_violated : normalizeText plain .normal "foo".toList none true false = "foo".toList ∧
    normalizeText plain .normal "bar".toList (some "foo".toList) false true = " bar".toList := by decide

/-- **C90** `white-space: pre` does not keep the blanks at the beginning of the first text. -/
theorem pre_violated : normalizeText plain .pre "  a".toList none true false = "a".toList := by decide

/-- **C90** With `white-space: pre` the white space at the beginning of a text after a blank is lost, line feeds included. -/
theorem pre_after_violated : normalizeText plain .pre " \n b".toList (some "a ".toList) false false = "b".toList := by decide

/-- **C90** With `pre-line` a blank before a line break written as CR LF is kept. -/
theorem cr_violated : normalizeText plain .preLine "a \r\nb".toList none false false = "a \nb".toList := by decide

/-- **C90** The text `&lt;` (in XML `&amp;lt;`) is not kept: character references are replaced although the XML parser has done so. -/
theorem unescaped_violated (lib : Lib) (h : lib.unescape "&lt;".toList = "<".toList) :
    normalizeText lib .pre "&lt;".toList none false false = "<".toList := by
  simp only [normalizeText, h]
  rfl

/-- The hypotheses are met by ` foo  bar\n baz `. -/
example : Pieces true [([' '], "foo".toList), ([' ', ' '], "bar".toList), (['\n', ' '], "baz".toList)] [' '] ∧
    flat [([' '], "foo".toList), ([' ', ' '], "bar".toList), (['\n', ' '], "baz".toList)] [' '] = " foo  bar\n baz ".toList := by
  simp [Pieces, Gap, IsWord, Space, flat]

example : normalizeText plain .normal " foo  bar\n baz ".toList none false false = "foo bar baz".toList := by decide

example : normalizeText plain .preLine " foo  bar\n baz ".toList none false false = "foo bar\nbaz".toList := by decide

end SvgPy.TextContent
