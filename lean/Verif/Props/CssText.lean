import Verif.Model.CssText
import Verif.Lemmas.PyStr

/-! Property C22: CSS text normalisation. -/

set_option linter.unusedSimpArgs false

namespace SvgPy.CssText

open PyStr

/-! ### Specification -/

/-- The characters that normalisation folds into one space. -/
def isSep (c : Char) : Bool := c = ' ' || c = '\r' || c = '\n'

/-- The words of a text: maximal runs of characters other than separators
(`acc` is the word being read, reversed). -/
def wordsAux : Str → Str → List Str
  | acc, [] => if acc = [] then [] else [acc.reverse]
  | acc, c :: s =>
    if isSep c then (if acc = [] then wordsAux [] s else acc.reverse :: wordsAux [] s)
    else wordsAux (c :: acc) s

/-- The words of a text. -/
def words (s : Str) : List Str := wordsAux [] s

/-- Canonical text: no outer white space, no line breaks, no two adjacent spaces. -/
def Canonical (s : Str) : Prop :=
  (∀ c t, s = c :: t → isSpace c = false) ∧ (∀ c t, s = t ++ [c] → isSpace c = false) ∧
  '\r' ∉ s ∧ '\n' ∉ s ∧ ∀ a b, s ≠ a ++ ' ' :: ' ' :: b

/-! ### Proofs -/

private theorem words_crlf (s : Str) : ∀ acc, wordsAux acc (replaceCrLf s) = wordsAux acc s := by
  induction s using replaceCrLf.induct with
  | case1 => intro acc; rfl
  | case2 s ih =>
    intro acc
    by_cases h : acc = [] <;> simp [replaceCrLf, wordsAux, isSep, ih, h]
  | case3 c s hne ih =>
    intro acc
    rw [replaceCrLf]
    · simp only [wordsAux, ih]
    · exact hne

private theorem words_breaks (s : Str) : ∀ acc, wordsAux acc (replaceBreaks s) = wordsAux acc s := by
  induction s with
  | nil => intro acc; rfl
  | cons c s ih =>
    intro acc
    simp only [replaceBreaks] at ih
    simp only [replaceBreaks, List.map_cons, wordsAux, ih]
    by_cases h : c = '\r' ∨ c = '\n'
    · have : isSep c = true := by rcases h with rfl | rfl <;> decide
      simp [h, this, show isSep ' ' = true by decide]
    · simp [h]

private theorem words_collapse (s : Str) : ∀ acc, wordsAux acc (collapse s) = wordsAux acc s := by
  induction s using collapse.induct with
  | case1 => intro acc; rfl
  | case2 s ih =>
    intro acc
    rw [collapse, ih]
    by_cases h : acc = [] <;> simp [wordsAux, isSep, h]
  | case3 c s hne ih =>
    intro acc
    rw [collapse]
    · simp only [wordsAux, ih]
    · exact hne

/-- **C22** (contents).  The words of the text (and so the sequence of its
characters other than spaces and line breaks) are those of the trimmed input;
trimming only removes white space at the ends (`strip_split`). -/
theorem normalizeText_words (s : Str) : words (normalizeText s) = words (strip s) := by
  simp only [words, normalizeText, words_collapse, words_breaks, words_crlf]

private theorem head_crlf (s : Str) (x : Char) (h : (replaceCrLf s).head? = some x) :
    s.head? = some x ∨ (s.head? = some '\r') := by
  induction s using replaceCrLf.induct with
  | case1 => simp [replaceCrLf] at h
  | case2 s _ => simp
  | case3 c s hne _ =>
    rw [replaceCrLf] at h
    · left; simpa using h
    · exact hne

private theorem crlf_ne_nil (s : Str) (h : s ≠ []) : replaceCrLf s ≠ [] := by
  induction s using replaceCrLf.induct with
  | case1 => simp at h
  | case2 s _ => simp [replaceCrLf]
  | case3 c s hne _ => rw [replaceCrLf]; · simp
                       · exact hne

private theorem last_crlf (s : Str) (h : ∀ x, s.getLast? = some x → isSpace x = false) :
    (replaceCrLf s).getLast? = s.getLast? := by
  induction s using replaceCrLf.induct with
  | case1 => rfl
  | case2 s ih =>
    cases s with
    | nil => simp at h; revert h; decide
    | cons y ys =>
      have h' : ∀ x, (y :: ys).getLast? = some x → isSpace x = false := fun x hx => h x (by
        rw [List.getLast?_cons_cons, List.getLast?_cons_cons]; exact hx)
      have := ih h'
      rw [replaceCrLf, List.getLast?_cons_cons, List.getLast?_cons_cons, ← this]
      cases hr : replaceCrLf (y :: ys) with
      | nil => exact absurd hr (crlf_ne_nil _ (by simp))
      | cons z zs => rw [List.getLast?_cons_cons]
  | case3 c s hne ih =>
    rw [replaceCrLf]
    · cases s with
      | nil => rfl
      | cons y ys =>
        have h' : ∀ x, (y :: ys).getLast? = some x → isSpace x = false := fun x hx => h x (by
          rw [List.getLast?_cons_cons]; exact hx)
        rw [List.getLast?_cons_cons, ← ih h']
        cases hr : replaceCrLf (y :: ys) with
        | nil => exact absurd hr (crlf_ne_nil _ (by simp))
        | cons z zs => rw [List.getLast?_cons_cons]
    · exact hne

private theorem collapse_ne_nil (s : Str) (h : s ≠ []) : collapse s ≠ [] := by
  induction s using collapse.induct with
  | case1 => simp at h
  | case2 s ih => rw [collapse]; exact ih (by simp)
  | case3 c s hne _ => rw [collapse]; · simp
                       · exact hne

private theorem head_collapse (s : Str) : (collapse s).head? = s.head? := by
  induction s using collapse.induct with
  | case1 => rfl
  | case2 s ih => rw [collapse, ih]; rfl
  | case3 c s hne _ => rw [collapse]; · rfl
                       · exact hne

private theorem last_collapse (s : Str) : (collapse s).getLast? = s.getLast? := by
  induction s using collapse.induct with
  | case1 => rfl
  | case2 s ih => rw [collapse, ih, List.getLast?_cons_cons]
  | case3 c s hne ih =>
    rw [collapse]
    · cases s with
      | nil => rfl
      | cons y ys =>
        rw [List.getLast?_cons_cons, ← ih]
        cases hr : collapse (y :: ys) with
        | nil => exact absurd hr (collapse_ne_nil _ (by simp))
        | cons z zs => rw [List.getLast?_cons_cons]
    · exact hne

private theorem mem_collapse (s : Str) (x : Char) (h : x ∈ collapse s) : x ∈ s := by
  induction s using collapse.induct with
  | case1 => simp [collapse] at h
  | case2 s ih => rw [collapse] at h; exact List.mem_cons_of_mem _ (ih h)
  | case3 c s hne ih =>
    rw [collapse] at h
    · rcases List.mem_cons.mp h with rfl | h
      · simp
      · exact List.mem_cons_of_mem _ (ih h)
    · exact hne

private theorem collapse_no_double (s : Str) : ∀ a b, collapse s ≠ a ++ ' ' :: ' ' :: b := by
  induction s using collapse.induct with
  | case1 => intro a b; simp [collapse]
  | case2 s ih => rw [collapse]; exact ih
  | case3 c s hne ih =>
    rw [collapse]
    · intro a b h
      cases a with
      | nil =>
        simp only [List.nil_append, List.cons.injEq] at h
        have hh := head_collapse s
        rw [h.2] at hh
        cases s with
        | nil => simp at hh
        | cons y ys =>
          simp only [List.head?_cons, Option.some.injEq] at hh
          exact hne ys h.1 (by rw [← hh])
      | cons y ys =>
        simp only [List.cons_append, List.cons.injEq] at h
        exact ih ys b h.2
    · exact hne

private theorem breaks_ne (s : Str) (x : Char) (h : x ∈ replaceBreaks s) : x ≠ '\r' ∧ x ≠ '\n' := by
  simp only [replaceBreaks, List.mem_map] at h
  obtain ⟨c, _, rfl⟩ := h
  by_cases hc : c = '\r' ∨ c = '\n'
  · simp [hc]
  · simp only [hc, if_false]; exact ⟨fun e => hc (Or.inl e), fun e => hc (Or.inr e)⟩

/-- **C22** (shape).  The result has no outer white space, no line break and no
two adjacent spaces. -/
theorem normalizeText_canonical (s : Str) : Canonical (normalizeText s) := by
  have ht := trimmed_strip s
  have hl : (normalizeText s).getLast? = (strip s).getLast? := by
    rw [normalizeText, last_collapse, replaceBreaks, List.getLast?_map, last_crlf _ ht.2]
    cases hx : (strip s).getLast? with
    | none => rfl
    | some x =>
      have := ht.2 x hx
      have hne : ¬ (x = '\r' ∨ x = '\n') := by
        rintro (rfl | rfl) <;> exact absurd this (by decide)
      simp [hne]
  have hh : ∀ x, (normalizeText s).head? = some x → isSpace x = false := by
    intro x hx
    rw [normalizeText, head_collapse, replaceBreaks, List.head?_map] at hx
    cases hy : (replaceCrLf (strip s)).head? with
    | none => simp [hy] at hx
    | some y =>
      rcases head_crlf _ _ hy with h | h
      · have hsp := ht.1 y h
        have hne : ¬ (y = '\r' ∨ y = '\n') := by
          rintro (rfl | rfl) <;> exact absurd hsp (by decide)
        simp only [hy, Option.map_some, hne, if_false, Option.some.injEq] at hx
        rw [← hx]; exact hsp
      · exact absurd (ht.1 _ h) (by decide)
  refine ⟨?_, ?_, ?_, ?_, collapse_no_double _⟩
  · intro c t h; exact hh c (by rw [h]; rfl)
  · intro c t h; exact ht.2 c (by rw [← hl, h]; simp)
  · intro h; exact (breaks_ne _ _ (mem_collapse _ _ h)).1 rfl
  · intro h; exact (breaks_ne _ _ (mem_collapse _ _ h)).2 rfl

private theorem crlf_id (s : Str) (h : '\r' ∉ s) : replaceCrLf s = s := by
  induction s using replaceCrLf.induct with
  | case1 => rfl
  | case2 s ih => simp at h
  | case3 c s hne ih =>
    rw [replaceCrLf]
    · rw [ih (fun hm => h (by simp [hm]))]
    · exact hne

private theorem collapse_id (s : Str) (h : ∀ a b, s ≠ a ++ ' ' :: ' ' :: b) : collapse s = s := by
  induction s using collapse.induct with
  | case1 => rfl
  | case2 s ih => exact absurd rfl (h [] s)
  | case3 c s hne ih =>
    rw [collapse]
    · rw [ih (fun a b e => h (c :: a) b (by rw [e]; rfl))]
    · exact hne

/-- Canonical text is left alone. -/
theorem normalizeText_of_canonical (s : Str) (h : Canonical s) : normalizeText s = s := by
  obtain ⟨h1, h2, h3, h4, h5⟩ := h
  have ht : Trimmed s := by
    refine ⟨fun x hx => ?_, fun x hx => ?_⟩
    · cases s with
      | nil => simp at hx
      | cons c t => simp only [List.head?_cons, Option.some.injEq] at hx; subst hx; exact h1 c t rfl
    · rcases List.eq_nil_or_concat s with rfl | ⟨t, c, rfl⟩
      · simp at hx
      · simp at hx
        subst hx
        exact h2 c t (by simp)
  have hb : replaceBreaks s = s := by
    rw [replaceBreaks]
    conv_rhs => rw [← List.map_id s]
    apply List.map_congr_left
    intro c hc
    have : ¬ (c = '\r' ∨ c = '\n') := by rintro (rfl | rfl); exacts [h3 hc, h4 hc]
    simp [this]
  rw [normalizeText, strip_of_trimmed s ht, crlf_id s h3, hb, collapse_id s h5]

/-- **C22** (idempotence). -/
theorem normalizeText_idem (s : Str) : normalizeText (normalizeText s) = normalizeText s :=
  normalizeText_of_canonical _ (normalizeText_canonical s)

/-- Normalising gives the empty text exactly for blank texts. -/
theorem normalizeText_eq_nil_iff (s : Str) : normalizeText s = [] ↔ strip s = [] := by
  constructor
  · intro h
    by_contra hne
    apply collapse_ne_nil _ _ h
    simp only [replaceBreaks, ne_eq, List.map_eq_nil_iff]
    exact crlf_ne_nil _ hne
  · intro h
    rw [normalizeText, h]; rfl

/-- Non-trivial instance. -/
example : normalizeText "  a:\r\n  b;\n\nc ".toList = "a: b; c".toList := by decide

end SvgPy.CssText
