import Verif.Model.FontText
import Verif.Lemmas.PyStr

/-! Property C54: the `font-variant` shorthand. -/

set_option linter.unusedSimpArgs false

namespace SvgPy.FontText

/-! ### Specification: CSS Fonts 4, 6.11 -/

inductive Longhand
  | alternates | caps | eastAsian | ligatures | numeric | position
  deriving DecidableEq

/-- The keywords and the longhand they belong to. -/
def keywords : List (String × Longhand) :=
  [("common-ligatures", .ligatures), ("no-common-ligatures", .ligatures), ("discretionary-ligatures", .ligatures),
    ("no-discretionary-ligatures", .ligatures), ("historical-ligatures", .ligatures), ("no-historical-ligatures", .ligatures),
    ("contextual", .ligatures), ("no-contextual", .ligatures),
    ("historical-forms", .alternates),
    ("small-caps", .caps), ("all-small-caps", .caps), ("petite-caps", .caps), ("all-petite-caps", .caps), ("unicase", .caps), ("titling-caps", .caps),
    ("lining-nums", .numeric), ("oldstyle-nums", .numeric), ("proportional-nums", .numeric), ("tabular-nums", .numeric),
    ("diagonal-fractions", .numeric), ("stacked-fractions", .numeric), ("ordinal", .numeric), ("slashed-zero", .numeric),
    ("jis78", .eastAsian), ("jis83", .eastAsian), ("jis90", .eastAsian), ("jis04", .eastAsian), ("simplified", .eastAsian), ("traditional", .eastAsian),
    ("full-width", .eastAsian), ("proportional-width", .eastAsian), ("ruby", .eastAsian),
    ("sub", .position), ("super", .position)]

/-- The functions of `font-variant-alternates`. -/
def functions : List String := ["stylistic", "styleset", "character-variant", "swash", "ornaments", "annotation"]

/-- The word is a keyword of the longhand, or a function that belongs to it. -/
def belongs (l : Longhand) (w : Str) : Bool :=
  keywords.any (fun k => k.1.toList == w && k.2 == l) || (l == .alternates && functions.any fun f => (f ++ "(").toList.isPrefixOf w)

/-- The words that belong to a longhand, in order. -/
def wordsOf (l : Longhand) (s : Str) : List Str := (PyStr.splitWs s).filter (belongs l)

/-- A list of words, or the keyword `normal`. -/
def wordsOrNormal (l : List Str) : List Str := if l = [] then ["normal".toList] else l

/-! ### Lemmas -/

theorem belongs_other (l : Longhand) (hl : l ≠ .alternates) (w : Str) : belongs l w = true ↔ ∃ k ∈ keywords, k.1.toList = w ∧ k.2 = l := by
  unfold belongs
  have : (l == Longhand.alternates) = false := beq_eq_false_iff_ne.2 hl
  rw [this]
  simp

/-- The test of a longhand against a list of words. -/
theorem belongs_list (l : Longhand) (hl : l ≠ .alternates) (ws : List Str) (h1 : ∀ k ∈ keywords, k.2 = l → k.1.toList ∈ ws)
    (h2 : ∀ w ∈ ws, ∃ k ∈ keywords, k.1.toList = w ∧ k.2 = l) (w : Str) : belongs l w = true ↔ w ∈ ws := by
  rw [belongs_other l hl]
  constructor
  · rintro ⟨k, hk, rfl, e⟩; exact h1 k hk e
  · exact h2 w

theorem belongs_ligatures (w : Str) : belongs .ligatures w = true ↔ w ∈ ligatureWords :=
  belongs_list .ligatures (by decide) ligatureWords (by decide) (by decide) w

theorem belongs_caps (w : Str) : belongs .caps w = true ↔ w ∈ capsWords :=
  belongs_list .caps (by decide) capsWords (by decide) (by decide) w

theorem belongs_eastAsian (w : Str) : belongs .eastAsian w = true ↔ w ∈ eastAsianWords :=
  belongs_list .eastAsian (by decide) eastAsianWords (by decide) (by decide) w

theorem belongs_numeric (w : Str) : belongs .numeric w = true ↔ w ∈ numericWords :=
  belongs_list .numeric (by decide) numericWords (by decide) (by decide) w

theorem belongs_position (w : Str) : belongs .position w = true ↔ w = "sub".toList ∨ w = "super".toList := by
  rw [belongs_list .position (by decide) ["sub".toList, "super".toList] (by decide) (by decide) w]
  simp only [List.mem_cons, List.not_mem_nil, or_false]

theorem belongs_alternates (w : Str) : belongs .alternates w = isAlternate w := by
  have h : keywords.any (fun k => k.1.toList == w && k.2 == Longhand.alternates) = (w == "historical-forms".toList) := by
    apply Bool.eq_iff_iff.2
    rw [List.any_eq_true]
    constructor
    · rintro ⟨k, hk, e⟩
      rw [Bool.and_eq_true, beq_iff_eq, beq_iff_eq] at e
      have : ∀ k ∈ keywords, k.2 = .alternates → k.1.toList = "historical-forms".toList := by decide
      rw [← e.1, this k hk e.2]
      exact beq_self_eq_true _
    · intro e
      rw [beq_iff_eq] at e
      exact ⟨("historical-forms", .alternates), by decide, by rw [e]; decide⟩
  unfold belongs isAlternate
  rw [h]
  simp only [functions, List.any_cons, List.any_nil, Bool.or_false, beq_self_eq_true, Bool.true_and, Bool.or_assoc]
  rfl

/-- No word belongs to two longhands. -/
theorem belongs_unique (w : Str) (l l' : Longhand) (h : belongs l w = true) (h' : belongs l' w = true) : l = l' := by
  have halt : ∀ k ∈ keywords, isAlternate k.1.toList = true → k.2 = .alternates := by decide
  have huniq : ∀ k ∈ keywords, ∀ k' ∈ keywords, k.1 = k'.1 → k.2 = k'.2 := by decide +kernel
  by_cases e : l = .alternates
  · by_cases e' : l' = .alternates
    · rw [e, e']
    · obtain ⟨k, hk, rfl, hl⟩ := (belongs_other l' e' w).1 h'
      rw [e, belongs_alternates] at h
      rw [e, ← hl, halt k hk h]
  · obtain ⟨k, hk, rfl, hl⟩ := (belongs_other l e w).1 h
    by_cases e' : l' = .alternates
    · rw [e', belongs_alternates] at h'
      rw [e', ← hl, halt k hk h']
    · obtain ⟨k', hk', e1, hl'⟩ := (belongs_other l' e' _).1 h'
      rw [← hl, ← hl']
      exact huniq k hk k' hk' (String.toList_inj.1 e1.symm)

theorem variantLoop_eq (ws : List Str) : ∀ v : Variant, variantLoop v ws =
    ⟨v.alternates ++ ws.filter (belongs .alternates), (ws.filter (belongs .caps)).getLast?.getD v.caps,
      v.eastAsian ++ ws.filter (belongs .eastAsian), v.ligatures ++ ws.filter (belongs .ligatures),
      v.numeric ++ ws.filter (belongs .numeric), (ws.filter (belongs .position)).getLast?.getD v.position⟩ := by
  induction ws with
  | nil => intro v; simp [variantLoop]
  | cons w ws ih =>
    intro v
    have hx : ∀ l, belongs l w = true → ∀ l', l' ≠ l → ¬ belongs l' w = true := fun l h l' hn h' => hn (belongs_unique w l' l h' h)
    unfold variantLoop
    simp only [← belongs_ligatures, ← belongs_alternates, ← belongs_caps, ← belongs_eastAsian, ← belongs_numeric, ← belongs_position]
    have last : ∀ (p : Str → Bool) (d : Str), ((w :: ws.filter p).getLast?).getD d = (ws.filter p).getLast?.getD w := by
      intro p d
      cases h : (ws.filter p).getLast? with
      | none =>
        rw [List.getLast?_eq_none_iff] at h
        rw [h]; rfl
      | some x => rw [List.getLast?_cons, h]; rfl
    split
    · rename_i h
      rw [ih]
      simp only [List.filter_cons, h, if_true, if_neg (hx _ h .alternates (by decide)), if_neg (hx _ h .caps (by decide)),
        if_neg (hx _ h .eastAsian (by decide)), if_neg (hx _ h .numeric (by decide)), if_neg (hx _ h .position (by decide)), List.append_assoc,
        List.singleton_append]
    · rename_i h1
      split
      · rename_i h
        rw [ih]
        simp only [List.filter_cons, h, if_true, if_neg (hx _ h .ligatures (by decide)), if_neg (hx _ h .caps (by decide)),
          if_neg (hx _ h .eastAsian (by decide)), if_neg (hx _ h .numeric (by decide)), if_neg (hx _ h .position (by decide)), List.append_assoc,
          List.singleton_append]
      · rename_i h2
        split
        · rename_i h
          rw [ih]
          simp only [List.filter_cons, h, if_true, if_neg h1, if_neg h2, last,
            if_neg (hx _ h .eastAsian (by decide)), if_neg (hx _ h .numeric (by decide)), if_neg (hx _ h .position (by decide))]
        · rename_i h3
          split
          · rename_i h
            rw [ih]
            simp only [List.filter_cons, h, if_true, if_neg h1, if_neg h2, if_neg h3, if_neg (hx _ h .numeric (by decide)), if_neg (hx _ h .position (by decide)), List.append_assoc,
              List.singleton_append]
          · rename_i h4
            split
            · rename_i h
              rw [ih]
              simp only [List.filter_cons, h, if_true, if_neg h1, if_neg h2, if_neg h3, if_neg h4, if_neg (hx _ h .position (by decide)), List.append_assoc,
                List.singleton_append]
            · rename_i h5
              split
              · rename_i h
                rw [ih]
                simp only [List.filter_cons, h, if_true, if_neg h1, if_neg h2, if_neg h3, if_neg h4, if_neg h5, last]
              · rename_i h6
                rw [ih]
                simp only [List.filter_cons, if_neg h1, if_neg h2, if_neg h3, if_neg h4, if_neg h5, if_neg h6]

theorem orNormal_eq (l : List Str) : orNormal l = wordsOrNormal l := by
  cases l <;> simp [orNormal, wordsOrNormal]

/-! ### The property -/

/-- **C54** Every word of the shorthand goes to the longhand it belongs to, in order; longhands without a
word are `normal`.  Missing: functions with white space in the arguments, capital letters, and `none` with
white space around it, see `variant_violated`. -/
theorem variant_partial (s : Str) (h : s ≠ "none".toList) :
    parseVariant s = {
      alternates := wordsOrNormal (wordsOf .alternates s)
      caps := (wordsOf .caps s).getLast?.getD "normal".toList
      eastAsian := wordsOrNormal (wordsOf .eastAsian s)
      ligatures := wordsOrNormal (wordsOf .ligatures s)
      numeric := wordsOrNormal (wordsOf .numeric s)
      position := (wordsOf .position s).getLast?.getD "normal".toList } := by
  unfold parseVariant
  by_cases hn : s = "normal".toList
  · rw [if_pos hn, hn]
    decide
  · rw [if_neg hn, if_neg h]
    simp only [variantLoop_eq, List.nil_append, orNormal_eq]
    rfl

/-- A non-trivial instance: five keywords of four longhands and a function. -/
example : parseVariant "ruby small-caps ordinal swash(x) jis04".toList =
    ⟨["swash(x)".toList], "small-caps".toList, ["ruby".toList, "jis04".toList], ["normal".toList], ["ordinal".toList], "normal".toList⟩ := by
  rw [variant_partial _ (by decide)]
  decide

/-- **C54** `none` sets the ligatures to `none` and all other longhands to `normal`. -/
theorem variant_none :
    parseVariant "none".toList = ⟨["normal".toList], "normal".toList, ["normal".toList], ["none".toList], ["normal".toList], "normal".toList⟩ := by
  decide

/-- **C54** is violated: the second argument in `styleset(a, b)` is dropped, capital letters are not
accepted, and `none` followed by a space is ignored. -/
theorem variant_violated :
    (parseVariant "styleset(a, b)".toList).alternates = ["styleset(a,".toList] ∧
      (parseVariant "Small-Caps".toList).caps = "normal".toList ∧
      (parseVariant "none ".toList).ligatures = ["normal".toList] := by decide

end SvgPy.FontText
