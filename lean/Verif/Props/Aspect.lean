import Verif.Model.Aspect
import Verif.Lemmas.SeqSplit
import Mathlib.Data.List.Induction
import Mathlib.Tactic.FinCases

/-! Property C50: `preserveAspectRatio`. -/

set_option linter.unusedSimpArgs false

namespace SvgPy.Aspect

open PyStr SeqSplit

/-! ### Specification -/

/-- The alignment keywords of SVG 2 and the constants of `SVGPreserveAspectRatio`. -/
def svgAlign : List (String × Nat) :=
  [("none", 1), ("xMinYMin", 2), ("xMidYMin", 3), ("xMaxYMin", 4), ("xMinYMid", 5), ("xMidYMid", 6),
   ("xMaxYMid", 7), ("xMinYMax", 8), ("xMidYMax", 9), ("xMaxYMax", 10)]

/-- The second keyword. -/
def svgMeet : List (String × Nat) := [("meet", 1), ("slice", 2)]

/-- Only white space. -/
def Blank (s : Str) : Prop := ∀ c ∈ s, isSpace c = true

/-! ### Proofs -/

private theorem strip_pad (a w b : Str) (ha : Blank a) (hb : Blank b) (hw : Trimmed w) (hne : w ≠ []) :
    strip (a ++ w ++ b) = w := by
  have h1 : lstrip (a ++ w ++ b) = w ++ b := by
    unfold lstrip
    rw [List.append_assoc, dropWhile_append_space a _ ha]
    cases w with
    | nil => exact absurd rfl hne
    | cons c t =>
      rw [List.cons_append, List.dropWhile_cons, if_neg]
      have := hw.1 c (by simp)
      simp [this]
  have h2 : ∀ b : Str, Blank b → rstrip (w ++ b) = w := by
    intro b
    induction b using List.reverseRecOn with
    | nil => intro _; rw [List.append_nil]; exact rstrip_eq w hw.2
    | append_singleton b x ih =>
      intro hb
      rw [← List.append_assoc, rstrip_append_space x _ (hb x (by simp))]
      exact ih (fun c hc => hb c (by simp [hc]))
  unfold strip
  rw [h1, h2 b hb]

private theorem plain_trimmed (w : Str) (h : Plain w) : Trimmed w := by
  constructor
  · intro x hx
    exact (h x (List.mem_of_head? hx)).1
  · intro x hx
    exact (h x (List.mem_of_getLast? hx)).1

/-- The text of one item, with white space around. -/
private theorem parse_one (a b w : Str) (ha : Blank a) (hb : Blank b) (hw : Plain w) (hne : w ≠ []) :
    parse (a ++ w ++ b) = ⟨(Dict.get? (swap typeAlign) w).getD 6, 1⟩ := by
  unfold parse
  rw [strip_pad a w b ha hb (plain_trimmed w hw) hne, split_plain w hw]
  rfl

/-- The text of two items. -/
private theorem parse_two (a b w sep m : Str) (ha : Blank a) (hb : Blank b) (hw : Plain w) (hne : w ≠ [])
    (hm : Plain m) (hme : m ≠ []) (hs : Sep sep) :
    parse (a ++ (w ++ sep ++ m) ++ b) =
      ⟨(Dict.get? (swap typeAlign) w).getD 6, (Dict.get? (swap typeMeet) m).getD 1⟩ := by
  have ht : Trimmed (w ++ sep ++ m) := by
    constructor
    · intro x hx
      cases w with
      | nil => exact absurd rfl hne
      | cons c t =>
        simp only [List.cons_append, List.head?_cons, Option.some.injEq] at hx
        rw [← hx]; exact (hw c List.mem_cons_self).1
    · intro x hx
      rw [List.getLast?_append_of_ne_nil _ hme] at hx
      exact (hm x (List.mem_of_getLast? hx)).1
  have hne2 : w ++ sep ++ m ≠ [] := by
    cases w with
    | nil => exact absurd rfl hne
    | cons c t => simp
  unfold parse
  rw [strip_pad a _ b ha hb ht hne2, split_item w sep m hw hs, split_plain m hm]
  · rfl
  · intro c t e
    exact hm c (by rw [e]; exact List.mem_cons_self)

private theorem plain_of (s : String) (h : s.toList.all (fun c => !isSpace c && c ≠ ',') = true) : Plain s.toList := by
  intro c hc
  have := List.all_eq_true.mp h c hc
  simpa using this

private theorem keyword_ok : ∀ p ∈ svgAlign, Plain p.1.toList ∧ p.1.toList ≠ [] ∧
    (p.1 ≠ "xMinYMid" → (Dict.get? (swap typeAlign) p.1.toList).getD 6 = p.2) := by
  intro p hp
  fin_cases hp <;> refine ⟨plain_of _ (by decide), by decide, ?_⟩ <;> first | (intro _; decide) | (intro h; exact absurd rfl h)

private theorem meet_ok : ∀ q ∈ svgMeet, Plain q.1.toList ∧ q.1.toList ≠ [] ∧
    (Dict.get? (swap typeMeet) q.1.toList).getD 1 = q.2 := by
  intro p hp
  fin_cases hp <;> exact ⟨plain_of _ (by decide), by decide, by decide⟩

/-- **C50** (partial: not `xMinYMid`).  A keyword alone, with any white space around it,
gives its alignment and `meet`. -/
theorem parse_keyword_partial (p : String × Nat) (hp : p ∈ svgAlign) (hx : p.1 ≠ "xMinYMid") (a b : Str)
    (ha : Blank a) (hb : Blank b) : parse (a ++ p.1.toList ++ b) = ⟨p.2, 1⟩ := by
  obtain ⟨h1, h2, h3⟩ := keyword_ok p hp
  rw [parse_one a b _ ha hb h1 h2, h3 hx]

/-- **C50** (partial: not `xMinYMid`).  A keyword, any separator and `meet` or `slice`. -/
theorem parse_pair_partial (p : String × Nat) (hp : p ∈ svgAlign) (hx : p.1 ≠ "xMinYMid") (q : String × Nat)
    (hq : q ∈ svgMeet) (a sep b : Str) (ha : Blank a) (hb : Blank b) (hs : Sep sep) :
    parse (a ++ (p.1.toList ++ sep ++ q.1.toList) ++ b) = ⟨p.2, q.2⟩ := by
  obtain ⟨h1, h2, h3⟩ := keyword_ok p hp
  obtain ⟨h4, h5, h6⟩ := meet_ok q hq
  rw [parse_two a b _ sep _ ha hb h1 h2 h4 h5 hs, h3 hx, h6]

/-- A keyword that is not one of the known ones means the default. -/
theorem parse_unknown (w : Str) (hw : Plain w) (hne : w ≠ []) (h : w ∉ Dict.keys (swap typeAlign)) (a b : Str)
    (ha : Blank a) (hb : Blank b) : parse (a ++ w ++ b) = ⟨6, 1⟩ := by
  rw [parse_one a b w ha hb hw hne]
  have : Dict.get? (swap typeAlign) w = none := by
    cases hg : Dict.get? (swap typeAlign) w with
    | none => rfl
    | some v =>
      exfalso
      apply h
      have : ∀ (d : Dict Str Nat), Dict.get? d w = some v → w ∈ Dict.keys d := by
        intro d
        induction d with
        | nil => intro h; cases h
        | cons x d ih =>
          intro h
          simp only [Dict.get?] at h
          simp only [Dict.keys, List.map_cons, List.mem_cons]
          split at h
          · rename_i e; exact .inl e.symm
          · exact .inr (ih h)
      exact this _ hg
  rw [this]; rfl

/-- **C50** (round trip, partial: not `none` with `slice`).  Serialising a setting and
parsing the text gives the setting. -/
theorem parse_tostring_partial (x : Par) (ha : x.align ∈ svgAlign.map Prod.snd) (hm : x.meet ∈ svgMeet.map Prod.snd)
    (hn : x.align = 1 → x.meet = 1) : parse (tostring x) = x := by
  obtain ⟨al, me⟩ := x
  have h : ∀ (s : Str) (y : Par), (∃ w m : String, s = w.toList ++ [' '] ++ m.toList ∧
      w.toList.all (fun c => !isSpace c && c ≠ ',') = true ∧ w.toList ≠ [] ∧
      m.toList.all (fun c => !isSpace c && c ≠ ',') = true ∧ m.toList ≠ [] ∧
      y = ⟨(Dict.get? (swap typeAlign) w.toList).getD 6, (Dict.get? (swap typeMeet) m.toList).getD 1⟩) →
      parse s = y := by
    rintro s y ⟨w, m, rfl, hw, hwn, hm, hmn, rfl⟩
    have := parse_two [] [] w.toList [' '] m.toList (by simp [Blank]) (by simp [Blank]) (plain_of w hw) hwn
      (plain_of m hm) hmn (.inl ⟨by simp, by decide⟩)
    simpa using this
  simp only [svgAlign, svgMeet, List.map_cons, List.map_nil, List.mem_cons, List.not_mem_nil, or_false] at ha hm hn
  rcases ha with rfl | rfl | rfl | rfl | rfl | rfl | rfl | rfl | rfl | rfl
  · obtain rfl := hn rfl
    exact parse_keyword_partial ("none", 1) (by decide) (by decide) [] [] (by simp [Blank]) (by simp [Blank])
  · rcases hm with rfl | rfl
    · exact h _ _ ⟨"xMinYMin", "meet", by decide, by decide, by decide, by decide, by decide, by decide⟩
    · exact h _ _ ⟨"xMinYMin", "slice", by decide, by decide, by decide, by decide, by decide, by decide⟩
  · rcases hm with rfl | rfl
    · exact h _ _ ⟨"xMidYMin", "meet", by decide, by decide, by decide, by decide, by decide, by decide⟩
    · exact h _ _ ⟨"xMidYMin", "slice", by decide, by decide, by decide, by decide, by decide, by decide⟩
  · rcases hm with rfl | rfl
    · exact h _ _ ⟨"xMaxYMin", "meet", by decide, by decide, by decide, by decide, by decide, by decide⟩
    · exact h _ _ ⟨"xMaxYMin", "slice", by decide, by decide, by decide, by decide, by decide, by decide⟩
  · rcases hm with rfl | rfl
    · exact h _ _ ⟨"XMinYMid", "meet", by decide, by decide, by decide, by decide, by decide, by decide⟩
    · exact h _ _ ⟨"XMinYMid", "slice", by decide, by decide, by decide, by decide, by decide, by decide⟩
  · rcases hm with rfl | rfl
    · exact h _ _ ⟨"xMidYMid", "meet", by decide, by decide, by decide, by decide, by decide, by decide⟩
    · exact h _ _ ⟨"xMidYMid", "slice", by decide, by decide, by decide, by decide, by decide, by decide⟩
  · rcases hm with rfl | rfl
    · exact h _ _ ⟨"xMaxYMid", "meet", by decide, by decide, by decide, by decide, by decide, by decide⟩
    · exact h _ _ ⟨"xMaxYMid", "slice", by decide, by decide, by decide, by decide, by decide, by decide⟩
  · rcases hm with rfl | rfl
    · exact h _ _ ⟨"xMinYMax", "meet", by decide, by decide, by decide, by decide, by decide, by decide⟩
    · exact h _ _ ⟨"xMinYMax", "slice", by decide, by decide, by decide, by decide, by decide, by decide⟩
  · rcases hm with rfl | rfl
    · exact h _ _ ⟨"xMidYMax", "meet", by decide, by decide, by decide, by decide, by decide, by decide⟩
    · exact h _ _ ⟨"xMidYMax", "slice", by decide, by decide, by decide, by decide, by decide, by decide⟩
  · rcases hm with rfl | rfl
    · exact h _ _ ⟨"xMaxYMax", "meet", by decide, by decide, by decide, by decide, by decide, by decide⟩
    · exact h _ _ ⟨"xMaxYMax", "slice", by decide, by decide, by decide, by decide, by decide, by decide⟩

/-- **C50** violated: `xMinYMid`, in any context of white space, is read as the default
`xMidYMid` (the table has `XMinYMid`), and the serialisation of that alignment is not
the keyword of SVG. -/
theorem xMinYMid_violated (a b : Str) (ha : Blank a) (hb : Blank b) :
    parse (a ++ "xMinYMid".toList ++ b) = ⟨6, 1⟩ ∧ tostring ⟨5, 1⟩ = "XMinYMid meet".toList := by
  refine ⟨?_, by decide⟩
  exact parse_unknown _ (plain_of _ (by decide)) (by decide) (by decide) a b ha hb

/-- **C50** violated: `none` loses `slice`. -/
theorem none_slice_violated : parse (tostring ⟨1, 2⟩) = ⟨1, 1⟩ :=
  parse_keyword_partial ("none", 1) (by decide) (by decide) [] [] (by simp [Blank]) (by simp [Blank])

/-- `zoomAndPan`: setting a type and reading it back; other numbers change nothing. -/
theorem zoom_roundtrip (attr : Option Str) (v : Nat) :
    (v = 1 ∨ v = 2 → getZoom (setZoom attr v) = v) ∧ (¬ (v = 1 ∨ v = 2) → setZoom attr v = attr) := by
  constructor
  · rintro (rfl | rfl)
    · show getZoom (some _) = 1; decide
    · show getZoom (some _) = 2; decide
  · intro h
    have h1 : ¬ (1 = v) := fun e => h (.inl e.symm)
    have h2 : ¬ (2 = v) := fun e => h (.inr e.symm)
    simp [setZoom, typeZoom, Dict.get?, h1, h2]

/-- `zoomAndPan`: an absent attribute means `disable`, an unknown keyword the type 0. -/
theorem zoom_default (s : Str) :
    getZoom none = 1 ∧ (s ≠ "disable".toList → s ≠ "magnify".toList → getZoom (some s) = 0) := by
  refine ⟨by decide, fun h1 h2 => ?_⟩
  have h : ∀ a b : Str, s ≠ a → s ≠ b → (Dict.get? [(a, 1), (b, 2)] s).getD 0 = 0 := by
    intro a b ha hb
    simp [Dict.get?, ha.symm, hb.symm]
  exact h _ _ h1 h2

/-- Non-trivial instance: comma and white space. -/
example : parse "\t xMaxYMin ,\n slice ".toList = ⟨4, 2⟩ := by
  have := parse_pair_partial ("xMaxYMin", 4) (by decide) (by decide) ("slice", 2) (by decide) "\t ".toList
    " ,\n ".toList " ".toList (by unfold Blank; decide) (by unfold Blank; decide) (.inr ⟨" ".toList, "\n ".toList, by decide, by decide, by decide⟩)
  exact this

end SvgPy.Aspect
