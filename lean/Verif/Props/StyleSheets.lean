import Verif.Model.StyleSheets
import Mathlib.Logic.Basic

/-! Property C122: which style sheets a document has. -/

set_option linter.unusedSimpArgs false
set_option linter.unusedVariables false

namespace SvgPy.StyleSheets

open SvgPy.Style

/-! ### Specification -/

namespace Spec

/-- A media text that holds: none, `all`, or one that the window of the document matches. -/
def MediaHolds (win : Option (String → Bool)) (media : Option String) : Prop :=
  media = none ∨ media = some "" ∨ media = some "all" ∨ ∃ m f, media = some m ∧ win = some f ∧ f m = true

/-- An address that is not a part of the document itself. -/
def Elsewhere (href : String) : Prop := href.toList ≠ [] ∧ href.toList.head? ≠ some '#'

/-- What a processing instruction stands for. -/
inductive PIMeans (win : Option (String → Bool)) (resolve : String → String) : PI → Sheet → Prop
  | sheet (type alt media : Option String) (href : String) (he : Elsewhere href) (ha : alt ≠ some "yes") (hm : MediaHolds win media) :
      PIMeans win resolve ⟨"xml-stylesheet", type, some href, alt, media⟩ (.loaded (resolve href))

/-- What an element stands for. -/
inductive ElemMeans (win : Option (String → Bool)) (resolve : String → String) : Elem → Sheet → Prop
  | link (rel : List String) (as_ type media : Option String) (href : String) (hr : "stylesheet" ∈ rel) (ha : "alternate" ∉ rel)
      (he : Elsewhere href) (hm : MediaHolds win media) :
      ElemMeans win resolve (.link rel as_ type (some href) media) (.loaded (resolve href))
  | style (type media : Option String) (text : String) (ht : type = none ∨ type = some "text/css") (hm : MediaHolds win media) :
      ElemMeans win resolve (.style type media (some text)) (.embedded text)

/-- The sheets that a list of things stands for, in the same order: each thing stands for one sheet or none. -/
inductive Listed {α : Type} (means : α → Sheet → Prop) : List α → List Sheet → Prop
  | nil : Listed means [] []
  | one (a : α) (s : Sheet) (as : List α) (ss : List Sheet) (h : means a s) (t : Listed means as ss) : Listed means (a :: as) (s :: ss)
  | skip (a : α) (as : List α) (ss : List Sheet) (h : ∀ s, ¬ means a s) (t : Listed means as ss) : Listed means (a :: as) ss

/-- No `link` is a preload, and style sheets have an address. -/
def PlainElem : Elem → Prop
  | .link rel _ _ href _ => "preload" ∉ rel ∧ ("stylesheet" ∈ rel → ∃ h, href = some h ∧ h.toList ≠ [])
  | .style .. => True

/-- The address is not empty. -/
def PlainPI (p : PI) : Prop := p.href ≠ some ""

end Spec

open Spec

/-! ### Lemmas -/

theorem passes_iff (win : Option (String → Bool)) (media : Option String) (d : String) (hd : d = "" ∨ d = "all") :
    passes win (media.getD d) = true ↔ MediaHolds win media := by
  unfold passes MediaHolds
  cases media with
  | none => rcases hd with rfl | rfl <;> simp
  | some m =>
    simp only [Option.getD_some, Option.some.injEq, reduceCtorEq, false_or]
    by_cases h : m ∈ ["", "all"]
    · rw [if_pos h]
      simp only [true_iff]
      simp only [List.mem_cons, List.not_mem_nil, or_false] at h
      rcases h with h | h
      · exact .inl h
      · exact .inr (.inl h)
    · rw [if_neg h]
      simp only [List.mem_cons, List.not_mem_nil, or_false, not_or] at h
      cases win with
      | none =>
        simp only [Bool.false_eq_true, false_iff]
        rintro (e | e | ⟨_, _, _, e, _⟩)
        · exact h.1 e
        · exact h.2 e
        · cases e
      | some f =>
        simp only
        constructor
        · intro e
          exact .inr (.inr ⟨m, f, rfl, rfl, e⟩)
        · rintro (e | e | ⟨_, _, rfl, e, e2⟩)
          · exact absurd e h.1
          · exact absurd e h.2
          · cases e
            exact e2

theorem fragment_iff (href : String) (h : href.toList ≠ []) :
    (isFragment href = .ok true ∧ ¬ Elsewhere href) ∨ (isFragment href = .ok false ∧ Elsewhere href) := by
  unfold isFragment Elsewhere
  cases hl : href.toList with
  | nil => exact absurd hl h
  | cons c cs =>
    simp only [List.head?_cons, ne_eq, reduceCtorEq, not_false_eq_true, true_and, Option.some.injEq, not_not]
    by_cases hc : c = '#'
    · left; simp [hc]
    · right; simp [hc]

/-- What the decision about one thing should be. -/
def Decides {α : Type} (means : α → Sheet → Prop) (f : α → Py (Option Sheet)) (a : α) : Prop :=
  (∃ s, f a = .ok (some s) ∧ means a s) ∨ (f a = .ok none ∧ ∀ s, ¬ means a s)

theorem collect_listed {α : Type} (means : α → Sheet → Prop) (f : α → Py (Option Sheet)) (as : List α) (h : ∀ a ∈ as, Decides means f a) :
    ∃ ss, collect f as = .ok ss ∧ Listed means as ss := by
  induction as with
  | nil => exact ⟨[], rfl, .nil⟩
  | cons a as ih =>
    obtain ⟨ss, h1, h2⟩ := ih (fun x hx => h x (by simp [hx]))
    rcases h a (by simp) with ⟨s, e, m⟩ | ⟨e, m⟩
    · exact ⟨s :: ss, by simp [collect, e, h1], .one a s as ss m h2⟩
    · exact ⟨ss, by simp [collect, e, h1], .skip a as ss m h2⟩

theorem pi_decides (win : Option (String → Bool)) (resolve : String → String) (p : PI) (hp : PlainPI p) :
    Decides (PIMeans win resolve) (piSheet win resolve) p := by
  obtain ⟨target, type, href, alt, media⟩ := p
  unfold Decides piSheet
  simp only
  by_cases ht : target = "xml-stylesheet"
  · subst ht
    rw [if_neg (by simp)]
    cases href with
    | none =>
      right
      refine ⟨rfl, fun s hs => ?_⟩
      cases hs
    | some href =>
      have hne : href.toList ≠ [] := by
        intro h
        apply hp
        simp only
        rw [String.toList_eq_nil_iff.1 h]
      rcases fragment_iff href hne with ⟨e, ne⟩ | ⟨e, he⟩
      · right
        simp only [e, Bool.true_or, if_true]
        refine ⟨trivial, fun s hs => ?_⟩
        cases hs with
        | sheet _ _ _ _ he _ _ => exact ne he
      · simp only [e, Bool.false_or]
        by_cases ha : alt = some "yes"
        · right
          subst ha
          refine ⟨by simp, fun s hs => ?_⟩
          cases hs with
          | sheet _ _ _ _ _ ha _ => exact ha rfl
        · have hb : (alt.getD "" == "yes") = false := by
            cases alt with
            | none => rfl
            | some a =>
              simp only [Option.getD_some, beq_eq_false_iff_ne, ne_eq]
              intro h
              exact ha (by rw [h])
          simp only [hb, Bool.false_eq_true, if_false]
          by_cases hm : passes win (media.getD "") = true
          · left
            rw [if_pos hm]
            exact ⟨_, rfl, .sheet type alt media href he ha ((passes_iff win media "" (.inl rfl)).1 hm)⟩
          · right
            rw [if_neg hm]
            refine ⟨rfl, fun s hs => ?_⟩
            cases hs with
            | sheet _ _ _ _ _ _ h => exact hm ((passes_iff win media "" (.inl rfl)).2 h)
  · right
    rw [if_pos ht]
    refine ⟨rfl, fun s hs => ?_⟩
    cases hs
    exact ht rfl

theorem elem_decides (win : Option (String → Bool)) (resolve : String → String) (e : Elem) (hp : PlainElem e) :
    Decides (ElemMeans win resolve) (elemSheet win resolve) e := by
  cases e with
  | link rel as_ type href media =>
    obtain ⟨hpre, hhref⟩ := hp
    unfold Decides
    simp only [elemSheet, linkSheet]
    have hc : rel.contains "preload" = false := by
      rw [Bool.eq_false_iff]
      intro h
      exact hpre (List.contains_iff_mem.1 h)
    rw [hc]
    simp only [Bool.false_and, Bool.not_false, Bool.and_true, Bool.or_false]
    by_cases ha : "alternate" ∈ rel
    · right
      rw [if_pos (by simp [List.contains_iff_mem, ha])]
      refine ⟨rfl, fun s hs => ?_⟩
      cases hs with
      | link _ _ _ _ _ _ h _ _ => exact h ha
    · by_cases hr : "stylesheet" ∈ rel
      · obtain ⟨h, rfl, hne⟩ := hhref hr
        rw [if_neg (by simp [List.contains_iff_mem, ha, hr])]
        simp only [Option.getD_some]
        rcases fragment_iff h hne with ⟨e, ne⟩ | ⟨e, he⟩
        · right
          simp only [e]
          refine ⟨trivial, fun s hs => ?_⟩
          cases hs with
          | link _ _ _ _ _ _ _ he _ => exact ne he
        · simp only [e]
          by_cases hm : passes win (media.getD "") = true
          · left
            rw [if_pos hm]
            exact ⟨_, rfl, .link rel as_ type media h hr ha he ((passes_iff win media "" (.inl rfl)).1 hm)⟩
          · right
            rw [if_neg hm]
            refine ⟨rfl, fun s hs => ?_⟩
            cases hs with
            | link _ _ _ _ _ _ _ _ h => exact hm ((passes_iff win media "" (.inl rfl)).2 h)
      · right
        rw [if_pos (by simp [List.contains_iff_mem, ha, hr])]
        refine ⟨rfl, fun s hs => ?_⟩
        cases hs with
        | link _ _ _ _ _ h _ _ _ => exact hr h
  | style type media text =>
    unfold Decides
    simp only [elemSheet, styleSheet]
    by_cases ht : type.getD "text/css" = "text/css"
    · rw [if_neg (not_not.2 ht)]
      have ht' : type = none ∨ type = some "text/css" := by
        cases type with
        | none => exact .inl rfl
        | some t => right; simp only [Option.getD_some] at ht; rw [ht]
      cases text with
      | none =>
        right
        refine ⟨rfl, fun s hs => ?_⟩
        cases hs
      | some t =>
        simp only
        by_cases hm : passes win (media.getD "all") = true
        · left
          rw [if_pos hm]
          exact ⟨_, rfl, .style type media t ht' ((passes_iff win media "all" (.inr rfl)).1 hm)⟩
        · right
          rw [if_neg hm]
          refine ⟨rfl, fun s hs => ?_⟩
          cases hs with
          | style _ _ _ _ h => exact hm ((passes_iff win media "all" (.inr rfl)).2 h)
    · right
      rw [if_pos ht]
      refine ⟨rfl, fun s hs => ?_⟩
      cases hs with
      | style _ _ _ h _ =>
        rcases h with rfl | rfl
        · exact ht rfl
        · exact ht rfl

/-! ### The theorems -/

/-- **C122** The style sheets of a document are the built-in one, then those of the `xml-stylesheet` instructions and
then those of the `link` and `style` elements, each in document order: exactly those that are no alternatives, whose
address is not a part of the document and whose media hold. -/
theorem sheets_partial (win : Option (String → Bool)) (resolve : String → String) (pis : List PI) (elems : List Elem)
    (hp : ∀ p ∈ pis, PlainPI p) (he : ∀ e ∈ elems, PlainElem e) :
    ∃ a b, styleSheets win resolve pis elems = .ok (.builtin :: a ++ b) ∧ Listed (PIMeans win resolve) pis a ∧
      Listed (ElemMeans win resolve) elems b := by
  obtain ⟨a, h1, h2⟩ := collect_listed _ _ pis (fun p h => pi_decides win resolve p (hp p h))
  obtain ⟨b, h3, h4⟩ := collect_listed _ _ elems (fun e h => elem_decides win resolve e (he e h))
  exact ⟨a, b, by simp [styleSheets, h1, h3], h2, h4⟩

theorem flatten_append {α : Type} (win : Option (String → Bool)) (a b : List (Rule α)) : flattenRules win (a ++ b) = flattenRules win a ++ flattenRules win b := by
  induction a with
  | nil => simp [flattenRules]
  | cons r a ih => simp [flattenRules, ih]

theorem flatten_flatMap {α : Type} (win : Option (String → Bool)) (rules : Sheet → List (Rule α)) (ss : List Sheet) :
    flattenRules win (ss.flatMap rules) = ss.flatMap fun s => flattenRules win (rules s) := by
  induction ss with
  | nil => simp [flattenRules]
  | cons s ss ih => rw [List.flatMap_cons, List.flatMap_cons, flatten_append, ih]

/-- **C122** The rules for the elements of the document are those of its style sheets, sheet by sheet. -/
theorem rules_partial {α : Type} (rules : Sheet → List (Rule α)) (win : Option (String → Bool)) (resolve : String → String) (pis : List PI)
    (elems : List Elem) (hp : ∀ p ∈ pis, PlainPI p) (he : ∀ e ∈ elems, PlainElem e) :
    ∃ a b, cssRules rules win resolve pis elems =
        .ok (flattenRules win (rules .builtin) ++ (a.flatMap fun s => flattenRules win (rules s)) ++ b.flatMap fun s => flattenRules win (rules s)) ∧
      Listed (PIMeans win resolve) pis a ∧ Listed (ElemMeans win resolve) elems b := by
  obtain ⟨a, b, h, h1, h2⟩ := sheets_partial win resolve pis elems hp he
  refine ⟨a, b, ?_, h1, h2⟩
  unfold cssRules
  rw [h]
  simp only [flatten_flatMap]
  simp

/-- Sheets that are listed are those of the things: nothing else, and nothing is left out. -/
theorem listed_mem {α : Type} (means : α → Sheet → Prop) (as : List α) (ss : List Sheet) (h : Listed means as ss)
    (hu : ∀ a s t, means a s → means a t → s = t) (s : Sheet) : s ∈ ss ↔ ∃ a ∈ as, means a s := by
  induction h with
  | nil => simp
  | one a t as ss hm _ ih =>
    simp only [List.mem_cons, ih]
    constructor
    · rintro (rfl | ⟨b, hb, hs⟩)
      · exact ⟨a, .inl rfl, hm⟩
      · exact ⟨b, .inr hb, hs⟩
    · rintro ⟨b, rfl | hb, hs⟩
      · exact .inl (hu _ _ _ hs hm)
      · exact .inr ⟨b, hb, hs⟩
  | skip a as ss hm _ ih =>
    simp only [List.mem_cons, ih]
    constructor
    · rintro ⟨b, hb, hs⟩
      exact ⟨b, .inr hb, hs⟩
    · rintro ⟨b, rfl | hb, hs⟩
      · exact absurd hs (hm s)
      · exact ⟨b, hb, hs⟩

/-- **C122** A style sheet is used exactly if an element of the document stands for it. -/
theorem used_iff_partial (win : Option (String → Bool)) (resolve : String → String) (elems : List Elem) (he : ∀ e ∈ elems, PlainElem e) (s : Sheet) :
    (∃ ss, styleSheets win resolve [] elems = .ok ss ∧ s ∈ ss) ↔ s = .builtin ∨ ∃ e ∈ elems, ElemMeans win resolve e s := by
  obtain ⟨a, b, h, h1, h2⟩ := sheets_partial win resolve [] elems (by simp) he
  have ha : a = [] := by cases h1; rfl
  subst ha
  have hm := listed_mem _ _ _ h2 (by
    intro e s t x y
    cases x <;> cases y <;> rfl) s
  rw [← hm, h]
  constructor
  · rintro ⟨ss, e, hs⟩
    cases e
    simpa using hs
  · intro hs
    exact ⟨_, rfl, by simpa using hs⟩

/-- Instances: a document with all kinds of style sheets, in a window that matches `screen`. -/
example : styleSheets (some (· == "screen")) ("file:///" ++ ·)
      [⟨"xml-stylesheet", some "text/css", some "a.css", none, none⟩, ⟨"xml-stylesheet", none, some "b.css", some "yes", none⟩]
      [.link ["stylesheet"] none none (some "c.css") (some "print"), .link ["stylesheet"] none none (some "d.css") (some "screen"),
       .style none none (some "g{}")] = .ok [.builtin, .loaded "file:///a.css", .loaded "file:///d.css", .embedded "g{}"] := by
  rfl

example : (∀ p ∈ [(⟨"xml-stylesheet", some "text/css", some "a.css", none, none⟩ : PI)], PlainPI p) ∧
    PlainElem (.link ["stylesheet"] none none (some "d.css") (some "screen")) := by
  refine ⟨by simp [PlainPI], by simp [PlainElem]⟩

/-- **C122** is violated for a `link` without address: no style sheet of the document can be read any more. -/
theorem missing_href_violated (win : Option (String → Bool)) (resolve : String → String) (media : Option String) (rest : List Elem) :
    styleSheets win resolve [] (.link ["stylesheet"] none none none media :: rest) = .error .indexError := by
  have : linkSheet win resolve ["stylesheet"] none none media = .error .indexError := by
    simp [linkSheet, isFragment]
  simp [styleSheets, collect, elemSheet, this]

/-- **C122** is violated for preloads: a `link` that asks to load a file in advance is applied, and a style sheet that
is also a preload is not, unless `as` says so. -/
theorem preload_violated : styleSheets none id [] [.link ["preload"] (some "style") none (some "a.css") none] = .ok [.builtin, .loaded "a.css"] ∧
    styleSheets none id [] [.link ["preload", "stylesheet"] none none (some "a.css") none] = .ok [.builtin] := by
  exact ⟨rfl, rfl⟩

/-- **C122** is violated for types: an XSLT style sheet is loaded as CSS, as is a `link` of another type. -/
theorem type_violated : styleSheets none id [⟨"xml-stylesheet", some "text/xsl", some "a.xsl", none, none⟩]
      [.link ["stylesheet"] none (some "text/xsl") (some "b.xsl") none] = .ok [.builtin, .loaded "a.xsl", .loaded "b.xsl"] := by
  rfl

/-- **C122** is violated for upper case letters, which HTML allows in keywords and types. -/
theorem case_violated : styleSheets none id [] [.link ["StyleSheet"] none none (some "a.css") none, .style (some "TEXT/CSS") none (some "g{}")] = .ok [.builtin] := by
  rfl

end SvgPy.StyleSheets
