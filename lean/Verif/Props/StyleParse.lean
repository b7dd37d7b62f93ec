import Mathlib.Data.List.Forall2
import Verif.Model.StyleParse

/-!
C111: a property value is parsed into one style value per item of the list, of the class that its types call
for.
-/

set_option linter.unusedSimpArgs false
set_option linter.unusedVariables false

namespace SvgPy.StyleParse

open SvgPy.PyStr SvgPy.Syntax

/-! ### Specification -/

namespace Spec

/-- A token and the type it has for the property. -/
abbrev Typed := Part × Option Ty

/-- An item of a list. -/
abbrev Item := List Typed

/-- The tokens of the items with a comma between them. -/
def weave : List Item → List Part
  | [] => []
  | [p] => p.map Prod.fst
  | p :: q :: ps => p.map Prod.fst ++ ⟨.literal [','], [',']⟩ :: weave (q :: ps)

/-- A token that is not a comma and that the property supports with this type. -/
def Ok (sup : Tok → Py (Bool × Option Ty)) (x : Typed) : Prop :=
  x.1.tok ≠ .literal [','] ∧ sup x.1.tok = .ok (true, x.2)

/-- Numbers that stand for lengths get the unit `px`. -/
def shown (E : Env) (x : Typed) : Str :=
  match x.2 with
  | some .length => if E.isReal x.1.text then x.1.text ++ ['p', 'x'] else x.1.text
  | some .lengthPercentage => if E.isReal x.1.text then x.1.text ++ ['p', 'x'] else x.1.text
  | _ => x.1.text

/-- The words with a space between them. -/
def words (E : Env) : Item → Str
  | [] => []
  | [x] => shown E x
  | x :: y :: l => shown E x ++ ' ' :: words E (y :: l)

def wides : List String := ["default", "inherit", "initial", "revert", "unset"]

def caseless : List String := ["currentcolor", "transparent"] ++ wides

/-- The text of an item: keywords of all properties are in lower case. -/
def itemText (E : Env) (p : Item) : Str :=
  if ∃ w ∈ caseless, E.low (words E p) = w.toList then E.low (words E p) else words E p

def Uniform (p : Item) (ty : Option Ty) : Prop := p ≠ [] ∧ ∀ x ∈ p, x.2 = ty

/-- The class of a value whose tokens all have the type. -/
inductive Table (E : Env) (name t : Str) : Option Ty → Kind → Prop
  | size : (name = "height".toList ∨ name = "width".toList) → t ≠ [] → Table E name t none .keyword
  | unknown : ¬(name = "height".toList ∨ name = "width".toList) → Table E name t none .style
  | color : Table E name t (some .color) .style
  | ident : t ≠ [] → Table E name t (some .customIdent) .keyword
  | image : Table E name t (some .image) .image
  | url : Table E name t (some .url) .url
  | numeric (ty : Ty) : ty ∈ [Ty.length, .number, .percentage, .lengthPercentage, .integer, .angle, .time,
      .resolution] → E.isNumeric t = true → Table E name t (some ty) .numeric

/-- The class of the value for an item. -/
inductive Is (E : Env) (name : Str) (p : Item) (t : Str) : Kind → Prop
  | wide : (∃ w ∈ wides, t = w.toList) → Is E name p t .keyword
  | named : (¬∃ w ∈ wides, t = w.toList) → E.keywordProps name = true → t ≠ [] → Is E name p t .keyword
  | raw : (¬∃ w ∈ wides, t = w.toList) → E.keywordProps name = false → E.rawProps name = true →
      Is E name p t .style
  | uniform (ty k) : (¬∃ w ∈ wides, t = w.toList) → E.keywordProps name = false → E.rawProps name = false →
      Uniform p ty → Table E name t ty k → Is E name p t k
  | mixedWord : (¬∃ w ∈ wides, t = w.toList) → E.keywordProps name = false → E.rawProps name = false →
      (¬∃ ty, Uniform p ty) → (name = "text-indent".toList ∨ name = "vertical-align".toList) → t ≠ [] →
      Is E name p t .keyword
  | mixed : (¬∃ w ∈ wides, t = w.toList) → E.keywordProps name = false → E.rawProps name = false →
      (¬∃ ty, Uniform p ty) → ¬(name = "text-indent".toList ∨ name = "vertical-align".toList) →
      Is E name p t .style

/-- An empty item at the end does not count. -/
def items (ps : List Item) : List Item := if ps.getLast? = some [] then ps.dropLast else ps

/-- A CSS-wide keyword. -/
def Wide (t : Part) : Prop := ∃ v, ∃ w ∈ wides, t.tok = .ident v w.toList

/-- The value for an item. -/
def ValueOf (E : Env) (name : Str) (cssText : Option Str) (p : Item) (v : Val) : Prop :=
  v.text = itemText E p ∧ Is E name p (itemText E p) v.kind ∧ v.associated = some name ∧ v.cssText = cssText

/-- The properties that take their lists as a whole. -/
def Whole (name : Str) : Prop := ∃ w ∈ ["d", "font", "font-family", "font-feature-settings",
  "font-variation-settings", "mask", "mask-clip", "mask-composite", "mask-image", "mask-mode", "mask-origin",
  "mask-position", "mask-repeat", "mask-size", "shape-inside", "stroke-dasharray"], name = w.toList

/-- The whole text as one token of the type. -/
def whole (cssText : Str) (ty : Option Ty) : Item := [(⟨.whitespace, cssText⟩, ty)]

/-- No number gets a unit. -/
def noUnits (E : Env) : Env := { E with isReal := fun _ => false }

/-- The type of the only token. -/
def onlyType (ty : Part → Option Ty) : List Part → Option Ty
  | [t] => ty t
  | _ => none

end Spec

open Spec

instance (name : Str) : Decidable (Whole name) := by unfold Whole; infer_instance

/-! ### The class -/

theorem in_iff (s : Str) (l : List String) : s ∈ l.map String.toList ↔ ∃ w ∈ l, s = w.toList := by
  rw [List.mem_map]
  exact ⟨fun ⟨a, h1, h2⟩ => ⟨a, h1, h2.symm⟩, fun ⟨a, h1, h2⟩ => ⟨a, h1, h2.symm⟩⟩

/-- The components of an item. -/
def comps (E : Env) (p : Item) : List Component := p.map fun x => (withUnit E x.1.text x.2, x.2)

theorem withUnit_eq (E : Env) (x : Typed) : withUnit E x.1.text x.2 = shown E x := by
  obtain ⟨t, ty⟩ := x
  unfold withUnit shown
  cases ty with
  | none => simp
  | some ty => cases ty <;> simp

theorem join_words (E : Env) (p : Item) : join [' '] ((comps E p).map Prod.fst) = words E p := by
  have : (comps E p).map Prod.fst = p.map (shown E) := by
    simp [comps, withUnit_eq, Function.comp_def]
  rw [this]
  induction p with
  | nil => rfl
  | cons x p ih =>
    cases p with
    | nil => rfl
    | cons y p =>
      rw [words, ← ih (by simp [comps, withUnit_eq, Function.comp_def])]
      simp [join]

theorem single_iff (l : List (Option Ty)) (ty : Option Ty) : single l = some ty ↔ l ≠ [] ∧ ∀ x ∈ l, x = ty := by
  cases l with
  | nil => simp [single]
  | cons t l =>
    rw [single]
    by_cases h : l.all (· = t) = true
    · rw [if_pos h]
      rw [List.all_eq_true] at h
      simp only [decide_eq_true_eq] at h
      simp only [Option.some.injEq, ne_eq, reduceCtorEq, not_false_eq_true, List.forall_mem_cons, true_and]
      constructor
      · rintro rfl; exact ⟨rfl, h⟩
      · rintro ⟨h1, _⟩; exact h1
    · rw [if_neg h]
      simp only [reduceCtorEq, ne_eq, not_false_eq_true, List.forall_mem_cons, true_and, false_iff, not_and]
      rintro rfl hx
      apply h
      rw [List.all_eq_true]
      simpa using hx

theorem uniform_iff (E : Env) (p : Item) (ty : Option Ty) :
    single ((comps E p).map Prod.snd) = some ty ↔ Uniform p ty := by
  rw [single_iff]
  have : (comps E p).map Prod.snd = p.map Prod.snd := by simp [comps, Function.comp_def]
  rw [this, Uniform, List.forall_mem_map]
  simp

theorem keyword_iff (t t' : Str) (k : Kind) : keyword t = .ok (k, t') ↔ k = .keyword ∧ t' = t ∧ t ≠ [] := by
  unfold keyword
  by_cases h : t = []
  · simp [h]
  · rw [if_neg h]
    simp only [Except.ok.injEq, Prod.mk.injEq]
    exact ⟨fun ⟨h1, h2⟩ => ⟨h1.symm, h2.symm, h⟩, fun ⟨h1, h2, _⟩ => ⟨h1.symm, h2.symm⟩⟩

theorem ok_iff (k k' : Kind) (t t' : Str) : (Except.ok (k, t) : Py (Kind × Str)) = .ok (k', t') ↔ k' = k ∧ t' = t := by
  simp only [Except.ok.injEq, Prod.mk.injEq]
  exact ⟨fun ⟨h1, h2⟩ => ⟨h1.symm, h2.symm⟩, fun ⟨h1, h2⟩ => ⟨h1.symm, h2.symm⟩⟩

theorem wide_ne (t : Str) (h : ∃ w ∈ wides, t = w.toList) : t ≠ [] := by
  obtain ⟨w, hw, rfl⟩ := h
  revert w
  decide +kernel

/-- C111: the class of the value of an item. -/
theorem reify_iff (E : Env) (name : Str) (p : Item) (k : Kind) (t : Str) :
    reify E name (comps E p) = .ok (k, t) ↔ t = itemText E p ∧ Is E name p (itemText E p) k := by
  have ht : (if E.low (words E p) ∈ colorKeywords ++ wideKeywords then E.low (words E p) else words E p) =
      itemText E p := by
    have e : E.low (words E p) ∈ colorKeywords ++ wideKeywords ↔ ∃ w ∈ caseless, E.low (words E p) = w.toList :=
      in_iff _ caseless
    unfold itemText
    by_cases h : E.low (words E p) ∈ colorKeywords ++ wideKeywords
    · rw [if_pos h, if_pos (e.1 h)]
    · rw [if_neg h, if_neg (fun hx => h (e.2 hx))]
  unfold reify
  simp only [join_words, ht]
  generalize itemText E p = u
  have ew : u ∈ wideKeywords ↔ ∃ w ∈ wides, u = w.toList := in_iff _ wides
  by_cases hw : u ∈ wideKeywords
  · rw [if_pos hw, keyword_iff]
    have hw' := ew.1 hw
    constructor
    · rintro ⟨rfl, rfl, _⟩; exact ⟨rfl, .wide hw'⟩
    · rintro ⟨rfl, h⟩
      refine ⟨?_, rfl, wide_ne _ hw'⟩
      cases h <;> first | rfl | (exfalso; rename_i h1 _ _; exact h1 hw') | (exfalso; simp_all)
  · rw [if_neg hw]
    have hw' : ¬∃ w ∈ wides, u = w.toList := fun hx => hw (ew.2 hx)
    cases hk : E.keywordProps name with
    | true =>
      rw [if_pos rfl, keyword_iff]
      constructor
      · rintro ⟨rfl, rfl, h⟩; exact ⟨rfl, .named hw' hk h⟩
      · rintro ⟨rfl, h⟩
        cases h <;> simp_all
    | false =>
      rw [if_neg (by simp)]
      cases hr : E.rawProps name with
      | true =>
        rw [if_pos rfl, ok_iff]
        constructor
        · rintro ⟨rfl, rfl⟩; exact ⟨rfl, .raw hw' hk hr⟩
        · rintro ⟨rfl, h⟩
          cases h <;> simp_all
      | false =>
        rw [if_neg (by simp)]
        have hu := uniform_iff E p
        cases hs : single ((comps E p).map Prod.snd) with
        | none =>
          have hno : ¬∃ ty, Uniform p ty := by
            rintro ⟨ty, h⟩
            rw [← hu, hs] at h
            cases h
          simp only []
          by_cases hn : name = "text-indent".toList ∨ name = "vertical-align".toList
          · rw [if_pos hn, keyword_iff]
            constructor
            · rintro ⟨rfl, rfl, h⟩; exact ⟨rfl, .mixedWord hw' hk hr hno hn h⟩
            · rintro ⟨rfl, h⟩
              cases h with
              | wide h => exact absurd h hw'
              | named _ h => rw [hk] at h; cases h
              | raw _ _ h => rw [hr] at h; cases h
              | uniform ty k _ _ _ h => exact absurd ⟨ty, h⟩ hno
              | mixedWord _ _ _ _ _ h => exact ⟨rfl, rfl, h⟩
              | mixed _ _ _ _ h => exact absurd hn h
          · rw [if_neg hn, ok_iff]
            constructor
            · rintro ⟨rfl, rfl⟩; exact ⟨rfl, .mixed hw' hk hr hno hn⟩
            · rintro ⟨rfl, h⟩
              cases h with
              | wide h => exact absurd h hw'
              | named _ h => rw [hk] at h; cases h
              | raw _ _ h => rw [hr] at h; cases h
              | uniform ty k _ _ _ h => exact absurd ⟨ty, h⟩ hno
              | mixedWord _ _ _ _ h _ => exact absurd h hn
              | mixed _ _ _ _ h => exact ⟨rfl, rfl⟩
        | some ty =>
          have hty := (hu ty).1 hs
          have key : Is E name p u k ↔ Table E name u ty k := by
            constructor
            · intro h
              cases h with
              | wide h => exact absurd h hw'
              | named _ h => rw [hk] at h; cases h
              | raw _ _ h => rw [hr] at h; cases h
              | uniform ty' k _ _ _ h h2 =>
                have := (hu ty').2 h
                rw [hs] at this
                cases this
                exact h2
              | mixedWord _ _ _ h _ _ => exact absurd ⟨ty, hty⟩ h
              | mixed _ _ _ h _ => exact absurd ⟨ty, hty⟩ h
            · intro h
              exact .uniform ty k hw' hk hr hty h
          rw [key]
          cases ty with
          | none =>
            simp only []
            by_cases hn : name = "height".toList ∨ name = "width".toList
            · rw [if_pos hn, keyword_iff]
              constructor
              · rintro ⟨rfl, rfl, h⟩; exact ⟨rfl, .size hn h⟩
              · rintro ⟨rfl, h⟩
                cases h with
                | size _ h => exact ⟨rfl, rfl, h⟩
                | unknown h => exact absurd hn h
            · rw [if_neg hn, ok_iff]
              constructor
              · rintro ⟨rfl, rfl⟩; exact ⟨rfl, .unknown hn⟩
              · rintro ⟨rfl, h⟩
                cases h with
                | size h _ => exact absurd h hn
                | unknown h => exact ⟨rfl, rfl⟩
          | some ty =>
            have num : ty ∈ [Ty.length, .number, .percentage, .lengthPercentage, .integer, .angle, .time,
                .resolution] →
                ((if E.isNumeric u = true then (Except.ok (Kind.numeric, u) : Py (Kind × Str)) else .error .valueError) =
                  .ok (k, t) ↔ t = u ∧ Table E name u (some ty) k) := by
              intro hm
              by_cases hn : E.isNumeric u = true
              · rw [if_pos hn, ok_iff]
                constructor
                · rintro ⟨rfl, rfl⟩; exact ⟨rfl, .numeric ty hm hn⟩
                · rintro ⟨rfl, h⟩
                  cases h <;> simp_all
              · rw [if_neg hn]
                constructor
                · intro h; cases h
                · rintro ⟨rfl, h⟩
                  cases h <;> simp_all
            cases ty with
            | length => exact num (by simp)
            | number => exact num (by simp)
            | percentage => exact num (by simp)
            | lengthPercentage => exact num (by simp)
            | integer => exact num (by simp)
            | angle => exact num (by simp)
            | time => exact num (by simp)
            | resolution => exact num (by simp)
            | color =>
              simp only [ok_iff]
              constructor
              · rintro ⟨rfl, rfl⟩; exact ⟨rfl, .color⟩
              · rintro ⟨rfl, h⟩
                cases h <;> simp_all
            | image =>
              simp only [ok_iff]
              constructor
              · rintro ⟨rfl, rfl⟩; exact ⟨rfl, .image⟩
              · rintro ⟨rfl, h⟩
                cases h <;> simp_all
            | url =>
              simp only [ok_iff]
              constructor
              · rintro ⟨rfl, rfl⟩; exact ⟨rfl, .url⟩
              · rintro ⟨rfl, h⟩
                cases h <;> simp_all
            | customIdent =>
              simp only [keyword_iff]
              constructor
              · rintro ⟨rfl, rfl, h⟩; exact ⟨rfl, .ident h⟩
              · rintro ⟨rfl, h⟩
                cases h <;> simp_all
            | _ =>
              simp only [reduceCtorEq, false_iff, not_and]
              rintro rfl h
              cases h <;> simp_all

/-! ### The items -/

theorem wide_iff (t : Part) : isWide t.tok = true ↔ Wide t := by
  obtain ⟨tok, text⟩ := t
  unfold Wide
  cases tok with
  | ident v l =>
    simp only [isWide, List.contains_iff_mem]
    have e : l ∈ wideKeywords ↔ ∃ w ∈ wides, l = w.toList := in_iff _ wides
    rw [e]
    constructor
    · rintro ⟨w, hw, rfl⟩; exact ⟨v, w, hw, rfl⟩
    · rintro ⟨v', w, hw, h⟩
      simp only [Tok.ident.injEq] at h
      exact ⟨w, hw, h.2⟩
  | _ => simp [isWide]

theorem whole_iff (name : Str) : name ∈ multiValued ↔ Whole name := in_iff name _

/-- The number of CSS-wide keywords. -/
def wideCount (ts : List Part) : Nat := ts.countP fun t => isWide t.tok

theorem groups_item (E : Env) (sup : Tok → Py (Bool × Option Ty)) (p : Item) (hp : ∀ x ∈ p, Ok sup x)
    (vs : List (List Component)) (cs : List Component) (k : Nat) (rest : List Part) :
    groups E sup vs cs k (p.map Prod.fst ++ rest) =
      groups E sup vs (cs ++ comps E p) (k + wideCount (p.map Prod.fst)) rest := by
  induction p generalizing cs k with
  | nil => simp [comps, wideCount]
  | cons x p ih =>
    obtain ⟨h1, h2⟩ := hp x List.mem_cons_self
    have hc : isComma x.1 = false := by simpa [isComma] using h1
    rw [List.map_cons, List.cons_append, groups, hc]
    simp only [Bool.false_eq_true, if_false, h2]
    rw [ih (fun y hy => hp y (List.mem_cons_of_mem _ hy))]
    have e1 : cs ++ [(withUnit E x.1.text x.2, x.2)] ++ comps E p = cs ++ comps E (x :: p) := by simp [comps]
    have e2 : (if isWide x.1.tok = true then k + 1 else k) + wideCount (p.map Prod.fst) =
        k + wideCount (x.1 :: p.map Prod.fst) := by
      unfold wideCount
      rw [List.countP_cons]
      split <;> omega
    rw [e1, e2]

theorem comps_length (E : Env) (p : Item) : (comps E p).length = p.length := by simp [comps]

theorem groups_weave (E : Env) (sup : Tok → Py (Bool × Option Ty)) (ps : List Item) (hne : ps ≠ [])
    (hp : ∀ p ∈ ps, ∀ x ∈ p, Ok sup x) (vs : List (List Component)) (k : Nat) :
    groups E sup vs [] k (weave ps) = .ok (vs ++ (items ps).map (comps E), k + wideCount (weave ps)) := by
  induction ps generalizing vs k with
  | nil => exact absurd rfl hne
  | cons p ps ih =>
    cases ps with
    | nil =>
      have := groups_item E sup p (hp p List.mem_cons_self) vs [] k []
      rw [List.append_nil] at this
      rw [weave, this, groups]
      cases p with
      | nil => simp [items, comps]
      | cons x p => simp [items, comps]
    | cons q ps =>
      rw [weave, groups_item E sup p (hp p List.mem_cons_self), groups]
      have hc : isComma ⟨.literal [','], [',']⟩ = true := by decide
      rw [if_pos hc, ih (by simp) (fun p h => hp p (List.mem_cons_of_mem _ h))]
      have hi : items (p :: q :: ps) = p :: items (q :: ps) := by
        unfold items
        rw [List.getLast?_cons_cons]
        split <;> simp
      have hw : wideCount (p.map Prod.fst ++ ⟨.literal [','], [',']⟩ :: weave (q :: ps)) =
          wideCount (p.map Prod.fst) + wideCount (weave (q :: ps)) := by
        unfold wideCount
        rw [List.countP_append, List.countP_cons]
        simp [isWide]
      rw [hi, hw]
      simp [Nat.add_assoc]

theorem reifyAll_iff (E : Env) (name : Str) (ps : List Item) (rs : List (Kind × Str)) :
    reifyAll E name (ps.map (comps E)) = .ok rs ↔
      List.Forall₂ (fun p r => r.2 = itemText E p ∧ Is E name p (itemText E p) r.1) ps rs := by
  induction ps generalizing rs with
  | nil =>
    simp only [List.map_nil, reifyAll, Except.ok.injEq]
    constructor
    · rintro rfl; exact .nil
    · intro h; cases h; rfl
  | cons p ps ih =>
    rw [List.map_cons, reifyAll]
    constructor
    · intro h
      cases e1 : reify E name (comps E p) with
      | error e => rw [e1] at h; cases h
      | ok r =>
        rw [e1] at h
        cases e2 : reifyAll E name (ps.map (comps E)) with
        | error e => rw [e2] at h; cases h
        | ok rs' =>
          rw [e2] at h
          simp only [Except.ok.injEq] at h
          subst h
          exact .cons ((reify_iff E name p r.1 r.2).1 e1) ((ih rs').1 e2)
    · intro h
      cases h with
      | @cons _ r _ rs' h1 h2 =>
        have e1 := (reify_iff E name p r.1 r.2).2 h1
        have e2 := (ih rs').2 h2
        rw [show (r.1, r.2) = r from rfl] at e1
        rw [e1, e2]

theorem forall2_vals (E : Env) (name : Str) (c : Option Str) (ps : List Item) (vs : List Val) :
    (∃ rs : List (Kind × Str),
      List.Forall₂ (fun p r => r.2 = itemText E p ∧ Is E name p (itemText E p) r.1) ps rs ∧
      vs = rs.map fun r => ⟨r.1, r.2, some name, c⟩) ↔ List.Forall₂ (ValueOf E name c) ps vs := by
  induction ps generalizing vs with
  | nil =>
    constructor
    · rintro ⟨rs, h, rfl⟩; cases h; exact .nil
    · intro h; cases h; exact ⟨[], .nil, rfl⟩
  | cons p ps ih =>
    constructor
    · rintro ⟨rs, h, rfl⟩
      cases h with
      | cons h1 h2 => exact .cons ⟨h1.1, h1.2, rfl, rfl⟩ ((ih _).1 ⟨_, h2, rfl⟩)
    · intro h
      cases h with
      | @cons _ v _ vs' h1 h2 =>
        obtain ⟨rs, h3, rfl⟩ := (ih vs').2 h2
        obtain ⟨k, t, a, ct⟩ := v
        obtain ⟨h4, h5, h6, h7⟩ := h1
        simp only at h4 h5 h6 h7
        subst h6 h7
        exact ⟨(k, t) :: rs, .cons ⟨h4, h5⟩ h3, rfl⟩

theorem count_iff (ts : List Part) : wideCount ts > 0 ↔ ∃ t ∈ ts, Wide t := by
  unfold wideCount
  rw [gt_iff_lt, List.countP_pos_iff]
  simp only [wide_iff]

/-- C111: a value is parsed into one style value per item, each with the text and of the class of the item,
and remembers the whole text if there is only one; a CSS-wide keyword has to be alone. -/
theorem parse_iff (E : Env) (sup : Tok → Py (Bool × Option Ty)) (name cssText : Str) (ts : List Part)
    (ps : List Item) (hn : ¬Whole name) (hne : ps ≠ []) (hp : ∀ p ∈ ps, ∀ x ∈ p, Ok sup x)
    (ht : ts.filter (fun t => t.tok ≠ .whitespace) = weave ps) (vs : List Val) :
    parseAll E sup name cssText ts = .ok vs ↔
      (¬((∃ t ∈ weave ps, Wide t) ∧ (weave ps).length > 1)) ∧
      List.Forall₂ (ValueOf E name (if (items ps).length = 1 then some cssText else none)) (items ps) vs := by
  unfold parseAll
  simp only [ht, if_neg (fun h => hn ((whole_iff name).1 h))]
  rw [groups_weave E sup ps hne hp [] 0]
  rw [← forall2_vals, ← count_iff]
  simp only [List.nil_append, Nat.zero_add]
  constructor
  · intro h
    cases e : reifyAll E name ((items ps).map (comps E)) with
    | error e' => rw [e] at h; cases h
    | ok rs =>
      rw [e] at h
      simp only at h
      have hf := (reifyAll_iff E name (items ps) rs).1 e
      by_cases hw : wideCount (weave ps) > 0 ∧ (weave ps).length > 1
      · rw [if_pos hw] at h; cases h
      · rw [if_neg hw] at h
        simp only [Except.ok.injEq] at h
        refine ⟨hw, rs, hf, ?_⟩
        rw [hf.length_eq]
        exact h.symm
  · rintro ⟨hw, rs, hf, rfl⟩
    rw [(reifyAll_iff E name (items ps) rs).2 hf]
    simp only [if_neg hw, hf.length_eq]

/-- Every list of tokens without white space is a sequence of items. -/
theorem items_exist (ts : List Part) (ty : Part → Option Ty)
    (hc : ∀ t ∈ ts, t.tok = .literal [','] → t.text = [',']) :
    ∃ ps : List Item, ps ≠ [] ∧ weave ps = ts ∧ ∀ p ∈ ps, ∀ x ∈ p, x.2 = ty x.1 ∧ x.1.tok ≠ .literal [','] ∧
      x.1 ∈ ts := by
  induction ts with
  | nil => exact ⟨[[]], by simp, rfl, by simp⟩
  | cons t ts ih =>
    obtain ⟨ps, h1, h2, h3⟩ := ih fun x hx => hc x (List.mem_cons_of_mem _ hx)
    have h3' : ∀ p ∈ ps, ∀ x ∈ p, x.2 = ty x.1 ∧ x.1.tok ≠ .literal [','] ∧ x.1 ∈ t :: ts := fun p hp x hx =>
      ⟨(h3 p hp x hx).1, (h3 p hp x hx).2.1, List.mem_cons_of_mem _ (h3 p hp x hx).2.2⟩
    by_cases ht : t.tok = .literal [',']
    · have e : t = ⟨.literal [','], [',']⟩ := by
        obtain ⟨a, b⟩ := t
        simp only at ht
        subst ht
        rw [show b = [','] from hc ⟨_, b⟩ List.mem_cons_self rfl]
      refine ⟨[] :: ps, by simp, ?_, List.forall_mem_cons.2 ⟨by simp, h3'⟩⟩
      cases ps with
      | nil => exact absurd rfl h1
      | cons p ps => rw [weave, h2, e]; rfl
    · cases ps with
      | nil => exact absurd rfl h1
      | cons p ps =>
        refine ⟨((t, ty t) :: p) :: ps, by simp, ?_, ?_⟩
        · rw [← h2]
          cases ps with
          | nil => rfl
          | cons q ps => rfl
        · rw [List.forall_mem_cons] at h3' ⊢
          exact ⟨List.forall_mem_cons.2 ⟨⟨rfl, ht, List.mem_cons_self⟩, h3'.1⟩, h3'.2⟩

theorem groups_refused (E : Env) (sup : Tok → Py (Bool × Option Ty)) (l : List Part)
    (ht : ∀ t ∈ l, t.tok = .literal [','] ∨ ∃ b ty, sup t.tok = .ok (b, ty))
    (t : Part) (h1 : t ∈ l) (h3 : t.tok ≠ .literal [',']) (ty : Option Ty)
    (h4 : sup t.tok = .ok (false, ty)) (vs cs k) : groups E sup vs cs k l = .error .valueError := by
  induction l generalizing vs cs k with
  | nil => cases h1
  | cons x l ih =>
    have htl := fun t h => ht t (List.mem_cons_of_mem x h)
    rw [groups]
    by_cases hc : x.tok = .literal [',']
    · rw [if_pos (by simpa [isComma] using hc)]
      rcases List.mem_cons.1 h1 with rfl | h1
      · exact absurd hc h3
      · exact ih htl h1 _ _ _
    · rw [if_neg (by simpa [isComma] using hc)]
      rcases List.mem_cons.1 h1 with rfl | h1
      · simp only [h4]
      · obtain ⟨b, ty', e⟩ := (ht x List.mem_cons_self).resolve_left hc
        cases b with
        | false => simp only [e]
        | true =>
          simp only [e]
          exact ih htl h1 _ _ _

theorem types_refused (sup : Tok → Py (Bool × Option Ty)) (l : List Part)
    (ht : ∀ t ∈ l, t.tok = .literal [','] ∨ ∃ b ty, sup t.tok = .ok (b, ty))
    (t : Part) (h1 : t ∈ l) (h3 : t.tok ≠ .literal [',']) (ty : Option Ty)
    (h4 : sup t.tok = .ok (false, ty)) (tys k) : types sup tys k l = .error .valueError := by
  induction l generalizing tys k with
  | nil => cases h1
  | cons x l ih =>
    have htl := fun t h => ht t (List.mem_cons_of_mem x h)
    rw [types]
    by_cases hc : x.tok = .literal [',']
    · rw [if_pos (by simpa [isComma] using hc)]
      rcases List.mem_cons.1 h1 with rfl | h1
      · exact absurd hc h3
      · exact ih htl h1 _ _
    · rw [if_neg (by simpa [isComma] using hc)]
      rcases List.mem_cons.1 h1 with rfl | h1
      · simp only [h4]
      · obtain ⟨b, ty', e⟩ := (ht x List.mem_cons_self).resolve_left hc
        cases b with
        | false => simp only [e]
        | true =>
          simp only [e]
          exact ih htl h1 _ _

/-- C111: a value with a token that the property does not support is refused. -/
theorem parse_refused (E : Env) (sup : Tok → Py (Bool × Option Ty)) (name cssText : Str) (ts : List Part)
    (ht : ∀ t ∈ ts, t.tok = .whitespace ∨ t.tok = .literal [','] ∨ ∃ b ty, sup t.tok = .ok (b, ty))
    (t : Part) (h1 : t ∈ ts) (h2 : t.tok ≠ .whitespace) (h3 : t.tok ≠ .literal [',']) (ty : Option Ty)
    (h4 : sup t.tok = .ok (false, ty)) : parseAll E sup name cssText ts = .error .valueError := by
  have ht' : ∀ t ∈ ts.filter (fun t => t.tok ≠ .whitespace), t.tok = .literal [','] ∨ ∃ b ty, sup t.tok = .ok (b, ty) := by
    intro t h
    rw [List.mem_filter] at h
    exact (ht t h.1).resolve_left (by simpa using h.2)
  have hm : t ∈ ts.filter (fun t => t.tok ≠ .whitespace) := List.mem_filter.2 ⟨h1, by simpa using h2⟩
  unfold parseAll
  simp only [groups_refused E sup _ ht' t hm h3 ty h4, types_refused sup _ ht' t hm h3 ty h4, ite_self]

/-! ### Properties with many values -/

theorem types_eq (sup : Tok → Py (Bool × Option Ty)) (l : List Part) (ty : Part → Option Ty)
    (h : ∀ t ∈ l, t.tok = .literal [','] ∨ sup t.tok = .ok (true, ty t)) (tys : List (Option Ty)) (k : Nat) :
    types sup tys k l =
      .ok (tys ++ (l.filter fun t => t.tok ≠ .literal [',']).map ty, k + wideCount l) := by
  induction l generalizing tys k with
  | nil => simp [types, wideCount]
  | cons x l ih =>
    have hl := fun t m => h t (List.mem_cons_of_mem x m)
    rw [types]
    by_cases hc : x.tok = .literal [',']
    · rw [if_pos (by simpa [isComma] using hc), ih hl]
      have : isWide x.tok = false := by rw [hc]; rfl
      simp [hc, wideCount, List.countP_cons, isWide]
    · rw [if_neg (by simpa [isComma] using hc)]
      simp only [(h x List.mem_cons_self).resolve_left hc]
      rw [ih hl]
      have e2 : (if isWide x.tok = true then k + 1 else k) + wideCount l = k + wideCount (x :: l) := by
        unfold wideCount
        rw [List.countP_cons]
        split <;> omega
      rw [e2, List.filter_cons_of_pos (by simpa using hc)]
      simp

theorem reify_noUnits (E : Env) (name : Str) (cs : List Component) : reify (noUnits E) name cs = reify E name cs := rfl

/-- C111: for the properties that take their lists as a whole there is one value with the whole text; it has a
type only if there is one token only, and no unit is added. -/
theorem parse_multi_iff (E : Env) (sup : Tok → Py (Bool × Option Ty)) (name cssText : Str) (ts : List Part)
    (ty : Part → Option Ty) (hn : Whole name) (l : List Part)
    (ht : ts.filter (fun t => t.tok ≠ .whitespace) = l)
    (h : ∀ t ∈ l, t.tok = .literal [','] ∨ sup t.tok = .ok (true, ty t)) (vs : List Val) :
    parseAll E sup name cssText ts = .ok vs ↔
      (¬((∃ t ∈ l, Wide t) ∧ l.length > 1)) ∧
      ∃ v, vs = [v] ∧ ValueOf (noUnits E) name (some cssText)
        (whole cssText (onlyType ty (l.filter fun t => t.tok ≠ .literal [',']))) v := by
  unfold parseAll
  simp only [ht, if_pos ((whole_iff name).2 hn), types_eq sup l ty h, List.nil_append, Nat.zero_add]
  generalize l.filter (fun t => t.tok ≠ .literal [',']) = m
  have e : [(cssText, oneType (m.map ty))] = comps (noUnits E) (whole cssText (onlyType ty m)) := by
    have e : ∀ o, comps (noUnits E) (whole cssText o) = [(cssText, o)] := by
      intro o
      simp [comps, whole, withUnit, noUnits]
    rcases m with _ | ⟨a, _ | ⟨b, m⟩⟩ <;> simp only [e, onlyType, oneType, List.map_cons, List.map_nil]
  rw [e, ← count_iff]
  generalize whole cssText (onlyType ty m) = p
  simp only [reifyAll]
  rw [← reify_noUnits E name (comps (noUnits E) p)]
  constructor
  · intro h'
    cases e : reify (noUnits E) name (comps (noUnits E) p) with
    | error e' => rw [e] at h'; cases h'
    | ok r =>
      rw [e] at h'
      simp only at h'
      have hf := (reify_iff (noUnits E) name p r.1 r.2).1 e
      by_cases hw : wideCount l > 0 ∧ l.length > 1
      · rw [if_pos hw] at h'; cases h'
      · rw [if_neg hw] at h'
        simp only [Except.ok.injEq, List.map_cons, List.map_nil, List.length_singleton, if_true] at h'
        subst h'
        exact ⟨hw, _, rfl, hf.1, hf.2, rfl, rfl⟩
  · rintro ⟨hw, ⟨k, t, a, c⟩, rfl, h1, h2, h3, h4⟩
    simp only at h1 h2 h3 h4
    subst h3 h4
    rw [(reify_iff (noUnits E) name p k t).2 ⟨h1, h2⟩]
    simp only [if_neg hw, List.map_cons, List.map_nil, List.length_singleton, if_true]

/-! ### Consequences -/

/-- C111: there are as many values as items. -/
theorem parse_length (E : Env) (sup : Tok → Py (Bool × Option Ty)) (name cssText : Str) (ts : List Part)
    (ps : List Item) (hn : ¬Whole name) (hne : ps ≠ []) (hp : ∀ p ∈ ps, ∀ x ∈ p, Ok sup x)
    (ht : ts.filter (fun t => t.tok ≠ .whitespace) = weave ps) (vs : List Val)
    (h : parseAll E sup name cssText ts = .ok vs) : vs.length = (items ps).length :=
  (((parse_iff E sup name cssText ts ps hn hne hp ht vs).1 h).2.length_eq).symm

/-- C111: a value that was parsed alone is written as it was, and one of a list as its own text. -/
theorem parse_toString (E : Env) (sup : Tok → Py (Bool × Option Ty)) (name cssText : Str) (ts : List Part)
    (vs : List Val) (h : parseAll E sup name cssText ts = .ok vs) :
    (∃ v, vs = [v] ∧ toString v = cssText) ∨ (vs.length ≠ 1 ∧ ∀ v ∈ vs, toString v = v.text) := by
  unfold parseAll at h
  simp only at h
  split at h
  · cases h
  · split at h
    · cases h
    · rename_i rs _
      split at h
      · cases h
      · simp only [Except.ok.injEq] at h
        subst h
        rcases rs with _ | ⟨a, _ | ⟨b, rs⟩⟩
        · right; simp
        · left; exact ⟨_, rfl, rfl⟩
        · right
          refine ⟨by simp, ?_⟩
          intro v hv
          rw [List.mem_map] at hv
          obtain ⟨r, _, rfl⟩ := hv
          simp [toString]

/-- C111: `parse` gives the first value. -/
theorem parse_first (E : Env) (sup : Tok → Py (Bool × Option Ty)) (name cssText : Str) (ts : List Part)
    (r : Option Val) : parse E sup name cssText ts = .ok r ↔
      ∃ vs, parseAll E sup name cssText ts = .ok vs ∧ r = vs.head? := by
  unfold parse
  cases parseAll E sup name cssText ts with
  | error e => simp [Except.map]
  | ok vs => simp [Except.map, eq_comm]

/-! ### Cases -/

/-- A setting for the cases. -/
def caseEnv : Env where
  low s := s.map Char.toLower
  isReal s := s.all Char.isDigit && s ≠ []
  isNumeric s := (s.head?.map Char.isDigit).getD false
  keywordProps n := n ∈ ["display".toList, "clip-rule".toList]
  rawProps n := n ∈ ["clip-path".toList]

/-- Colours by name. -/
def caseNamed (s : Str) : Bool := s ∈ ["red".toList, "blue".toList]

/-- `desc.support` for the syntax. -/
def caseSup (syn : String) : Tok → Py (Bool × Option Ty) := support caseNamed (build caseEnv.low syn.toList)

def word (s : String) : Part := ⟨.ident s.toList (caseEnv.low s.toList), s.toList⟩
def int (s : String) : Part := ⟨.number true, s.toList⟩
def comma : Part := ⟨.literal [','], [',']⟩
def space : Part := ⟨.whitespace, [' ']⟩

/-- `letter-spacing: 3`: the number stands for a length and gets the unit. -/
example : parseAll caseEnv (caseSup "normal | <length>") "letter-spacing".toList "3".toList [int "3"] =
    .ok [⟨.numeric, "3px".toList, some "letter-spacing".toList, some "3".toList⟩] := by decide +kernel

/-- The conditions of `parse_iff` and its right side for that. -/
example : ∃ (ps : List Item), ¬Whole "letter-spacing".toList ∧ ps ≠ [] ∧
    (∀ p ∈ ps, ∀ x ∈ p, Ok (caseSup "normal | <length>") x) ∧
    [int "3"].filter (fun t => t.tok ≠ .whitespace) = weave ps ∧
    (¬((∃ t ∈ weave ps, Wide t) ∧ (weave ps).length > 1)) ∧
    List.Forall₂ (ValueOf caseEnv "letter-spacing".toList (some "3".toList)) (items ps)
      [⟨.numeric, "3px".toList, some "letter-spacing".toList, some "3".toList⟩] := by
  refine ⟨[[(int "3", some .length)]], by decide +kernel, by simp, ?_, by decide +kernel,
    fun h => absurd h.2 (by decide), ?_⟩
  · intro p hp x hx
    simp only [List.mem_singleton] at hp
    subst hp
    simp only [List.mem_singleton] at hx
    subst hx
    exact ⟨by decide +kernel, by decide +kernel⟩
  · have h := (parse_iff caseEnv (caseSup "normal | <length>") "letter-spacing".toList "3".toList [int "3"]
      [[(int "3", some .length)]] (by decide +kernel) (by simp)
      (by
        intro p hp x hx
        simp only [List.mem_singleton] at hp
        subst hp
        simp only [List.mem_singleton] at hx
        subst hx
        exact ⟨by decide +kernel, by decide +kernel⟩) (by decide +kernel)
      [⟨.numeric, "3px".toList, some "letter-spacing".toList, some "3".toList⟩]).1 (by decide +kernel)
    exact h.2

/-- A list with white space: two values with their own texts. -/
example : parseAll caseEnv (caseSup "<custom-ident>#") "will-change".toList "a, Unset-x b".toList
    [word "a", comma, space, word "Unset-x", space, word "b"] =
    .ok [⟨.keyword, "a".toList, some "will-change".toList, none⟩,
      ⟨.keyword, "Unset-x b".toList, some "will-change".toList, none⟩] := by decide +kernel

/-- A CSS-wide keyword has to be alone. -/
example : parseAll caseEnv (caseSup "<custom-ident>#") "will-change".toList "a, Unset".toList
    [word "a", comma, space, word "Unset"] = .error .valueError ∧
    parseAll caseEnv (caseSup "<custom-ident>#") "will-change".toList " Unset".toList [space, word "Unset"] =
      .ok [⟨.keyword, "unset".toList, some "will-change".toList, some " Unset".toList⟩] := by decide +kernel

/-- `stroke-dasharray: 3, 5` is one value without a type, and `3` one without a unit. -/
example : parseAll caseEnv (caseSup "none | <length-percentage>#") "stroke-dasharray".toList "3, 5".toList
    [int "3", comma, space, int "5"] =
      .ok [⟨.style, "3, 5".toList, some "stroke-dasharray".toList, some "3, 5".toList⟩] ∧
    parseAll caseEnv (caseSup "none | <length-percentage>#") "stroke-dasharray".toList "3".toList [int "3"] =
      .ok [⟨.numeric, "3".toList, some "stroke-dasharray".toList, some "3".toList⟩] := by decide +kernel

/-- The conditions of `parse_multi_iff` for that. -/
example : Whole "stroke-dasharray".toList ∧ ∀ t ∈ [int "3", comma, int "5"],
    t.tok = .literal [','] ∨ caseSup "none | <length-percentage>#" t.tok =
      .ok (true, (fun _ => some .lengthPercentage) t) := by decide +kernel

/-- The conditions of `parse_refused`: a colour for a length. -/
example : caseSup "normal | <length>" (word "red").tok = .ok (false, none) ∧
    parseAll caseEnv (caseSup "normal | <length>") "letter-spacing".toList "3 red".toList
      [int "3", space, word "red"] = .error .valueError := by decide +kernel

/-- The conditions of `items_exist`. -/
example : ∀ t ∈ [int "3", comma, word "a"], t.tok = .literal [','] → t.text = [','] := by decide +kernel

/-! ### What does not hold -/

/-- C111: `color: red, blue` is taken although `color` is not a list, and has two values. -/
theorem not_list_violated : ∃ vs, parseAll caseEnv (caseSup "<color>") "color".toList "red, blue".toList
    [word "red", comma, space, word "blue"] = .ok vs ∧ vs.length = 2 :=
  ⟨[⟨.style, "red".toList, some "color".toList, none⟩, ⟨.style, "blue".toList, some "color".toList, none⟩],
    by decide +kernel, rfl⟩

/-- C111: a comma at the end is ignored. -/
theorem trailing_comma_violated (E : Env) (sup : Tok → Py (Bool × Option Ty)) (name cssText : Str)
    (p : Item) (hn : ¬Whole name) (hp : ∀ x ∈ p, Ok sup x) (hne : p ≠ []) (hw : ∀ x ∈ p, ¬Wide x.1)
    (hs : ∀ x ∈ p, x.1.tok ≠ .whitespace) :
    parseAll E sup name cssText (p.map Prod.fst ++ [comma]) = parseAll E sup name cssText (p.map Prod.fst) := by
  have hnw : ∀ t ∈ p.map Prod.fst, ¬Wide t := by
    intro t ht
    obtain ⟨x, hx, rfl⟩ := List.mem_map.1 ht
    exact hw x hx
  have hf : (p.map Prod.fst).filter (fun t => t.tok ≠ .whitespace) = p.map Prod.fst := by
    rw [List.filter_eq_self]
    intro t ht
    obtain ⟨x, hx, rfl⟩ := List.mem_map.1 ht
    simpa using hs x hx
  have hf' : (p.map Prod.fst ++ [comma]).filter (fun t => t.tok ≠ .whitespace) = p.map Prod.fst ++ [comma] := by
    rw [List.filter_append, hf]; rfl
  have hi : items [p, []] = items [p] := by
    simp [items, hne]
  have h1 := groups_weave E sup [p, []] (by simp) (by
    intro q hq
    simp only [List.mem_cons, List.not_mem_nil, or_false] at hq
    rcases hq with rfl | rfl
    · exact hp
    · simp) [] 0
  have h2 := groups_weave E sup [p] (by simp) (by
    intro q hq
    simp only [List.mem_cons, List.not_mem_nil, or_false] at hq
    rw [hq]; exact hp) [] 0
  have e1 : weave [p, []] = p.map Prod.fst ++ [comma] := rfl
  have e2 : weave [p] = p.map Prod.fst := rfl
  have c1 : wideCount (p.map Prod.fst) = 0 := by
    by_contra h
    obtain ⟨t, ht, hwt⟩ := (count_iff _).1 (Nat.pos_of_ne_zero h)
    exact hnw t ht hwt
  have c2 : wideCount (p.map Prod.fst ++ [comma]) = 0 := by
    have : wideCount (p.map Prod.fst ++ [comma]) = wideCount (p.map Prod.fst) := by
      simp [wideCount, comma, isWide]
    rw [this, c1]
  rw [e1, c2, hi] at h1
  rw [e2, c1] at h2
  unfold parseAll
  simp only [hf, hf', if_neg (fun h => hn ((whole_iff name).1 h)), h1, h2, Nat.lt_irrefl, false_and, if_false, Nat.add_zero, gt_iff_lt]

/-- C111: a comma too much in a list makes an empty value, or an error for the properties of keywords. -/
theorem empty_item_violated :
    parseAll caseEnv (caseSup "<length>#") "x".toList ",3".toList [comma, int "3"] =
      .ok [⟨.style, [], some "x".toList, none⟩, ⟨.numeric, "3px".toList, some "x".toList, none⟩] ∧
    parseAll caseEnv (caseSup "inline | none") "display".toList ",none".toList [comma, word "none"] =
      .error .valueError := by decide +kernel

/-- C111: `transform: rotate(45deg)` cannot be parsed, although the property supports it: no class is given to
the type. -/
theorem transform_violated :
    caseSup "*" (.func "rotate".toList) = .ok (true, some .transformFunction) ∧
    parseAll caseEnv (caseSup "*") "transform".toList "rotate(45deg)".toList
      [⟨.func "rotate".toList, "rotate(45deg)".toList⟩] = .error .valueError := by decide +kernel

end SvgPy.StyleParse
