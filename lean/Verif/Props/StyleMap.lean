import Verif.Model.StyleMap
import Verif.Props.Decl

/-!
C110: a map of style values behaves like an ordered map of declarations.
-/

set_option linter.unusedSimpArgs false
set_option linter.unusedVariables false

namespace SvgPy.StyleMap

open SvgPy.PyStr SvgPy.Decl

/-! ### Specification -/

namespace Spec

/-- The declarations in order: name, value, priority. -/
abbrev Entries := List (Str × Str × Str)

/-- All declarations but those of this name. -/
def without (n : Str) (es : Entries) : Entries := es.filter fun e => e.1 ≠ n

/-- An argument that may be set. -/
def Fine (n : Str) : Value → Prop
  | .str _ => True
  | .style none _ _ => True
  | .style (some a) _ _ => a = n
  | .other => False

/-- Why an argument may not be set. -/
def Fault : Value → PyErr → Prop
  | .other, e => e = .typeError
  | .style _ _ _, e => e = .valueError
  | .str _, _ => False

def IsVar : Value → Prop
  | .style _ v _ => v = true
  | _ => False

/-- The arguments are refused: the first one that is not fine tells why, or a reference to a variable is
not alone. -/
def Refuses (n : Str) (vs : List Value) (e : PyErr) : Prop :=
  (∃ pre x post, vs = pre ++ x :: post ∧ (∀ y ∈ pre, Fine n y) ∧ ¬Fine n x ∧ Fault x e) ∨
  ((∀ y ∈ vs, Fine n y) ∧ 1 < vs.length ∧ (∃ y ∈ vs, IsVar y) ∧ e = .typeError)

/-- The properties whose values are lists. -/
def lists : List String :=
  ["animation", "animation-delay", "animation-direction", "animation-duration", "animation-fill-mode",
   "animation-iteration-count", "animation-name", "animation-play-state", "animation-timing-function",
   "background-attachment", "background-clip", "background-image", "background-origin", "background-repeat",
   "background-size", "font-family", "mask", "mask-clip", "mask-composite", "mask-image", "mask-mode",
   "mask-origin", "mask-position", "mask-repeat", "mask-size"]

/-- The text of the arguments, separated by commas for lists and by spaces else. -/
def joined (n : Str) : List Value → Str
  | [] => []
  | [v] => v.text
  | v :: w :: vs => v.text ++ (if ∃ l ∈ lists, n = l.toList then [',', ' '] else [' ']) ++ joined n (w :: vs)

/-- What is declared: `none` if nothing is left of the value. -/
def tidy (clean : Str → Option Str) (t : Str) : Option Str :=
  if Blank t then none else clean (CssText.normalizeText t)

end Spec

open Spec

theorem join_eq (n : Str) (vs : List Value) :
    join (if n ∈ listValued then [',', ' '] else [' ']) (vs.map Value.text) = joined n vs := by
  have hl : (n ∈ listValued) ↔ ∃ l ∈ lists, n = l.toList := by
    have : listValued = lists.map String.toList := rfl
    rw [this, List.mem_map]
    exact ⟨fun ⟨a, h1, h2⟩ => ⟨a, h1, h2.symm⟩, fun ⟨a, h1, h2⟩ => ⟨a, h1, h2.symm⟩⟩
  induction vs with
  | nil => rfl
  | cons v vs ih =>
    cases vs with
    | nil => rfl
    | cons w vs =>
      rw [joined, ← ih]
      by_cases h : n ∈ listValued
      · have h2 := hl.1 h
        rw [if_pos h, if_pos h2]; rfl
      · have h2 : ¬∃ l ∈ lists, n = l.toList := fun hx => h (hl.2 hx)
        rw [if_neg h, if_neg h2]; rfl

/-- What the loop over the arguments finds. -/
theorem check_eq (n : Str) (vs : List Value) (k : Nat) :
    (∃ e, check n k vs = .error e ∧
      ∃ pre x post, vs = pre ++ x :: post ∧ (∀ y ∈ pre, Fine n y) ∧ ¬Fine n x ∧ Fault x e) ∨
    (∃ m, check n k vs = .ok m ∧ (∀ y ∈ vs, Fine n y) ∧ (k < m ↔ ∃ y ∈ vs, IsVar y) ∧ k ≤ m) := by
  induction vs generalizing k with
  | nil => exact Or.inr ⟨k, rfl, by simp, by simp, Nat.le_refl _⟩
  | cons v l ih =>
    have step : ∀ j, check n k (v :: l) = check n j l → Fine n v → k ≤ j → (k < j ↔ IsVar v) →
        (∃ e, check n k (v :: l) = .error e ∧
          ∃ pre x post, v :: l = pre ++ x :: post ∧ (∀ y ∈ pre, Fine n y) ∧ ¬Fine n x ∧ Fault x e) ∨
        (∃ m, check n k (v :: l) = .ok m ∧ (∀ y ∈ v :: l, Fine n y) ∧ (k < m ↔ ∃ y ∈ v :: l, IsVar y) ∧ k ≤ m) := by
      intro j ej hf hle hv
      rcases ih j with ⟨e, e1, pre, x, post, h1, h2, h3, h4⟩ | ⟨m, e1, h1, h2, h3⟩
      · left
        refine ⟨e, ej.trans e1, v :: pre, x, post, by rw [h1]; rfl, ?_, h3, h4⟩
        exact List.forall_mem_cons.2 ⟨hf, h2⟩
      · right
        refine ⟨m, ej.trans e1, List.forall_mem_cons.2 ⟨hf, h1⟩, ?_, by omega⟩
        simp only [List.mem_cons, exists_eq_or_imp]
        rw [← hv, ← h2]
        omega
    cases v with
    | str t =>
      refine step k rfl trivial (Nat.le_refl _) ?_
      simp [IsVar]
    | other => exact Or.inl ⟨.typeError, rfl, [], .other, l, rfl, by simp, id, rfl⟩
    | style a w t =>
      by_cases ha : a ≠ none ∧ a ≠ some n
      · left
        refine ⟨.valueError, by rw [check, if_pos ha], [], .style a w t, l, rfl, by simp, ?_, rfl⟩
        cases a with
        | none => exact absurd rfl ha.1
        | some a =>
          intro hx
          exact ha.2 (congrArg some hx)
      · refine step (if w then k + 1 else k) (by rw [check, if_neg ha]) ?_ ?_ ?_
        · cases a with
          | none => trivial
          | some a =>
            by_contra hx
            exact ha ⟨by simp, fun h => hx (Option.some.inj h)⟩
        · cases w <;> simp
        · cases w <;> simp [IsVar]

theorem fine_first (n : Str) (pre pre' post post' : List Value) (x x' : Value)
    (e : pre ++ x :: post = pre' ++ x' :: post') (h1 : ∀ y ∈ pre, Fine n y) (h2 : ∀ y ∈ pre', Fine n y)
    (h3 : ¬Fine n x) (h4 : ¬Fine n x') : x = x' := by
  induction pre generalizing pre' with
  | nil =>
    cases pre' with
    | nil => simp at e; exact e.1
    | cons p pre' =>
      simp at e
      exact absurd (h2 p List.mem_cons_self) (e.1 ▸ h3)
  | cons p pre ih =>
    cases pre' with
    | nil =>
      simp at e
      exact absurd (h1 p List.mem_cons_self) (e.1 ▸ h4)
    | cons q pre' =>
      simp at e
      exact ih pre' e.2 (fun y hy => h1 y (List.mem_cons_of_mem _ hy)) (fun y hy => h2 y (List.mem_cons_of_mem _ hy))

theorem fault_unique (x : Value) (e e' : PyErr) (h : Fault x e) (h' : Fault x e') : e = e' := by
  cases x with
  | str t => exact absurd h id
  | style a v t => exact Eq.trans h (Eq.symm h')
  | other => exact Eq.trans h (Eq.symm h')

theorem canon_idem {low : Str → Str} (hl : LowerLike low) (n : Str) : canon low (canon low n) = canon low n := by
  unfold canon
  by_cases h : isCustom n = true
  · simp [h]
  · simp [h, hl.custom, hl.idem]

theorem del_without (d : Decls) (n : Str) (h : (Dict.keys d).Nodup) : Dict.del d n = without n d := by
  rw [Dict.del_eq_filter _ _ h]; rfl

theorem without_absent (d : Decls) (n : Str) (h : Dict.contains d n = false) : without n d = d := by
  unfold without
  rw [List.filter_eq_self]
  intro e he
  have : n ∉ Dict.keys d := by
    rw [← Dict.contains_iff, h]; simp
  simp only [ne_eq, decide_not, Bool.not_eq_true', decide_eq_false_iff_not]
  rintro rfl
  exact this (List.mem_map_of_mem he)

theorem nodup_without (d : Decls) (n : Str) (h : (Dict.keys d).Nodup) : (Dict.keys (without n d)).Nodup := by
  rw [← del_without d n h]; exact Dict.nodup_del d n h

/-- The part of `set` after the checks. -/
theorem put_eq (low : Str → Str) (hl : LowerLike low) (SH : Shorthands) (clean : Str → Option Str) (d : Decls)
    (hd : (Dict.keys d).Nodup) (n t : Str) (hn : canon low n = n) (hs : SH.is n = false) :
    ∃ b', (if contains low ⟨d, false⟩ n then (removeProperty low SH ⟨d, false⟩ n).map Prod.snd
        else .ok ⟨d, false⟩) = .ok b' ∧
      setProperty low SH clean b' n t none =
        .ok ⟨without n d ++ (match tidy clean t with | none => [] | some v => [(n, v, [])]), false⟩ := by
  have hrem : (if contains low ⟨d, false⟩ n then (removeProperty low SH ⟨d, false⟩ n).map Prod.snd
      else .ok ⟨d, false⟩) = .ok ⟨without n d, false⟩ := by
    cases hc : Dict.contains d n with
    | true =>
      have hc' : contains low ⟨d, false⟩ n = true := by rw [contains, hn]; exact hc
      rw [if_pos hc', removeProperty]
      simp only [hn, hs, hc, if_true, Bool.false_eq_true, if_false, Except.map, del_without d n hd]
    | false =>
      have hc' : ¬contains low ⟨d, false⟩ n = true := by rw [contains, hn, hc]; simp
      rw [if_neg hc', without_absent d n hc]
  refine ⟨_, hrem, ?_⟩
  have hne : Dict.contains (without n d) n = false := by
    cases hc : Dict.contains (without n d) n with
    | false => rfl
    | true =>
      rw [Dict.contains_iff, Dict.keys, List.mem_map] at hc
      obtain ⟨e, he, hx⟩ := hc
      rw [without, List.mem_filter] at he
      simp [hx] at he
  have hget : Dict.get? (without n d) n = none := by
    rw [Dict.contains] at hne
    simpa using hne
  have hprio : getPriority low SH ⟨without n d, false⟩ n = [] := by
    unfold getPriority
    have : ¬(isCustom n = false ∧ SH.is (low n) = true) := by
      rintro ⟨h1, h2⟩
      rw [canon, h1] at hn
      simp only [Bool.false_eq_true, if_false] at hn
      rw [hn, hs] at h2
      cases h2
    rw [if_neg this]
    simp only [hn, hget]
  unfold setProperty tidy
  simp only [Bool.false_eq_true, if_false]
  by_cases hb : Blank t
  · rw [if_pos hb, if_pos (show CssText.normalizeText t = [] from hb), removeProperty]
    simp only [hn, hs, hne, Bool.false_eq_true, if_false, List.append_nil]
  · rw [if_neg hb, if_neg (show ¬CssText.normalizeText t = [] from hb)]
    simp only [prioOr, hn, hprio, setInternal]
    rw [if_neg (by simp)]
    cases clean (CssText.normalizeText t) with
    | none => simp
    | some v =>
      simp only [hs, Bool.false_eq_true, if_false, Dict.setEnd]
      rw [del_without _ _ (nodup_without d n hd), without_absent _ _ hne]

/-- C110: arguments that are refused raise and change nothing; otherwise the declaration of this name is
replaced by the joined text at the end, without priority, and the others stay as they are. -/
theorem set_spec (low : Str → Str) (hl : LowerLike low) (SH : Shorthands) (clean : Str → Option Str) (d : Decls)
    (hd : (Dict.keys d).Nodup) (n : Str) (vs : List Value) (hs : SH.is (canon low n) = false) :
    (∀ e, Refuses (canon low n) vs e → set low SH clean ⟨d, false⟩ n vs = (some e, ⟨d, false⟩)) ∧
    ((¬∃ e, Refuses (canon low n) vs e) → set low SH clean ⟨d, false⟩ n vs =
      (none, ⟨without (canon low n) d ++
        (match tidy clean (joined (canon low n) vs) with
         | none => []
         | some v => [(canon low n, v, [])]), false⟩)) := by
  have hn := canon_idem hl n
  generalize hm : canon low n = m at hn hs
  obtain ⟨b', e1, e2⟩ := put_eq low hl SH clean d hd m (joined m vs) hn hs
  unfold set
  simp only [hm]
  rcases check_eq m vs 0 with ⟨e, ec, pre, x, post, h1, h2, h3, h4⟩ | ⟨k, ec, h1, h2, _⟩
  · rw [ec]
    refine ⟨?_, fun hx => absurd ⟨e, Or.inl ⟨pre, x, post, h1, h2, h3, h4⟩⟩ hx⟩
    rintro e' (⟨pre', x', post', h1', h2', h3', h4'⟩ | ⟨ha, _⟩)
    · have hxx := fine_first m pre pre' post post' x x' (h1.symm.trans h1') h2 h2' h3 h3'
      subst hxx
      rw [fault_unique x e e' h4 h4']
    · exact absurd (ha x (by rw [h1]; simp)) h3
  · rw [ec]
    simp only []
    by_cases hv : vs.length > 1 ∧ k > 0
    · rw [if_pos hv]
      have hr : Refuses m vs .typeError := Or.inr ⟨h1, hv.1, h2.1 hv.2, rfl⟩
      refine ⟨?_, fun hx => absurd ⟨_, hr⟩ hx⟩
      rintro e' (⟨pre', x', post', h1', h2', h3', h4'⟩ | ⟨_, _, _, rfl⟩)
      · exact absurd (h1 x' (by rw [h1']; simp)) h3'
      · rfl
    · rw [if_neg hv]
      constructor
      · rintro e' (⟨pre', x', post', h1', h2', h3', h4'⟩ | ⟨_, h5, h6, rfl⟩)
        · exact absurd (h1 x' (by rw [h1']; simp)) h3'
        · exact absurd ⟨h5, h2.2 h6⟩ hv
      · intro _
        rw [e1]
        simp only [join_eq, e2]

/-- C110: `set` raises exactly if the arguments are refused. -/
theorem set_raises_iff (low : Str → Str) (hl : LowerLike low) (SH : Shorthands) (clean : Str → Option Str) (d : Decls)
    (hd : (Dict.keys d).Nodup) (n : Str) (vs : List Value) (hs : SH.is (canon low n) = false) (e : PyErr) :
    (set low SH clean ⟨d, false⟩ n vs).1 = some e ↔ Refuses (canon low n) vs e := by
  obtain ⟨h1, h2⟩ := set_spec low hl SH clean d hd n vs hs
  constructor
  · intro h
    by_cases hx : ∃ e, Refuses (canon low n) vs e
    · obtain ⟨e', he⟩ := hx
      rw [h1 e' he] at h
      simp only [Option.some.injEq] at h
      exact h ▸ he
    · rw [h2 hx] at h
      cases h
  · intro h
    rw [h1 e h]

/-- C110: `delete` forgets the declaration of this name and nothing else. -/
theorem delete_spec (low : Str → Str) (hl : LowerLike low) (SH : Shorthands) (d : Decls)
    (hd : (Dict.keys d).Nodup) (n : Str) (hs : SH.is (canon low n) = false) :
    delete low SH ⟨d, false⟩ n = (none, ⟨without (canon low n) d, false⟩) := by
  have hn := canon_idem hl n
  generalize hm : canon low n = m at hn hs
  unfold delete
  simp only [hm]
  cases hc : Dict.contains d m with
  | true =>
    have hc' : contains low ⟨d, false⟩ m = true := by rw [contains, hn]; exact hc
    rw [if_pos hc', removeProperty]
    simp only [hn, hs, hc, if_true, Bool.false_eq_true, if_false, del_without d m hd]
  | false =>
    have hc' : ¬contains low ⟨d, false⟩ m = true := by rw [contains, hn, hc]; simp
    rw [if_neg hc', without_absent d m hc]

/-- C110: `has` tells whether there is a declaration of this name. -/
theorem has_iff (low : Str → Str) (hl : LowerLike low) (b : Block) (n : Str) :
    has low b n = true ↔ ∃ e ∈ b.decls, e.1 = canon low n := by
  unfold has contains
  rw [canon_idem hl, Dict.contains_iff, Dict.keys, List.mem_map]

/-- C110: `get_all` parses the value of the declaration, and gives nothing if there is none. -/
theorem getAll_spec {α : Type} (low : Str → Str) (hl : LowerLike low) (SH : Shorthands)
    (parse : Str → Str → Py (List α)) (d : Decls) (r : Bool) (hd : (Dict.keys d).Nodup) (n : Str)
    (hs : SH.is (canon low n) = false) :
    (∀ v p, (canon low n, v, p) ∈ d → getAll low SH parse ⟨d, r⟩ n = parse (canon low n) v) ∧
    ((¬∃ e ∈ d, e.1 = canon low n) → getAll low SH parse ⟨d, r⟩ n = .ok []) := by
  have hn := canon_idem hl n
  generalize hm : canon low n = m at hn hs
  unfold getAll
  simp only [hm]
  constructor
  · intro v p hv
    have hg := (Dict.mem_iff_get? d hd m (v, p)).1 hv
    have hc : contains low ⟨d, r⟩ m = true := by
      rw [contains, hn, Dict.contains, hg]; rfl
    rw [if_pos hc, getValue]
    have : ¬(isCustom m = false ∧ SH.is (low m) = true) := by
      rintro ⟨h1, h2⟩
      rw [canon, h1] at hn
      simp only [Bool.false_eq_true, if_false] at hn
      rw [hn, hs] at h2
      cases h2
    rw [if_neg this]
    simp only [hn, hg]
  · intro hx
    have hc : ¬contains low ⟨d, r⟩ m = true := by
      rw [contains, hn, Dict.contains_iff, Dict.keys, List.mem_map]
      exact hx
    rw [if_neg hc]

/-- C110: what was set is what is read, and other properties are read as before. -/
theorem get_after_set {α : Type} (low : Str → Str) (hl : LowerLike low) (SH : Shorthands) (clean : Str → Option Str)
    (parse : Str → Str → Py (List α)) (d : Decls) (hd : (Dict.keys d).Nodup) (n m : Str) (vs : List Value) (v : Str)
    (hs : SH.is (canon low n) = false) (hs' : SH.is (canon low m) = false)
    (ho : ¬∃ e, Refuses (canon low n) vs e) (hv : tidy clean (joined (canon low n) vs) = some v) :
    getAll low SH parse (set low SH clean ⟨d, false⟩ n vs).2 m =
      if canon low m = canon low n then parse (canon low n) v else getAll low SH parse ⟨d, false⟩ m := by
  rw [(set_spec low hl SH clean d hd n vs hs).2 ho, hv]
  have hnd : (Dict.keys (without (canon low n) d ++ [(canon low n, v, [])])).Nodup := by
    have := Dict.nodup_setEnd d (canon low n) (v, ([] : Str)) hd
    rw [Dict.setEnd, del_without d _ hd] at this
    exact this
  obtain ⟨h1, h2⟩ := getAll_spec low hl SH parse _ false hnd m hs'
  obtain ⟨h3, h4⟩ := getAll_spec low hl SH parse d false hd m hs'
  show getAll low SH parse ⟨without (canon low n) d ++ [(canon low n, v, [])], false⟩ m = _
  by_cases e : canon low m = canon low n
  · rw [if_pos e, h1 v [] (by rw [e]; simp), e]
  · rw [if_neg e]
    by_cases hx : ∃ x ∈ d, x.1 = canon low m
    · obtain ⟨⟨a, w, p⟩, hx1, hx2⟩ := hx
      simp only at hx2
      subst hx2
      rw [h3 w p hx1]
      refine h1 w p (List.mem_append_left _ ?_)
      rw [without, List.mem_filter]
      exact ⟨hx1, by simpa using e⟩
    · rw [h4 hx]
      refine h2 ?_
      rintro ⟨x, hx1, hx2⟩
      rcases List.mem_append.1 hx1 with hx1 | hx1
      · exact hx ⟨x, (List.mem_filter.1 hx1).1, hx2⟩
      · simp only [List.mem_singleton] at hx1
        rw [hx1] at hx2
        exact e hx2.symm

/-! ### Histories -/

namespace Spec

inductive Act
  | set (n : Str) (vs : List Value)
  | delete (n : Str)

def Act.name : Act → Str
  | .set n _ => n
  | .delete n => n

/-- What an operation does to the declarations. -/
inductive Step (key : Str → Str) (clean : Str → Option Str) : Entries → Act → Entries → Prop
  | refused (es n vs e) : Refuses (key n) vs e → Step key clean es (.set n vs) es
  | set (es n vs v) : (¬∃ e, Refuses (key n) vs e) → tidy clean (joined (key n) vs) = some v →
      Step key clean es (.set n vs) (without (key n) es ++ [(key n, v, [])])
  | blank (es n vs) : (¬∃ e, Refuses (key n) vs e) → tidy clean (joined (key n) vs) = none →
      Step key clean es (.set n vs) (without (key n) es)
  | delete (es n) : Step key clean es (.delete n) (without (key n) es)

inductive Steps (key : Str → Str) (clean : Str → Option Str) : Entries → List Act → Entries → Prop
  | nil (es) : Steps key clean es [] es
  | cons (es es' es'' o os) : Step key clean es o es' → Steps key clean es' os es'' → Steps key clean es (o :: os) es''

end Spec

def apply (low : Str → Str) (SH : Shorthands) (clean : Str → Option Str) (b : Block) : Act → Block
  | .set n vs => (set low SH clean b n vs).2
  | .delete n => (delete low SH b n).2

/-- C110: after any history of settings and deletions the declarations are what the abstract map holds;
no property is declared twice. -/
theorem history (low : Str → Str) (hl : LowerLike low) (SH : Shorthands) (clean : Str → Option Str) (ops : List Act)
    (hs : ∀ o ∈ ops, SH.is (canon low o.name) = false) (d : Decls) (hd : (Dict.keys d).Nodup) :
    ∃ es, ops.foldl (apply low SH clean) ⟨d, false⟩ = ⟨es, false⟩ ∧ Steps (canon low) clean d ops es ∧
      (Dict.keys es).Nodup := by
  induction ops generalizing d with
  | nil => exact ⟨d, rfl, .nil d, hd⟩
  | cons o ops ih =>
    have ho := hs o List.mem_cons_self
    have key : ∃ d', apply low SH clean ⟨d, false⟩ o = ⟨d', false⟩ ∧ Step (canon low) clean d o d' ∧
        (Dict.keys d').Nodup := by
      cases o with
      | delete n =>
        refine ⟨without (canon low n) d, ?_, .delete d n, nodup_without d _ hd⟩
        rw [apply, delete_spec low hl SH d hd n ho]
      | set n vs =>
        obtain ⟨h1, h2⟩ := set_spec low hl SH clean d hd n vs ho
        by_cases hx : ∃ e, Refuses (canon low n) vs e
        · obtain ⟨e, he⟩ := hx
          exact ⟨d, by rw [apply, h1 e he], .refused d n vs e he, hd⟩
        · cases ht : tidy clean (joined (canon low n) vs) with
          | none =>
            refine ⟨without (canon low n) d, ?_, .blank d n vs hx ht, nodup_without d _ hd⟩
            rw [apply, h2 hx, ht]
            simp
          | some v =>
            refine ⟨_, ?_, .set d n vs v hx ht, ?_⟩
            · rw [apply, h2 hx, ht]
            · have := Dict.nodup_setEnd d (canon low n) (v, ([] : Str)) hd
              rw [Dict.setEnd, del_without d _ hd] at this
              exact this
    obtain ⟨d', e1, h1, h2⟩ := key
    obtain ⟨es, e2, h3, h4⟩ := ih (fun o ho => hs o (List.mem_cons_of_mem _ ho)) d' h2
    exact ⟨es, by rw [List.foldl_cons, e1, e2], .cons d d' es o ops h1 h3, h4⟩

/-- C110: nothing changes a block that is read-only. -/
theorem readonly_kept (low : Str → Str) (SH : Shorthands) (clean : Str → Option Str) (d : Decls) (n : Str)
    (vs : List Value) :
    (set low SH clean ⟨d, true⟩ n vs).2 = ⟨d, true⟩ ∧ (set low SH clean ⟨d, true⟩ n vs).1 ≠ none ∧
      (delete low SH ⟨d, true⟩ n).2 = ⟨d, true⟩ := by
  refine ⟨?_, ?_, ?_⟩
  · unfold set
    simp only []
    split
    · rfl
    · split
      · rfl
      · by_cases hc : contains low ⟨d, true⟩ (canon low n) = true
        · simp only [hc, if_true, removeProperty, Except.map]
        · simp only [hc, if_false, setProperty, if_true, Bool.false_eq_true]
  · unfold set
    simp only []
    split
    · simp
    · split
      · simp
      · by_cases hc : contains low ⟨d, true⟩ (canon low n) = true
        · simp [hc, removeProperty, Except.map]
        · simp [hc, setProperty]
  · unfold delete
    simp only []
    split
    · simp [removeProperty]
    · rfl

/-- C110: the first value is what `get` gives. -/
theorem get_first {α : Type} (low : Str → Str) (SH : Shorthands) (parse : Str → Str → Py (List α)) (b : Block)
    (n : Str) (v : α) (vs : List α) (h : getAll low SH parse b n = .ok (v :: vs)) :
    get low SH parse b n = .ok (some v) := by
  rw [get, h]; rfl

/-- C110: `pop` gives what `get_all` gives and forgets the declaration. -/
theorem pop_spec {α : Type} (low : Str → Str) (hl : LowerLike low) (SH : Shorthands)
    (parse : Str → Str → Py (List α)) (d : Decls) (hd : (Dict.keys d).Nodup) (n : Str)
    (hs : SH.is (canon low n) = false) (vs : List α) (h : getAll low SH parse ⟨d, false⟩ n = .ok vs) :
    pop low SH parse ⟨d, false⟩ n = (.ok vs, ⟨without (canon low n) d, false⟩) := by
  rw [pop, h]
  simp only [delete_spec low hl SH d hd n hs]

/-! ### Concrete cases -/

def lower (s : Str) : Str := s.map Char.toLower

def plainSH : Shorthands := ⟨fun n => n = "overflow".toList, fun _ => ["overflow-x".toList, "overflow-y".toList],
  fun d _ => match Dict.get? d "overflow-x".toList with | some (v, _) => v | none => [], fun _ _ => [],
  fun _ v => [("overflow-x".toList, v), ("overflow-y".toList, v)]⟩

def block : Block := ⟨[("fill".toList, "red".toList, "important".toList), ("color".toList, "blue".toList, [])], false⟩

def keep (s : Str) : Option Str := if s = [] then none else some s

example : LowerLike lower := lowerLike_ascii

example : ¬∃ e, Refuses "fill".toList [.str "a".toList, .style (some "fill".toList) false "b".toList] e := by
  rintro ⟨e, ⟨pre, x, post, h1, h2, h3, h4⟩ | ⟨_, _, ⟨y, hy, hv⟩, _⟩⟩
  · have hx : x ∈ [Value.str "a".toList, .style (some "fill".toList) false "b".toList] := by rw [h1]; simp
    simp only [List.mem_cons, List.not_mem_nil, or_false] at hx
    rcases hx with rfl | rfl
    · exact h3 trivial
    · exact h3 rfl
  · simp only [List.mem_cons, List.not_mem_nil, or_false] at hy
    rcases hy with rfl | rfl
    · exact hv
    · cases hv

example : Refuses "fill".toList [.str "a".toList, .style (some "color".toList) false "b".toList, .other] .valueError :=
  Or.inl ⟨[.str "a".toList], _, [.other], rfl, by simp [Fine], by simp [Fine], rfl⟩

example : set lower plainSH keep block "FILL".toList [.str "a".toList, .style (some "fill".toList) false "b".toList] =
    (none, ⟨[("color".toList, "blue".toList, []), ("fill".toList, "a b".toList, [])], false⟩) := by
  rfl

/-- C110, violated: a shorthand that was set is not in the map. -/
theorem shorthand_violated :
    (set lower plainSH keep block "overflow".toList [.str "auto".toList]).1 = none ∧
    has lower (set lower plainSH keep block "overflow".toList [.str "auto".toList]).2 "overflow".toList = false := by
  decide +kernel

/-- C110, violated: `name in map` is true for properties without declaration. -/
theorem contains_violated : has lower block "stroke".toList = false ∧
    mem lower plainSH (fun _ v => .ok [v]) block "stroke".toList = .ok true := by decide +kernel

/-- C110, violated: `append` adds nothing. -/
theorem append_violated (b : Block) (n : Str) (vs : List Value) : append b n vs = (none, b) := rfl

/-- C110, violated: without values or with a blank one the declaration is lost instead of an exception. -/
theorem nothing_violated :
    set lower plainSH keep block "fill".toList [] = (none, ⟨[("color".toList, "blue".toList, [])], false⟩) ∧
    set lower plainSH keep block "fill".toList [.str " ".toList] =
      (none, ⟨[("color".toList, "blue".toList, [])], false⟩) := by
  exact ⟨rfl, rfl⟩

end SvgPy.StyleMap
