import Verif.Model.InlineShorthand
import Verif.Props.InlineStyle
import Verif.Props.FontShorthand
import Verif.Lemmas.PyDict

/-! Property C116: the `style` attribute says what the inline style says, with shorthands too. -/

set_option linter.unusedSimpArgs false
set_option linter.unusedVariables false

namespace SvgPy.InlineShorthand

open SvgPy.Decl SvgPy.StyleText SvgPy.InlineStyle PyStr

/-! ### The specification -/

/-- A style in the abstract: the value and the priority of each property that is no shorthand. -/
abbrev Style := Str → Option (Str × Str)

/-- The longhands of a shorthand that a style declares. -/
def declared (F : Family) (M : Style) (s : Str) : List (Str × (Str × Str)) :=
  (F.longs s).filterMap (fun l => (M l).map (fun x => (l, x)))

/-- The text of a shorthand in a style: empty if no longhand is declared, if one has a value that it
does not support, or if they have different priorities. -/
def text (F : Family) (M : Style) (s : Str) : Str :=
  if declared F M s = [] ∨ (∃ x ∈ declared F M s, x.2.1 = [] ∨ F.supports x.1 x.2.1 = false) ∨
      (∃ x ∈ declared F M s, ∃ y ∈ declared F M s, x.2.2 ≠ y.2.2) then []
  else F.tostring s ((declared F M s).map (fun x => (x.1, x.2.1)))

/-- The value of a property. -/
def valueOf (F : Family) (M : Style) (n : Str) : Str :=
  if F.longs n = [] then ((M n).map (·.1)).getD [] else text F M n

/-- The priority of a property; that of a shorthand is the one all its declared longhands have. -/
def priorityOf (F : Family) (M : Style) (n : Str) : Str :=
  if F.longs n = [] then ((M n).map (·.2)).getD []
  else match declared F M n with
    | [] => []
    | x :: xs => if ∀ y ∈ xs, y.2.2 = x.2.2 then x.2.2 else []

/-- A property is removed; a shorthand with its longhands. -/
def without (F : Family) (M : Style) (n : Str) : Style :=
  fun k => if k = n ∨ k ∈ F.longs n then none else M k

/-- A style with some values replaced. -/
def over (M : Style) (ps : List (Str × Str)) (p : Str) : Style :=
  fun k => match Dict.get? ps k with
    | some v => some (v, p)
    | none => M k

/-- The values that a value of a property declares: for a shorthand those of its longhands. -/
def means (F : Family) (clean : Str → Option Str) (n v : Str) : Option (List (Str × Str)) :=
  if F.longs n = [] then (clean v).map (fun w => [(n, w)]) else F.parse n v

/-- What can be done: `element.style.set_property`, `remove_property` and any reading access. -/
inductive Op
  | set (n v : Str) (prio : Option Str)
  | remove (n : Str)
  | read

/-- The priority given, or the present one. -/
def newPriority (F : Family) (low : Str → Str) (M : Style) (n : Str) (prio : Option Str) : Str :=
  (prio.map low).getD (priorityOf F M (key low n))

/-- One operation in the abstract. -/
def specStep (F : Family) (low : Str → Str) (clean : Str → Option Str) (M : Style) : Op → Style
  | .read => M
  | .remove n => without F M (key low n)
  | .set n v prio =>
    if CssText.normalizeText v = [] then without F M (key low n)
    else if newPriority F low M n prio = [] ∨ newPriority F low M n prio = "important".toList then
      match means F clean (key low n) (CssText.normalizeText v) with
      | some ps => over M ps (newPriority F low M n prio)
      | none => M
    else M

/-- A history in the abstract. -/
def specRun (F : Family) (low : Str → Str) (clean : Str → Option Str) (M : Style) : List Op → Style
  | [] => M
  | o :: os => specRun F low clean (specStep F low clean M o) os

/-- What the attribute says about a name: a shorthand appears if it has a text, and its longhands
only if it has none. -/
def spelled (F : Family) (M : Style) (n : Str) : Option Str :=
  if F.longs n ≠ [] then (if text F M n = [] then none else some (text F M n))
  else match F.short n with
    | some s => if text F M s = [] then (M n).map (·.1) else none
    | none => (M n).map (·.1)

/-- The shorthands are sane: a longhand has one shorthand and is none itself, a shorthand sets exactly
its longhands, and the text of a shorthand can be written in the attribute and means the values of
its longhands. -/
structure Sane (F : Family) (clean : Str → Option Str) : Prop where
  short_iff : ∀ l s, F.short l = some s ↔ l ∈ F.longs s
  flat : ∀ s, ∀ l ∈ F.longs s, F.longs l = []
  keys : ∀ s v ps, F.longs s ≠ [] → F.parse s v = some ps →
    (Dict.keys ps).Nodup ∧ ∀ k, k ∈ Dict.keys ps ↔ k ∈ F.longs s
  means : ∀ M s, text F M s ≠ [] →
    ∃ ps, F.parse s (text F M s) = some ps ∧ ∀ l ∈ F.longs s, Dict.get? ps l = (M l).map (·.1)
  names : ∀ s, F.longs s ≠ [] → Plain s ∧ ∀ l ∈ F.longs s, Plain l
  plain : ∀ M s, (∀ l ∈ F.longs s, ∀ x, M l = some x → Value clean x.1) → text F M s ≠ [] →
    Plain (text F M s)

/-- What the operations may be: names and values that the attribute can hold, and the values that a
shorthand sets must give it a text (finding below). -/
def Allowed (F : Family) (low : Str → Str) (clean : Str → Option Str) (M : Style) : Op → Prop
  | .read => True
  | .remove _ => True
  | .set n v prio => Plain (key low n) ∧
      ∀ ps, means F clean (key low n) (CssText.normalizeText v) = some ps →
        (∀ q ∈ ps, Value clean q.2) ∧
        (F.longs (key low n) ≠ [] → text F (over M ps (newPriority F low M n prio)) (key low n) ≠ [])

/-- Every operation of a history is allowed. -/
def AllAllowed (F : Family) (low : Str → Str) (clean : Str → Option Str) (M : Style) : List Op → Prop
  | [] => True
  | o :: os => Allowed F low clean M o ∧ AllAllowed F low clean (specStep F low clean M o) os

/-! ### The element -/

/-- One operation on the element. -/
def step (F : Family) (low : Str → Str) (clean : Str → Option Str) (e : El) : Op → El
  | .read => sync F clean e
  | .remove n => (removeProperty F low clean e n).2
  | .set n v prio => setProperty F low clean e n v prio

/-- A history. -/
def run (F : Family) (low : Str → Str) (clean : Str → Option Str) (e : El) : List Op → El
  | [] => e
  | o :: os => run F low clean (step F low clean e o) os

/-! ### The text of a shorthand -/

private theorem collect_eq (supports : Str → Str → Bool) (d : Decls) (M : Style)
    (h : ∀ k, Dict.get? d k = M k) (ls : List Str) :
    Shorthand.collect supports d ls =
      if (∃ x ∈ ls.filterMap (fun l => (M l).map (fun x => (l, x))), x.2.1 = [] ∨ supports x.1 x.2.1 = false)
      then none else some (ls.filterMap (fun l => (M l).map (fun x => (l, x)))) := by
  induction ls with
  | nil => simp [Shorthand.collect]
  | cons l ls ih =>
    simp only [Shorthand.collect, h l]
    cases hM : M l with
    | none =>
      simp only [List.filterMap_cons, hM, Option.map_none]
      exact ih
    | some x =>
      obtain ⟨v, p⟩ := x
      simp only [List.filterMap_cons, hM, Option.map_some, List.mem_cons, exists_eq_or_imp, ih]
      by_cases hb : v = [] ∨ supports l v = false
      · simp [hb]
      · simp only [hb, if_false, false_or]
        split <;> simp_all

private theorem agree_iff (ps : List Str) :
    Shorthand.agree ps = true ↔ ps ≠ [] ∧ ∀ x ∈ ps, ∀ y ∈ ps, x = y := by
  cases ps with
  | nil => simp [Shorthand.agree]
  | cons p ps =>
    simp only [Shorthand.agree, List.all_eq_true, decide_eq_true_eq]
    constructor
    · intro h
      refine ⟨by simp, ?_⟩
      have h' : ∀ x ∈ p :: ps, p = x := by
        intro x hx
        rcases List.mem_cons.1 hx with rfl | hx
        · rfl
        · exact h x hx
      intro x hx y hy
      rw [← h' x hx, ← h' y hy]
    · rintro ⟨_, h⟩ x hx
      exact h p (by simp) x (by simp [hx])

private theorem value_eq (F : Family) (d : Decls) (M : Style) (h : ∀ k, Dict.get? d k = M k) (s : Str) :
    value F d s = text F M s := by
  unfold value Shorthand.getValue text declared
  rw [collect_eq F.supports d M h (F.longs s)]
  generalize List.filterMap (fun l => (M l).map (fun x => (l, x))) (F.longs s) = ds
  by_cases hb : ∃ x ∈ ds, x.2.1 = [] ∨ F.supports x.1 x.2.1 = false
  · simp only [hb, if_true, true_or, or_true]
  · simp only [hb, if_false, false_or]
    have ha := agree_iff (ds.map (fun x => x.2.2))
    by_cases hg : Shorthand.agree (ds.map (fun x => x.2.2)) = true
    · have h2 := ha.1 hg
      rw [if_pos hg, if_neg]
      rintro (h3 | ⟨x, hx, y, hy, hxy⟩)
      · simp [h3] at h2
      · exact hxy (h2.2 _ (List.mem_map_of_mem hx) _ (List.mem_map_of_mem hy))
    · rw [if_neg hg, if_pos]
      by_contra hc
      push Not at hc
      refine hg (ha.2 ⟨by simpa using hc.1, ?_⟩)
      intro x hx y hy
      obtain ⟨x', hx', rfl⟩ := List.mem_map.1 hx
      obtain ⟨y', hy', rfl⟩ := List.mem_map.1 hy
      exact hc.2 x' hx' y' hy'

private theorem declared_congr (F : Family) (M M' : Style) (s : Str) (h : ∀ l ∈ F.longs s, M l = M' l) :
    declared F M s = declared F M' s := by
  unfold declared
  exact List.filterMap_congr (fun l hl => by rw [h l hl])

private theorem text_congr (F : Family) (M M' : Style) (s : Str) (h : ∀ l ∈ F.longs s, M l = M' l) :
    text F M s = text F M' s := by
  unfold text
  rw [declared_congr F M M' s h]

private theorem priorities_eq (d : Decls) (M : Style) (h : ∀ k, Dict.get? d k = M k) (ls : List Str) :
    Shorthand.priorities d ls =
      (ls.filterMap (fun l => (M l).map (fun x => (l, x)))).map (fun x => x.2.2) := by
  induction ls with
  | nil => rfl
  | cons l ls ih =>
    simp only [Shorthand.priorities, h l]
    cases hM : M l with
    | none => simp [hM, ih]
    | some x => simp [hM, ih]

private theorem isShort_iff (F : Family) (n : Str) : isShorthand F n = true ↔ F.longs n ≠ [] := by
  simp [isShorthand]

private theorem priority_eq (F : Family) (d : Decls) (M : Style) (h : ∀ k, Dict.get? d k = M k) (n : Str) :
    (if isShorthand F n then Shorthand.getPriority (F.longs n) d
      else ((Dict.get? d n).map (·.2)).getD []) = priorityOf F M n := by
  unfold priorityOf
  by_cases hs : F.longs n = []
  · rw [if_pos hs, if_neg (by simp [isShorthand, hs]), h n]
  · rw [if_neg hs, if_pos ((isShort_iff F n).2 hs)]
    unfold Shorthand.getPriority
    rw [priorities_eq d M h]
    unfold declared
    generalize List.filterMap (fun l => (M l).map (fun x => (l, x))) (F.longs n) = ds
    cases ds with
    | nil => rfl
    | cons x xs =>
      simp only [List.map_cons, Shorthand.agree, List.all_map]
      by_cases hx : ∀ y ∈ xs, y.2.2 = x.2.2
      · rw [if_pos hx, if_pos]
        simp only [List.all_eq_true, Function.comp, decide_eq_true_eq]
        exact fun y hy => (hx y hy).symm
      · rw [if_neg hx, if_neg]
        simp only [List.all_eq_true, Function.comp, decide_eq_true_eq]
        exact fun h2 => hx (fun y hy => (h2 y hy).symm)

/-! ### Changing the map of the attribute -/

private theorem delIf (m : Dict Str Str) (n : Str) (hm : (Dict.keys m).Nodup) :
    (Dict.keys (if Dict.contains m n then Dict.del m n else m)).Nodup ∧
    ∀ k, Dict.get? (if Dict.contains m n then Dict.del m n else m) k = if k = n then none else Dict.get? m k := by
  split
  · refine ⟨Dict.nodup_del _ _ hm, fun k => ?_⟩
    rw [Dict.get?_del _ _ _ hm]
    by_cases hk : k = n
    · subst hk
      simp
    · simp [hk, Ne.symm hk]
  · rename_i hc
    refine ⟨hm, fun k => ?_⟩
    by_cases hk : k = n
    · subst hk
      simp only [if_pos]
      simpa [Dict.contains] using hc
    · simp [hk]

private theorem delAll_spec (m : Dict Str Str) (ls : List Str) (hm : (Dict.keys m).Nodup) :
    (Dict.keys (delAll m ls)).Nodup ∧
    ∀ k, Dict.get? (delAll m ls) k = if k ∈ ls then none else Dict.get? m k := by
  induction ls generalizing m with
  | nil => exact ⟨hm, fun k => by simp [delAll]⟩
  | cons l ls ih =>
    obtain ⟨a1, a2⟩ := delIf m l hm
    obtain ⟨h1, h2⟩ := ih _ a1
    refine ⟨h1, fun k => ?_⟩
    simp only [delAll]
    rw [h2 k, a2 k]
    by_cases hk : k = l <;> by_cases hk2 : k ∈ ls <;> simp [hk, hk2]

private theorem longhandsOf_spec (d : Decls) (M : Style) (h : ∀ k, Dict.get? d k = M k) (m : Dict Str Str)
    (ls : List Str) (hm : (Dict.keys m).Nodup) :
    (Dict.keys (longhandsOf d m ls)).Nodup ∧
    ∀ k, Dict.get? (longhandsOf d m ls) k =
      if k ∈ ls ∧ M k ≠ none then (M k).map (·.1) else Dict.get? m k := by
  induction ls generalizing m with
  | nil => exact ⟨hm, fun k => by simp [longhandsOf]⟩
  | cons l ls ih =>
    simp only [longhandsOf, h l]
    cases hM : M l with
    | none =>
      obtain ⟨h1, h2⟩ := ih m hm
      refine ⟨h1, fun k => ?_⟩
      simp only []
      rw [h2 k]
      by_cases hk : k = l
      · subst hk
        simp [hM]
      · simp [hk]
    | some x =>
      obtain ⟨v, p⟩ := x
      obtain ⟨h1, h2⟩ := ih (Dict.set m l v) (Dict.nodup_set _ _ _ hm)
      refine ⟨h1, fun k => ?_⟩
      simp only []
      rw [h2 k, Dict.get?_set]
      by_cases hk : k = l
      · subst hk
        simp [hM]
      · simp [hk, Ne.symm hk]

private theorem setFamily_spec (F : Family) (d : Decls) (M : Style) (h : ∀ k, Dict.get? d k = M k)
    (m : Dict Str Str) (hm : (Dict.keys m).Nodup) (s : Str)
    (hS : F.longs s ≠ []) (hf : ∀ l ∈ F.longs s, F.longs l = [] ∧ F.short l = some s)
    (hn : ∀ l ∈ F.longs s, M l = none → Dict.get? m l = none) :
    (Dict.keys (setFamily F d m s).2).Nodup ∧
    ∀ k, Dict.get? (setFamily F d m s).2 k =
      if k = s ∨ k ∈ F.longs s then spelled F M k else Dict.get? m k := by
  have hself : s ∉ F.longs s := fun hc => hS (hf s hc).1
  unfold setFamily setShorthand
  rw [value_eq F d M h]
  by_cases ht : text F M s = []
  · rw [if_pos ht]
    simp only [Bool.false_eq_true, if_false, fromShorthand]
    obtain ⟨a1, a2⟩ := delIf m s hm
    obtain ⟨b1, b2⟩ := longhandsOf_spec d M h _ (F.longs s) a1
    refine ⟨b1, fun k => ?_⟩
    rw [b2 k, a2 k]
    by_cases hk : k = s
    · subst hk
      simp [hself, spelled, hS, ht]
    · by_cases hk2 : k ∈ F.longs s
      · obtain ⟨c1, c2⟩ := hf k hk2
        simp only [hk, hk2, true_and, or_true, if_true, if_false, spelled, c1, c2, ht, ne_eq,
          not_true_eq_false]
        by_cases hM : M k = none
        · simp [hM, hn k hk2 hM]
        · simp [hM]
      · simp [hk, hk2]
  · rw [if_neg ht]
    simp only [if_true]
    obtain ⟨b1, b2⟩ := delAll_spec (Dict.set m s (text F M s)) (F.longs s) (Dict.nodup_set _ _ _ hm)
    refine ⟨b1, fun k => ?_⟩
    rw [b2 k, Dict.get?_set]
    by_cases hk : k = s
    · subst hk
      simp [hself, spelled, hS, ht]
    · by_cases hk2 : k ∈ F.longs s
      · obtain ⟨c1, c2⟩ := hf k hk2
        simp [hk, hk2, spelled, c1, c2, ht]
      · simp [hk, hk2, Ne.symm hk]

/-- If nothing was done, the map is as it was. -/
private theorem longhandsOf_none (d : Decls) (m : Dict Str Str) (ls : List Str)
    (h : ls.any (Dict.contains d) = false) : longhandsOf d m ls = m := by
  induction ls with
  | nil => rfl
  | cons l ls ih =>
    simp only [List.any_cons, Bool.or_eq_false_iff] at h
    simp only [longhandsOf]
    have : Dict.get? d l = none := by simpa [Dict.contains] using h.1
    rw [this]
    exact ih h.2

private theorem delAll_none (m : Dict Str Str) (ls : List Str)
    (h : ls.any (Dict.contains m) = false) : delAll m ls = m := by
  induction ls with
  | nil => rfl
  | cons l ls ih =>
    simp only [List.any_cons, Bool.or_eq_false_iff] at h
    simp only [delAll, h.1, Bool.false_eq_true, if_false]
    exact ih h.2

private theorem setFamily_same (F : Family) (d : Decls) (m : Dict Str Str) (s : Str)
    (h : (setFamily F d m s).1 = false) : (setFamily F d m s).2 = m := by
  unfold setFamily setShorthand at *
  by_cases ht : value F d s = []
  · simp only [ht, if_true, Bool.false_eq_true, if_false, fromShorthand, Bool.or_eq_false_iff] at h ⊢
    rw [h.1]
    simp only [Bool.false_eq_true, if_false]
    exact longhandsOf_none d m _ h.2
  · simp [ht] at h

private theorem removeOwn_same (F : Family) (m : Dict Str Str) (n : Str)
    (h : (removeOwn F m n).1 = false) : (removeOwn F m n).2 = m := by
  simp only [removeOwn, Bool.or_eq_false_iff] at h ⊢
  obtain ⟨h1, h2⟩ := h
  rw [h1] at h2 ⊢
  simp only [Bool.false_eq_true, if_false] at h2 ⊢
  exact delAll_none m _ h2

private theorem removeIn_same (F : Family) (d : Decls) (m : Dict Str Str) (n : Str)
    (h : (removeIn F d m n).1 = false) : (removeIn F d m n).2 = m := by
  unfold removeIn at *
  cases hs : F.short n with
  | none =>
    rw [hs] at h
    exact removeOwn_same F m n h
  | some s =>
    rw [hs] at h
    simp only [Bool.or_eq_false_iff] at h ⊢
    rw [setFamily_same F d _ s h.2]
    exact removeOwn_same F m n h.1

private theorem setIn_same (F : Family) (d : Decls) (m : Dict Str Str) (n v : Str)
    (h : (setIn F d m n v).1 = false) : (setIn F d m n v).2 = m := by
  unfold setIn at *
  simp only [] at *
  split at h
  · cases h
  · rename_i hc
    rw [if_neg hc]
    unfold setRelated at *
    cases hs : F.short n with
    | some s =>
      rw [hs] at h
      exact setFamily_same F d m s h
    | none =>
      rw [hs] at h
      simp only [] at h ⊢
      split at h
      · rename_i h2
        rw [if_pos h2]
        exact setFamily_same F d m n h
      · rename_i h2
        rw [if_neg h2]

/-! ### Bringing the block up to date -/

/-- What one entry of the attribute does to a style. -/
def act (F : Family) (clean : Str → Option Str) (M : Style) (n v : Str) : Style :=
  if valueOf F M n = v then M
  else match means F clean n v with
    | some ps => over M ps (priorityOf F M n)
    | none => M

/-- The properties that an entry is about. -/
def about (F : Family) (n : Str) : List Str := if F.longs n = [] then [n] else F.longs n

private theorem get_setAll' (d : Decls) (hd : (Dict.keys d).Nodup) (M : Style) (h : ∀ k, Dict.get? d k = M k)
    (p : Str) (ps : List (Str × Str)) (hps : (Dict.keys ps).Nodup) (k : Str) :
    Dict.get? (setAll d p ps) k = over M ps p k := by
  rw [FontShorthand.get_setAll d hd p ps hps k]
  unfold over
  rw [h k]
  cases Dict.get? ps k <;> rfl

private theorem internal_spec {F : Family} {clean : Str → Option Str} (hF : Sane F clean) (d : Decls) (hd : (Dict.keys d).Nodup)
    (M : Style) (h : ∀ k, Dict.get? d k = M k) (n v p : Str) :
    (Dict.keys (setInternal F clean d n v p).2).Nodup ∧
    (∀ k, Dict.get? (setInternal F clean d n v p).2 k = match means F clean n v with
      | some ps => over M ps p k
      | none => M k) ∧
    (setInternal F clean d n v p).1 = (means F clean n v).map (fun ps => valueOf F (over M ps p) n) := by
  unfold setInternal means
  by_cases hs : F.longs n = []
  · rw [if_neg (by simp [isShorthand, hs]), if_pos hs]
    unfold InlineStyle.setInternal
    cases hc : clean v with
    | none => exact ⟨hd, h, rfl⟩
    | some w =>
      refine ⟨Dict.nodup_setEnd _ _ _ hd, fun k => ?_, ?_⟩
      · simp only [Option.map_some]
        rw [Dict.get?_setEnd _ _ _ _ hd, h k]
        unfold over
        simp only [Dict.get?]
        by_cases hk : n = k <;> simp [hk]
      · simp [valueOf, hs, over, Dict.get?]
  · rw [if_pos ((isShort_iff F n).2 hs), if_neg hs]
    cases hp : F.parse n v with
    | none => exact ⟨hd, h, rfl⟩
    | some ps =>
      have hk := (hF.keys n v ps hs hp).1
      refine ⟨FontShorthand.nodup_setAll d hd p ps, fun k => get_setAll' d hd M h p ps hk k, ?_⟩
      simp only [Option.map_some, valueOf, if_neg hs]
      rw [value_eq F _ _ (fun k => get_setAll' d hd M h p ps hk k)]

private theorem renew_spec {F : Family} {clean : Str → Option Str} (hF : Sane F clean) (d : Decls) (hd : (Dict.keys d).Nodup)
    (M : Style) (h : ∀ k, Dict.get? d k = M k) (n v : Str) (hv : v ≠ []) :
    (Dict.keys (renew F clean d n v)).Nodup ∧ ∀ k, Dict.get? (renew F clean d n v) k = act F clean M n v k := by
  have hp := priority_eq F d M h n
  unfold renew act
  by_cases hs : F.longs n = []
  · have hsn : isShorthand F n = false := by simp [isShorthand, hs]
    rw [hsn] at hp ⊢
    simp only [Bool.false_eq_true, if_false] at hp ⊢
    simp only [valueOf, if_pos hs]
    rw [h n] at hp ⊢
    cases hM : M n with
    | none =>
      rw [hM] at hp
      simp only [Option.map_none, Option.getD_none] at hp ⊢
      rw [if_neg (fun e => hv e.symm), ← hp]
      obtain ⟨a1, a2, _⟩ := internal_spec hF d hd M h n v []
      refine ⟨a1, fun k => ?_⟩
      rw [a2 k]
      cases means F clean n v <;> rfl
    | some x =>
      obtain ⟨w, p⟩ := x
      rw [hM] at hp
      simp only [Option.map_some, Option.getD_some] at hp ⊢
      by_cases hw : w = v
      · rw [if_pos hw, if_neg (by simpa using hw.symm)]
        exact ⟨hd, h⟩
      · rw [if_neg hw, if_pos (Ne.symm hw), ← hp]
        obtain ⟨a1, a2, _⟩ := internal_spec hF d hd M h n v p
        refine ⟨a1, fun k => ?_⟩
        rw [a2 k]
        cases means F clean n v <;> rfl
  · have hsn : isShorthand F n = true := (isShort_iff F n).2 hs
    rw [hsn] at hp ⊢
    simp only [if_true] at hp ⊢
    simp only [valueOf, if_neg hs]
    rw [value_eq F d M h, hp]
    by_cases hw : text F M n = v
    · rw [if_pos hw, if_pos hw]
      exact ⟨hd, h⟩
    · rw [if_neg hw, if_neg hw]
      obtain ⟨a1, a2, _⟩ := internal_spec hF d hd M h n v (priorityOf F M n)
      refine ⟨a1, fun k => ?_⟩
      rw [a2 k]
      cases means F clean n v <;> rfl

/-- What the entries of the attribute do to a style, one after another. -/
def acts (F : Family) (clean : Str → Option Str) (M : Style) : Dict Str Str → Style
  | [] => M
  | (n, v) :: m => acts F clean (act F clean M n v) m

private theorem renewAll_spec {F : Family} {clean : Str → Option Str} (hF : Sane F clean) (d : Decls) (hd : (Dict.keys d).Nodup)
    (M : Style) (h : ∀ k, Dict.get? d k = M k) (m : Dict Str Str) (hv : ∀ q ∈ m, q.2 ≠ []) :
    (Dict.keys (renewAll F clean d m)).Nodup ∧ ∀ k, Dict.get? (renewAll F clean d m) k = acts F clean M m k := by
  induction m generalizing d M with
  | nil => exact ⟨hd, h⟩
  | cons x m ih =>
    obtain ⟨n, v⟩ := x
    obtain ⟨a1, a2⟩ := renew_spec hF d hd M h n v (hv (n, v) (by simp))
    exact ih _ a1 _ a2 (fun q hq => hv q (by simp [hq]))

/-- The entry agrees with the style. -/
private def Agrees (F : Family) (M : Style) (q : Str × Str) : Prop := valueOf F M q.1 = q.2

private theorem act_agrees {F clean M} {q : Str × Str} (h : Agrees F M q) : act F clean M q.1 q.2 = M := by
  unfold act
  exact if_pos h

private theorem acts_agree {F clean M} (m : Dict Str Str) (h : ∀ q ∈ m, Agrees F M q) : acts F clean M m = M := by
  induction m with
  | nil => rfl
  | cons x m ih =>
    obtain ⟨n, v⟩ := x
    simp only [acts]
    have h1 := act_agrees (clean := clean) (h (n, v) (by simp))
    simp only at h1
    rw [h1]
    exact ih (fun q hq => h q (by simp [hq]))

private theorem mem_del (m : Dict Str Str) (n : Str) (hm : (Dict.keys m).Nodup) (q : Str × Str) :
    q ∈ Dict.del m n ↔ q ∈ m ∧ q.1 ≠ n := by
  rw [Dict.del_eq_filter _ _ hm]
  simp [List.mem_filter]

private theorem knownStep_spec {F : Family} {clean : Str → Option Str} (hF : Sane F clean) (d : Decls)
    (M : Style) (h : ∀ k, Dict.get? d k = M k) (n v p : Str) (hx : M n = some (v, p)) (hn : F.longs n = [])
    (m : Dict Str Str) (hm : (Dict.keys m).Nodup) :
    (Dict.keys (knownStep F d n v m)).Nodup ∧ (∀ q ∈ knownStep F d n v m, q ∈ m) ∧
    ∀ q ∈ m, q ∉ knownStep F d n v m → Agrees F M q := by
  unfold knownStep
  cases hs : F.short n with
  | some s =>
    simp only []
    split
    · rename_i hc
      refine ⟨Dict.nodup_del _ _ hm, fun q hq => ((mem_del m s hm q).1 hq).1, fun q hq hq2 => ?_⟩
      have hq1 : q.1 = s := by
        by_contra hne
        exact hq2 ((mem_del m s hm q).2 ⟨hq, hne⟩)
      have hmem := (hF.short_iff n s).1 hs
      have hg : Dict.get? m q.1 = some q.2 := (Dict.mem_iff_get? m hm q.1 q.2).1 hq
      rw [hq1, hc] at hg
      unfold Agrees valueOf
      rw [hq1, if_neg (List.ne_nil_of_mem hmem), ← value_eq F d M h]
      exact Option.some.inj hg
    · exact ⟨hm, fun q hq => hq, fun q hq hq2 => absurd hq hq2⟩
  | none =>
    simp only []
    split
    · rename_i hc
      refine ⟨Dict.nodup_del _ _ hm, fun q hq => ((mem_del m n hm q).1 hq).1, fun q hq hq2 => ?_⟩
      have hq1 : q.1 = n := by
        by_contra hne
        exact hq2 ((mem_del m n hm q).2 ⟨hq, hne⟩)
      have hg : Dict.get? m q.1 = some q.2 := (Dict.mem_iff_get? m hm q.1 q.2).1 hq
      rw [hq1, hc] at hg
      unfold Agrees valueOf
      rw [hq1, if_pos hn, hx]
      exact Option.some.inj hg
    · exact ⟨hm, fun q hq => hq, fun q hq hq2 => absurd hq hq2⟩

private theorem known_spec {F : Family} {clean : Str → Option Str} (hF : Sane F clean) (d : Decls)
    (M : Style) (h : ∀ k, Dict.get? d k = M k) (ds : Decls)
    (hds : ∀ x ∈ ds, M x.1 = some x.2 ∧ F.longs x.1 = []) (m : Dict Str Str) (hm : (Dict.keys m).Nodup) :
    (Dict.keys (known F d ds m)).Nodup ∧ (∀ q ∈ known F d ds m, q ∈ m) ∧
    ∀ q ∈ m, q ∉ known F d ds m → Agrees F M q := by
  induction ds generalizing m with
  | nil => exact ⟨hm, fun q hq => hq, fun q hq hq2 => absurd hq hq2⟩
  | cons x ds ih =>
    obtain ⟨n, v, p⟩ := x
    obtain ⟨x1, x2⟩ := hds (n, v, p) (by simp)
    obtain ⟨a1, a2, a3⟩ := knownStep_spec hF d M h n v p x1 x2 m hm
    obtain ⟨b1, b2, b3⟩ := ih (fun x hx => hds x (by simp [hx])) _ a1
    refine ⟨b1, fun q hq => a2 q (b2 q hq), fun q hq hq2 => ?_⟩
    by_cases hq3 : q ∈ knownStep F d n v m
    · exact b3 q hq3 hq2
    · exact a3 q hq hq3

/-! ### The correspondence -/

/-- The correspondence of an element and an abstract style. -/
structure Rel (F : Family) (clean : Str → Option Str) (e : El) (M : Style) : Prop where
  nodup : (Dict.keys e.decls).Nodup
  block : ∀ k, Dict.get? e.decls k = M k
  good : ∀ k x, M k = some x → F.longs k = [] ∧ Plain k ∧ Value clean x.1
  attr : ∃ d : Dict Str Str, (Dict.keys d).Nodup ∧ (∀ k, Dict.get? d k = spelled F M k) ∧
    e.attr.getD [] = dictToStyle d

private theorem spelled_value {F : Family} {M : Style} {k v : Str} (h : spelled F M k = some v) :
    valueOf F M k = v := by
  unfold spelled at h
  unfold valueOf
  by_cases hs : F.longs k = []
  · rw [if_neg (by simpa using hs)] at h
    rw [if_pos hs]
    have key : (M k).map (·.1) = some v := by
      cases hh : F.short k with
      | none => rw [hh] at h; exact h
      | some s =>
        rw [hh] at h
        simp only at h
        split at h
        · exact h
        · cases h
    rw [key]
    rfl
  · rw [if_pos hs] at h
    rw [if_neg hs]
    split at h
    · cases h
    · exact Option.some.inj h

private theorem spelled_good {F clean M} (hF : Sane F clean)
    (hg : ∀ k x, M k = some x → F.longs k = [] ∧ Plain k ∧ Value clean x.1) {k v : Str}
    (h : spelled F M k = some v) : Plain k ∧ Plain v ∧ v ≠ [] := by
  have hv := spelled_value h
  unfold spelled at h
  unfold valueOf at hv
  by_cases hs : F.longs k = []
  · rw [if_pos hs] at hv
    have hk : ∃ x, M k = some x := by
      cases hM : M k with
      | some x => exact ⟨x, rfl⟩
      | none =>
        rw [if_neg (by simpa using hs), hM] at h
        cases hh : F.short k with
        | none => rw [hh] at h; cases h
        | some s =>
          rw [hh] at h
          simp only [Option.map_none] at h
          split at h <;> cases h
    obtain ⟨x, hx⟩ := hk
    rw [hx] at hv
    simp only [Option.map_some, Option.getD_some] at hv
    obtain ⟨_, g2, g3⟩ := hg k x hx
    rw [← hv]
    exact ⟨g2, g3.1, g3.2.1⟩
  · rw [if_neg hs] at hv
    rw [if_pos hs] at h
    have ht : text F M k ≠ [] := by
      intro hc
      rw [if_pos hc] at h
      cases h
    rw [← hv]
    exact ⟨(hF.names k hs).1, hF.plain M k (fun l _ x hx => (hg l x hx).2.2) ht, ht⟩

private theorem attrMap_spec {F clean e M} (hF : Sane F clean) (h : Rel F clean e M) :
    (Dict.keys (attrMap e)).Nodup ∧ ∀ k, Dict.get? (attrMap e) k = spelled F M k := by
  obtain ⟨d, d1, d2, d3⟩ := h.attr
  obtain ⟨p1, p2⟩ := styleToDict_dictToStyle d d1 (fun q hq => by
    have hg : Dict.get? d q.1 = some q.2 := (Dict.mem_iff_get? d d1 q.1 q.2).1 hq
    rw [d2] at hg
    exact ⟨(spelled_good hF h.good hg).1, (spelled_good hF h.good hg).2.1⟩)
  unfold attrMap
  rw [d3]
  exact ⟨(p1.map Prod.fst).nodup_iff.2 d1, fun k => (p2 k).trans (d2 k)⟩

private theorem sync_rel {F clean e M} (hF : Sane F clean) (h : Rel F clean e M) : Rel F clean (sync F clean e) M := by
  obtain ⟨a1, a2⟩ := attrMap_spec hF h
  have hent : ∀ q ∈ attrMap e, Agrees F M q ∧ q.2 ≠ [] := by
    intro q hq
    have hg : Dict.get? (attrMap e) q.1 = some q.2 := (Dict.mem_iff_get? _ a1 q.1 q.2).1 hq
    rw [a2] at hg
    exact ⟨spelled_value hg, (spelled_good hF h.good hg).2.2⟩
  have hds : ∀ x ∈ e.decls, M x.1 = some x.2 ∧ F.longs x.1 = [] := by
    intro x hx
    have hg := (Dict.mem_iff_get? _ h.nodup x.1 x.2).1 hx
    rw [h.block] at hg
    exact ⟨hg, (h.good _ _ hg).1⟩
  obtain ⟨k1, k2, _⟩ := known_spec hF e.decls M h.block e.decls hds _ a1
  obtain ⟨r1, r2⟩ := renewAll_spec hF e.decls h.nodup M h.block _ (fun q hq => (hent q (k2 q hq)).2)
  refine ⟨r1, fun k => ?_, h.good, h.attr⟩
  simp only [sync]
  rw [r2 k, acts_agree _ (fun q hq => (hent q (k2 q hq)).1)]

/-! ### Setting and removing -/

private theorem spelled_congr {F clean} (hF : Sane F clean) {M M' : Style} {k : Str}
    (h1 : M k = M' k) (h2 : ∀ l ∈ F.longs k, M l = M' l)
    (h3 : ∀ s, F.short k = some s → ∀ l ∈ F.longs s, M l = M' l) : spelled F M k = spelled F M' k := by
  unfold spelled
  rw [text_congr F M M' k h2, h1]
  cases hs : F.short k with
  | none => rfl
  | some s =>
    simp only []
    rw [text_congr F M M' s (h3 s hs)]

private theorem short_unique {F clean} (hF : Sane F clean) {l s s' : Str} (h : l ∈ F.longs s) (h' : l ∈ F.longs s') :
    s = s' := by
  have a := (hF.short_iff l s).2 h
  have b := (hF.short_iff l s').2 h'
  rw [a] at b
  exact Option.some.inj b

/-- Away from a family, what is said does not change with it. -/
private theorem spelled_away {F clean} (hF : Sane F clean) {M M' : Style} {s k : Str}
    (h : ∀ l, l ∉ F.longs s → M l = M' l) (hk : k ≠ s) (hk2 : k ∉ F.longs s) : spelled F M k = spelled F M' k := by
  refine spelled_congr hF (h k hk2) ?_ ?_
  · intro l hl
    refine h l (fun hc => hk (short_unique hF hl hc))
  · intro s' hs' l hl
    refine h l (fun hc => hk2 ?_)
    have := short_unique hF hl hc
    rw [← this]
    exact (hF.short_iff k s').1 hs'

/-- The same for a property that belongs to no family. -/
private theorem spelled_alone {F clean} (hF : Sane F clean) {M M' : Style} {n k : Str} (hn : F.short n = none)
    (h : ∀ l, l ≠ n → M l = M' l) (hk : k ≠ n) : spelled F M k = spelled F M' k := by
  have hno : ∀ s, n ∉ F.longs s := by
    intro s hc
    rw [(hF.short_iff n s).2 hc] at hn
    cases hn
  exact spelled_congr hF (h k hk) (fun l hl => h l (fun hc => hno k (hc ▸ hl)))
    (fun s' _ l hl => h l (fun hc => hno s' (hc ▸ hl)))

private theorem spelled_none {F clean} (hF : Sane F clean) {M : Style} {s l : Str} (hl : l ∈ F.longs s)
    (h : M l = none) : spelled F M l = none := by
  unfold spelled
  rw [if_neg (by simpa using hF.flat s l hl), (hF.short_iff l s).2 hl, h]
  simp

private theorem family {F clean} (hF : Sane F clean) (s : Str) :
    ∀ l ∈ F.longs s, F.longs l = [] ∧ F.short l = some s :=
  fun l hl => ⟨hF.flat s l hl, (hF.short_iff l s).2 hl⟩

/-- The map of the attribute after `_set`. -/
private theorem setIn_spec {F clean} (hF : Sane F clean) (d : Decls) (M M' : Style) (h : ∀ k, Dict.get? d k = M' k)
    (m : Dict Str Str) (hm : (Dict.keys m).Nodup) (hM : ∀ k, Dict.get? m k = spelled F M k)
    (n v : Str) (hv : v ≠ []) (hv2 : v = valueOf F M' n) (hch : ∀ l, l ∉ about F n → M l = M' l) :
    (Dict.keys (setIn F d m n v).2).Nodup ∧ ∀ k, Dict.get? (setIn F d m n v).2 k = spelled F M' k := by
  unfold setIn setRelated
  cases hs : F.short n with
  | some s =>
    have hmem := (hF.short_iff n s).1 hs
    have hn : F.longs n = [] := hF.flat s n hmem
    have hab : about F n = [n] := by simp [about, hn]
    have hMn : M' n ≠ none := by
      intro hc
      rw [hv2, valueOf, if_pos hn, hc] at hv
      exact hv rfl
    obtain ⟨a1, a2⟩ := setFamily_spec F d M' h m hm s (List.ne_nil_of_mem hmem) (family hF s) (by
      intro l hl hl2
      rw [hM l]
      refine spelled_none hF hl ?_
      rw [hch l, hl2]
      rw [hab]
      intro hc
      rw [List.mem_singleton] at hc
      exact hMn (hc ▸ hl2))
    have hdone : (setFamily F d m s).1 = true := by
      unfold setFamily setShorthand
      by_cases ht : value F d s = []
      · simp only [ht, if_true, Bool.false_eq_true, if_false, fromShorthand, Bool.or_eq_true, List.any_eq_true]
        right
        refine ⟨n, hmem, ?_⟩
        simp only [Dict.contains, h n]
        exact Option.isSome_iff_ne_none.2 hMn
      · simp [ht]
    simp only [hdone, Bool.not_true, Bool.false_and, Bool.false_eq_true, if_false]
    refine ⟨a1, fun k => ?_⟩
    rw [a2 k]
    split
    · rfl
    · rename_i hk
      push Not at hk
      rw [hM k]
      refine spelled_away hF (s := s) (fun l hl => hch l ?_) hk.1 hk.2
      rw [hab, List.mem_singleton]
      intro hc
      exact hl (hc ▸ hmem)
  | none =>
    simp only []
    by_cases hn : F.longs n = []
    · have hab : about F n = [n] := by simp [about, hn]
      have hsn : isShorthand F n = false := by simp [isShorthand, hn]
      have hve : v.isEmpty = false := by simpa using hv
      simp only [hsn, hve, Bool.false_eq_true, if_false, Bool.not_false, Bool.true_and, if_true]
      refine ⟨Dict.nodup_set _ _ _ hm, fun k => ?_⟩
      rw [Dict.get?_set]
      by_cases hk : k = n
      · subst hk
        simp only [if_pos]
        rw [spelled, if_neg (by simpa using hn), hs]
        simp only []
        rw [valueOf, if_pos hn] at hv2
        cases hc : M' k with
        | none =>
          rw [hc] at hv2
          exact absurd hv2 hv
        | some x =>
          rw [hc] at hv2
          rw [hv2]
          rfl
      · simp only [Ne.symm hk, if_false]
        rw [hM k]
        refine spelled_alone hF hs (fun l hl => hch l ?_) hk
        rw [hab, List.mem_singleton]
        exact hl
    · have hab : about F n = F.longs n := by simp [about, hn]
      simp only [(isShort_iff F n).2 hn, if_true]
      rw [valueOf, if_neg hn] at hv2
      have ht : value F d n ≠ [] := by
        rw [value_eq F d M' h, ← hv2]
        exact hv
      have hdone : (setFamily F d m n).1 = true := by
        unfold setFamily setShorthand
        simp [ht]
      have hres : (setFamily F d m n).2 = delAll (Dict.set m n v) (F.longs n) := by
        unfold setFamily setShorthand
        simp only [ht, if_false, if_true]
        rw [value_eq F d M' h, ← hv2]
      simp only [hdone, Bool.not_true, Bool.false_and, Bool.false_eq_true, if_false, hres]
      obtain ⟨b1, b2⟩ := delAll_spec (Dict.set m n v) (F.longs n) (Dict.nodup_set _ _ _ hm)
      refine ⟨b1, fun k => ?_⟩
      rw [b2 k, Dict.get?_set]
      have hself : n ∉ F.longs n := fun hc => hn (hF.flat n n hc)
      by_cases hk2 : k ∈ F.longs n
      · rw [if_pos hk2, spelled, if_neg (by simpa using hF.flat n k hk2), (hF.short_iff k n).2 hk2]
        simp only []
        rw [if_neg (by rw [← hv2]; exact hv)]
      · rw [if_neg hk2]
        by_cases hk : k = n
        · subst hk
          simp only [if_pos]
          rw [spelled, if_pos hn, if_neg (by rw [← hv2]; exact hv), hv2]
        · simp only [Ne.symm hk, if_false]
          rw [hM k]
          exact spelled_away hF (s := n) (fun l hl => hch l (by rw [hab]; exact hl)) hk hk2

/-- The map of the attribute after `_remove`. -/
private theorem removeIn_spec {F clean} (hF : Sane F clean) (d : Decls) (M : Style) (n : Str)
    (h : ∀ k, Dict.get? d k = without F M n k) (hg : ∀ k, M k ≠ none → F.longs k = [])
    (m : Dict Str Str) (hm : (Dict.keys m).Nodup) (hM : ∀ k, Dict.get? m k = spelled F M k) :
    (Dict.keys (removeIn F d m n).2).Nodup ∧ ∀ k, Dict.get? (removeIn F d m n).2 k = spelled F (without F M n) k := by
  have own : (Dict.keys (removeOwn F m n).2).Nodup ∧ ∀ k, Dict.get? (removeOwn F m n).2 k =
      if k = n ∨ k ∈ F.longs n then none else spelled F M k := by
    unfold removeOwn
    simp only []
    obtain ⟨a1, a2⟩ := delIf m n hm
    obtain ⟨b1, b2⟩ := delAll_spec _ (F.longs n) a1
    refine ⟨b1, fun k => ?_⟩
    rw [b2 k, a2 k, hM k]
    by_cases hk : k = n <;> by_cases hk2 : k ∈ F.longs n <;> simp [hk, hk2]
  unfold removeIn
  cases hs : F.short n with
  | some s =>
    have hmem := (hF.short_iff n s).1 hs
    have hn : F.longs n = [] := hF.flat s n hmem
    simp only []
    obtain ⟨a1, a2⟩ := setFamily_spec F d _ h _ own.1 s (List.ne_nil_of_mem hmem) (family hF s) (by
      intro l hl hl2
      rw [own.2 l]
      split
      · rfl
      · rename_i hk
        refine spelled_none hF hl ?_
        unfold without at hl2
        rwa [if_neg hk] at hl2)
    refine ⟨a1, fun k => ?_⟩
    rw [a2 k]
    split
    · rfl
    · rename_i hk
      push Not at hk
      rw [own.2 k, if_neg]
      · refine spelled_away hF (s := s) (fun l hl => ?_) hk.1 hk.2
        unfold without
        rw [if_neg]
        rintro (hc | hc)
        · exact hl (hc ▸ hmem)
        · simp [hn] at hc
      · rintro (hc | hc)
        · exact hk.2 (hc ▸ hmem)
        · simp [hn] at hc
  | none =>
    simp only []
    refine ⟨own.1, fun k => ?_⟩
    rw [own.2 k]
    by_cases hn : F.longs n = []
    · by_cases hk : k = n
      · subst hk
        rw [if_pos (.inl rfl), spelled, if_neg (by simpa using hn), hs]
        simp [without]
      · rw [if_neg (by simp [hk, hn])]
        refine spelled_alone hF hs (fun l hl => ?_) hk
        simp [without, hl, hn]
    · have hself : n ∉ F.longs n := fun hc => hn (hF.flat n n hc)
      have hMn : M n = none := by
        by_contra hc
        exact hn (hg n hc)
      by_cases hk : k ∈ F.longs n
      · rw [if_pos (.inr hk), spelled_none hF hk]
        simp [without, hk]
      · by_cases hk2 : k = n
        · subst hk2
          rw [if_pos (.inl rfl), spelled, if_pos hn]
          have : text F (without F M k) k = [] := by
            have hd : declared F (without F M k) k = [] := by
              unfold declared
              rw [List.filterMap_eq_nil_iff]
              intro l hl
              simp [without, hl]
            unfold text
            rw [if_pos (.inl hd)]
          rw [if_pos this]
        · rw [if_neg (by simp [hk, hk2])]
          refine spelled_away hF (s := n) (fun l hl => ?_) hk2 hk
          unfold without
          by_cases hln : l = n
          · subst hln
            simp [hMn]
          · simp [hln, hl]

private theorem store_spec (e : El) (r : Bool × Dict Str Str) (hsame : r.1 = false → r.2 = attrMap e) :
    (store e r).decls = e.decls ∧
      ((store e r).attr.getD [] = dictToStyle r.2 ∨ (r.2 = attrMap e ∧ (store e r).attr = e.attr)) := by
  unfold store writeAttr
  cases h : r.1 with
  | false => exact ⟨rfl, .inr ⟨hsame h, rfl⟩⟩
  | true =>
    simp only [if_true]
    split
    · rename_i h2
      rw [h2]
      exact ⟨rfl, .inl (by decide : ([] : Str) = dictToStyle [])⟩
    · exact ⟨rfl, .inl rfl⟩

private theorem store_rel {F clean e M M'} (hF : Sane F clean) (h : Rel F clean e M) (d : Decls) (r : Bool × Dict Str Str)
    (hd : (Dict.keys d).Nodup) (hb : ∀ k, Dict.get? d k = M' k)
    (hg : ∀ k x, M' k = some x → F.longs k = [] ∧ Plain k ∧ Value clean x.1)
    (hsame : r.1 = false → r.2 = attrMap e)
    (h1 : (Dict.keys r.2).Nodup) (h2 : ∀ k, Dict.get? r.2 k = spelled F M' k) :
    Rel F clean (store { e with decls := d } r) M' := by
  have am : attrMap { e with decls := d } = attrMap e := rfl
  obtain ⟨s1, s2⟩ := store_spec { e with decls := d } r (fun hh => (hsame hh).trans am.symm)
  refine ⟨by rw [s1]; exact hd, fun k => by rw [s1]; exact hb k, hg, ?_⟩
  rcases s2 with s2 | ⟨s2, s3⟩
  · exact ⟨r.2, h1, h2, s2⟩
  · obtain ⟨d0, d1, d2, d3⟩ := h.attr
    refine ⟨d0, d1, fun k => ?_, by rw [s3]; exact d3⟩
    rw [d2 k, ← h2 k, s2, am, (attrMap_spec hF h).2 k]

private theorem removeAll_spec (d : Decls) (ls : List Str) (hd : (Dict.keys d).Nodup) :
    (Dict.keys (removeAll d ls)).Nodup ∧
    ∀ k, Dict.get? (removeAll d ls) k = if k ∈ ls then none else Dict.get? d k := by
  induction ls generalizing d with
  | nil => exact ⟨hd, fun k => by simp [removeAll]⟩
  | cons l ls ih =>
    have a : (Dict.keys (if Dict.contains d l then Dict.del d l else d)).Nodup ∧
        ∀ k, Dict.get? (if Dict.contains d l then Dict.del d l else d) k = if k = l then none else Dict.get? d k := by
      split
      · refine ⟨Dict.nodup_del _ _ hd, fun k => ?_⟩
        rw [Dict.get?_del _ _ _ hd]
        by_cases hk : k = l
        · subst hk
          simp
        · simp [hk, Ne.symm hk]
      · rename_i hc
        refine ⟨hd, fun k => ?_⟩
        by_cases hk : k = l
        · subst hk
          simp only [if_pos]
          simpa [Dict.contains] using hc
        · simp [hk]
    obtain ⟨h1, h2⟩ := ih _ a.1
    refine ⟨h1, fun k => ?_⟩
    simp only [removeAll]
    rw [h2 k, a.2 k]
    by_cases hk : k = l <;> by_cases hk2 : k ∈ ls <;> simp [hk, hk2]

private theorem removeDecl_spec (F : Family) (d : Decls) (M : Style) (hd : (Dict.keys d).Nodup)
    (h : ∀ k, Dict.get? d k = M k) (hg : ∀ k, M k ≠ none → F.longs k = []) (n : Str) :
    (Dict.keys (removeDecl F d n).2).Nodup ∧ (∀ k, Dict.get? (removeDecl F d n).2 k = without F M n k) ∧
    ((removeDecl F d n).1 = false → ∀ k, without F M n k = M k) := by
  unfold removeDecl without
  by_cases hn : F.longs n = []
  · rw [if_neg (by simp [isShorthand, hn])]
    obtain ⟨a1, a2⟩ := removeAll_spec d [n] hd
    refine ⟨a1, fun k => ?_, fun hc k => ?_⟩
    · rw [a2 k, h k]
      simp [hn]
    · simp only [Dict.contains, h n, Option.isSome_eq_false_iff, Option.isNone_iff_eq_none] at hc
      by_cases hk : k = n
      · subst hk
        simp [hc]
      · simp [hk, hn]
  · have hMn : M n = none := by
      by_contra hc
      exact hn (hg n hc)
    rw [if_pos ((isShort_iff F n).2 hn)]
    obtain ⟨a1, a2⟩ := removeAll_spec d (F.longs n) hd
    refine ⟨a1, fun k => ?_, fun hc k => ?_⟩
    · rw [a2 k, h k]
      by_cases hk : k = n
      · subst hk
        simp [hMn]
      · simp [hk]
    · simp only [List.any_eq_false, Dict.contains, h] at hc
      by_cases hk : k = n
      · subst hk
        simp [hMn]
      · by_cases hk2 : k ∈ F.longs n
        · have := hc k hk2
          simp only [Bool.not_eq_true, Option.isSome_eq_false_iff, Option.isNone_iff_eq_none] at this
          simp [this]
        · simp [hk, hk2]

private theorem canon_key (low : Str → Str) (n : Str) : canon low n = key low n := by
  unfold canon key isCustom
  split <;> simp

private theorem getValue_rel {F clean e M} (hF : Sane F clean) (low) (h : Rel F clean e M) (n : Str) :
    (getValue F low clean e n).1 = valueOf F M (key low n) ∧ (getValue F low clean e n).2 = sync F clean e := by
  have hs := sync_rel hF h
  refine ⟨?_, rfl⟩
  simp only [getValue, canon_key, valueOf]
  by_cases hn : F.longs (key low n) = []
  · rw [if_pos hn, if_neg (by simp [isShorthand, hn]), hs.block]
  · rw [if_neg hn, if_pos ((isShort_iff F _).2 hn), value_eq F _ M hs.block]

private theorem remove_rel {F clean e M} (hF : Sane F clean) (low) (h : Rel F clean e M) (n : Str) :
    Rel F clean (removeProperty F low clean e n).2 (without F M (key low n)) := by
  have h1 := sync_rel hF (sync_rel hF h)
  simp only [removeProperty, canon_key]
  rw [(getValue_rel hF low h (key low n)).2]
  generalize key low n = m
  generalize sync F clean (sync F clean e) = e' at h1
  have hg : ∀ k, M k ≠ none → F.longs k = [] := by
    intro k hk
    cases hM : M k with
    | none => exact absurd hM hk
    | some x => exact (h1.good k x hM).1
  have hgood : ∀ k x, without F M m k = some x → F.longs k = [] ∧ Plain k ∧ Value clean x.1 := by
    intro k x hx
    unfold without at hx
    split at hx
    · cases hx
    · exact h1.good k x hx
  obtain ⟨a1, a2, a3⟩ := removeDecl_spec F e'.decls M h1.nodup h1.block hg m
  obtain ⟨b1, b2⟩ := attrMap_spec hF h1
  cases hc : (removeDecl F e'.decls m).1 with
  | false =>
    have := a3 hc
    simp only [Bool.false_eq_true, if_false]
    have hM : without F M m = M := funext this
    rw [hM] at a2 ⊢
    exact ⟨a1, a2, h1.good, h1.attr⟩
  | true =>
    simp only [if_true, update]
    obtain ⟨c1, c2⟩ := removeIn_spec hF (removeDecl F e'.decls m).2 M m a2 hg (attrMap e') b1 b2
    exact store_rel hF h1 _ _ a1 a2 hgood (removeIn_same F _ _ m) c1 c2

private theorem over_get {M : Style} {ps : List (Str × Str)} {p k : Str} {x : Str × Str} (h : over M ps p k = some x) :
    (∃ v, Dict.get? ps k = some v ∧ x = (v, p)) ∨ M k = some x := by
  unfold over at h
  cases hp : Dict.get? ps k with
  | none =>
    rw [hp] at h
    exact .inr h
  | some v =>
    rw [hp] at h
    exact .inl ⟨v, rfl, (Option.some.inj h).symm⟩

private theorem get_pair {ps : List (Str × Str)} {k v : Str} (h : Dict.get? ps k = some v) : (k, v) ∈ ps := by
  induction ps with
  | nil => cases h
  | cons x ps ih =>
    obtain ⟨a, b⟩ := x
    simp only [Dict.get?] at h
    split at h
    · rename_i hk
      cases h
      simp [hk]
    · exact List.mem_cons_of_mem _ (ih h)

private theorem means_keys {F clean} (hF : Sane F clean) {n v : Str} {ps : List (Str × Str)}
    (h : means F clean n v = some ps) : ∀ k w, Dict.get? ps k = some w → k ∈ about F n := by
  intro k w hk
  unfold means at h
  unfold about
  by_cases hn : F.longs n = []
  · rw [if_pos hn] at h ⊢
    obtain ⟨u, _, rfl⟩ := Option.map_eq_some_iff.1 h
    simp only [Dict.get?] at hk
    split at hk
    · rename_i h2
      simp [h2]
    · cases hk
  · rw [if_neg hn] at h ⊢
    have := (hF.keys n v ps hn h).2 k
    exact this.1 (List.mem_map_of_mem (get_pair hk))

private theorem setWith_rel {F clean e M} (hF : Sane F clean) (h : Rel F clean e M) (n v p : Str) (hn : Plain n)
    (hw : ∀ ps, means F clean n v = some ps → (∀ q ∈ ps, Value clean q.2) ∧
      (F.longs n ≠ [] → text F (over M ps p) n ≠ [])) :
    Rel F clean (setWith F clean e n v p) (if p = [] ∨ p = "important".toList then
        match means F clean n v with
        | some ps => over M ps p
        | none => M
      else M) := by
  unfold setWith
  by_cases hp : p = [] ∨ p = "important".toList
  · rw [if_pos hp, if_neg (by rintro ⟨h1, h2⟩; exact hp.elim h1 h2)]
    have h2 := sync_rel hF h
    generalize sync F clean e = e' at h2
    obtain ⟨i1, i2, i3⟩ := internal_spec hF e'.decls h2.nodup M h2.block n v p
    simp only [i3]
    cases hm : means F clean n v with
    | none =>
      rw [hm] at i2
      simp only [Option.map_none]
      exact ⟨i1, i2, h2.good, h2.attr⟩
    | some ps =>
      rw [hm] at i2
      simp only [Option.map_some]
      obtain ⟨w1, w2⟩ := hw ps hm
      obtain ⟨b1, b2⟩ := attrMap_spec hF h2
      have hgood : ∀ k x, over M ps p k = some x → F.longs k = [] ∧ Plain k ∧ Value clean x.1 := by
        intro k x hx
        rcases over_get hx with ⟨u, hu, rfl⟩ | hx
        · have hk := means_keys hF hm k u hu
          refine ⟨?_, ?_, w1 _ (get_pair hu)⟩
          · unfold about at hk
            split at hk
            · rename_i h3
              rw [List.mem_singleton] at hk
              rw [hk]
              exact h3
            · exact hF.flat n k hk
          · unfold about at hk
            split at hk
            · rw [List.mem_singleton] at hk
              rw [hk]
              exact hn
            · rename_i h3
              exact (hF.names n h3).2 k hk
        · exact h2.good k x hx
      have hne : valueOf F (over M ps p) n ≠ [] := by
        unfold valueOf
        by_cases hs : F.longs n = []
        · rw [if_pos hs]
          unfold means at hm
          rw [if_pos hs] at hm
          obtain ⟨u, _, rfl⟩ := Option.map_eq_some_iff.1 hm
          have := w1 (n, u) (by simp)
          simpa [over, Dict.get?] using this.2.1
        · rw [if_neg hs]
          exact w2 hs
      have hch : ∀ l, l ∉ about F n → M l = over M ps p l := by
        intro l hl
        unfold over
        cases hc : Dict.get? ps l with
        | none => rfl
        | some u => exact absurd (means_keys hF hm l u hc) hl
      simp only [update]
      rw [if_neg hne]
      obtain ⟨c1, c2⟩ := setIn_spec hF _ M (over M ps p) i2 (attrMap e') b1 b2 n _ hne rfl hch
      exact store_rel hF h2 _ _ i1 i2 hgood (setIn_same F _ _ n _) c1 c2
  · rw [if_neg hp, if_pos (by push Not at hp; exact hp)]
    exact h

private theorem step_rel {F clean e M} (hF : Sane F clean) (low) (hl : ∀ n, key low (key low n) = key low n)
    (h : Rel F clean e M) (o : Op) (ha : Allowed F low clean M o) :
    Rel F clean (step F low clean e o) (specStep F low clean M o) := by
  cases o with
  | read => exact sync_rel hF h
  | remove n => exact remove_rel hF low h n
  | set n v prio =>
    obtain ⟨ha1, ha2⟩ := ha
    simp only [step, specStep, setProperty]
    by_cases hv : CssText.normalizeText v = []
    · rw [if_pos hv, if_pos hv]
      exact remove_rel hF low h n
    · rw [if_neg hv, if_neg hv]
      cases prio with
      | some p =>
        simp only [canon_key]
        exact setWith_rel hF h (key low n) _ (low p) ha1 ha2
      | none =>
        have hs := sync_rel hF h
        have hp : (getPriority F low clean e (key low n)).1 = priorityOf F M (key low n) := by
          simp only [getPriority, canon_key, hl]
          exact priority_eq F _ M hs.block _
        have he : (getPriority F low clean e (key low n)).2 = sync F clean e := rfl
        simp only [canon_key]
        rw [hp, he]
        exact setWith_rel hF hs (key low n) _ _ ha1 ha2

private theorem run_rel {F clean e M} (hF : Sane F clean) (low) (hl : ∀ n, key low (key low n) = key low n)
    (h : Rel F clean e M) (os : List Op) (ha : AllAllowed F low clean M os) :
    Rel F clean (run F low clean e os) (specRun F low clean M os) := by
  induction os generalizing e M with
  | nil => exact h
  | cons o os ih => exact ih (step_rel hF low hl h o ha.1) ha.2

private theorem spelled_empty (F : Family) (k : Str) : spelled F (fun _ => none) k = none := by
  have ht : ∀ s, text F (fun _ => none) s = [] := by
    intro s
    unfold text
    rw [if_pos]
    left
    simp [declared]
  unfold spelled
  rw [ht k]
  cases F.short k <;> simp

private theorem fresh_rel (F : Family) (clean : Str → Option Str) : Rel F clean fresh (fun _ => none) :=
  ⟨List.nodup_nil, by simp [fresh, Dict.get?], by simp, ⟨[], List.nodup_nil, fun k => (spelled_empty F k).symm,
    by decide⟩⟩

private theorem key_key {low : Str → Str} (hl : LowerLike low) (n : Str) : key low (key low n) = key low n := by
  rw [← canon_key, ← canon_key]
  unfold canon
  cases h : isCustom n with
  | true => simp [h]
  | false => simp [h, hl.custom, hl.idem]

/-! ### The theorems -/

/-- After any history of `set_property`, `remove_property` and readings that an attribute can hold,
reading a property or a shorthand through `element.style` gives what the history says, and the `style`
attribute spells the style out: each shorthand that has a text, and every other declared property. -/
theorem style_follows_history {F : Family} {clean : Str → Option Str} (hF : Sane F clean) {low : Str → Str}
    (hl : LowerLike low) (os : List Op) (ha : AllAllowed F low clean (fun _ => none) os) (n : Str) :
    (getValue F low clean (run F low clean fresh os) n).1 =
      valueOf F (specRun F low clean (fun _ => none) os) (key low n) ∧
    (getPriority F low clean (run F low clean fresh os) n).1 =
      priorityOf F (specRun F low clean (fun _ => none) os) (key low n) ∧
    ∃ d : Dict Str Str, (Dict.keys d).Nodup ∧
      (∀ k, Dict.get? d k = spelled F (specRun F low clean (fun _ => none) os) k) ∧
      (run F low clean fresh os).attr.getD [] = dictToStyle d := by
  have h := run_rel hF low (key_key hl) (fresh_rel F clean) os ha
  refine ⟨(getValue_rel hF low h n).1, ?_, h.attr⟩
  simp only [getPriority, canon_key]
  exact priority_eq F _ _ (sync_rel hF h).block _

/-! ### Reading the attribute anew -/

/-- A style without its priorities, which the attribute does not have. -/
def plainly (M : Style) : Style := fun k => (M k).map (fun x => (x.1, []))

private theorem disjoint {F clean M} (hF : Sane F clean) {n v n' v' k : Str} (h : spelled F M n = some v)
    (h' : spelled F M n' = some v') (hk : k ∈ about F n) (hk' : k ∈ about F n') : n = n' := by
  have mixed : ∀ {a b u w : Str}, F.longs a = [] → F.longs b ≠ [] → a ∈ F.longs b → spelled F M a = some u →
      spelled F M b = some w → False := by
    intro a b u w ha hb hab h1 h2
    unfold spelled at h1 h2
    rw [if_neg (by simpa using ha), (hF.short_iff a b).2 hab] at h1
    rw [if_pos hb] at h2
    simp only at h1
    split at h1
    · rename_i ht
      rw [if_pos ht] at h2
      cases h2
    · cases h1
  unfold about at hk hk'
  by_cases hn : F.longs n = [] <;> by_cases hn' : F.longs n' = []
  · rw [if_pos hn, List.mem_singleton] at hk
    rw [if_pos hn', List.mem_singleton] at hk'
    rw [← hk, ← hk']
  · rw [if_pos hn, List.mem_singleton] at hk
    rw [if_neg hn'] at hk'
    exact (mixed hn hn' (hk ▸ hk') h h').elim
  · rw [if_neg hn] at hk
    rw [if_pos hn', List.mem_singleton] at hk'
    exact (mixed hn' hn (hk' ▸ hk) h' h).elim
  · rw [if_neg hn] at hk
    rw [if_neg hn'] at hk'
    exact short_unique hF hk hk'

/-- An entry about properties that are not yet declared. -/
private theorem act_fresh {F clean M} (hF : Sane F clean)
    (hg : ∀ k x, M k = some x → F.longs k = [] ∧ Plain k ∧ Value clean x.1)
    (N : Style) {n v : Str} (h : spelled F M n = some v) (hN : ∀ k ∈ about F n, N k = none) (k : Str) :
    act F clean N n v k = if k ∈ about F n then plainly M k else N k := by
  have hv := (spelled_good hF hg h).2.2
  have hval := spelled_value h
  unfold act
  by_cases hn : F.longs n = []
  · have hab : about F n = [n] := by simp [about, hn]
    rw [hab] at hN ⊢
    have hNn := hN n (by simp)
    rw [valueOf, if_pos hn, hNn, if_neg (by simpa using hv.symm), priorityOf, if_pos hn, hNn]
    rw [valueOf, if_pos hn] at hval
    cases hM : M n with
    | none =>
      rw [hM] at hval
      exact absurd hval.symm hv
    | some x =>
      rw [hM] at hval
      simp only [Option.map_some, Option.getD_some] at hval
      have hc := (hg n x hM).2.2.2.2
      rw [hval] at hc
      rw [means, if_pos hn, hc]
      simp only [Option.map_some, over, Dict.get?, Option.map_none, Option.getD_none]
      by_cases hk : k = n
      · subst hk
        simp [plainly, hM, hval]
      · simp [hk, Ne.symm hk]
  · have hab : about F n = F.longs n := by simp [about, hn]
    rw [hab] at hN ⊢
    have hd : declared F N n = [] := by
      unfold declared
      rw [List.filterMap_eq_nil_iff]
      intro l hl
      simp [hN l hl]
    have ht : text F N n = [] := by
      unfold text
      rw [if_pos (.inl hd)]
    rw [valueOf, if_neg hn, ht, if_neg (fun e => hv e.symm), priorityOf, if_neg hn, hd]
    rw [valueOf, if_neg hn] at hval
    obtain ⟨ps, p1, p2⟩ := hF.means M n (by rw [hval]; exact hv)
    rw [hval] at p1
    rw [means, if_neg hn, p1]
    simp only [over]
    obtain ⟨_, q2⟩ := hF.keys n v ps hn p1
    by_cases hk : k ∈ F.longs n
    · rw [if_pos hk, p2 k hk]
      have hkin := (q2 k).2 hk
      unfold plainly
      cases hM : M k with
      | none =>
        exfalso
        have := p2 k hk
        rw [hM] at this
        exact (Dict.get?_eq_none_iff ps k).1 this hkin
      | some x => rfl
    · rw [if_neg hk]
      have : Dict.get? ps k = none := (Dict.get?_eq_none_iff ps k).2 (fun hc => hk ((q2 k).1 hc))
      rw [this]

private theorem acts_fresh {F clean M} (hF : Sane F clean)
    (hg : ∀ k x, M k = some x → F.longs k = [] ∧ Plain k ∧ Value clean x.1)
    (m : Dict Str Str) (hm : (Dict.keys m).Nodup) (h : ∀ q ∈ m, spelled F M q.1 = some q.2)
    (N : Style) (hN : ∀ q ∈ m, ∀ k ∈ about F q.1, N k = none) (k : Str) :
    acts F clean N m k = if ∃ q ∈ m, k ∈ about F q.1 then plainly M k else N k := by
  induction m generalizing N with
  | nil => simp [acts]
  | cons x m ih =>
    obtain ⟨n, v⟩ := x
    simp only [Dict.keys, List.map_cons, List.nodup_cons] at hm
    have h1 : spelled F M n = some v := h (n, v) (by simp)
    have a := act_fresh hF hg N h1 (hN (n, v) (by simp))
    simp only [acts]
    rw [ih hm.2 (fun q hq => h q (by simp [hq])) (act F clean N n v)]
    · rw [a k]
      simp only [List.mem_cons, exists_eq_or_imp]
      by_cases hk : k ∈ about F n
      · simp [hk]
      · simp only [hk, if_false, false_or]
    · intro q hq k hk
      rw [a k, if_neg]
      · exact hN q (by simp [hq]) k hk
      · intro hk2
        have := disjoint hF h1 (h q (by simp [hq])) hk2 hk
        exact hm.1 (this ▸ List.mem_map_of_mem (f := Prod.fst) hq)

private theorem reload_block {F clean e M} (hF : Sane F clean) (h : Rel F clean e M) (k : Str) :
    Dict.get? (sync F clean ⟨[], e.attr⟩).decls k = plainly M k := by
  have am : attrMap ⟨[], e.attr⟩ = attrMap e := rfl
  obtain ⟨a1, a2⟩ := attrMap_spec hF h
  have hent : ∀ q ∈ attrMap e, spelled F M q.1 = some q.2 := by
    intro q hq
    rw [← a2]
    exact (Dict.mem_iff_get? _ a1 q.1 q.2).1 hq
  have r := (renewAll_spec hF [] List.nodup_nil (fun _ => none) (fun _ => rfl) (attrMap e)
    (fun q hq => (spelled_good hF h.good (hent q hq)).2.2)).2 k
  simp only [sync, known, am]
  rw [r, acts_fresh hF h.good (attrMap e) a1 hent (fun _ => none) (fun _ _ _ _ => rfl)]
  split
  · rfl
  · rename_i hc
    unfold plainly
    cases hM : M k with
    | none => rfl
    | some x =>
      exfalso
      apply hc
      have hl := (h.good k x hM).1
      have entry : ∀ n v, spelled F M n = some v → (n, v) ∈ attrMap e := fun n v hn =>
        (Dict.mem_iff_get? _ a1 n v).2 ((a2 n).trans hn)
      by_cases hsp : spelled F M k = some x.1
      · exact ⟨(k, x.1), entry _ _ hsp, by simp [about, hl]⟩
      · unfold spelled at hsp
        rw [if_neg (by simpa using hl), hM] at hsp
        cases hs : F.short k with
        | none =>
          rw [hs] at hsp
          exact absurd rfl hsp
        | some s =>
          rw [hs] at hsp
          simp only [Option.map_some] at hsp
          have hmem := (hF.short_iff k s).1 hs
          have ht : text F M s ≠ [] := by
            intro ht
            rw [if_pos ht] at hsp
            exact hsp rfl
          refine ⟨(s, text F M s), entry _ _ ?_, ?_⟩
          · rw [spelled, if_pos (List.ne_nil_of_mem hmem), if_neg ht]
          · rw [about, if_neg (List.ne_nil_of_mem hmem)]
            exact hmem

/-- An element that has nothing but the `style` attribute left by a history (such as the element read
from the saved document) has the style that the history says, but for the priorities. -/
theorem attribute_restores_style {F : Family} {clean : Str → Option Str} (hF : Sane F clean) {low : Str → Str}
    (hl : LowerLike low) (os : List Op) (ha : AllAllowed F low clean (fun _ => none) os) (n : Str) :
    (getValue F low clean ⟨[], (run F low clean fresh os).attr⟩ n).1 =
      valueOf F (plainly (specRun F low clean (fun _ => none) os)) (key low n) := by
  have h := run_rel hF low (key_key hl) (fresh_rel F clean) os ha
  simp only [getValue, canon_key, valueOf]
  by_cases hn : F.longs (key low n) = []
  · rw [if_pos hn, if_neg (by simp [isShorthand, hn]), reload_block hF h]
  · rw [if_neg hn, if_pos ((isShort_iff F _).2 hn), value_eq F _ _ (reload_block hF h)]

/-- A longhand has the same value afterwards, and so has a shorthand that has a text. -/
theorem plainly_value (F : Family) (M : Style) (n : Str) (h : F.longs n = [] ∨ text F M n ≠ []) :
    valueOf F (plainly M) n = valueOf F M n := by
  unfold valueOf
  by_cases hn : F.longs n = []
  · rw [if_pos hn, if_pos hn, plainly]
    cases M n <;> rfl
  · rw [if_neg hn, if_neg hn]
    have ht := h.resolve_left hn
    have hd : declared F (plainly M) n = (declared F M n).map (fun x => (x.1, x.2.1, [])) := by
      unfold declared plainly
      rw [List.map_filterMap]
      refine List.filterMap_congr (fun l _ => ?_)
      cases M l <;> rfl
    unfold text at ht ⊢
    rw [hd]
    generalize declared F M n = ds at ht
    have hc : ¬(ds = [] ∨ (∃ x ∈ ds, x.2.1 = [] ∨ F.supports x.1 x.2.1 = false) ∨
        (∃ x ∈ ds, ∃ y ∈ ds, x.2.2 ≠ y.2.2)) := fun hc => ht (if_pos hc)
    rw [if_neg hc, if_neg]
    · simp [List.map_map, Function.comp_def]
    · push Not at hc ⊢
      refine ⟨by simpa using hc.1, ?_, ?_⟩
      · intro x hx
        obtain ⟨y, hy, rfl⟩ := List.mem_map.1 hx
        exact hc.2.1 y hy
      · intro x hx y hy
        obtain ⟨_, _, rfl⟩ := List.mem_map.1 hx
        obtain ⟨_, _, rfl⟩ := List.mem_map.1 hy
        rfl

/-- Finding: the priorities are lost with the attribute. -/
theorem priority_lost_violated {F : Family} {clean : Str → Option Str} (hF : Sane F clean) {low : Str → Str}
    (hl : LowerLike low) (os : List Op) (ha : AllAllowed F low clean (fun _ => none) os) (n : Str) :
    (getPriority F low clean ⟨[], (run F low clean fresh os).attr⟩ n).1 = [] := by
  have h := run_rel hF low (key_key hl) (fresh_rel F clean) os ha
  simp only [getPriority, canon_key]
  rw [priority_eq F _ _ (reload_block hF h)]
  unfold priorityOf plainly
  split
  · cases specRun F low clean (fun _ => none) os (key low n) <;> rfl
  · cases hd : declared F (fun k => (specRun F low clean (fun _ => none) os k).map (fun x => (x.1, ([] : Str)))) (key low n) with
    | nil => rfl
    | cons x xs =>
      have : x.2.2 = [] := by
        have hx : x ∈ declared F (fun k => (specRun F low clean (fun _ => none) os k).map (fun x => (x.1, ([] : Str)))) (key low n) := by
          rw [hd]; simp
        obtain ⟨l, _, hl2⟩ := List.mem_filterMap.1 hx
        obtain ⟨y, hy, rfl⟩ := Option.map_eq_some_iff.1 hl2
        obtain ⟨z, _, rfl⟩ := Option.map_eq_some_iff.1 hy
        rfl
      simp only [this]
      split <;> rfl

/-- Finding: a value of a shorthand that gives it no text is stored in the block, but the `style`
attribute then has neither the shorthand nor its longhands. -/
theorem no_text_violated {F : Family} {clean : Str → Option Str} (hF : Sane F clean) {low : Str → Str}
    (hl : LowerLike low) (os : List Op) (ha : AllAllowed F low clean (fun _ => none) os) (n v : Str)
    (ps : List (Str × Str)) (hn : F.longs (key low n) ≠ []) (hs : F.short (key low n) = none)
    (hv : CssText.normalizeText v ≠ []) (hp : F.parse (key low n) (CssText.normalizeText v) = some ps)
    (h0 : low [] = [])
    (ht : text F (over (specRun F low clean (fun _ => none) os) ps []) (key low n) = []) :
    (∀ q ∈ ps, Dict.get? (setProperty F low clean (run F low clean fresh os) n v (some [])).decls q.1 = some (q.2, [])) ∧
    ∃ d : Dict Str Str, (setProperty F low clean (run F low clean fresh os) n v (some [])).attr.getD [] = dictToStyle d ∧
      ∀ k, k = key low n ∨ k ∈ F.longs (key low n) → Dict.get? d k = none := by
  have h := sync_rel hF (run_rel hF low (key_key hl) (fresh_rel F clean) os ha)
  generalize specRun F low clean (fun _ => none) os = M at h ht
  simp only [setProperty, if_neg hv, setWith, h0, canon_key]
  rw [if_neg (by simp)]
  generalize sync F clean (run F low clean fresh os) = e at h
  obtain ⟨i1, i2, i3⟩ := internal_spec hF e.decls h.nodup M h.block (key low n) (CssText.normalizeText v) []
  have hm : means F clean (key low n) (CssText.normalizeText v) = some ps := by rw [means, if_neg hn, hp]
  rw [hm] at i2 i3
  simp only [Option.map_some, valueOf, if_neg hn, ht] at i3
  rw [i3]
  simp only [update, if_true]
  generalize hd : (setInternal F clean e.decls (key low n) (CssText.normalizeText v) []).2 = d at i1 i2
  have am : attrMap { e with decls := d } = attrMap e := rfl
  obtain ⟨a1, a2⟩ := attrMap_spec hF h
  obtain ⟨s1, s2⟩ := store_spec { e with decls := d } (removeIn F d (attrMap e) (key low n))
    (fun hh => (removeIn_same F d _ _ hh).trans am.symm)
  rw [am]
  constructor
  · intro q hq
    rw [s1, i2 q.1]
    have := (Dict.mem_iff_get? ps (hF.keys _ _ ps hn hp).1 q.1 q.2).1 hq
    simp [over, this]
  · have hr : ∀ k, k = key low n ∨ k ∈ F.longs (key low n) →
        Dict.get? (removeIn F d (attrMap e) (key low n)).2 k = none := by
      intro k hk
      simp only [removeIn, hs, removeOwn]
      obtain ⟨b1, b2⟩ := delIf (attrMap e) (key low n) a1
      rw [(delAll_spec _ (F.longs (key low n)) b1).2 k, b2 k]
      rcases hk with rfl | hk
      · simp
      · simp [hk]
    rcases s2 with s2 | ⟨s2, s3⟩
    · exact ⟨_, s2, hr⟩
    · obtain ⟨d0, d1, d2, d3⟩ := h.attr
      refine ⟨d0, by rw [s3]; exact d3, fun k hk => ?_⟩
      rw [d2 k, ← a2 k, ← am, ← s2]
      exact hr k hk

/-! ### Another attribute -/

/-- A style agrees with what an entry of an attribute for `M` says. -/
private theorem agrees_values {F clean M} (hF : Sane F clean)
    (hg : ∀ k x, M k = some x → F.longs k = [] ∧ Plain k ∧ Value clean x.1)
    (N : Style) {n v : Str} (h : spelled F M n = some v) (hN : valueOf F N n = v) :
    ∀ k ∈ about F n, (N k).map (·.1) = (M k).map (·.1) := by
  have hv := (spelled_good hF hg h).2.2
  have hval := spelled_value h
  intro k hk
  unfold about at hk
  unfold valueOf at hN hval
  by_cases hn : F.longs n = []
  · rw [if_pos hn, List.mem_singleton] at hk
    rw [if_pos hn] at hN hval
    subst hk
    cases h1 : N k with
    | none =>
      rw [h1] at hN
      exact absurd hN.symm hv
    | some x =>
      cases h2 : M k with
      | none =>
        rw [h2] at hval
        exact absurd hval.symm hv
      | some y =>
        rw [h1] at hN
        rw [h2] at hval
        simp only [Option.map_some, Option.getD_some] at hN hval ⊢
        rw [hN, hval]
  · rw [if_neg hn] at hk hN hval
    obtain ⟨ps, p1, p2⟩ := hF.means N n (by rw [hN]; exact hv)
    obtain ⟨qs, q1, q2⟩ := hF.means M n (by rw [hval]; exact hv)
    rw [hN] at p1
    rw [hval, p1] at q1
    rw [← p2 k hk, Option.some.inj q1, q2 k hk]

private theorem act_values {F clean M} (hF : Sane F clean)
    (hg : ∀ k x, M k = some x → F.longs k = [] ∧ Plain k ∧ Value clean x.1)
    (N : Style) {n v : Str} (h : spelled F M n = some v) :
    (∀ k ∈ about F n, (act F clean N n v k).map (·.1) = (M k).map (·.1)) ∧
    ∀ k, k ∉ about F n → act F clean N n v k = N k := by
  unfold act
  by_cases hN : valueOf F N n = v
  · rw [if_pos hN]
    exact ⟨agrees_values hF hg N h hN, fun _ _ => rfl⟩
  · rw [if_neg hN]
    have hv := (spelled_good hF hg h).2.2
    have hval := spelled_value h
    have hm : ∃ ps, means F clean n v = some ps ∧ ∀ k ∈ about F n, ∃ u, Dict.get? ps k = some u ∧ (M k).map (·.1) = some u := by
      unfold valueOf at hval
      unfold means about
      by_cases hn : F.longs n = []
      · rw [if_pos hn] at hval
        simp only [hn, if_true]
        cases hM : M n with
        | none =>
          rw [hM] at hval
          exact absurd hval.symm hv
        | some x =>
          rw [hM] at hval
          simp only [Option.map_some, Option.getD_some] at hval
          have hc := (hg n x hM).2.2.2.2
          rw [hval] at hc
          rw [hc]
          refine ⟨_, rfl, fun k hk => ?_⟩
          rw [List.mem_singleton] at hk
          subst hk
          exact ⟨v, by simp [Dict.get?], by rw [hM, ← hval]; rfl⟩
      · rw [if_neg hn] at hval
        simp only [hn, if_false]
        obtain ⟨ps, p1, p2⟩ := hF.means M n (by rw [hval]; exact hv)
        rw [hval] at p1
        refine ⟨ps, p1, fun k hk => ?_⟩
        have hin := ((hF.keys n v ps hn p1).2 k).2 hk
        cases hc : Dict.get? ps k with
        | none => exact absurd hin ((Dict.get?_eq_none_iff ps k).1 hc)
        | some u => exact ⟨u, rfl, by rw [← p2 k hk, hc]⟩
    obtain ⟨ps, hps, h2⟩ := hm
    rw [hps]
    refine ⟨fun k hk => ?_, fun k hk => ?_⟩
    · obtain ⟨u, hu, hMu⟩ := h2 k hk
      simp only [over, hu, Option.map_some, hMu]
    · simp only [over]
      cases hc : Dict.get? ps k with
      | none => rfl
      | some u => exact absurd (means_keys hF hps k u hc) hk

private theorem acts_values {F clean M} (hF : Sane F clean)
    (hg : ∀ k x, M k = some x → F.longs k = [] ∧ Plain k ∧ Value clean x.1)
    (m : Dict Str Str) (hm : (Dict.keys m).Nodup) (h : ∀ q ∈ m, spelled F M q.1 = some q.2) (N : Style) :
    (∀ q ∈ m, ∀ k ∈ about F q.1, (acts F clean N m k).map (·.1) = (M k).map (·.1)) ∧
    ∀ k, (∀ q ∈ m, k ∉ about F q.1) → acts F clean N m k = N k := by
  induction m generalizing N with
  | nil => exact ⟨by simp, fun _ _ => rfl⟩
  | cons x m ih =>
    obtain ⟨n, v⟩ := x
    simp only [Dict.keys, List.map_cons, List.nodup_cons] at hm
    have h1 : spelled F M n = some v := h (n, v) (by simp)
    obtain ⟨a1, a2⟩ := act_values hF hg N h1
    obtain ⟨b1, b2⟩ := ih hm.2 (fun q hq => h q (by simp [hq])) (act F clean N n v)
    simp only [acts]
    refine ⟨fun q hq k hk => ?_, fun k hk => ?_⟩
    · rcases List.mem_cons.1 hq with rfl | hq
      · rw [b2 k]
        · exact a1 k hk
        · intro q hq2 hk2
          have := disjoint hF h1 (h q (by simp [hq2])) hk hk2
          exact hm.1 (this ▸ List.mem_map_of_mem (f := Prod.fst) hq2)
      · exact b1 q hq k hk
    · rw [b2 k (fun q hq => hk q (by simp [hq])), a2 k (hk (n, v) (by simp))]

/-- After any history, another `style` attribute is written by other means. If it spells out a style
`M` with every property declared so far, then each property reads as `M` says. -/
theorem written_attribute_read {F : Family} {clean : Str → Option Str} (hF : Sane F clean) {low : Str → Str}
    (hl : LowerLike low) (os : List Op) (ha : AllAllowed F low clean (fun _ => none) os) (M : Style)
    (hg : ∀ k x, M k = some x → F.longs k = [] ∧ Plain k ∧ Value clean x.1)
    (hM : ∀ k, specRun F low clean (fun _ => none) os k ≠ none → M k ≠ none)
    (d : Dict Str Str) (hd : (Dict.keys d).Nodup) (hs : ∀ k, Dict.get? d k = spelled F M k)
    (n : Str) (hn : F.longs (key low n) = []) :
    (getValue F low clean (writeStyle (run F low clean fresh os) (some (dictToStyle d))) n).1 =
      valueOf F M (key low n) := by
  have h := run_rel hF low (key_key hl) (fresh_rel F clean) os ha
  generalize specRun F low clean (fun _ => none) os = M0 at h hM
  generalize run F low clean fresh os = e at h
  have hmap : (Dict.keys (attrMap (writeStyle e (some (dictToStyle d))))).Nodup ∧
      ∀ k, Dict.get? (attrMap (writeStyle e (some (dictToStyle d)))) k = spelled F M k := by
    obtain ⟨p1, p2⟩ := styleToDict_dictToStyle d hd (fun q hq => by
      have hq2 : Dict.get? d q.1 = some q.2 := (Dict.mem_iff_get? d hd q.1 q.2).1 hq
      rw [hs] at hq2
      exact ⟨(spelled_good hF hg hq2).1, (spelled_good hF hg hq2).2.1⟩)
    exact ⟨(p1.map Prod.fst).nodup_iff.2 hd, fun k => (p2 k).trans (hs k)⟩
  obtain ⟨a1, a2⟩ := hmap
  generalize hm : attrMap (writeStyle e (some (dictToStyle d))) = m at a1 a2
  have hent : ∀ q ∈ m, spelled F M q.1 = some q.2 := by
    intro q hq
    rw [← a2]
    exact (Dict.mem_iff_get? _ a1 q.1 q.2).1 hq
  have hds : ∀ x ∈ e.decls, M0 x.1 = some x.2 ∧ F.longs x.1 = [] := by
    intro x hx
    have hx2 := (Dict.mem_iff_get? _ h.nodup x.1 x.2).1 hx
    rw [h.block] at hx2
    exact ⟨hx2, (h.good _ _ hx2).1⟩
  obtain ⟨k1, k2, k3⟩ := known_spec hF e.decls M0 h.block e.decls hds m a1
  have hsub : ∀ q ∈ known F e.decls e.decls m, spelled F M q.1 = some q.2 := fun q hq => hent q (k2 q hq)
  obtain ⟨b1, b2⟩ := acts_values hF hg (known F e.decls e.decls m) k1 hsub M0
  have r := (renewAll_spec hF e.decls h.nodup M0 h.block (known F e.decls e.decls m)
    (fun q hq => (spelled_good hF hg (hsub q hq)).2.2)).2
  have hsync : (sync F clean (writeStyle e (some (dictToStyle d)))).decls =
      renewAll F clean e.decls (known F e.decls e.decls m) := by
    rw [← hm]
    rfl
  have key : ∀ k, (acts F clean M0 (known F e.decls e.decls m) k).map (·.1) = (M k).map (·.1) := by
    intro k
    by_cases hc : ∃ q ∈ known F e.decls e.decls m, k ∈ about F q.1
    · obtain ⟨q, hq, hk⟩ := hc
      exact b1 q hq k hk
    · push Not at hc
      rw [b2 k hc]
      cases hMk : M k with
      | none =>
        cases h0 : M0 k with
        | none => rfl
        | some x => exact absurd hMk (hM k (by rw [h0]; simp))
      | some x =>
        have hl2 := (hg k x hMk).1
        have hq : ∃ q ∈ m, k ∈ about F q.1 := by
          have entry : ∀ n v, spelled F M n = some v → (n, v) ∈ m := fun n v hn =>
            (Dict.mem_iff_get? _ a1 n v).2 ((a2 n).trans hn)
          by_cases hsp : spelled F M k = some x.1
          · exact ⟨(k, x.1), entry _ _ hsp, by simp [about, hl2]⟩
          · unfold spelled at hsp
            rw [if_neg (by simpa using hl2), hMk] at hsp
            cases hsh : F.short k with
            | none =>
              rw [hsh] at hsp
              exact absurd rfl hsp
            | some s =>
              rw [hsh] at hsp
              simp only [Option.map_some] at hsp
              have hmem := (hF.short_iff k s).1 hsh
              have ht : text F M s ≠ [] := by
                intro ht
                rw [if_pos ht] at hsp
                exact hsp rfl
              refine ⟨(s, text F M s), entry _ _ ?_, ?_⟩
              · rw [spelled, if_pos (List.ne_nil_of_mem hmem), if_neg ht]
              · rw [about, if_neg (List.ne_nil_of_mem hmem)]
                exact hmem
        obtain ⟨q, hq, hk⟩ := hq
        rw [← hMk]
        exact agrees_values hF hg M0 (hent q hq) (k3 q hq (fun hh => hc q hh hk)) k hk
  simp only [getValue, canon_key, valueOf]
  rw [if_pos hn, if_neg (by simp [isShorthand, hn]), hsync, r, key]

/-! ### The shorthand `white-space` -/

open Shorthand in
/-- The shorthand `white-space`. -/
def wsFamily (low : Str → Str) (supports : Str → Str → Bool) : Family where
  longs s := if s = "white-space".toList then wsLonghands else []
  short l := if l ∈ wsLonghands then some "white-space".toList else none
  parse _ v := some (wsExpand low v)
  tostring _ := wsToString
  supports := supports

open Shorthand in
private theorem ws_text {low supports} {M : Style} {s : Str} (h : text (wsFamily low supports) M s ≠ []) :
    s = "white-space".toList ∧ ∃ c w t, (M "text-space-collapse".toList).map (·.1) = some c ∧
      (M "text-wrap".toList).map (·.1) = some w ∧ (M "text-space-trim".toList).map (·.1) = some t ∧
      (Means (text (wsFamily low supports) M s) c w t ∨
        (Wide (text (wsFamily low supports) M s) ∧ c = text (wsFamily low supports) M s ∧
          w = text (wsFamily low supports) M s ∧ t = text (wsFamily low supports) M s)) := by
  have hs : s = "white-space".toList := by
    by_contra hc
    apply h
    unfold text
    rw [if_pos]
    left
    unfold declared
    have : (wsFamily low supports).longs s = [] := if_neg hc
    rw [this]
    rfl
  subst hs
  refine ⟨rfl, ?_⟩
  generalize hr : text (wsFamily low supports) M "white-space".toList = r at h
  have h2 : wsToString ((declared (wsFamily low supports) M "white-space".toList).map (fun x => (x.1, x.2.1))) = r := by
    unfold text at hr
    split at hr
    · exact absurd hr.symm h
    · exact hr
  have hl : (wsFamily low supports).longs "white-space".toList =
    ["text-space-collapse".toList, "text-wrap".toList, "text-space-trim".toList] := rfl
  unfold declared at h2
  rw [hl] at h2
  have e1 : "text-space-collapse".toList ≠ "text-wrap".toList := by decide
  have e2 : "text-space-collapse".toList ≠ "text-space-trim".toList := by decide
  have e3 : "text-wrap".toList ≠ "text-space-trim".toList := by decide
  unfold wsToString at h2
  generalize "text-space-collapse".toList = n1 at *
  generalize "text-wrap".toList = n2 at *
  generalize "text-space-trim".toList = n3 at *
  cases h3 : M n1 with
  | none => cases h4 : M n2 <;> cases h5 : M n3 <;>
      simp [h3, h4, h5, Dict.get?, e1, e2, e3, e1.symm, e2.symm, e3.symm] at h2 <;> exact absurd h2 h
  | some x =>
    cases h4 : M n2 with
    | none => cases h5 : M n3 <;>
        simp [h3, h4, h5, Dict.get?, e1, e2, e3, e1.symm, e2.symm, e3.symm] at h2 <;> exact absurd h2 h
    | some y =>
      cases h5 : M n3 with
      | none =>
        simp [h3, h4, h5, Dict.get?, e1, e2, e3, e1.symm, e2.symm, e3.symm] at h2
        exact absurd h2 h
      | some z =>
        simp [h3, h4, h5, Dict.get?, e1, e2, e3, e1.symm, e2.symm, e3.symm] at h2
        exact ⟨x.1, y.1, z.1, rfl, rfl, rfl, (wsName_iff x.1 y.1 z.1 r h).1 h2⟩

open Shorthand in
private theorem ws_values (low : Str → Str) (hlow : ∀ k, Wide k → low k = k) (r c w t : Str)
    (hr : Means r c w t ∨ (Wide r ∧ c = r ∧ w = r ∧ t = r)) : wsValues low r = (c, w, t) := by
  rcases hr with hr | ⟨hr, rfl, rfl, rfl⟩
  · cases hr <;> rfl
  · have hx := hlow _ hr
    unfold wsValues
    rw [hx]
    cases hr <;> rfl

open Shorthand in
/-- The shorthand `white-space` of this library is sane. -/
theorem ws_sane (low : Str → Str) (supports : Str → Str → Bool) (clean : Str → Option Str)
    (hlow : ∀ k, Wide k → low k = k) : Sane (wsFamily low supports) clean where
  short_iff := by
    intro l s
    simp only [wsFamily]
    generalize "white-space".toList = n0
    generalize wsLonghands = ls
    by_cases hl : l ∈ ls
    · by_cases hs : s = n0
      · simp [hl, hs]
      · simp [hl, hs, Ne.symm hs]
    · by_cases hs : s = n0
      · simp [hl, hs]
      · simp [hl, hs]
  flat := by
    intro s l hl
    simp only [wsFamily] at hl ⊢
    split at hl
    · rw [if_neg]
      rintro rfl
      revert hl
      decide
    · cases hl
  keys := by
    intro s v ps hs hp
    have hs' : (wsFamily low supports).longs s = wsLonghands := by
      simp only [wsFamily] at hs ⊢
      split at hs
      · rename_i h
        exact if_pos h
      · exact absurd rfl hs
    have hps : ps = wsExpand low v := (Option.some.inj hp).symm
    have hk : Dict.keys ps = wsLonghands := by
      rw [hps]
      rfl
    rw [hk, hs']
    exact ⟨by decide, fun k => Iff.rfl⟩
  means := by
    intro M s ht
    obtain ⟨rfl, c, w, t, m1, m2, m3, hr⟩ := ws_text ht
    generalize text (wsFamily low supports) M "white-space".toList = r at hr ht
    have hv : wsValues low r = (c, w, t) := by
      exact ws_values low hlow r c w t hr
    refine ⟨wsExpand low r, rfl, ?_⟩
    intro l hl
    have hl' : l ∈ wsLonghands := hl
    have e1 : "text-space-collapse".toList ≠ "text-wrap".toList := by decide
    have e2 : "text-space-collapse".toList ≠ "text-space-trim".toList := by decide
    have e3 : "text-wrap".toList ≠ "text-space-trim".toList := by decide
    unfold wsLonghands at hl'
    unfold wsExpand
    rw [hv]
    clear hl
    generalize "text-space-collapse".toList = n1 at *
    generalize "text-wrap".toList = n2 at *
    generalize "text-space-trim".toList = n3 at *
    simp only [List.mem_cons, List.not_mem_nil, or_false] at hl'
    rcases hl' with rfl | rfl | rfl
    · simp [Dict.get?, m1]
    · simp [Dict.get?, m2, e1]
    · simp [Dict.get?, m3, e2, e3]
  names := by
    intro s hs
    simp only [wsFamily] at hs ⊢
    split at hs
    · rename_i h
      rw [if_pos h, h]
      refine ⟨⟨by decide, by decide, by decide⟩, ?_⟩
      intro l hl
      have : ∀ l ∈ wsLonghands, ':' ∉ l ∧ ';' ∉ l ∧ strip l = l := by decide
      exact this l hl
    · exact absurd rfl hs
  plain := by
    intro M s _ ht
    obtain ⟨_, c, w, t, _, _, _, hr⟩ := ws_text ht
    generalize text (wsFamily low supports) M s = r at hr
    rcases hr with hr | ⟨hr, _⟩
    · cases hr <;> exact ⟨by decide, by decide, by decide⟩
    · cases hr <;> exact ⟨by decide, by decide, by decide⟩

/-! ### A concrete history -/

/-- The family for the examples. -/
def famEx : Family := wsFamily lowEx (fun _ _ => true)

/-- A history: the shorthand is set, a longhand is changed so that the shorthand has another text, and a
property outside is set with a priority. -/
def histEx : List Op :=
  [.set "white-space".toList "pre".toList none, .set "Text-Wrap".toList "wrap".toList none,
   .set "fill".toList "red".toList (some "IMPORTANT".toList), .read]

example : Sane famEx cleanEx := ws_sane lowEx _ cleanEx (by rintro k (_ | _ | _ | _ | _) <;> decide)

example : AllAllowed famEx lowEx cleanEx (fun _ => none) histEx := by
  refine ⟨⟨⟨by decide, by decide, by decide⟩, ?_⟩, ⟨⟨by decide, by decide, by decide⟩, ?_⟩,
    ⟨⟨by decide, by decide, by decide⟩, ?_⟩, trivial, trivial⟩
  · intro ps hps
    have h : means famEx cleanEx (key lowEx "white-space".toList) (CssText.normalizeText "pre".toList) =
      some [("text-space-collapse".toList, "preserve".toList), ("text-wrap".toList, "nowrap".toList),
        ("text-space-trim".toList, "none".toList)] := by decide +kernel
    rw [h] at hps
    obtain rfl := Option.some.inj hps
    refine ⟨?_, fun _ => by decide +kernel⟩
    intro q hq
    simp only [List.mem_cons, List.not_mem_nil, or_false] at hq
    rcases hq with rfl | rfl | rfl <;> exact ⟨⟨by decide, by decide, by decide⟩, by decide, by decide⟩
  · intro ps hps
    have h : means famEx cleanEx (key lowEx "Text-Wrap".toList) (CssText.normalizeText "wrap".toList) =
      some [("text-wrap".toList, "wrap".toList)] := by decide +kernel
    rw [h] at hps
    obtain rfl := Option.some.inj hps
    refine ⟨?_, fun hc => absurd (by decide +kernel) hc⟩
    intro q hq
    simp only [List.mem_cons, List.not_mem_nil, or_false] at hq
    rcases hq with rfl
    exact ⟨⟨by decide, by decide, by decide⟩, by decide, by decide⟩
  · intro ps hps
    have h : means famEx cleanEx (key lowEx "fill".toList) (CssText.normalizeText "red".toList) =
      some [("fill".toList, "red".toList)] := by decide +kernel
    rw [h] at hps
    obtain rfl := Option.some.inj hps
    refine ⟨?_, fun hc => absurd (by decide +kernel) hc⟩
    intro q hq
    simp only [List.mem_cons, List.not_mem_nil, or_false] at hq
    rcases hq with rfl
    exact ⟨⟨by decide, by decide, by decide⟩, by decide, by decide⟩

/-- What the history says, and the attribute it leaves. -/
example : valueOf famEx (specRun famEx lowEx cleanEx (fun _ => none) histEx) "white-space".toList = "pre-wrap".toList ∧
    valueOf famEx (specRun famEx lowEx cleanEx (fun _ => none) histEx) "text-wrap".toList = "wrap".toList ∧
    priorityOf famEx (specRun famEx lowEx cleanEx (fun _ => none) histEx) "fill".toList = "important".toList ∧
    (run famEx lowEx cleanEx fresh histEx).attr = some "fill: red; white-space: pre-wrap;".toList :=
  ⟨by decide +kernel, by decide +kernel, by decide +kernel, by decide +kernel⟩

/-- Another attribute after the history. -/
example : (getValue famEx lowEx cleanEx (writeStyle (run famEx lowEx cleanEx fresh histEx)
      (some "white-space: nowrap; fill: blue; stroke: red".toList)) "text-wrap".toList).1 = "nowrap".toList ∧
    (getValue famEx lowEx cleanEx (writeStyle (run famEx lowEx cleanEx fresh histEx)
      (some "white-space: nowrap; fill: blue; stroke: red".toList)) "fill".toList).1 = "blue".toList :=
  ⟨by decide +kernel, by decide +kernel⟩

/-- A longhand of another priority: the attribute has the longhands. -/
example : (run famEx lowEx cleanEx fresh
    [.set "white-space".toList "pre".toList none, .set "text-wrap".toList "wrap".toList (some "important".toList)]).attr =
      some "text-space-collapse: preserve; text-space-trim: none; text-wrap: wrap;".toList := by decide +kernel

/-- A longhand is removed: the attribute has the rest. -/
example : (run famEx lowEx cleanEx fresh
    [.set "white-space".toList "pre".toList none, .remove "text-wrap".toList]).attr =
      some "text-space-collapse: preserve; text-space-trim: none;".toList := by decide +kernel

/-- A shorthand without text, for `no_text_violated`: a longhand does not support its value. -/
example : text (wsFamily lowEx (fun _ v => v != "nowrap".toList)) (over (fun _ => none)
      [("text-space-collapse".toList, "preserve".toList), ("text-wrap".toList, "nowrap".toList),
        ("text-space-trim".toList, "none".toList)] []) "white-space".toList = [] ∧
    (setProperty (wsFamily lowEx (fun _ v => v != "nowrap".toList)) lowEx cleanEx fresh "white-space".toList
      "pre".toList (some [])).attr = none ∧ lowEx [] = [] :=
  ⟨by decide +kernel, by decide +kernel, by decide +kernel⟩

end SvgPy.InlineShorthand
