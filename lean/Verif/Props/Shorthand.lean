import Verif.Model.Shorthand
import Verif.Lemmas.PyDict

/-! Properties C32 (`white-space`) and C57 (`font-synthesis`). -/

set_option linter.unusedSimpArgs false
set_option linter.unusedVariables false

namespace SvgPy.Shorthand

open Decl

/-! ### Specification: what the keywords stand for (CSS Text 4) -/

/-- Keyword of `white-space`: text-space-collapse, text-wrap, text-space-trim. -/
inductive Means : Str → Str → Str → Str → Prop
  | normal : Means "normal".toList "collapse".toList "wrap".toList "none".toList
  | pre : Means "pre".toList "preserve".toList "nowrap".toList "none".toList
  | nowrap : Means "nowrap".toList "collapse".toList "nowrap".toList "none".toList
  | preWrap : Means "pre-wrap".toList "preserve".toList "wrap".toList "none".toList
  | preLine : Means "pre-line".toList "preserve-breaks".toList "wrap".toList "none".toList

/-- The keywords every property accepts (this library counts `default` among them). -/
inductive Wide : Str → Prop
  | default : Wide "default".toList
  | inherit : Wide "inherit".toList
  | initial : Wide "initial".toList
  | revert : Wide "revert".toList
  | unset : Wide "unset".toList

/-- The property is declared with that value and priority, and the value is valid. -/
def Declared (supports : Str → Str → Bool) (d : Decls) (n v p : Str) : Prop :=
  Dict.get? d n = some (v, p) ∧ v ≠ [] ∧ supports n v = true

private theorem wide_iff (v : Str) : v ∈ wideKeywords ↔ Wide v := by
  constructor
  · intro h
    simp only [wideKeywords, List.mem_cons, List.not_mem_nil, or_false] at h
    rcases h with rfl | rfl | rfl | rfl | rfl
    · exact .default
    · exact .inherit
    · exact .initial
    · exact .revert
    · exact .unset
  · rintro (_ | _ | _ | _ | _) <;> decide

theorem wsName_iff (c w t r : Str) (hr : r ≠ []) :
    wsName c w t = r ↔ Means r c w t ∨ (Wide r ∧ c = r ∧ w = r ∧ t = r) := by
  constructor
  · intro h
    unfold wsName at h
    split at h
    · rename_i hh; obtain ⟨rfl, rfl, rfl⟩ := hh; subst h; exact .inl .normal
    split at h
    · rename_i hh; obtain ⟨rfl, rfl, rfl⟩ := hh; subst h; exact .inl .pre
    split at h
    · rename_i hh; obtain ⟨rfl, rfl, rfl⟩ := hh; subst h; exact .inl .nowrap
    split at h
    · rename_i hh; obtain ⟨rfl, rfl, rfl⟩ := hh; subst h; exact .inl .preWrap
    split at h
    · rename_i hh; obtain ⟨rfl, rfl, rfl⟩ := hh; subst h; exact .inl .preLine
    split at h
    · rename_i hh
      obtain ⟨⟨h1, _, _⟩, h2, h3⟩ := hh
      subst h
      exact .inr ⟨(wide_iff _).mp h1, rfl, h2, h3⟩
    · exact absurd h.symm hr
  · rintro (h | ⟨h, rfl, rfl, rfl⟩)
    · cases h <;> decide
    · cases h <;> decide

/-- Reading a shorthand of three longhands whose text needs all three. -/
private theorem getValue3 (supports : Str → Str → Bool) (a b c : Str) (hab : a ≠ b) (hac : a ≠ c) (hbc : b ≠ c)
    (f : Str → Str → Str → Str) (ts : Dict Str Str → Str)
    (hts : ∀ m, ts m = match Dict.get? m a, Dict.get? m b, Dict.get? m c with
      | some x, some y, some z => f x y z
      | _, _, _ => [])
    (d : Decls) (r : Str) (hr : r ≠ []) :
    getValue supports [a, b, c] ts d = r ↔
      ∃ x y z p, Declared supports d a x p ∧ Declared supports d b y p ∧ Declared supports d c z p ∧
        f x y z = r := by
  unfold getValue Declared
  have hr' : ¬ ([] : Str) = r := fun h => hr h.symm
  have hba := hab.symm
  have hca := hac.symm
  have hcb := hbc.symm
  cases ha : Dict.get? d a with
  | none =>
    simp only [collect, ha]
    cases hb : Dict.get? d b with
    | none =>
      cases hc : Dict.get? d c with
      | none => simp [collect, agree, hr']
      | some z =>
        obtain ⟨z, pz⟩ := z
        by_cases hz : z = [] ∨ supports c z = false
        · simp [collect, hc, hz, hr']
        · simp [collect, hc, hz, hr', hts, Dict.get?, agree, hca, hcb]
    | some y =>
      obtain ⟨y, py⟩ := y
      by_cases hy : y = [] ∨ supports b y = false
      · simp [collect, hy, hr']
      · cases hc : Dict.get? d c with
        | none => simp [collect, hy, hr', hts, Dict.get?, agree, hba, hbc]
        | some z =>
          obtain ⟨z, pz⟩ := z
          by_cases hz : z = [] ∨ supports c z = false
          · simp [collect, hc, hz, hy, hr']
          · simp [collect, hc, hz, hr', hy, hts, Dict.get?, agree, hca, hcb, hba]
  | some x =>
    obtain ⟨x, px⟩ := x
    by_cases hx : x = [] ∨ supports a x = false
    · simp only [collect, ha, hx, if_true, hr', false_iff]
      rintro ⟨x', y, z, p, ⟨h1, h2, h3⟩, _⟩
      simp only [Option.some.injEq, Prod.mk.injEq] at h1
      obtain ⟨rfl, rfl⟩ := h1
      rcases hx with h | h
      · exact h2 h
      · rw [h] at h3; exact absurd h3 (by decide)
    · have hx' : x ≠ [] ∧ supports a x = true := by
        simp only [not_or, Bool.not_eq_false] at hx; exact hx
      cases hb : Dict.get? d b with
      | none =>
        cases hc : Dict.get? d c with
        | none => simp [collect, ha, hx, hb, hc, hr', hts, Dict.get?, agree, hab, hac]
        | some z =>
          obtain ⟨z, pz⟩ := z
          by_cases hz : z = [] ∨ supports c z = false
          · simp [collect, ha, hx, hb, hc, hz, hr']
          · simp [collect, ha, hx, hb, hc, hz, hr', hts, Dict.get?, agree, hab, hac, hca, hcb]
      | some y =>
        obtain ⟨y, py⟩ := y
        by_cases hy : y = [] ∨ supports b y = false
        · simp only [collect, ha, hx, hb, hy, if_true, if_false, Option.map_none, hr', false_iff]
          rintro ⟨x', y', z, p, _, ⟨h1, h2, h3⟩, _⟩
          simp only [Option.some.injEq, Prod.mk.injEq] at h1
          obtain ⟨rfl, rfl⟩ := h1
          rcases hy with h | h
          · exact h2 h
          · rw [h] at h3; exact absurd h3 (by decide)
        · have hy' : y ≠ [] ∧ supports b y = true := by
            simp only [not_or, Bool.not_eq_false] at hy; exact hy
          cases hc : Dict.get? d c with
          | none => simp [collect, ha, hx, hb, hy, hc, hr', hts, Dict.get?, agree, hab, hac, hba, hbc]
          | some z =>
            obtain ⟨z, pz⟩ := z
            by_cases hz : z = [] ∨ supports c z = false
            · simp only [collect, ha, hx, hb, hy, hc, hz, if_true, if_false, Option.map_none, hr', false_iff]
              rintro ⟨x', y', z', p, _, _, ⟨h1, h2, h3⟩, _⟩
              simp only [Option.some.injEq, Prod.mk.injEq] at h1
              obtain ⟨rfl, rfl⟩ := h1
              rcases hz with h | h
              · exact h2 h
              · rw [h] at h3; exact absurd h3 (by decide)
            · have hz' : z ≠ [] ∧ supports c z = true := by
                simp only [not_or, Bool.not_eq_false] at hz; exact hz
              simp only [collect, ha, hx, hb, hy, hc, hz, if_false, Option.map_some, List.map_cons,
                List.map_nil, agree, List.all_cons, List.all_nil, Bool.and_true, Bool.and_eq_true,
                decide_eq_true_eq, hts, Dict.get?, hab, hac, hba, hbc, hca, hcb, if_true, beq_iff_eq]
              by_cases hp : px = py ∧ px = pz
              · obtain ⟨rfl, rfl⟩ := hp
                simp only [and_self, if_true]
                constructor
                · intro h
                  exact ⟨x, y, z, px, ⟨rfl, hx'⟩, ⟨rfl, hy'⟩, ⟨rfl, hz'⟩, h⟩
                · rintro ⟨x', y', z', p, ⟨h1, _⟩, ⟨h2, _⟩, ⟨h3, _⟩, h⟩
                  simp only [Option.some.injEq, Prod.mk.injEq] at h1 h2 h3
                  rw [h1.1, h2.1, h3.1]; exact h
              · rw [if_neg hp]
                simp only [hr', false_iff]
                rintro ⟨x', y', z', p, ⟨h1, _⟩, ⟨h2, _⟩, ⟨h3, _⟩, h⟩
                simp only [Option.some.injEq, Prod.mk.injEq] at h1 h2 h3
                exact hp ⟨h1.2.trans h2.2.symm, h1.2.trans h3.2.symm⟩

/-- **C32** (reading).  The block reports a `white-space` value exactly when its three
longhands are declared, valid, of one priority, and that value is a keyword that
stands for them or a CSS-wide keyword they all have. -/
theorem wsGet_iff (supports : Str → Str → Bool) (d : Decls) (r : Str) (hr : r ≠ []) :
    wsGet supports d = r ↔
      ∃ c w t p, Declared supports d "text-space-collapse".toList c p ∧
        Declared supports d "text-wrap".toList w p ∧ Declared supports d "text-space-trim".toList t p ∧
        (Means r c w t ∨ (Wide r ∧ c = r ∧ w = r ∧ t = r)) := by
  unfold wsGet wsLonghands
  rw [getValue3 supports _ _ _ (by decide) (by decide) (by decide) wsName wsToString (fun m => rfl) d r hr]
  constructor
  · rintro ⟨c, w, t, p, h1, h2, h3, h4⟩
    exact ⟨c, w, t, p, h1, h2, h3, (wsName_iff c w t r hr).mp h4⟩
  · rintro ⟨c, w, t, p, h1, h2, h3, h4⟩
    exact ⟨c, w, t, p, h1, h2, h3, (wsName_iff c w t r hr).mpr h4⟩

/-- **C32** (no invention).  Longhands that no keyword describes are never reported
as one. -/
theorem wsGet_undescribed (supports : Str → Str → Bool) (d : Decls) (c w t p q r : Str)
    (h1 : Dict.get? d "text-space-collapse".toList = some (c, p))
    (h2 : Dict.get? d "text-wrap".toList = some (w, q))
    (h3 : Dict.get? d "text-space-trim".toList = some (t, r))
    (hm : ∀ k, ¬ Means k c w t) (hw : ¬ (Wide c ∧ w = c ∧ t = c)) : wsGet supports d = [] := by
  by_contra hne
  obtain ⟨c', w', t', p', ⟨a1, _⟩, ⟨a2, _⟩, ⟨a3, _⟩, h⟩ := (wsGet_iff supports d _ hne).mp rfl
  rw [h1] at a1; rw [h2] at a2; rw [h3] at a3
  simp only [Option.some.injEq, Prod.mk.injEq] at a1 a2 a3
  obtain ⟨rfl, _⟩ := a1
  obtain ⟨rfl, _⟩ := a2
  obtain ⟨rfl, _⟩ := a3
  rcases h with h | ⟨h, h1', h2', h3'⟩
  · exact hm _ h
  · exact hw ⟨h1' ▸ h, h2'.trans h1'.symm, h3'.trans h1'.symm⟩

private theorem nodup3 (d : Decls) (h : (Dict.keys d).Nodup) (p : Str) (m : List (Str × Str)) :
    (Dict.keys (setAll d p m)).Nodup := by
  induction m generalizing d with
  | nil => exact h
  | cons x m ih => exact ih _ (Dict.nodup_setEnd _ _ _ h)

private theorem get_wsSet (low : Str → Str) (d : Decls) (h : (Dict.keys d).Nodup) (v p n : Str) :
    Dict.get? (wsSet low d v p) n =
      if "text-space-trim".toList = n then some ((wsValues low v).2.2, p)
      else if "text-wrap".toList = n then some ((wsValues low v).2.1, p)
      else if "text-space-collapse".toList = n then some ((wsValues low v).1, p)
      else Dict.get? d n := by
  have h1 := Dict.nodup_setEnd d "text-space-collapse".toList ((wsValues low v).1, p) h
  have h2 := Dict.nodup_setEnd _ "text-wrap".toList ((wsValues low v).2.1, p) h1
  simp only [wsSet, wsExpand, setAll]
  rw [Dict.get?_setEnd _ _ _ _ h2, Dict.get?_setEnd _ _ _ _ h1, Dict.get?_setEnd _ _ _ _ h]

/-- Setting `white-space` does not touch other properties. -/
theorem wsSet_other (low : Str → Str) (d : Decls) (h : (Dict.keys d).Nodup) (v p n : Str)
    (hn : n ∉ ["text-space-collapse".toList, "text-wrap".toList, "text-space-trim".toList]) :
    Dict.get? (wsSet low d v p) n = Dict.get? d n := by
  simp only [List.mem_cons, List.not_mem_nil, or_false, not_or] at hn
  rw [get_wsSet low d h]
  rw [if_neg (fun e => hn.2.2 e.symm), if_neg (fun e => hn.2.1 e.symm), if_neg (fun e => hn.1 e.symm)]

/-- **C32** (setting).  Setting `white-space` to a keyword gives the longhands the
keyword stands for, with the given priority. -/
theorem wsSet_longhands (low : Str → Str) (d : Decls) (h : (Dict.keys d).Nodup) (k c w t p : Str)
    (hk : Means k c w t) :
    Dict.get? (wsSet low d k p) "text-space-collapse".toList = some (c, p) ∧
    Dict.get? (wsSet low d k p) "text-wrap".toList = some (w, p) ∧
    Dict.get? (wsSet low d k p) "text-space-trim".toList = some (t, p) := by
  have hv : wsValues low k = (c, w, t) := by cases hk <;> simp [wsValues]
  simp only [get_wsSet low d h, hv]
  refine ⟨?_, ?_, ?_⟩ <;> simp

/-- The same for CSS-wide keywords, in any letter case. -/
theorem wsSet_wide (low : Str → Str) (d : Decls) (h : (Dict.keys d).Nodup) (v k p : Str) (hk : Wide k)
    (hl : low v = k) (hm : ∀ c w t, ¬ Means v c w t) :
    Dict.get? (wsSet low d v p) "text-space-collapse".toList = some (k, p) ∧
    Dict.get? (wsSet low d v p) "text-wrap".toList = some (k, p) ∧
    Dict.get? (wsSet low d v p) "text-space-trim".toList = some (k, p) := by
  have hv : wsValues low v = (k, k, k) := by
    unfold wsValues
    rw [if_neg (by rintro rfl; exact hm _ _ _ .normal), if_neg (by rintro rfl; exact hm _ _ _ .pre),
      if_neg (by rintro rfl; exact hm _ _ _ .nowrap), if_neg (by rintro rfl; exact hm _ _ _ .preWrap),
      if_neg (by rintro rfl; exact hm _ _ _ .preLine), hl, if_pos ((wide_iff k).mpr hk)]
  simp only [get_wsSet low d h, hv]
  refine ⟨?_, ?_, ?_⟩ <;> simp

/-- **C32** (round trip).  A keyword that is set is read back, whatever was declared
before. -/
theorem wsGet_wsSet (supports : Str → Str → Bool) (low : Str → Str) (d : Decls) (h : (Dict.keys d).Nodup)
    (k c w t p : Str) (hk : Means k c w t) (hc : supports "text-space-collapse".toList c = true)
    (hw : supports "text-wrap".toList w = true) (ht : supports "text-space-trim".toList t = true) :
    wsGet supports (wsSet low d k p) = k := by
  obtain ⟨h1, h2, h3⟩ := wsSet_longhands low d h k c w t p hk
  have hr : k ≠ [] := by cases hk <;> simp
  rw [wsGet_iff supports _ k hr]
  refine ⟨c, w, t, p, ⟨h1, ?_, hc⟩, ⟨h2, ?_, hw⟩, ⟨h3, ?_, ht⟩, .inl hk⟩ <;> cases hk <;> simp

/-- The same for CSS-wide keywords. -/
theorem wsGet_wsSet_wide (supports : Str → Str → Bool) (low : Str → Str) (d : Decls)
    (h : (Dict.keys d).Nodup) (v k p : Str) (hk : Wide k) (hl : low v = k) (hm : ∀ c w t, ¬ Means v c w t)
    (hs : ∀ n, supports n k = true) : wsGet supports (wsSet low d v p) = k := by
  obtain ⟨h1, h2, h3⟩ := wsSet_wide low d h v k p hk hl hm
  have hr : k ≠ [] := by cases hk <;> simp
  rw [wsGet_iff supports _ k hr]
  exact ⟨k, k, k, p, ⟨h1, hr, hs _⟩, ⟨h2, hr, hs _⟩, ⟨h3, hr, hs _⟩, .inr ⟨hk, rfl, rfl, rfl⟩⟩

/-- Finding: any other text, such as the valid `PRE`, silently means `normal`. -/
theorem wsSet_unknown (low : Str → Str) (d : Decls) (v p : Str) (hm : ∀ c w t, ¬ Means v c w t)
    (hw : ¬ Wide (low v)) : wsSet low d v p = wsSet low d "normal".toList p := by
  have hv : wsValues low v = ("collapse".toList, "wrap".toList, "none".toList) := by
    unfold wsValues
    rw [if_neg (by rintro rfl; exact hm _ _ _ .normal), if_neg (by rintro rfl; exact hm _ _ _ .pre),
      if_neg (by rintro rfl; exact hm _ _ _ .nowrap), if_neg (by rintro rfl; exact hm _ _ _ .preWrap),
      if_neg (by rintro rfl; exact hm _ _ _ .preLine), if_neg (fun e => hw ((wide_iff _).mp e))]
  have hn : wsValues low "normal".toList = ("collapse".toList, "wrap".toList, "none".toList) := by
    simp [wsValues]
  simp only [wsSet, wsExpand, hv, hn]

/-- Non-trivial instance: a block that already has an important longhand. -/
example : wsGet (fun _ _ => true) (wsSet (List.map Char.toLower)
    [("text-wrap".toList, ("balance".toList, "important".toList)), ("fill".toList, ("red".toList, []))]
    "pre-line".toList []) = "pre-line".toList := by decide

example : wsGet (fun _ _ => true)
    [("text-space-collapse".toList, ("preserve".toList, [])), ("text-wrap".toList, ("balance".toList, [])),
     ("text-space-trim".toList, ("none".toList, []))] = [] := by decide

/-! ### C57: `font-synthesis` -/

/-- The text of the shorthand and what it stands for: the weight may be synthesised,
the style may be synthesised (CSS Fonts 4). -/
inductive Synth : List Str → Str → Bool → Bool → Prop
  | none : Synth ["none".toList] "none".toList false false
  | weight : Synth ["weight".toList] "weight".toList true false
  | style : Synth ["style".toList] "style".toList false true
  | both : Synth ["weight".toList, "style".toList] "weight style".toList true true
  | both' : Synth ["style".toList, "weight".toList] "weight style".toList true true

/-- The value of a longhand. -/
def autoNone (b : Bool) : Str := if b then "auto".toList else "none".toList

private theorem getValue2 (supports : Str → Str → Bool) (a b : Str) (hab : a ≠ b)
    (f : Str → Str → Str) (ts : Dict Str Str → Str)
    (hts : ∀ m, ts m = match Dict.get? m a, Dict.get? m b with
      | some x, some y => f x y
      | _, _ => [])
    (d : Decls) (r : Str) (hr : r ≠ []) :
    getValue supports [a, b] ts d = r ↔
      ∃ x y p, Declared supports d a x p ∧ Declared supports d b y p ∧ f x y = r := by
  unfold getValue Declared
  have hr' : ¬ ([] : Str) = r := fun h => hr h.symm
  have hba := hab.symm
  cases ha : Dict.get? d a with
  | none =>
    cases hb : Dict.get? d b with
    | none => simp [collect, ha, hb, agree, hr']
    | some y =>
      obtain ⟨y, py⟩ := y
      by_cases hy : y = [] ∨ supports b y = false
      · simp [collect, ha, hb, hy, hr']
      · simp [collect, ha, hb, hy, hr', hts, Dict.get?, agree, hba]
  | some x =>
    obtain ⟨x, px⟩ := x
    by_cases hx : x = [] ∨ supports a x = false
    · simp only [collect, ha, hx, if_true, hr', false_iff]
      rintro ⟨x', y, p, ⟨h1, h2, h3⟩, _⟩
      simp only [Option.some.injEq, Prod.mk.injEq] at h1
      obtain ⟨rfl, rfl⟩ := h1
      rcases hx with h | h
      · exact h2 h
      · rw [h] at h3; exact absurd h3 (by decide)
    · have hx' : x ≠ [] ∧ supports a x = true := by
        simp only [not_or, Bool.not_eq_false] at hx; exact hx
      cases hb : Dict.get? d b with
      | none => simp [collect, ha, hx, hb, hr', hts, Dict.get?, agree, hab]
      | some y =>
        obtain ⟨y, py⟩ := y
        by_cases hy : y = [] ∨ supports b y = false
        · simp only [collect, ha, hx, hb, hy, if_true, if_false, Option.map_none, hr', false_iff]
          rintro ⟨x', y', p, _, ⟨h1, h2, h3⟩, _⟩
          simp only [Option.some.injEq, Prod.mk.injEq] at h1
          obtain ⟨rfl, rfl⟩ := h1
          rcases hy with h | h
          · exact h2 h
          · rw [h] at h3; exact absurd h3 (by decide)
        · have hy' : y ≠ [] ∧ supports b y = true := by
            simp only [not_or, Bool.not_eq_false] at hy; exact hy
          simp only [collect, ha, hx, hb, hy, if_false, Option.map_some, List.map_cons,
            List.map_nil, agree, List.all_cons, List.all_nil, Bool.and_true,
            decide_eq_true_eq, hts, Dict.get?, hab, hba, if_true, beq_iff_eq]
          by_cases hp : px = py
          · subst hp
            simp only [if_true]
            constructor
            · intro h
              exact ⟨x, y, px, ⟨rfl, hx'⟩, ⟨rfl, hy'⟩, h⟩
            · rintro ⟨x', y', p, ⟨h1, _⟩, ⟨h2, _⟩, h⟩
              simp only [Option.some.injEq, Prod.mk.injEq] at h1 h2
              rw [h1.1, h2.1]; exact h
          · rw [if_neg hp]
            simp only [hr', false_iff]
            rintro ⟨x', y', p, ⟨h1, _⟩, ⟨h2, _⟩, h⟩
            simp only [Option.some.injEq, Prod.mk.injEq] at h1 h2
            exact hp (h1.2.trans h2.2.symm)

private theorem fsName_iff (w s r : Str) (hr : r ≠ []) :
    fsName w s = r ↔ (∃ ks a b, Synth ks r a b ∧ w = autoNone a ∧ s = autoNone b) ∨
      (Wide r ∧ w = r ∧ s = r) := by
  constructor
  · intro h
    unfold fsName at h
    split at h
    · rename_i hh; obtain ⟨rfl, rfl⟩ := hh; subst h; exact .inl ⟨_, _, _, .none, rfl, rfl⟩
    split at h
    · rename_i hh; obtain ⟨rfl, rfl⟩ := hh; subst h; exact .inl ⟨_, _, _, .weight, rfl, rfl⟩
    split at h
    · rename_i hh; obtain ⟨rfl, rfl⟩ := hh; subst h; exact .inl ⟨_, _, _, .style, rfl, rfl⟩
    split at h
    · rename_i hh; obtain ⟨rfl, rfl⟩ := hh; subst h; exact .inl ⟨_, _, _, .both, rfl, rfl⟩
    split at h
    · rename_i hh
      obtain ⟨rfl, h1⟩ := hh
      subst h
      exact .inr ⟨(wide_iff _).mp h1, rfl, rfl⟩
    · exact absurd h.symm hr
  · rintro (⟨ks, a, b, h, rfl, rfl⟩ | ⟨h, rfl, rfl⟩)
    · cases h <;> decide
    · cases h <;> decide

/-- **C57** (reading).  The block reports a `font-synthesis` value exactly when both
longhands are declared, valid and of one priority, and that value stands for them. -/
theorem fsGet_iff (supports : Str → Str → Bool) (d : Decls) (r : Str) (hr : r ≠ []) :
    fsGet supports d = r ↔
      ∃ w s p, Declared supports d "font-synthesis-weight".toList w p ∧
        Declared supports d "font-synthesis-style".toList s p ∧
        ((∃ ks a b, Synth ks r a b ∧ w = autoNone a ∧ s = autoNone b) ∨ (Wide r ∧ w = r ∧ s = r)) := by
  unfold fsGet fsLonghands
  rw [getValue2 supports _ _ (by decide) fsName fsToString (fun m => rfl) d r hr]
  constructor
  · rintro ⟨w, s, p, h1, h2, h3⟩
    exact ⟨w, s, p, h1, h2, (fsName_iff w s r hr).mp h3⟩
  · rintro ⟨w, s, p, h1, h2, h3⟩
    exact ⟨w, s, p, h1, h2, (fsName_iff w s r hr).mpr h3⟩

private theorem get_fsSet (low : Str → Str) (d : Decls) (h : (Dict.keys d).Nodup) (vs : List Str) (p n : Str) :
    Dict.get? (fsSet low d vs p) n =
      if "font-synthesis-style".toList = n then some ((fsValues low vs).2, p)
      else if "font-synthesis-weight".toList = n then some ((fsValues low vs).1, p)
      else Dict.get? d n := by
  have h1 := Dict.nodup_setEnd d "font-synthesis-weight".toList ((fsValues low vs).1, p) h
  simp only [fsSet, fsExpand, setAll]
  rw [Dict.get?_setEnd _ _ _ _ h1, Dict.get?_setEnd _ _ _ _ h]

/-- **C57** (setting).  The tokens, in either order, give the longhands they stand
for, with the given priority; other properties are untouched. -/
theorem fsSet_longhands (low : Str → Str) (d : Decls) (h : (Dict.keys d).Nodup) (ks : List Str)
    (r p : Str) (a b : Bool) (hk : Synth ks r a b) :
    Dict.get? (fsSet low d ks p) "font-synthesis-weight".toList = some (autoNone a, p) ∧
    Dict.get? (fsSet low d ks p) "font-synthesis-style".toList = some (autoNone b, p) ∧
    ∀ n, n ≠ "font-synthesis-weight".toList → n ≠ "font-synthesis-style".toList →
      Dict.get? (fsSet low d ks p) n = Dict.get? d n := by
  have hv : fsValues low ks = (autoNone a, autoNone b) := by
    cases hk <;> simp [fsValues, autoNone]
  refine ⟨?_, ?_, ?_⟩
  · simp [get_fsSet low d h, hv]
  · simp [get_fsSet low d h, hv]
  · intro n h1 h2
    rw [get_fsSet low d h, if_neg (fun e => h2 e.symm), if_neg (fun e => h1 e.symm)]

/-- **C57** (round trip).  What is set is read back in canonical order. -/
theorem fsGet_fsSet (supports : Str → Str → Bool) (low : Str → Str) (d : Decls) (h : (Dict.keys d).Nodup)
    (ks : List Str) (r p : Str) (a b : Bool) (hk : Synth ks r a b)
    (hs : ∀ n c, supports n (autoNone c) = true) : fsGet supports (fsSet low d ks p) = r := by
  obtain ⟨h1, h2, _⟩ := fsSet_longhands low d h ks r p a b hk
  have hr : r ≠ [] := by cases hk <;> simp
  have hne : ∀ c, autoNone c ≠ [] := by intro c; cases c <;> simp [autoNone]
  rw [fsGet_iff supports _ r hr]
  exact ⟨_, _, p, ⟨h1, hne _, hs _ _⟩, ⟨h2, hne _, hs _ _⟩, .inl ⟨ks, a, b, hk, rfl, rfl⟩⟩

/-- The same for CSS-wide keywords in any letter case. -/
theorem fsGet_fsSet_wide (supports : Str → Str → Bool) (low : Str → Str) (d : Decls)
    (h : (Dict.keys d).Nodup) (v k p : Str) (hk : Wide k) (hl : low v = k)
    (hm : ∀ r a b, ¬ Synth [v] r a b) (hs : ∀ n, supports n k = true) :
    fsGet supports (fsSet low d [v] p) = k := by
  have hv : fsValues low [v] = (k, k) := by
    simp only [fsValues]
    rw [if_neg (by rintro rfl; exact hm _ _ _ .none), if_neg (by rintro rfl; exact hm _ _ _ .weight),
      if_neg (by rintro rfl; exact hm _ _ _ .style), hl, if_pos ((wide_iff k).mpr hk)]
  have hr : k ≠ [] := by cases hk <;> simp
  rw [fsGet_iff supports _ k hr]
  refine ⟨k, k, p, ⟨?_, hr, hs _⟩, ⟨?_, hr, hs _⟩, .inr ⟨hk, rfl, rfl⟩⟩
  · simp [get_fsSet low d h, hv]
  · simp [get_fsSet low d h, hv]

/-- Non-trivial instance. -/
example : fsGet (fun _ _ => true) (fsSet (List.map Char.toLower)
    [("font-synthesis-style".toList, ("auto".toList, "important".toList))]
    ["style".toList, "weight".toList] []) = "weight style".toList := by decide

/-! ### The priority of a shorthand -/

private theorem priorities_mem (d : Decls) (ls : List Str) (p : Str) :
    p ∈ priorities d ls ↔ ∃ l ∈ ls, ∃ v, Dict.get? d l = some (v, p) := by
  induction ls with
  | nil => simp [priorities]
  | cons l ls ih =>
    simp only [priorities]
    cases h : Dict.get? d l with
    | none => simp [ih, h]
    | some x =>
      obtain ⟨v, q⟩ := x
      simp only [List.mem_cons, ih, exists_eq_or_imp, h, Option.some.injEq, Prod.mk.injEq]
      constructor
      · rintro (rfl | h')
        · exact .inl ⟨v, rfl, rfl⟩
        · exact .inr h'
      · rintro (⟨_, _, rfl⟩ | h')
        · exact .inl rfl
        · exact .inr h'

/-- What the code does: the priority that all declared longhands share. -/
theorem priority_shared (longhands : List Str) (d : Decls) (p : Str) (hp : p ≠ []) :
    getPriority longhands d = p ↔
      (∃ l ∈ longhands, ∃ v, Dict.get? d l = some (v, p)) ∧
      ∀ l ∈ longhands, ∀ v q, Dict.get? d l = some (v, q) → q = p := by
  have hm := priorities_mem d longhands
  unfold getPriority
  cases h : priorities d longhands with
  | nil =>
    simp only [h, List.not_mem_nil, false_iff] at hm
    constructor
    · intro e; exact absurd e.symm hp
    · rintro ⟨h1, _⟩; exact absurd h1 (hm p)
  | cons q qs =>
    rw [h] at hm
    simp only [agree, List.all_eq_true, decide_eq_true_eq]
    by_cases ha : ∀ x ∈ qs, q = x
    · rw [if_pos ha]
      constructor
      · rintro rfl
        refine ⟨(hm q).1 List.mem_cons_self, ?_⟩
        intro l hl v r hr
        rcases List.mem_cons.1 ((hm r).2 ⟨l, hl, v, hr⟩) with e | e
        · exact e
        · exact (ha r e).symm
      · rintro ⟨_, h2⟩
        obtain ⟨l, hl, v, hv⟩ := (hm q).1 List.mem_cons_self
        exact h2 l hl v q hv
    · rw [if_neg ha]
      constructor
      · intro e; exact absurd e.symm hp
      · rintro ⟨_, h2⟩
        refine absurd ?_ ha
        have hall : ∀ r ∈ q :: qs, r = p := by
          intro r hr
          obtain ⟨l, hl, v, hv⟩ := (hm r).1 hr
          exact h2 l hl v r hv
        intro x hx
        rw [hall q List.mem_cons_self, hall x (List.mem_cons_of_mem _ hx)]

/-- **C133**.  A shorthand whose longhands are all declared is
important exactly if all of them are.  Missing: longhands that are not
declared (next theorem). -/
theorem priority_all_partial (longhands : List Str) (hne : longhands ≠ []) (d : Decls)
    (hd : ∀ l ∈ longhands, ∃ v q, Dict.get? d l = some (v, q)) :
    getPriority longhands d = "important".toList ↔
      ∀ l ∈ longhands, ∃ v, Dict.get? d l = some (v, "important".toList) := by
  rw [priority_shared longhands d _ (by decide)]
  constructor
  · rintro ⟨_, h⟩ l hl
    obtain ⟨v, q, hv⟩ := hd l hl
    exact ⟨v, by rw [hv, h l hl v q hv]⟩
  · intro h
    obtain ⟨l, ls, rfl⟩ := List.exists_cons_of_ne_nil hne
    refine ⟨⟨l, List.mem_cons_self, h l List.mem_cons_self⟩, ?_⟩
    intro m hm v q hv
    obtain ⟨w, hw⟩ := h m hm
    rw [hw] at hv
    simp only [Option.some.injEq, Prod.mk.injEq] at hv
    exact hv.2.symm

example : ∀ l ∈ fsLonghands, ∃ v q, Dict.get?
    ([("font-synthesis-weight".toList, ("none".toList, "important".toList)),
      ("font-synthesis-style".toList, ("none".toList, []))] : Decls) l = some (v, q) := by
  intro l hl
  simp only [fsLonghands, List.mem_cons, List.not_mem_nil, or_false] at hl
  rcases hl with rfl | rfl
  · exact ⟨_, _, rfl⟩
  · exact ⟨_, _, rfl⟩

/-- **C133** is violated: with one longhand important and the
other not declared at all, the shorthand is reported as important. -/
theorem priority_missing_violated : ∃ d : Decls,
    Dict.get? d "font-synthesis-style".toList = none ∧
    getPriority fsLonghands d = "important".toList :=
  ⟨[("font-synthesis-weight".toList, ("none".toList, "important".toList))],
    by decide, by decide⟩

end SvgPy.Shorthand
