import Verif.Model.InlineStyle
import Verif.Props.StyleText
import Verif.Props.Decl
import Verif.Lemmas.PyDict

/-! Property C100: the inline style of an element and its `style` attribute say the same. -/

set_option linter.unusedSimpArgs false

namespace SvgPy.InlineStyle

open SvgPy.Decl SvgPy.StyleText PyStr

/-! ### The specification -/

/-- The style of an element in the abstract: the value and the priority of each property. -/
abbrev Spec := Str → Option (Str × Str)

/-- What can be done: `element.style.set_property`, `remove_property`, any reading access, and the
writing of a `style` attribute that gives the properties `d`. -/
inductive Op
  | set (n v : Str) (prio : Option Str)
  | remove (n : Str)
  | read
  | write (d : Dict Str Str)

/-- The style with one property replaced. -/
def put (M : Spec) (n : Str) (x : Option (Str × Str)) : Spec := fun k => if k = n then x else M k

/-- The names of properties are the same in either case, except for custom ones. -/
def key (low : Str → Str) : Str → Str
  | '-' :: '-' :: n => '-' :: '-' :: n
  | n => low n

/-- The priority of a property, empty if it is not declared. -/
def prioOf (M : Spec) (n : Str) : Str := ((M n).map (·.2)).getD []

/-- One operation in the abstract. `tidy` is the value as it is stored, `none` if nothing is left of
it. -/
def specStep (low : Str → Str) (tidy : Str → Option Str) (M : Spec) : Op → Spec
  | .read => M
  | .remove n => put M (key low n) none
  | .write d => fun k => (Dict.get? d k).map (fun v => (v, prioOf M k))
  | .set n v prio =>
    if CssText.normalizeText v = [] then put M (key low n) none
    else
      let p := (prio.map low).getD (prioOf M (key low n))
      if p = [] ∨ p = "important".toList then
        match tidy v with
        | some w => put M (key low n) (some (w, p))
        | none => M
      else M

/-- A history in the abstract. -/
def specRun (low : Str → Str) (tidy : Str → Option Str) (M : Spec) : List Op → Spec
  | [] => M
  | o :: os => specRun low tidy (specStep low tidy M o) os

/-- A value that the attribute can hold: it has neither `:` nor `;` (finding below) and is one that
storing leaves alone. -/
def Value (clean : Str → Option Str) (v : Str) : Prop := Plain v ∧ v ≠ [] ∧ clean v = some v

/-- What the operations may be: names and values that the attribute can hold, and a written
attribute has every property declared so far (finding below). -/
def Allowed (low : Str → Str) (clean : Str → Option Str) (M : Spec) : Op → Prop
  | .read => True
  | .remove _ => True
  | .set n v _ => Plain (key low n) ∧ ∀ w, clean (CssText.normalizeText v) = some w → Value clean w
  | .write d => (Dict.keys d).Nodup ∧ (∀ q ∈ d, Plain q.1 ∧ Value clean q.2) ∧
      ∀ k, M k ≠ none → k ∈ Dict.keys d

/-- Every operation of a history is allowed. -/
def AllAllowed (low : Str → Str) (clean : Str → Option Str) (M : Spec) : List Op → Prop
  | [] => True
  | o :: os => Allowed low clean M o ∧
      AllAllowed low clean (specStep low (fun v => clean (CssText.normalizeText v)) M o) os

/-! ### The element -/

/-- One operation on the element. -/
def step (low : Str → Str) (clean : Str → Option Str) (e : El) : Op → El
  | .read => sync clean e
  | .remove n => (removeProperty low clean e n).2
  | .write d => writeStyle e (some (dictToStyle d))
  | .set n v prio => setProperty low clean e n v prio

/-- A history. -/
def run (low : Str → Str) (clean : Str → Option Str) (e : El) : List Op → El
  | [] => e
  | o :: os => run low clean (step low clean e o) os

/-- An element without style. -/
def fresh : El := ⟨[], none⟩

/-- The attribute spells out the properties of `M`. -/
def Spells (t : Str) (M : Spec) : Prop :=
  ∃ d : Dict Str Str, (Dict.keys d).Nodup ∧ (∀ k, Dict.get? d k = (M k).map (·.1)) ∧ t = dictToStyle d

private theorem canon_eq (low : Str → Str) (n : Str) : canon low n = key low n := by
  unfold canon key isCustom
  split <;> simp

private theorem key_key {low : Str → Str} (hl : LowerLike low) (n : Str) : key low (key low n) = key low n := by
  rw [← canon_eq, ← canon_eq]
  unfold canon
  cases h : isCustom n with
  | true => simp [h]
  | false => simp [h, hl.custom, hl.idem]

/-! ### Bringing the block up to date -/

private theorem get?_nil (k : Str) : Dict.get? ([] : Dict Str Str) k = none := rfl

private theorem known_spec (d : Decls) (m : Dict Str Str) (hd : (Dict.keys d).Nodup) (hm : (Dict.keys m).Nodup) :
    (Dict.keys (known d m)).Nodup ∧ (∀ q ∈ known d m, q ∈ m) ∧ ∀ k, Dict.get? (known d m) k =
      if (Dict.get? d k).map (·.1) = Dict.get? m k then none else Dict.get? m k := by
  induction d generalizing m with
  | nil =>
    refine ⟨hm, fun q h => h, fun k => ?_⟩
    simp only [known, Dict.get?, Option.map_none]
    cases Dict.get? m k <;> simp
  | cons x d ih =>
    obtain ⟨n, v, p⟩ := x
    simp only [Dict.keys, List.map_cons, List.nodup_cons] at hd
    simp only [known]
    have hn : Dict.get? d n = none := (Dict.get?_eq_none_iff d n).2 hd.1
    by_cases h : Dict.get? m n = some v
    · rw [if_pos h]
      obtain ⟨h1, h2, h3⟩ := ih (Dict.del m n) hd.2 (Dict.nodup_del m n hm)
      refine ⟨h1, fun q hq => ?_, fun k => ?_⟩
      · have := h2 q hq
        rw [Dict.del_eq_filter _ _ hm] at this
        exact (List.mem_filter.1 this).1
      · rw [h3 k, Dict.get?_del _ _ _ hm]
        simp only [Dict.get?]
        by_cases hk : n = k
        · subst hk
          simp [h]
        · simp [hk, Ne.symm hk]
    · rw [if_neg h]
      obtain ⟨h1, h2, h3⟩ := ih m hd.2 hm
      refine ⟨h1, h2, fun k => ?_⟩
      rw [h3 k]
      simp only [Dict.get?]
      by_cases hk : n = k
      · subst hk
        simp only [hn, if_pos, Option.map_none, Option.map_some]
        cases hg : Dict.get? m n with
        | none => simp
        | some w =>
          rw [hg] at h
          simp only [reduceCtorEq, if_false]
          rw [if_neg (fun hh => h hh.symm)]
      · simp [hk]

private theorem renew_spec (clean : Str → Option Str) (d : Decls) (n v : Str) (hd : (Dict.keys d).Nodup)
    (hv : clean v = some v) :
    (Dict.keys (renew clean d n v)).Nodup ∧ ∀ k, Dict.get? (renew clean d n v) k =
      if k = n then some (v, ((Dict.get? d n).map (·.2)).getD []) else Dict.get? d k := by
  unfold renew
  cases hg : Dict.get? d n with
  | none =>
    simp only [setInternal, hv]
    refine ⟨Dict.nodup_setEnd _ _ _ hd, fun k => ?_⟩
    rw [Dict.get?_setEnd _ _ _ _ hd]
    by_cases hk : k = n
    · subst hk
      simp
    · simp [hk, Ne.symm hk]
  | some x =>
    obtain ⟨w, p⟩ := x
    simp only []
    by_cases hw : v = w
    · rw [if_neg (by simpa using hw)]
      refine ⟨hd, fun k => ?_⟩
      by_cases hk : k = n
      · subst hk
        simp [hg, hw]
      · simp [hk]
    · rw [if_pos hw]
      simp only [setInternal, hv]
      refine ⟨Dict.nodup_setEnd _ _ _ hd, fun k => ?_⟩
      rw [Dict.get?_setEnd _ _ _ _ hd]
      by_cases hk : k = n
      · subst hk
        simp
      · simp [hk, Ne.symm hk]

private theorem renewAll_spec (clean : Str → Option Str) (d : Decls) (m : Dict Str Str)
    (hd : (Dict.keys d).Nodup) (hm : (Dict.keys m).Nodup) (hv : ∀ q ∈ m, clean q.2 = some q.2) :
    (Dict.keys (renewAll clean d m)).Nodup ∧ ∀ k, Dict.get? (renewAll clean d m) k =
      match Dict.get? m k with
      | some v => some (v, ((Dict.get? d k).map (·.2)).getD [])
      | none => Dict.get? d k := by
  induction m generalizing d with
  | nil => exact ⟨hd, fun k => rfl⟩
  | cons x m ih =>
    obtain ⟨n, v⟩ := x
    simp only [Dict.keys, List.map_cons, List.nodup_cons] at hm
    have hn : Dict.get? m n = none := (Dict.get?_eq_none_iff m n).2 hm.1
    obtain ⟨r1, r2⟩ := renew_spec clean d n v hd (hv (n, v) (by simp))
    obtain ⟨h1, h2⟩ := ih (renew clean d n v) r1 hm.2 (fun q hq => hv q (by simp [hq]))
    refine ⟨h1, fun k => ?_⟩
    simp only [renewAll]
    rw [h2 k, r2 k]
    simp only [Dict.get?]
    by_cases hk : k = n
    · subst hk
      simp [hn]
    · simp [hk, Ne.symm hk]

private theorem sync_spec (clean : Str → Option Str) (e : El) (hd : (Dict.keys e.decls).Nodup)
    (hm : (Dict.keys (attrMap e)).Nodup) (hv : ∀ q ∈ attrMap e, clean q.2 = some q.2) :
    (Dict.keys (sync clean e).decls).Nodup ∧ ∀ k, Dict.get? (sync clean e).decls k =
      match Dict.get? (attrMap e) k with
      | some v => some (v, ((Dict.get? e.decls k).map (·.2)).getD [])
      | none => Dict.get? e.decls k := by
  obtain ⟨k1, k2, k3⟩ := known_spec e.decls (attrMap e) hd hm
  obtain ⟨r1, r2⟩ := renewAll_spec clean e.decls _ hd k1 (fun q hq => hv q (k2 q hq))
  refine ⟨r1, fun k => ?_⟩
  simp only [sync]
  rw [r2 k, k3 k]
  by_cases h : (Dict.get? e.decls k).map (·.1) = Dict.get? (attrMap e) k
  · rw [if_pos h]
    rw [← h]
    cases Dict.get? e.decls k with
    | none => rfl
    | some x => rfl
  · rw [if_neg h]

/-! ### The correspondence -/

/-- The correspondence of an element and an abstract style. -/
structure Rel (clean : Str → Option Str) (e : El) (M : Spec) : Prop where
  nodup : (Dict.keys e.decls).Nodup
  attr : ∃ d : Dict Str Str, (Dict.keys d).Nodup ∧ (∀ q ∈ d, Plain q.1 ∧ Value clean q.2) ∧
    (∀ k, Dict.get? d k = (M k).map (·.1)) ∧ e.attr.getD [] = dictToStyle d
  sub : ∀ k, Dict.get? e.decls k ≠ none → M k ≠ none
  prio : ∀ k x, M k = some x → x.2 = ((Dict.get? e.decls k).map (·.2)).getD []
  valid : ∀ k x, M k = some x → x.2 = [] ∨ x.2 = "important".toList

private theorem attrMap_spec {clean e M} (h : Rel clean e M) :
    (Dict.keys (attrMap e)).Nodup ∧ (∀ q ∈ attrMap e, Plain q.1 ∧ Value clean q.2) ∧
      ∀ k, Dict.get? (attrMap e) k = (M k).map (·.1) := by
  obtain ⟨d, d1, d2, d3, d4⟩ := h.attr
  obtain ⟨p1, p2⟩ := styleToDict_dictToStyle d d1 (fun q hq => ⟨(d2 q hq).1, (d2 q hq).2.1⟩)
  unfold attrMap
  rw [d4]
  exact ⟨(p1.map Prod.fst).nodup_iff.2 d1, fun q hq => d2 q (p1.mem_iff.1 hq), fun k => (p2 k).trans (d3 k)⟩

private theorem sync_rel {clean e M} (h : Rel clean e M) :
    Rel clean (sync clean e) M ∧ ∀ k, Dict.get? (sync clean e).decls k = M k := by
  obtain ⟨a1, a2, a3⟩ := attrMap_spec h
  obtain ⟨s1, s2⟩ := sync_spec clean e h.nodup a1 (fun q hq => (a2 q hq).2.2.2)
  have key : ∀ k, Dict.get? (sync clean e).decls k = M k := by
    intro k
    rw [s2 k, a3 k]
    cases hM : M k with
    | none =>
      simp only [Option.map_none]
      by_contra hc
      exact h.sub k hc hM
    | some x => simp [← h.prio k x hM]
  refine ⟨⟨s1, h.attr, fun k => by rw [key k]; exact id, fun k x hx => by rw [key k, hx]; rfl, h.valid⟩, key⟩

/-- Writing a map to the attribute. -/
private theorem writeAttr_text (e : El) (m : Dict Str Str) :
    (writeAttr e m).attr.getD [] = dictToStyle m ∧ (writeAttr e m).decls = e.decls := by
  unfold writeAttr
  split
  · rename_i h
    subst h
    exact ⟨(by decide : ([] : Str) = dictToStyle []), rfl⟩
  · exact ⟨rfl, rfl⟩

private theorem get?_mem {β} (d : Dict Str β) (k : Str) (v : β) (h : Dict.get? d k = some v) : (k, v) ∈ d := by
  induction d with
  | nil => cases h
  | cons x d ih =>
    obtain ⟨a, b⟩ := x
    simp only [Dict.get?] at h
    split at h
    · rename_i hk
      cases h
      simp [hk]
    · exact List.mem_cons_of_mem _ (ih h)

private theorem mem_set (d : Dict Str Str) (n v : Str) (q : Str × Str) (hq : q ∈ Dict.set d n v) :
    q ∈ d ∨ q = (n, v) := by
  induction d with
  | nil => simpa [Dict.set] using hq
  | cons x d ih =>
    obtain ⟨a, b⟩ := x
    simp only [Dict.set] at hq
    split at hq
    · rename_i hk
      rcases List.mem_cons.1 hq with h | h
      · right
        rw [h, hk]
      · left
        simp [h]
    · rcases List.mem_cons.1 hq with h | h
      · left
        simp [h]
      · rcases ih h with h | h
        · left
          simp [h]
        · exact Or.inr h

private theorem remove_rel {clean e M} (low) (h : Rel clean e M) (n : Str) :
    Rel clean (removeProperty low clean e n).2 (put M (key low n) none) := by
  have h1 := (sync_rel h).1
  obtain ⟨h2, g2⟩ := sync_rel h1
  simp only [removeProperty, getValue, canon_eq]
  generalize key low n = m
  generalize sync clean (sync clean e) = e' at h2 g2
  by_cases hc : Dict.contains e'.decls m = true
  · rw [if_pos hc]
    have hM : M m ≠ none := by
      rw [← g2 m]
      intro hn
      simp [Dict.contains, hn] at hc
    obtain ⟨a1, a2, a3⟩ := attrMap_spec h2
    have hc2 : Dict.contains (attrMap e') m = true := by
      simp only [Dict.contains, a3 m]
      cases hx : M m with
      | none => exact absurd hx hM
      | some x => rfl
    have hup : updateRemove { e' with decls := Dict.del e'.decls m } m =
        writeAttr { e' with decls := Dict.del e'.decls m } (Dict.del (attrMap e') m) := if_pos hc2
    rw [hup]
    obtain ⟨w1, w2⟩ := writeAttr_text { e' with decls := Dict.del e'.decls m } (Dict.del (attrMap e') m)
    refine ⟨?_, ⟨Dict.del (attrMap e') m, Dict.nodup_del _ _ a1, ?_, ?_, w1⟩, ?_, ?_, ?_⟩
    · rw [w2]
      exact Dict.nodup_del _ _ h2.nodup
    · intro q hq
      rw [Dict.del_eq_filter _ _ a1] at hq
      exact a2 q (List.mem_filter.1 hq).1
    · intro k
      rw [Dict.get?_del _ _ _ a1, a3 k]
      by_cases hk : k = m
      · subst hk
        simp [put]
      · simp [put, hk, Ne.symm hk]
    · intro k
      rw [w2]
      simp only [Dict.get?_del _ _ _ h2.nodup, g2, put]
      by_cases hk : k = m
      · subst hk
        simp
      · simp [hk, Ne.symm hk]
    · intro k x hx
      rw [w2]
      simp only [Dict.get?_del _ _ _ h2.nodup, g2]
      simp only [put] at hx
      by_cases hk : k = m
      · simp [hk] at hx
      · rw [if_neg hk] at hx
        simp [hk, Ne.symm hk, hx]
    · intro k x hx
      simp only [put] at hx
      by_cases hk : k = m
      · simp [hk] at hx
      · rw [if_neg hk] at hx
        exact h2.valid k x hx
  · rw [if_neg hc]
    have hM : put M m none = M := by
      funext k
      unfold put
      split
      · rename_i hk
        rw [hk, ← g2 m]
        simpa [Dict.contains] using (Option.not_isSome_iff_eq_none.1 hc).symm
      · rfl
    rw [hM]
    exact h2

private theorem setWith_rel {clean e M} (h : Rel clean e M) (n v p : Str) (hn : Plain n)
    (hw : ∀ w, clean v = some w → Value clean w) :
    Rel clean (setWith clean e n v p) (if p = [] ∨ p = "important".toList then
        match clean v with
        | some w => put M n (some (w, p))
        | none => M
      else M) := by
  unfold setWith
  by_cases hp : p = [] ∨ p = "important".toList
  · rw [if_pos hp, if_neg (by rintro ⟨h1, h2⟩; exact hp.elim h1 h2)]
    obtain ⟨h2, g2⟩ := sync_rel h
    generalize sync clean e = e' at h2 g2
    simp only [setInternal]
    cases hc : clean v with
    | none => exact h2
    | some w =>
      have hwv := hw w hc
      simp only [updateSet]
      rw [if_neg hwv.2.1]
      obtain ⟨a1, a2, a3⟩ := attrMap_spec h2
      obtain ⟨w1, w2⟩ := writeAttr_text { e' with decls := Dict.setEnd e'.decls n (w, p) }
        (Dict.set (attrMap e') n w)
      have am : attrMap { e' with decls := Dict.setEnd e'.decls n (w, p) } = attrMap e' := rfl
      rw [am]
      refine ⟨?_, ⟨Dict.set (attrMap e') n w, Dict.nodup_set _ _ _ a1, ?_, ?_, w1⟩, ?_, ?_, ?_⟩
      · rw [w2]
        exact Dict.nodup_setEnd _ _ _ h2.nodup
      · intro q hq
        rcases mem_set _ _ _ _ hq with hq | hq
        · exact a2 q hq
        · rw [hq]
          exact ⟨hn, hwv⟩
      · intro k
        rw [Dict.get?_set, a3 k]
        by_cases hk : k = n
        · subst hk
          simp [put]
        · simp [put, hk, Ne.symm hk]
      · intro k
        rw [w2]
        simp only [Dict.get?_setEnd _ _ _ _ h2.nodup, g2, put]
        by_cases hk : k = n
        · subst hk
          simp
        · simp [hk, Ne.symm hk]
      · intro k x hx
        rw [w2]
        simp only [Dict.get?_setEnd _ _ _ _ h2.nodup, g2]
        simp only [put] at hx
        by_cases hk : k = n
        · simp only [hk, if_pos, Option.some.injEq] at hx
          simp [hk, ← hx]
        · rw [if_neg hk] at hx
          simp [hk, Ne.symm hk, hx]
      · intro k x hx
        simp only [put] at hx
        by_cases hk : k = n
        · simp only [hk, if_pos, Option.some.injEq] at hx
          rw [← hx]
          exact hp
        · rw [if_neg hk] at hx
          exact h2.valid k x hx
  · rw [if_neg hp, if_pos (by push Not at hp; exact hp)]
    exact h

private theorem step_rel {clean e M} (low) (hl : ∀ n, key low (key low n) = key low n) (h : Rel clean e M) (o : Op) (ha : Allowed low clean M o) :
    Rel clean (step low clean e o) (specStep low (fun v => clean (CssText.normalizeText v)) M o) := by
  cases o with
  | read => exact (sync_rel h).1
  | remove n => exact remove_rel low h n
  | write d =>
    obtain ⟨a1, a2, a3⟩ := ha
    refine ⟨h.nodup, ⟨d, a1, a2, ?_, rfl⟩, ?_, ?_, ?_⟩
    · intro k
      simp only [specStep]
      cases Dict.get? d k <;> rfl
    · intro k hk
      have := a3 k (h.sub k hk)
      simp only [specStep]
      intro hn
      rw [Option.map_eq_none_iff] at hn
      exact (Dict.get?_eq_none_iff d k).1 hn this
    · intro k x hx
      simp only [specStep] at hx
      obtain ⟨v, hv, hx⟩ := Option.map_eq_some_iff.1 hx
      rw [← hx]
      simp only [step, writeStyle, prioOf]
      cases hM : M k with
      | none =>
        have : Dict.get? e.decls k = none := by
          by_contra hc
          exact h.sub k hc hM
        simp [this]
      | some y => simp [h.prio k y hM]
    · intro k x hx
      simp only [specStep] at hx
      obtain ⟨v, hv, hx⟩ := Option.map_eq_some_iff.1 hx
      rw [← hx]
      simp only [prioOf]
      cases hM : M k with
      | none => simp
      | some y => simpa using h.valid k y hM
  | set n v prio =>
    simp only [step, specStep, setProperty]
    by_cases hv : CssText.normalizeText v = []
    · rw [if_pos hv, if_pos hv]
      exact remove_rel low h n
    · rw [if_neg hv, if_neg hv]
      cases prio with
      | some p =>
        simp only [canon_eq]
        exact setWith_rel h (key low n) _ (low p) ha.1 ha.2
      | none =>
        simp only [canon_eq, getPriority]
        obtain ⟨h1, g1⟩ := sync_rel h
        rw [hl, g1]
        exact setWith_rel h1 (key low n) _ _ ha.1 ha.2

private theorem run_rel {clean e M} (low) (hl : ∀ n, key low (key low n) = key low n) (h : Rel clean e M)
    (os : List Op) (ha : AllAllowed low clean M os) :
    Rel clean (run low clean e os) (specRun low (fun v => clean (CssText.normalizeText v)) M os) := by
  induction os generalizing e M with
  | nil => exact h
  | cons o os ih => exact ih (step_rel low hl h o ha.1) ha.2

private theorem fresh_rel (clean : Str → Option Str) : Rel clean fresh (fun _ => none) :=
  ⟨List.nodup_nil, ⟨[], List.nodup_nil, by simp, fun k => rfl, by decide⟩, by simp [fresh, Dict.get?],
    by simp, by simp⟩

/-! ### The theorems -/

/-- After any history of `set_property`, `remove_property`, readings and writings of the attribute
that an attribute can hold, reading a property through `element.style` gives the value and the
priority that the history says, and the text of the `style` attribute spells out exactly the declared
properties with their values. -/
theorem inline_style_history_partial (low : Str → Str) (hll : LowerLike low)
    (clean : Str → Option Str) (os : List Op) (ha : AllAllowed low clean (fun _ => none) os) (n : Str) :
    let e := run low clean fresh os
    let M := specRun low (fun v => clean (CssText.normalizeText v)) (fun _ => none) os
    (getValue low clean e n).1 = ((M (key low n)).map (·.1)).getD [] ∧
      (getPriority low clean e n).1 = prioOf M (key low n) ∧
      (contains low clean e n = true ↔ M (key low n) ≠ none) ∧
      Spells (e.attr.getD []) M := by
  intro e M
  have hl := key_key hll
  have h : Rel clean e M := run_rel low hl (fresh_rel clean) os ha
  obtain ⟨h1, g⟩ := sync_rel h
  obtain ⟨d, d1, d2, d3, d4⟩ := h.attr
  refine ⟨?_, ?_, ?_, ⟨d, d1, d3, d4⟩⟩
  · simp only [getValue, canon_eq, g]
  · simp only [getPriority, canon_eq, g, prioOf]
  · simp only [contains, canon_eq, Dict.contains, g]
    exact Option.isSome_iff_ne_none

/-- `remove_property` returns the value that was there. -/
theorem remove_returns_partial (low : Str → Str) (hll : LowerLike low)
    (clean : Str → Option Str) (os : List Op) (ha : AllAllowed low clean (fun _ => none) os) (n : Str) :
    (removeProperty low clean (run low clean fresh os) n).1 =
      (((specRun low (fun v => clean (CssText.normalizeText v)) (fun _ => none) os) (key low n)).map (·.1)).getD [] := by
  have hl := key_key hll
  have h := run_rel low hl (fresh_rel clean) os ha
  obtain ⟨h1, g⟩ := sync_rel h
  simp only [removeProperty, getValue, canon_eq, g, hl]

/-- When the last property is removed there is no `style` attribute any more. -/
theorem remove_last_partial (low : Str → Str) (hll : LowerLike low)
    (clean : Str → Option Str) (os : List Op) (ha : AllAllowed low clean (fun _ => none) os) (n : Str)
    (hn : specRun low (fun v => clean (CssText.normalizeText v)) (fun _ => none) os (key low n) ≠ none)
    (ho : ∀ k, k ≠ key low n → specRun low (fun v => clean (CssText.normalizeText v)) (fun _ => none) os k = none) :
    (removeProperty low clean (run low clean fresh os) n).2.attr = none := by
  have hl := key_key hll
  have h := run_rel low hl (fresh_rel clean) os ha
  have h1 := (sync_rel h).1
  obtain ⟨h2, g2⟩ := sync_rel h1
  simp only [removeProperty, getValue, canon_eq]
  generalize key low n = m at hn ho
  generalize sync clean (sync clean _) = e' at h2 g2
  obtain ⟨a1, a2, a3⟩ := attrMap_spec h2
  have c1 : Dict.contains e'.decls m = true := by
    simp only [Dict.contains, g2]
    exact Option.isSome_iff_ne_none.2 hn
  have c2 : Dict.contains (attrMap e') m = true := by
    simp only [Dict.contains, a3, Option.isSome_map]
    exact Option.isSome_iff_ne_none.2 hn
  have hdel : Dict.del (attrMap e') m = [] := by
    rw [Dict.del_eq_filter _ _ a1, List.filter_eq_nil_iff]
    intro q hq
    have hk := (Dict.mem_iff_get? _ a1 q.1 q.2).1 hq
    rw [a3] at hk
    by_cases hm : q.1 = m
    · simp [hm]
    · rw [ho _ hm] at hk
      cases hk
  have hup : updateRemove { e' with decls := Dict.del e'.decls m } m =
      writeAttr { e' with decls := Dict.del e'.decls m } (Dict.del (attrMap e') m) := if_pos c2
  rw [if_pos c1, hup, hdel]
  rfl

/-- The hypotheses can be met: one property set, then removed. -/
example : (∀ k, k ≠ "fill".toList → specStep (List.map Char.toLower) some (fun _ => none)
    (.set "fill".toList "red".toList none) k = none) ∧
    specStep (List.map Char.toLower) some (fun _ => none) (.set "fill".toList "red".toList none) "fill".toList =
      some ("red".toList, []) := by
  refine ⟨fun k hk => ?_, by decide⟩
  exact if_neg hk

/-! ### A concrete history -/

/-- Lower-casing for the examples: the letters of ASCII. -/
def lowEx (s : Str) : Str := s.map Char.toLower

/-- Storing for the examples: values are kept. -/
def cleanEx (s : Str) : Option Str := if strip s = [] then none else some (strip s)

/-- The history of the example: `fill` is set, an attribute with a further property is written, the
property is read, a custom property is set as important, `fill` is removed. -/
def osEx : List Op :=
  [.set "Fill".toList "red".toList none,
   .write [("fill".toList, "blue".toList), ("stroke".toList, "none".toList)],
   .read, .set "--X".toList "1".toList (some "important".toList), .remove "fill".toList]

/-- The history meets the hypotheses. -/
example : AllAllowed lowEx cleanEx (fun _ => none) osEx := by
  have pl : ∀ s : Str, ':' ∉ s → ';' ∉ s → strip s = s → Plain s := fun s a b c => ⟨a, b, c⟩
  refine ⟨⟨?_, ?_⟩, ⟨?_, ?_, ?_⟩, trivial, ⟨?_, ?_⟩, trivial, trivial⟩
  · exact ⟨by decide, by decide, by decide⟩
  · intro w hw
    have : w = "red".toList := by
      have h : cleanEx (CssText.normalizeText "red".toList) = some "red".toList := by decide
      exact (Option.some.inj (h.symm.trans hw)).symm
    subst this
    exact ⟨⟨by decide, by decide, by decide⟩, by decide, by decide⟩
  · decide
  · intro q hq
    rcases List.mem_cons.1 hq with rfl | hq
    · exact ⟨⟨by decide, by decide, by decide⟩, ⟨by decide, by decide, by decide⟩, by decide, by decide⟩
    · rcases List.mem_cons.1 hq with rfl | hq
      · exact ⟨⟨by decide, by decide, by decide⟩, ⟨by decide, by decide, by decide⟩, by decide, by decide⟩
      · cases hq
  · intro k hk
    by_cases h : k = "fill".toList
    · rw [h]
      decide
    · exfalso
      apply hk
      have h1 : key lowEx "Fill".toList = "fill".toList := by decide
      have h2 : specStep lowEx (fun v => cleanEx (CssText.normalizeText v)) (fun _ => none)
          (.set "Fill".toList "red".toList none) = put (fun _ => none) (key lowEx "Fill".toList)
            (some ("red".toList, [])) := rfl
      rw [h2, h1]
      exact if_neg h
  · exact ⟨by decide, by decide, by decide⟩
  · intro w hw
    have : w = "1".toList := by
      have h : cleanEx (CssText.normalizeText "1".toList) = some "1".toList := by decide
      exact (Option.some.inj (h.symm.trans hw)).symm
    subst this
    exact ⟨⟨by decide, by decide, by decide⟩, by decide, by decide⟩

/-- Lower-casing of the example meets them too. -/
example : LowerLike lowEx := lowerLike_ascii

/-- What the history says and the attribute it leaves. -/
example : specRun lowEx (fun v => cleanEx (CssText.normalizeText v)) (fun _ => none) osEx "stroke".toList =
    some ("none".toList, []) ∧
    specRun lowEx (fun v => cleanEx (CssText.normalizeText v)) (fun _ => none) osEx "fill".toList = none ∧
    (run lowEx cleanEx fresh osEx).attr = some "--X: 1; stroke: none;".toList := by decide +kernel

/-! ### Findings -/

/-- The removal of the `style` attribute does not reach the style: whatever was set is still read. -/
theorem removed_attribute_still_read (low : Str → Str) (h0 : low [] = []) (clean : Str → Option Str)
    (n v w : Str) (hv : CssText.normalizeText v ≠ []) (hc : clean (CssText.normalizeText v) = some w) :
    (getValue low clean (writeStyle (setProperty low clean fresh n v (some [])) none) n).1 = w := by
  have hs : ∀ (e : El), e.attr = none → sync clean e = e := by
    intro e he
    have : attrMap e = [] := by simp [attrMap, he, styleToDict, strip, lstrip, rstrip]
    have hk : ∀ d : Decls, known d [] = [] := by
      intro d
      induction d with
      | nil => rfl
      | cons x d ih =>
        obtain ⟨a, b, c⟩ := x
        simpa [known, Dict.get?] using ih
    simp [sync, this, hk, renewAll]
  have h1 : setProperty low clean fresh n v (some []) = setWith clean fresh (canon low n) (CssText.normalizeText v) (low []) := by
    simp only [setProperty]
    rw [if_neg hv]
  have h2 : (writeStyle (setProperty low clean fresh n v (some [])) none).decls =
      if low [] = [] ∨ low [] = "important".toList then [(canon low n, (w, low []))] else [] := by
    rw [h1]
    unfold setWith
    by_cases hp : low [] = [] ∨ low [] = "important".toList
    · rw [if_pos hp, if_neg (by rintro ⟨h1, h2⟩; exact hp.elim h1 h2), hs fresh rfl]
      simp only [setInternal, hc, updateSet, writeStyle, fresh, Dict.setEnd, Dict.del, List.nil_append]
      split
      · rfl
      · exact (writeAttr_text _ _).2
    · rw [if_neg hp, if_pos (by push Not at hp; exact hp)]
      rfl
  simp only [getValue]
  rw [hs _ rfl, h2, if_pos (Or.inl h0)]
  simp [Dict.get?]

/-- The same with an example: the attribute is gone, the property is not. -/
theorem inline_style_violated_stale :
    ∃ e : El, e = writeStyle (setProperty lowEx cleanEx fresh "fill".toList "red".toList none) none ∧
      e.attr = none ∧ (getValue lowEx cleanEx e "fill".toList).1 = "red".toList :=
  ⟨_, rfl, rfl, by decide +kernel⟩

/-- The priority never reaches the attribute: it is the same text for either priority. -/
theorem priority_not_written (low : Str → Str) (clean : Str → Option Str) (e : El) (n v p q : Str)
    (hp : low p = [] ∨ low p = "important".toList) (hq : low q = [] ∨ low q = "important".toList) :
    (setProperty low clean e n v (some p)).attr = (setProperty low clean e n v (some q)).attr := by
  have key : ∀ p m u, (p = [] ∨ p = "important".toList) → (setWith clean e m u p).attr =
      match clean u with
      | none => e.attr
      | some w => (updateSet e m w).attr := by
    intro p m u hp
    unfold setWith
    rw [if_neg (by rintro ⟨h1, h2⟩; exact hp.elim h1 h2)]
    simp only [setInternal]
    cases clean u with
    | none => rfl
    | some w =>
      simp only [updateSet, writeAttr]
      split
      · rfl
      · have : attrMap { sync clean e with decls := Dict.setEnd (sync clean e).decls m (w, p) } = attrMap e := rfl
        simp only [this]
        split <;> rfl
  simp only [setProperty]
  split
  · rfl
  · simp only [key _ _ _ hp, key _ _ _ hq]

/-- And a priority in the attribute is read as part of the value. -/
theorem inline_style_violated_priority :
    let e := writeStyle fresh (some "fill: red !important".toList)
    (getValue lowEx cleanEx e "fill".toList).1 = "red !important".toList ∧
      (getPriority lowEx cleanEx e "fill".toList).1 = [] := by decide +kernel

/-- A value with a colon, such as a URL, goes from the attribute when another property is set, and
cannot be read from an attribute. -/
theorem inline_style_violated_colon :
    let e := setProperty lowEx cleanEx fresh "fill".toList "url(http://a/#b)".toList none
    e.attr = some "fill: url(http://a/#b);".toList ∧
      (setProperty lowEx cleanEx e "stroke".toList "red".toList none).attr = some "stroke: red;".toList ∧
      (getValue lowEx cleanEx (writeStyle fresh e.attr) "fill".toList).1 = [] := by decide +kernel

/-- A name in capitals in the attribute cannot be read by any spelling, though it is listed. -/
theorem inline_style_violated_capitals :
    let e := writeStyle fresh (some "FILL: red".toList)
    (getValue lowEx cleanEx e "fill".toList).1 = [] ∧ (getValue lowEx cleanEx e "FILL".toList).1 = [] ∧
      Dict.keys (sync cleanEx e).decls = ["FILL".toList] := by decide +kernel

end SvgPy.InlineStyle
