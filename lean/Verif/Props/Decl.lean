import Verif.Model.Decl
import Verif.Lemmas.PyDict
import Batteries.Data.Char.AsciiCasing

/-! Property C31: a declaration block behaves as an ordered map. -/

set_option linter.unusedSimpArgs false

namespace SvgPy.Decl

/-! ### Specification: an ordered map as a list of entries -/

/-- An entry of the abstract block. -/
structure Entry where
  name : Str
  value : Str
  priority : Str
deriving DecidableEq

/-- Setting puts the entry at the end and forgets an older one of that name. -/
def specSet (es : List Entry) (e : Entry) : List Entry := es.filter (fun x => x.name ≠ e.name) ++ [e]

/-- Removing forgets the entry of that name. -/
def specRemove (es : List Entry) (n : Str) : List Entry := es.filter (fun x => x.name ≠ n)

/-- The entry of that name. -/
def specFind (es : List Entry) (n : Str) : Option Entry := es.find? (fun x => x.name = n)

/-- Operations on a block. -/
inductive Op
  | set (n v : Str) (prio : Option Str)
  | remove (n : Str)
  | readonly (b : Bool)

/-- What a caller can see of an operation: an exception or the returned text. -/
abbrev Out := Option Str

/-- The abstract block: entries and the read-only flag. -/
abbrev Spec := List Entry × Bool

/-- The priority asked for: the given one, or the present one, or none. -/
def wanted (low : Str → Str) (present : Option Str) (given : Option Str) : Str :=
  if given.isSome then low (given.getD []) else present.getD []

/-- What is used of `str.lower`: lowering twice is lowering once, and a name is
custom when its lower-case form is. -/
structure LowerLike (low : Str → Str) : Prop where
  idem : ∀ s, low (low s) = low s
  custom : ∀ s, isCustom (low s) = isCustom s

/-- One operation on the abstract block.  `key` identifies names (case-insensitive
except for custom properties), `tidy` is the value as it will be stored (`none`:
nothing left), `empty` recognises blank values; a shorthand stands for its
longhands. -/
def specStep (key : Str → Str) (low : Str → Str) (SH : Shorthands) (empty : Str → Prop)
    [DecidablePred empty] (tidy : Str → Option Str) (prioOf : List Entry → Str → Option Str)
    (s : Spec) : Op → Spec
  | .readonly b => (s.1, b)
  | .remove n => if s.2 then s else
      (((if SH.is (key n) then SH.longhands (key n) else [key n]).foldl specRemove s.1), s.2)
  | .set n v prio =>
    if s.2 then s
    else if empty v then
      (((if SH.is (key n) then SH.longhands (key n) else [key n]).foldl specRemove s.1), s.2)
    else
      -- without a priority the present one is kept
      let p := wanted low (prioOf s.1 (key n)) prio
      if p = [] ∨ p = "important".toList then
        match tidy v with
        | none => s
        | some v' =>
          (((if SH.is (key n) then SH.expand (key n) v' else [(key n, v')]).map
            (fun x => Entry.mk x.1 x.2 p)).foldl specSet s.1, s.2)
      else s

/-- The priority a property has now. -/
def specPrio (SH : Shorthands) (es : List Entry) (n : Str) : Option Str :=
  if SH.is n then some (SH.priority (es.map (fun e => (e.name, e.value, e.priority))) n)
  else (specFind es n).map Entry.priority

/-- The exceptions of an operation: only modifications of a read-only block fail. -/
def specFails (s : Spec) : Op → Bool
  | .readonly _ => false
  | .remove _ => s.2
  | .set _ _ _ => s.2

/-! ### The concrete block -/

/-- One operation on the model's block: `none` when it raised, and the new block. -/
def step (low : Str → Str) (SH : Shorthands) (clean : Str → Option Str) (b : Block) : Op → Option PyErr × Block
  | .readonly r => (none, { b with readonly := r })
  | .remove n =>
    match removeProperty low SH b n with
    | .error e => (some e, b)
    | .ok (_, b') => (none, b')
  | .set n v p =>
    match setProperty low SH clean b n v p with
    | .error e => (some e, b)
    | .ok b' => (none, b')

/-- A history of operations. -/
def run (low : Str → Str) (SH : Shorthands) (clean : Str → Option Str) (b : Block) : List Op → Block
  | [] => b
  | o :: os => run low SH clean (step low SH clean b o).2 os

/-- The same on the abstract block. -/
def specRun (key low : Str → Str) (SH : Shorthands) (empty : Str → Prop) [DecidablePred empty]
    (tidy : Str → Option Str) (s : Spec) : List Op → Spec
  | [] => s
  | o :: os => specRun key low SH empty tidy (specStep key low SH empty tidy (specPrio SH) s o) os

/-- Blank values, in terms of the normalisation of CSS text (property C22). -/
def Blank (v : Str) : Prop := CssText.normalizeText v = []

instance : DecidablePred Blank := fun v => inferInstanceAs (Decidable (CssText.normalizeText v = []))

/-- The correspondence. -/
def Rel (b : Block) (s : Spec) : Prop :=
  b.decls = s.1.map (fun e => (e.name, e.value, e.priority)) ∧ b.readonly = s.2 ∧
    (s.1.map Entry.name).Nodup

private def enc (e : Entry) : Str × Str × Str := (e.name, e.value, e.priority)

private theorem keys_enc (es : List Entry) : Dict.keys (es.map enc) = es.map Entry.name := by
  simp [Dict.keys, enc]

private theorem get_enc (es : List Entry) (n : Str) :
    Dict.get? (es.map enc) n = (specFind es n).map (fun e => (e.value, e.priority)) := by
  induction es with
  | nil => rfl
  | cons e es ih =>
    simp only [List.map_cons, enc, Dict.get?]
    by_cases h : e.name = n
    · simp [specFind, h]
    · have : specFind (e :: es) n = specFind es n := by simp [specFind, h]
      rw [this, ← ih]
      simp [h, enc]

private theorem del_enc (es : List Entry) (n : Str) (h : (es.map Entry.name).Nodup) :
    Dict.del (es.map enc) n = (specRemove es n).map enc := by
  rw [Dict.del_eq_filter _ _ (by rw [keys_enc]; exact h), specRemove, List.filter_map]
  rfl

private theorem nodup_remove (es : List Entry) (n : Str) (h : (es.map Entry.name).Nodup) :
    ((specRemove es n).map Entry.name).Nodup := by
  unfold specRemove
  exact h.sublist (List.Sublist.map _ List.filter_sublist)

private theorem nodup_specSet (es : List Entry) (e : Entry) (h : (es.map Entry.name).Nodup) :
    ((specSet es e).map Entry.name).Nodup := by
  unfold specSet
  rw [List.map_append, List.nodup_append]
  refine ⟨nodup_remove es e.name h, by simp, ?_⟩
  intro a ha b hb
  simp only [List.map_cons, List.map_nil, List.mem_cons, List.not_mem_nil, or_false] at hb
  simp only [List.mem_map, List.mem_filter, decide_eq_true_eq] at ha
  obtain ⟨x, ⟨_, hx⟩, rfl⟩ := ha
  rw [hb]; exact hx

private theorem canon_canon {low : Str → Str} (hl : LowerLike low) (n : Str) :
    canon low (canon low n) = canon low n := by
  unfold canon
  by_cases h : isCustom n = true
  · simp [h]
  · simp [h, hl.custom, hl.idem]

private theorem specRemove_absent (es : List Entry) (n : Str) (h : n ∉ es.map Entry.name) :
    specRemove es n = es := by
  unfold specRemove
  rw [List.filter_eq_self]
  intro e he
  simp only [ne_eq, decide_not, Bool.not_eq_true', decide_eq_false_iff_not]
  intro hh
  exact h (hh ▸ List.mem_map_of_mem he)

private theorem del_or (es : List Entry) (n : Str) (h : (es.map Entry.name).Nodup) :
    (if Dict.contains (es.map enc) n then Dict.del (es.map enc) n else es.map enc) =
      (specRemove es n).map enc := by
  by_cases hc : Dict.contains (es.map enc) n = true
  · rw [if_pos hc, del_enc _ _ h]
  · rw [if_neg hc, specRemove_absent]
    rw [← keys_enc, ← Dict.contains_iff]; exact hc

private theorem removeAll_enc (ns : List Str) : ∀ (es : List Entry), (es.map Entry.name).Nodup →
    removeAll (es.map enc) ns = (ns.foldl specRemove es).map enc ∧
      ((ns.foldl specRemove es).map Entry.name).Nodup := by
  induction ns with
  | nil => intro es h; exact ⟨rfl, h⟩
  | cons n ns ih =>
    intro es h
    rw [removeAll, del_or _ _ h, List.foldl_cons]
    exact ih _ (nodup_remove _ _ h)

private theorem setEnd_enc (es : List Entry) (e : Entry) (h : (es.map Entry.name).Nodup) :
    Dict.setEnd (es.map enc) e.name (e.value, e.priority) = (specSet es e).map enc := by
  simp only [Dict.setEnd, del_enc _ _ h, specSet, List.map_append]
  rfl

private theorem setAll_enc (p : Str) (m : List (Str × Str)) : ∀ (es : List Entry),
    (es.map Entry.name).Nodup →
    setAll (es.map enc) p m = ((m.map (fun x => Entry.mk x.1 x.2 p)).foldl specSet es).map enc ∧
      (((m.map (fun x => Entry.mk x.1 x.2 p)).foldl specSet es).map Entry.name).Nodup := by
  induction m with
  | nil => intro es h; exact ⟨rfl, h⟩
  | cons x m ih =>
    obtain ⟨n, v⟩ := x
    intro es h
    rw [setAll, setEnd_enc es ⟨n, v, p⟩ h, List.map_cons, List.foldl_cons]
    exact ih _ (nodup_specSet _ _ h)

private theorem removeProperty_rel (low : Str → Str) (SH : Shorthands) (b : Block) (s : Spec)
    (h : Rel b s) (n : Str) (hr : s.2 = false) :
    ∃ v b', removeProperty low SH b n = .ok (v, b') ∧
      Rel b' ((if SH.is (canon low n) then SH.longhands (canon low n) else [canon low n]).foldl
        specRemove s.1, s.2) := by
  obtain ⟨h1, h2, h3⟩ := h
  have h1' : b.decls = s.1.map enc := h1
  unfold removeProperty
  rw [h2, hr]
  simp only [Bool.false_eq_true, if_false]
  by_cases hn : SH.is (canon low n) = true
  · simp only [hn, if_true]
    have := removeAll_enc (SH.longhands (canon low n)) s.1 h3
    refine ⟨_, _, rfl, ?_, by simp [h2, hr], this.2⟩
    rw [h1']; exact this.1
  · simp only [hn, Bool.false_eq_true, if_false, List.foldl_cons, List.foldl_nil]
    have hd := del_or s.1 (canon low n) h3
    rw [← h1'] at hd
    by_cases hc : Dict.contains b.decls (canon low n) = true
    · rw [if_pos hc] at hd
      simp only [hc, if_true]
      exact ⟨_, _, rfl, hd, by simp [h2, hr], nodup_remove _ _ h3⟩
    · rw [if_neg hc] at hd
      simp only [hc, Bool.false_eq_true, if_false]
      exact ⟨_, _, rfl, hd, by simp [h2, hr], nodup_remove _ _ h3⟩

private theorem getPriority_rel (low : Str → Str) (SH : Shorthands) (hs : ∀ n, isCustom n = true → SH.is n = false)
    (b : Block) (s : Spec) (h : Rel b s) (n : Str) :
    getPriority low SH b n = (specPrio SH s.1 (canon low n)).getD [] ∧
    getValue low SH b n = if SH.is (canon low n) then
        SH.value (s.1.map (fun e => (e.name, e.value, e.priority))) (canon low n)
      else ((specFind s.1 (canon low n)).map Entry.value).getD [] := by
  have h1' : b.decls = s.1.map enc := h.1
  have h1 := h.1
  by_cases hc : isCustom n = true
  · have hsn := hs n hc
    simp only [getPriority, getValue, canon, hc, specPrio, hsn, Bool.true_eq_false, false_and, if_false,
      if_true, Bool.false_eq_true, h1', get_enc]
    cases specFind s.1 n <;> simp
  · have hcf : isCustom n = false := by simpa using hc
    by_cases hsn : SH.is (low n) = true
    · simp only [getPriority, getValue, canon, hcf, specPrio, hsn, and_self, if_true, Bool.false_eq_true,
        if_false, h1, Option.getD_some]
    · simp only [getPriority, getValue, canon, hcf, specPrio, hsn, and_false, if_false, Bool.false_eq_true,
        h1', get_enc]
      cases specFind s.1 (low n) <;> simp

private theorem step_rel (low : Str → Str) (hl : LowerLike low) (SH : Shorthands)
    (hsh : ∀ n, isCustom n = true → SH.is n = false) (clean : Str → Option Str) (b : Block)
    (s : Spec) (h : Rel b s) (o : Op) :
    Rel (step low SH clean b o).2
      (specStep (canon low) low SH Blank (fun v => clean (CssText.normalizeText v)) (specPrio SH) s o) ∧
    ((step low SH clean b o).1.isSome = specFails s o) := by
  cases o with
  | readonly r => exact ⟨⟨h.1, rfl, h.2.2⟩, rfl⟩
  | remove n =>
    cases hs : s.2 with
    | true =>
      have : removeProperty low SH b n = .error (.dom "NoModificationAllowedError") := by
        unfold removeProperty; rw [h.2.1, hs]; rfl
      simp only [step, this, specStep, hs, if_true, specFails]
      exact ⟨h, rfl⟩
    | false =>
      obtain ⟨v, b', e1, e2⟩ := removeProperty_rel low SH b s h n hs
      simp only [step, e1, specStep, hs, Bool.false_eq_true, if_false, specFails]
      rw [hs] at e2
      exact ⟨e2, rfl⟩
  | set n v prio =>
    cases hs : s.2 with
    | true =>
      have : setProperty low SH clean b n v prio = .error (.dom "NoModificationAllowedError") := by
        unfold setProperty; rw [h.2.1, hs]; rfl
      simp only [step, this, specStep, hs, if_true, specFails]
      exact ⟨h, rfl⟩
    | false =>
      have hb : b.readonly = false := by rw [h.2.1, hs]
      by_cases hv : CssText.normalizeText v = []
      · obtain ⟨w, b', e1, e2⟩ := removeProperty_rel low SH b s h n hs
        have : setProperty low SH clean b n v prio = .ok b' := by
          unfold setProperty; simp [hb, hv, e1]
        have hbl : Blank v := hv
        simp only [step, this, specStep, hs, Bool.false_eq_true, if_false, hbl, if_true, specFails]
        rw [hs] at e2
        exact ⟨e2, rfl⟩
      · have hbl : ¬ Blank v := hv
        have hset : setProperty low SH clean b n v prio =
            .ok (setInternal low SH clean b n (CssText.normalizeText v)
              (prioOr low (getPriority low SH b (canon low n)) prio)) := by
          unfold setProperty; simp [hb, hv]
        have hp := (getPriority_rel low SH hsh b s h (canon low n)).1
        rw [canon_canon hl] at hp
        simp only [step, hset, specStep, hs, Bool.false_eq_true, if_false, hbl, specFails]
        refine ⟨?_, rfl⟩
        have hpr : prioOr low (getPriority low SH b (canon low n)) prio =
            wanted low (specPrio SH s.1 (canon low n)) prio := by
          cases prio <;> simp [hp, prioOr, wanted]
        rw [hpr]
        generalize wanted low (specPrio SH s.1 (canon low n)) prio = p
        unfold setInternal
        by_cases hpp : p = [] ∨ p = "important".toList
        · have hpn : ¬ (p ≠ [] ∧ p ≠ "important".toList) := by tauto
          simp only [hpp, hpn, if_true, if_false]
          cases hc : clean (CssText.normalizeText v) with
          | none => exact h
          | some v' =>
            have h1' : b.decls = s.1.map enc := h.1
            by_cases hn : SH.is (canon low n) = true
            · simp only [hn, if_true]
              have := setAll_enc p (SH.expand (canon low n) v') s.1 h.2.2
              refine ⟨?_, hb, this.2⟩
              rw [h1']; exact this.1
            · simp only [hn, Bool.false_eq_true, if_false, List.map_cons, List.map_nil, List.foldl_cons,
                List.foldl_nil]
              refine ⟨?_, hb, nodup_specSet _ _ h.2.2⟩
              rw [h1']
              exact setEnd_enc s.1 ⟨canon low n, v', p⟩ h.2.2
        · have hpn : (p ≠ [] ∧ p ≠ "important".toList) := by tauto
          rw [if_neg hpp, if_pos hpn]
          exact h

/-- **C31**.  After any history of operations the block lists exactly the entries of
the abstract ordered map, in its order and each once, and it is read-only when that
is.  (`hsh`: custom properties are never shorthands, css/shorthands.py 101-102.) -/
theorem run_refines (low : Str → Str) (hl : LowerLike low) (SH : Shorthands)
    (hsh : ∀ n, isCustom n = true → SH.is n = false) (clean : Str → Option Str) (ops : List Op) :
    Rel (run low SH clean ⟨[], false⟩ ops)
      (specRun (canon low) low SH Blank (fun v => clean (CssText.normalizeText v)) ([], false) ops) := by
  have key : ∀ (ops : List Op) (b : Block) (s : Spec), Rel b s →
      Rel (run low SH clean b ops)
        (specRun (canon low) low SH Blank (fun v => clean (CssText.normalizeText v)) s ops) := by
    intro ops
    induction ops with
    | nil => intro b s h; exact h
    | cons o os ih =>
      intro b s h
      exact ih _ _ (step_rel low hl SH hsh clean b s h o).1
  exact key ops _ _ ⟨rfl, rfl, by simp⟩

/-- **C31** (reads).  The value, the priority and the presence of a property are
those of its entry (for a shorthand: computed from the entries). -/
theorem reads_refine (low : Str → Str) (SH : Shorthands) (hsh : ∀ n, isCustom n = true → SH.is n = false)
    (b : Block) (s : Spec) (h : Rel b s) (n : Str) :
    getValue low SH b n = (if SH.is (canon low n) then
        SH.value (s.1.map (fun e => (e.name, e.value, e.priority))) (canon low n)
      else ((specFind s.1 (canon low n)).map Entry.value).getD []) ∧
    getPriority low SH b n = (specPrio SH s.1 (canon low n)).getD [] ∧
    (contains low b n = true ↔ ∃ e ∈ s.1, e.name = canon low n) ∧
    keys b = s.1.map Entry.name ∧ (keys b).Nodup ∧ length b = s.1.length ∧
    ∀ i, item b i = (match s.1[i]? with
      | some e => .ok e.name
      | none => .error .indexError) := by
  obtain ⟨a1, a2⟩ := getPriority_rel low SH hsh b s h n
  have hk : keys b = s.1.map Entry.name := by
    have : b.decls = s.1.map enc := h.1
    rw [keys, this, keys_enc]
  refine ⟨a2, a1, ?_, hk, hk ▸ h.2.2, ?_, ?_⟩
  · have : b.decls = s.1.map enc := h.1
    rw [contains, Dict.contains_iff, this, keys_enc]
    simp
  · have : b.decls = s.1.map enc := h.1
    simp [length, this]
  · intro i
    rw [item, hk, List.getElem?_map]
    cases s.1[i]? <;> rfl

/-- **C31** (exceptions).  An operation raises exactly when it modifies a read-only
block. -/
theorem step_raises_iff (low : Str → Str) (hl : LowerLike low) (SH : Shorthands)
    (hsh : ∀ n, isCustom n = true → SH.is n = false) (clean : Str → Option Str) (b : Block)
    (s : Spec) (h : Rel b s) (o : Op) :
    (step low SH clean b o).1.isSome = specFails s o :=
  (step_rel low hl SH hsh clean b s h o).2

/-- **C31** (last value).  Setting a valid value and reading any spelling of the
name gives that value and priority; every other property keeps its own. -/
theorem get_after_set (low : Str → Str) (SH : Shorthands) (clean : Str → Option Str) (b : Block)
    (hd : (keys b).Nodup) (n m v v' p : Str) (hw : b.readonly = false)
    (hn : SH.is (canon low n) = false) (hm : SH.is (canon low m) = false)
    (hv : ¬ Blank v) (hc : clean (CssText.normalizeText v) = some v')
    (hp : low p = [] ∨ low p = "important".toList) :
    ∃ b', setProperty low SH clean b n v (some p) = .ok b' ∧
      getValue low SH b' m = (if canon low m = canon low n then v' else getValue low SH b m) ∧
      getPriority low SH b' m = (if canon low m = canon low n then low p else getPriority low SH b m) := by
  have hv' : ¬ CssText.normalizeText v = [] := hv
  have hpn : ¬ (low p ≠ [] ∧ low p ≠ "important".toList) := by tauto
  refine ⟨{ b with decls := Dict.setEnd b.decls (canon low n) (v', low p) }, ?_, ?_, ?_⟩
  · unfold setProperty setInternal
    simp only [hw, Bool.false_eq_true, if_false, hv', prioOr, hpn, hc, hn]
  all_goals
    have hcm : ¬ (isCustom m = false ∧ SH.is (low m) = true) := by
      rintro ⟨ha, hb⟩
      simp [canon, ha, hb] at hm
    simp only [getValue, getPriority, hcm, if_false, Dict.get?_setEnd _ _ _ _ hd, eq_comm (a := canon low m)]
    by_cases he : canon low n = canon low m <;> simp [he]

/-- **C31** (read-only).  A read-only block never changes and refuses modifications. -/
theorem readonly_unchanged (low : Str → Str) (SH : Shorthands) (clean : Str → Option Str) (b : Block)
    (hr : b.readonly = true) (o : Op) (ho : ∀ r, o ≠ .readonly r) :
    step low SH clean b o = (some (.dom "NoModificationAllowedError"), b) := by
  cases o with
  | readonly r => exact absurd rfl (ho r)
  | remove n => simp [step, removeProperty, hr]
  | set n v p => simp [step, setProperty, hr]

private theorem toLower_ne (c : Char) (h : c.toLower = '-') : c = '-' := by
  unfold Char.toLower at h
  split at h
  · rename_i hh
    exfalso
    have h2 := congrArg Char.val h
    simp only at h2
    obtain ⟨a, b⟩ := hh
    have h3 : c.val + ('a'.val - 'A'.val) = '-'.val := h2
    have e1 : ('a'.val - 'A'.val : UInt32) = 32 := by decide
    have e2 : ('-'.val : UInt32) = 45 := by decide
    rw [e1, e2] at h3
    have h4 := congrArg UInt32.toNat h3
    have a' : 65 ≤ c.val.toNat := by simpa using UInt32.le_iff_toNat_le.mp a
    have b' : c.val.toNat ≤ 90 := by simpa using UInt32.le_iff_toNat_le.mp b
    simp only [UInt32.toNat_add] at h4
    have e3 : (32 : UInt32).toNat = 32 := rfl
    have e4 : (45 : UInt32).toNat = 45 := rfl
    rw [e3, e4] at h4
    omega
  · exact h

/-- Lower-casing the letters A-Z is such a function. -/
theorem lowerLike_ascii : LowerLike (List.map Char.toLower) := by
  refine ⟨fun s => ?_, fun s => ?_⟩
  · simp [List.map_map, Function.comp_def, Char.toLower_toLower_eq_toLower]
  · match s with
    | [] => rfl
    | [a] => simp [isCustom]
    | a :: b :: s =>
      by_cases ha : a = '-'
      · by_cases hb : b = '-'
        · subst ha hb; rfl
        · have : b.toLower ≠ '-' := fun h => hb (toLower_ne b h)
          subst ha
          simp [isCustom, hb, this]
      · have : a.toLower ≠ '-' := fun h => ha (toLower_ne a h)
        simp [isCustom, ha, this]

/-- A block with one shorthand. -/
private def demoSH : Shorthands :=
  ⟨fun n => n = "overflow".toList, fun _ => ["overflow-x".toList, "overflow-y".toList], fun _ _ => [],
    fun _ _ => [], fun _ v => [("overflow-x".toList, v), ("overflow-y".toList, v)]⟩

/-- Non-trivial instance: the hypotheses hold of it. -/
example : ∀ n, isCustom n = true → demoSH.is n = false := by
  intro n hn
  simp only [demoSH, decide_eq_false_iff_not]
  rintro rfl
  revert hn; decide

example : (run (List.map Char.toLower) demoSH some ⟨[], false⟩
      [.set "Fill".toList " red ".toList (some []), .set "--X".toList "1".toList none,
       .set "Overflow".toList "auto".toList none,
       .set "FILL".toList "blue".toList (some "Important".toList), .set "fill".toList "x".toList (some "bad".toList),
       .remove "--x".toList, .remove "overflow-X".toList, .readonly true, .remove "fill".toList]).decls =
    [("--X".toList, "1".toList, []), ("overflow-y".toList, "auto".toList, []),
      ("fill".toList, "blue".toList, "important".toList)] := by
  decide

end SvgPy.Decl
