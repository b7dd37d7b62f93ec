import Verif.Model.TransformSeq
import Mathlib.Logic.Basic
import Mathlib.Tactic.Common

/-! Property C126: a transform list is a list of transform objects. -/

set_option linter.unusedSectionVars false
set_option linter.unusedSimpArgs false
set_option linter.unusedVariables false

namespace SvgPy.TransformSeq

/-! ### Specification -/

/-- The number `i`, from the front or, if negative, from the back, names the item `x` with `a` before and `b` after it. -/
def Names (i : Int) (l a : List Ref) (x : Ref) (b : List Ref) : Prop :=
  l = a ++ x :: b ∧ (i = a.length ∨ i = -(b.length + 1 : Int))

/-- The number names no item. -/
def OutOfRange (i : Int) (l : List Ref) : Prop := (l.length : Int) ≤ i ∨ i < -(l.length : Int)

/-- The number `i` names the gap between `a` and `b`; numbers that are too large or too small name the ends. -/
def Gap (i : Int) (l a b : List Ref) : Prop :=
  l = a ++ b ∧ ((0 ≤ i ∧ i = a.length) ∨ (i < 0 ∧ i = -(b.length : Int)) ∨ ((l.length : Int) < i ∧ b = []) ∨
    (i < -(l.length : Int) ∧ a = []))

/-- What an operation does to a list of objects, and what it returns. -/
inductive Does : Op → List Ref → List Ref → Option Ref → Prop
  | get {i l a x b} : Names i l a x b → Does (.getItem i) l l (some x)
  | del {i l a x b} : Names i l a x b → Does (.delItem i) l (a ++ b) none
  | remove {i l a x b} : Names i l a x b → Does (.removeItem i) l (a ++ b) (some x)
  | set {i l a x b r} : Names i l a x b → Does (.setItem i (.item r)) l (a ++ r :: b) (some r)
  | insert {i l a b r} : Gap i l a b → Does (.insert i (.item r)) l (a ++ r :: b) (some r)
  | slice {i j l a b c d rs} : Gap i l a b → Gap j l c d → a.length ≤ c.length →
      Does (.setSlice i j (some (rs.map .item))) l (a ++ rs ++ d) none
  | emptySlice {i j l a b c d rs} : Gap i l a b → Gap j l c d → c.length ≤ a.length →
      Does (.setSlice i j (some (rs.map .item))) l (a ++ rs ++ b) none
  | append {l r} : Does (.append (.item r)) l (l ++ [r]) (some r)
  | clear {l} : Does .clear l [] none
  | initWith {l r} : Does (.initWith (.item r)) l [r] (some r)
  | iadd {l rs} : Does (.iadd (some (rs.map .item))) l (l ++ rs) none
  | iaddSelf {l} : Does .iaddSelf l (l ++ l) none
  | reverse {l} : Does .reverse l l.reverse none
  | removeValue {l a r b} : l = a ++ r :: b → r ∉ a → Does (.removeValue (.item r)) l (a ++ b) none

/-- Operations that are refused, with the exception. -/
inductive Refused : Op → List Ref → PyErr → Prop
  | get {i l} : OutOfRange i l → Refused (.getItem i) l .indexError
  | del {i l} : OutOfRange i l → Refused (.delItem i) l .indexError
  | remove {i l} : OutOfRange i l → Refused (.removeItem i) l .indexError
  | set {i l r} : OutOfRange i l → Refused (.setItem i (.item r)) l .indexError
  | setWrong {i l} : Refused (.setItem i .wrong) l .typeError
  | insertWrong {i l} : Refused (.insert i .wrong) l .typeError
  | sliceNone {i j l} : Refused (.setSlice i j none) l .typeError
  | sliceWrong {i j l os} : .wrong ∈ os → Refused (.setSlice i j (some os)) l .typeError
  | appendWrong {l} : Refused (.append .wrong) l .typeError
  | initializeWrong {l} : Refused (.initWith .wrong) l .typeError
  | iaddNone {l} : Refused (.iadd none) l .typeError
  | iaddWrong {l os} : .wrong ∈ os → Refused (.iadd (some os)) l .typeError
  | removeValue {l r} : r ∉ l → Refused (.removeValue (.item r)) l .valueError
  | removeWrong {l} : Refused (.removeValue .wrong) l .valueError

/-- The operations that change the list before they refuse the argument. -/
def Careless : Op → Prop
  | .initWith .wrong => True
  | .iadd (some os) => .wrong ∈ os
  | _ => False

/-! ### Lemmas -/

theorem index_some (n : Nat) (i : Int) (k : Nat) (h : PyList.index n i = some k) :
    k < n ∧ (i = k ∨ i = (k : Int) - n) := by
  simp only [PyList.index] at h
  split at h
  · simp only [Option.some.injEq] at h; omega
  · split at h
    · simp only [Option.some.injEq] at h; omega
    · simp at h

theorem index_none (n : Nat) (i : Int) (h : PyList.index n i = none) : (n : Int) ≤ i ∨ i < -(n : Int) := by
  simp only [PyList.index] at h
  split at h
  · simp at h
  · split at h
    · simp at h
    · omega

/-- A number names an item or is out of range. -/
theorem place (l : List Ref) (i : Int) :
    (PyList.index l.length i = none ∧ OutOfRange i l) ∨
    ∃ a x b, Names i l a x b ∧ PyList.index l.length i = some a.length := by
  cases h : PyList.index l.length i with
  | none => exact Or.inl ⟨rfl, index_none _ _ h⟩
  | some k =>
    right
    obtain ⟨hk, hi⟩ := index_some _ _ _ h
    refine ⟨l.take k, l[k], l.drop (k + 1), ⟨?_, ?_⟩, ?_⟩
    · simp
    · simp only [List.length_take, List.length_drop]
      omega
    · simp only [List.length_take]
      congr 1
      omega

theorem gap (l : List Ref) (i : Int) :
    Gap i l (l.take (PyList.clamp l.length i)) (l.drop (PyList.clamp l.length i)) := by
  refine ⟨(List.take_append_drop _ _).symm, ?_⟩
  simp only [List.length_take, List.length_drop, List.drop_eq_nil_iff, List.take_eq_nil_iff, PyList.clamp]
  split
  · rename_i h
    by_cases h2 : i < -(l.length : Int)
    · right; right; right
      exact ⟨h2, Or.inl (by omega)⟩
    · right; left
      omega
  · by_cases h2 : (l.length : Int) < i
    · right; right; left
      exact ⟨h2, by omega⟩
    · left
      omega

theorem clamp_le (n : Nat) (i : Int) : PyList.clamp n i ≤ n := by
  simp only [PyList.clamp]
  split <;> omega

theorem get_cases (l : List Ref) (i : Int) :
    (getItem l i = (l, .error .indexError) ∧ delItem l i = (l, .error .indexError) ∧
      (∀ r, setItem l i (.item r) = (l, .error .indexError)) ∧ OutOfRange i l) ∨
    ∃ a x b, Names i l a x b ∧ getItem l i = (l, .ok (some x)) ∧ delItem l i = (a ++ b, .ok none) ∧
      ∀ r, setItem l i (.item r) = (a ++ r :: b, .ok (some r)) := by
  rcases place l i with ⟨h, ho⟩ | ⟨a, x, b, hn, h⟩
  · left
    simp [getItem, delItem, setItem, PyList.getAt, PyList.delAt, PyList.setAt, h, ho]
  · right
    refine ⟨a, x, b, hn, ?_⟩
    have hl := hn.1
    refine ⟨?_, ?_, ?_⟩
    · simp only [getItem, PyList.getAt, h]; subst hl; simp
    · simp only [delItem, PyList.delAt, h]; subst hl; simp [List.eraseIdx_append_of_length_le]
    · intro r
      simp only [setItem, PyList.setAt, h]; subst hl; simp

theorem remove_cases (l : List Ref) (i : Int) :
    (removeItem l i = (l, .error .indexError) ∧ OutOfRange i l) ∨
    ∃ a x b, Names i l a x b ∧ removeItem l i = (a ++ b, .ok (some x)) := by
  rcases get_cases l i with ⟨h1, h2, _, h3⟩ | ⟨a, x, b, hn, h1, h2, _⟩
  · left; simp [removeItem, h1, h3]
  · right; exact ⟨a, x, b, hn, by simp [removeItem, h1, h2]⟩

theorem clearLoop_eq (n : Nat) (l : List Ref) (h : l.length < n) : clearLoop n l = [] := by
  induction n generalizing l with
  | zero => omega
  | succ n ih =>
    simp only [clearLoop]
    rcases remove_cases l (-1) with ⟨h1, h2⟩ | ⟨a, x, b, hn, h1⟩
    · rw [h1]
      rcases h2 with h2 | h2
      · omega
      · have : l.length = 0 := by omega
        simpa using this
    · rw [h1]
      apply ih
      have := congrArg List.length hn.1
      simp at this ⊢
      omega

theorem clear_eq (l : List Ref) : clear l = [] := clearLoop_eq _ l (by omega)

theorem extend_items (l rs : List Ref) : extend l (rs.map .item) = (l ++ rs, .ok none) := by
  induction rs generalizing l with
  | nil => simp [extend]
  | cons r rs ih => simp [extend, append, ih]

theorem extend_wrong (l : List Ref) (os : List Obj) (h : .wrong ∈ os) : (extend l os).2 = .error .typeError := by
  induction os generalizing l with
  | nil => simp at h
  | cons o os ih =>
    cases o with
    | wrong => simp [extend, append]
    | item r =>
      simp only [extend, append]
      exact ih _ (by simpa using h)

theorem items_or_wrong (os : List Obj) : (∃ rs : List Ref, os = rs.map .item) ∨ .wrong ∈ os := by
  induction os with
  | nil => left; exact ⟨[], rfl⟩
  | cons o os ih =>
    cases o with
    | wrong => right; simp
    | item r =>
      rcases ih with ⟨rs, rfl⟩ | h
      · left; exact ⟨r :: rs, rfl⟩
      · right; simp [h]

theorem allItems_map (rs : List Ref) : allItems (rs.map .item) = some rs := by
  induction rs with
  | nil => rfl
  | cons r rs ih => simp [allItems, ih]

theorem allItems_wrong (os : List Obj) (h : .wrong ∈ os) : allItems os = none := by
  induction os with
  | nil => simp at h
  | cons o os ih =>
    cases o with
    | wrong => rfl
    | item r => simp [allItems, ih (by simpa using h)]

theorem swap_get (l : List Ref) (i j k : Nat) (hi : i < l.length) (hj : j < l.length) :
    (swap l i j)[k]? = if k = j then l[i]? else if k = i then l[j]? else l[k]? := by
  simp only [swap, List.getElem?_eq_getElem hi, List.getElem?_eq_getElem hj]
  rw [List.getElem?_set, List.getElem?_set]
  by_cases h1 : k = j
  · subst h1; simp [hj]
  · have : ¬ j = k := fun h => h1 h.symm
    by_cases h2 : k = i
    · subst h2; simp [h1, this, hi]
    · have : ¬ i = k := fun h => h2 h.symm
      simp [*]

theorem swap_length (l : List Ref) (i j : Nat) : (swap l i j).length = l.length := by
  simp only [swap]; split <;> simp

theorem reverseLoop_length (n k : Nat) (l : List Ref) : (reverseLoop n k l).length = l.length := by
  induction k with
  | zero => rfl
  | succ k ih => simp [reverseLoop, swap_length, ih]

theorem reverseLoop_get (l : List Ref) (k : Nat) (hk : k ≤ l.length / 2) (m : Nat) (hm : m < l.length) :
    (reverseLoop l.length k l)[m]? =
      if m < k ∨ l.length - k ≤ m then l[l.length - 1 - m]? else l[m]? := by
  induction k generalizing m with
  | zero => simp [reverseLoop]; omega
  | succ k ih =>
    have ih' := ih (by omega)
    simp only [reverseLoop]
    rw [swap_get _ _ _ _ (by rw [reverseLoop_length]; omega) (by rw [reverseLoop_length]; omega)]
    by_cases h1 : m = l.length - k - 1
    · rw [if_pos h1, ih' k (by omega), if_neg (by omega), if_pos (by omega)]
      congr 1; omega
    · rw [if_neg h1]
      by_cases h2 : m = k
      · rw [if_pos h2, ih' _ (by omega), if_neg (by omega), if_pos (by omega)]
        congr 1; omega
      · rw [if_neg h2, ih' m hm]
        by_cases h3 : m < k ∨ l.length - k ≤ m
        · rw [if_pos h3, if_pos (by omega)]
        · rw [if_neg h3, if_neg (by omega)]

theorem reverse_eq (l : List Ref) : reverse l = l.reverse := by
  apply List.ext_getElem?
  intro m
  by_cases hm : m < l.length
  · rw [List.getElem?_reverse hm, reverse, reverseLoop_get l _ (Nat.le_refl _) m hm]
    split
    · rfl
    · congr 1; omega
  · rw [List.getElem?_eq_none (by rw [reverse, reverseLoop_length]; omega), List.getElem?_eq_none (by simp; omega)]

theorem getItem_nat (l : List Ref) (i : Nat) :
    getItem l i = match l[i]? with | some r => (l, .ok (some r)) | none => (l, .error .indexError) := by
  simp only [getItem, PyList.getAt, PyList.index]
  by_cases h : i < l.length
  · have h1 : (0 : Int) ≤ i ∧ (i : Int) < l.length := by omega
    rw [if_pos h1]
    simp [h]
  · have h1 : ¬ ((0 : Int) ≤ i ∧ (i : Int) < l.length) := by omega
    have h2 : ¬ ((i : Int) < 0 ∧ -(l.length : Int) ≤ i) := by omega
    rw [if_neg h1, if_neg h2]
    simp [h]

theorem indexLoop_eq (l : List Ref) (o : Obj) (n i : Nat) (h : l.length < n + i) :
    indexLoop l o n i = ((l.drop i).findIdx? (fun r => decide (Obj.item r = o))).map (· + i) := by
  induction n generalizing i with
  | zero =>
    have : l.drop i = [] := by simp; omega
    simp [indexLoop, this]
  | succ n ih =>
    simp only [indexLoop, getItem_nat]
    by_cases hi : i < l.length
    · rw [List.drop_eq_getElem_cons hi, List.findIdx?_cons]
      simp only [List.getElem?_eq_getElem hi]
      by_cases he : Obj.item l[i] = o
      · simp [he]
      · rw [if_neg he, ih (i + 1) (by omega)]
        simp only [he, decide_false, Bool.false_eq_true, if_false, Option.map_map]
        congr 1
        funext k
        simp; omega
    · have : l.drop i = [] := by simp; omega
      simp [List.getElem?_eq_none (by omega : l.length ≤ i), this]

theorem delItem_at (a b : List Ref) (x : Ref) : delItem (a ++ x :: b) (a.length : Int) = (a ++ b, .ok none) := by
  have h : PyList.index (a ++ x :: b).length (a.length : Int) = some a.length := by
    simp only [PyList.index]
    rw [if_pos (by simp; omega)]
    simp
  simp only [delItem, PyList.delAt, h]
  simp [List.eraseIdx_append_of_length_le]

theorem removeValue_cases (l : List Ref) (o : Obj) :
    (∃ a r b, o = .item r ∧ l = a ++ r :: b ∧ r ∉ a ∧ removeValue l o = (a ++ b, .ok none)) ∨
    ((∀ r, o = .item r → r ∉ l) ∧ removeValue l o = (l, .error .valueError)) := by
  have hx := indexLoop_eq l o (l.length + 1) 0 (by omega)
  simp only [List.drop_zero] at hx
  cases hf : l.findIdx? (fun r => decide (Obj.item r = o)) with
  | none =>
    right
    rw [hf] at hx
    refine ⟨?_, by simp [removeValue, hx]⟩
    rintro r rfl hr
    rw [List.findIdx?_eq_none_iff] at hf
    simpa using hf r hr
  | some k =>
    left
    rw [hf] at hx
    rw [List.findIdx?_eq_some_iff_getElem] at hf
    obtain ⟨hk, h1, h2⟩ := hf
    have hl : l = l.take k ++ l[k] :: l.drop (k + 1) := by simp
    refine ⟨l.take k, l[k], l.drop (k + 1), by simpa using (of_decide_eq_true h1).symm, hl, ?_, ?_⟩
    · intro hmem
      obtain ⟨j, hj, e⟩ := List.mem_take_iff_getElem.1 hmem
      have hj' : j < k := by omega
      have := h2 j hj'
      rw [e] at this
      exact this h1
    · simp only [removeValue, hx, Option.map_some, Nat.add_zero]
      have := delItem_at (l.take k) (l.drop (k + 1)) l[k]
      rw [← hl] at this
      have e : (l.take k).length = k := by simp; omega
      rw [e] at this
      exact this

/-! ### The list -/

/-- **C126** (partial).  Every operation does to the list what it does to a list of objects, or it is refused and the
list stays as it was.  Missing: `Careless` operations, which are refused too (`refused`) but change the list
(`initialize_violated`, `extend_violated`). -/
theorem sequence_partial (l : List Ref) (op : Op) (hc : ¬ Careless op) :
    (∃ r, Does op l (run l op).1 r ∧ (run l op).2 = .ok r) ∨
    (∃ e, Refused op l e ∧ run l op = (l, .error e)) := by
  cases op with
  | getItem i =>
    rcases get_cases l i with ⟨h1, _, _, h⟩ | ⟨a, x, b, hn, h1, _⟩
    · exact Or.inr ⟨_, .get h, h1⟩
    · refine Or.inl ⟨some x, ?_, by simp only [run, h1]⟩
      simp only [run, h1]; exact .get hn
  | delItem i =>
    rcases get_cases l i with ⟨_, h1, _, h⟩ | ⟨a, x, b, hn, _, h1, _⟩
    · exact Or.inr ⟨_, .del h, h1⟩
    · refine Or.inl ⟨none, ?_, by simp only [run, h1]⟩
      simp only [run, h1]; exact .del hn
  | setItem i o =>
    cases o with
    | wrong => exact Or.inr ⟨_, .setWrong, rfl⟩
    | item r =>
      rcases get_cases l i with ⟨_, _, h1, h⟩ | ⟨a, x, b, hn, _, _, h1⟩
      · exact Or.inr ⟨_, .set h, h1 r⟩
      · refine Or.inl ⟨some r, ?_, by simp only [run, h1]⟩
        simp only [run, h1]; exact .set hn
  | setSlice i j os =>
    cases os with
    | none => exact Or.inr ⟨_, .sliceNone, rfl⟩
    | some os =>
      rcases items_or_wrong os with ⟨rs, rfl⟩ | h
      · left
        refine ⟨none, ?_, by simp [run, setSlice, allItems_map]⟩
        simp only [run, setSlice, allItems_map]
        have ha := clamp_le l.length i
        have hb := clamp_le l.length j
        rcases Nat.le_total (PyList.clamp l.length i) (PyList.clamp l.length j) with h | h
        · rw [Nat.max_eq_right h]
          exact .slice (gap l i) (gap l j) (by simp only [List.length_take]; omega)
        · rw [Nat.max_eq_left h]
          exact .emptySlice (gap l i) (gap l j) (by simp only [List.length_take]; omega)
      · exact Or.inr ⟨_, .sliceWrong h, by simp [run, setSlice, allItems_wrong os h]⟩
  | append o =>
    cases o with
    | wrong => exact Or.inr ⟨_, .appendWrong, rfl⟩
    | item r => exact Or.inl ⟨_, .append, rfl⟩
  | insert i o =>
    cases o with
    | wrong => exact Or.inr ⟨_, .insertWrong, rfl⟩
    | item r => exact Or.inl ⟨_, .insert (gap l i), rfl⟩
  | removeItem i =>
    rcases remove_cases l i with ⟨h1, h⟩ | ⟨a, x, b, hn, h1⟩
    · exact Or.inr ⟨_, .remove h, h1⟩
    · refine Or.inl ⟨some x, ?_, by simp only [run, h1]⟩
      simp only [run, h1]; exact .remove hn
  | clear => exact Or.inl ⟨none, by simp only [run, clear_eq]; exact .clear, rfl⟩
  | initWith o =>
    cases o with
    | wrong => exact absurd trivial hc
    | item r =>
      refine Or.inl ⟨some r, ?_, by simp [run, initWith, append]⟩
      simp only [run, initWith, append, clear_eq, List.nil_append]
      exact .initWith
  | iadd os =>
    cases os with
    | none => exact Or.inr ⟨_, .iaddNone, rfl⟩
    | some os =>
      rcases items_or_wrong os with ⟨rs, rfl⟩ | h
      · refine Or.inl ⟨none, ?_, by simp only [run, iadd, extend_items]⟩
        simp only [run, iadd, extend_items]
        exact .iadd
      · exact absurd h hc
  | iaddSelf =>
    refine Or.inl ⟨none, ?_, by simp only [run, iaddSelf, extend_items]⟩
    simp only [run, iaddSelf, extend_items]
    exact .iaddSelf
  | reverse => exact Or.inl ⟨none, by simp only [run, reverse_eq]; exact .reverse, rfl⟩
  | removeValue o =>
    rcases removeValue_cases l o with ⟨a, r, b, rfl, hl, hr, h⟩ | ⟨h1, h⟩
    · refine Or.inl ⟨none, ?_, by simp only [run, h]⟩
      simp only [run, h]
      exact .removeValue hl hr
    · cases o with
      | wrong => exact Or.inr ⟨_, .removeWrong, h⟩
      | item r => exact Or.inr ⟨_, .removeValue (h1 r rfl), h⟩

/-- **C126**.  An operation is refused exactly if the specification refuses it, with this exception. -/
theorem refused (l : List Ref) (op : Op) (e : PyErr) : (run l op).2 = .error e ↔ Refused op l e := by
  have conv : ∀ op e, Refused op l e → (run l op).2 = .error e := by
    intro op e h
    cases h with
    | get h =>
      rename_i i
      rcases get_cases l i with ⟨h1, _, _, _⟩ | ⟨a, x, b, hn, _⟩
      · simp only [run, h1]
      · exfalso
        obtain ⟨e1, e2⟩ := hn
        have := congrArg List.length e1
        simp at this
        rcases h with h | h <;> omega
    | del h =>
      rename_i i
      rcases get_cases l i with ⟨_, h1, _, _⟩ | ⟨a, x, b, hn, _⟩
      · simp only [run, h1]
      · exfalso
        obtain ⟨e1, e2⟩ := hn
        have := congrArg List.length e1
        simp at this
        rcases h with h | h <;> omega
    | remove h =>
      rename_i i
      rcases remove_cases l i with ⟨h1, _⟩ | ⟨a, x, b, hn, _⟩
      · simp only [run, h1]
      · exfalso
        obtain ⟨e1, e2⟩ := hn
        have := congrArg List.length e1
        simp at this
        rcases h with h | h <;> omega
    | set h =>
      rename_i i r
      rcases get_cases l i with ⟨_, _, h1, _⟩ | ⟨a, x, b, hn, _⟩
      · simp only [run, h1]
      · exfalso
        obtain ⟨e1, e2⟩ := hn
        have := congrArg List.length e1
        simp at this
        rcases h with h | h <;> omega
    | setWrong => rfl
    | insertWrong => rfl
    | sliceNone => rfl
    | sliceWrong h => simp [run, setSlice, allItems_wrong _ h]
    | appendWrong => rfl
    | initializeWrong => rfl
    | iaddNone => rfl
    | iaddWrong h => exact extend_wrong l _ h
    | removeValue h =>
      rename_i r0
      rcases removeValue_cases l (.item r0) with ⟨a, r, b, hr, hl, _, _⟩ | ⟨_, h1⟩
      · simp only [Obj.item.injEq] at hr
        subst hr
        rw [hl] at h
        simp at h
      · simp only [run, h1]
    | removeWrong =>
      rcases removeValue_cases l .wrong with ⟨a, r, b, hr, hl, _, _⟩ | ⟨_, h1⟩
      · simp at hr
      · simp only [run, h1]
  refine ⟨fun h => ?_, conv op e⟩
  by_cases hc : Careless op
  · cases op with
    | initWith o =>
      cases o with
      | wrong =>
        have := conv _ _ (Refused.initializeWrong (l := l))
        rw [this] at h
        simp only [Except.error.injEq] at h
        subst h
        exact .initializeWrong
      | item r => exact absurd hc (by simp [Careless])
    | iadd os =>
      cases os with
      | none => exact absurd hc (by simp [Careless])
      | some os =>
        have := conv _ _ (Refused.iaddWrong (l := l) (os := os) hc)
        rw [this] at h
        simp only [Except.error.injEq] at h
        subst h
        exact .iaddWrong hc
    | _ => exact absurd hc (by simp [Careless])
  · rcases sequence_partial l op hc with ⟨r, _, h2⟩ | ⟨e', h1, h2⟩
    · rw [h2] at h; simp at h
    · rw [h2] at h
      simp only [Except.error.injEq] at h
      subst h
      exact h1

/-- The lists that a list of objects can be after these operations. -/
inductive Leads : List Ref → List Op → List Ref → Prop
  | nil {l} : Leads l [] l
  | does {l l' l'' op ops r} : Does op l l' r → Leads l' ops l'' → Leads l (op :: ops) l''
  | refused {l l' op ops e} : Refused op l e → Leads l ops l' → Leads l (op :: ops) l'

/-- **C126** (partial).  So after any sequence of such operations, whether refused or not, the content is that of a list
of objects after the same operations. -/
theorem history_partial (l : List Ref) (ops : List Op) (h : ∀ op ∈ ops, ¬ Careless op) : Leads l ops (runAll l ops) := by
  induction ops generalizing l with
  | nil => exact .nil
  | cons op ops ih =>
    simp only [runAll]
    rcases sequence_partial l op (h op (by simp)) with ⟨r, h1, _⟩ | ⟨e, h1, h2⟩
    · exact .does h1 (ih _ (fun o ho => h o (by simp [ho])))
    · rw [h2]
      exact .refused h1 (ih _ (fun o ho => h o (by simp [ho])))

/-- **C126**, violated.  `initialize` with something that is no transform raises TypeError, and the list has lost all its
items. -/
theorem initialize_violated (l : List Ref) : run l (.initWith .wrong) = ([], .error .typeError) := by
  simp [run, initWith, clear_eq, append]

/-- **C126**, violated.  `+=` with a list that has something else raises TypeError, and the items before it have been
added. -/
theorem extend_violated (l rs : List Ref) (os : List Obj) :
    run l (.iadd (some (rs.map .item ++ .wrong :: os))) = (l ++ rs, .error .typeError) := by
  simp only [run, iadd]
  induction rs generalizing l with
  | nil => simp [extend, append]
  | cons r rs ih => simp [extend, append, ih]

/-! ### Sums -/

/-- The values of the items. -/
def values {V : Type} (s : Store V) (l : List Ref) : List (Option V) := l.map fun r => s[r]?

theorem copyItems_spec {V : Type} (s0 : Store V) (l : List Ref) (hl : ∀ r ∈ l, r < s0.length) :
    ∀ (s : Store V) (memo : List (Ref × Ref)), (∃ t, s = s0 ++ t) →
    (∀ r r', memo.lookup r = some r' → s[r']? = s0[r]? ∧ s0.length ≤ r' ∧ r' < s.length) →
    (∃ t, (copyItems s memo l).1 = s ++ t) ∧ (copyItems s memo l).2.length = l.length ∧
    (∀ r' ∈ (copyItems s memo l).2, s0.length ≤ r' ∧ r' < (copyItems s memo l).1.length) ∧
    values (copyItems s memo l).1 (copyItems s memo l).2 = values s0 l := by
  induction l with
  | nil => intro s memo hs hm; exact ⟨⟨[], by simp [copyItems]⟩, rfl, by simp [copyItems], rfl⟩
  | cons r l ih =>
    intro s memo hs hm
    have hl' : ∀ x ∈ l, x < s0.length := fun x hx => hl x (by simp [hx])
    simp only [copyItems]
    cases hk : memo.lookup r with
    | some r' =>
      obtain ⟨⟨t, ht⟩, h1, h2, h3⟩ := ih hl' s memo hs hm
      obtain ⟨g1, g2, g3⟩ := hm r r' hk
      refine ⟨⟨t, ht⟩, by simp [h1], ?_, ?_⟩
      · intro x hx
        simp only [List.mem_cons] at hx
        rcases hx with rfl | hx
        · refine ⟨g2, ?_⟩
          rw [ht, List.length_append]
          exact Nat.lt_of_lt_of_le g3 (Nat.le_add_right _ _)
        · exact h2 x hx
      · simp only [values, List.map_cons, List.cons.injEq] at h3 ⊢
        refine ⟨?_, h3⟩
        rw [ht, List.getElem?_append_left g3, g1]
    | none =>
      obtain ⟨u, hu⟩ := hs
      have hr : r < s0.length := hl r (by simp)
      have hsr : s[r]? = some s0[r] := by
        rw [hu, List.getElem?_append_left hr, List.getElem?_eq_getElem hr]
      simp only [hsr]
      obtain ⟨⟨t, ht⟩, h1, h2, h3⟩ := ih hl' (s ++ [s0[r]]) ((r, s.length) :: memo) ⟨u ++ [s0[r]], by simp [hu]⟩ (by
        intro x x' hx
        simp only [List.lookup_cons] at hx
        split at hx
        · rename_i e
          simp only [Option.some.injEq] at hx
          subst hx
          have e : x = r := by simpa using e
          subst e
          refine ⟨by simp [hr], ?_, by simp⟩
          rw [hu]; simp
        · obtain ⟨g1, g2, g3⟩ := hm x x' hx
          refine ⟨?_, g2, by rw [List.length_append]; exact Nat.lt_of_lt_of_le g3 (Nat.le_add_right _ _)⟩
          rw [List.getElem?_append_left g3, g1])
      refine ⟨⟨s0[r] :: t, by simp [ht]⟩, by simp [h1], ?_, ?_⟩
      · intro x hx
        simp only [List.mem_cons] at hx
        rcases hx with rfl | hx
        · rw [ht, hu]; simp
        · exact h2 x hx
      · simp only [values, List.map_cons, List.cons.injEq] at h3 ⊢
        refine ⟨?_, h3⟩
        rw [ht]
        simp [hr]

/-- **C126** (partial).  The sum of a list and further transforms has the values of the items of both, one after the
other; the values of all objects stay as they were; and whatever is done to the items of the list afterwards, the part
of the sum that comes from it keeps its values.  Missing: the same for the other operand (`sum_violated`). -/
theorem sum_partial {V : Type} (s : Store V) (l rs : List Ref) (hl : ∀ r ∈ l, r < s.length) (hrs : ∀ r ∈ rs, r < s.length) :
    ∃ s' own, add s l (some (rs.map .item)) = (s', .ok (own ++ rs)) ∧ values s' (own ++ rs) = values s (l ++ rs) ∧
      (∀ r, r < s.length → s'[r]? = s[r]?) ∧
      ∀ r v, r < s.length → values (s'.set r v) own = values s l := by
  obtain ⟨⟨t, ht⟩, h1, h2, h3⟩ := copyItems_spec s l hl s [] ⟨[], by simp⟩ (by simp)
  refine ⟨(copyItems s [] l).1, (copyItems s [] l).2, ?_, ?_, ?_, ?_⟩
  · simp only [add, extend_items]
  · simp only [values, List.map_append] at h3 ⊢
    rw [h3]
    congr 1
    apply List.map_congr_left
    intro r hr
    rw [ht, List.getElem?_append_left (hrs r hr)]
  · intro r hr
    rw [ht, List.getElem?_append_left hr]
  · intro r v hr
    rw [← h3]
    simp only [values]
    apply List.map_congr_left
    intro x hx
    have := (h2 x hx).1
    rw [List.getElem?_set_ne (by omega)]

/-- **C126**, violated.  The items of the other operand are not copied: changing one of them changes the sum. -/
theorem sum_violated : ∃ (s s' : Store Nat) (sum : List Ref), add s [0] (some [.item 1]) = (s', .ok sum) ∧
    values s' sum ≠ values (s'.set 1 9) sum ∧ values s' sum = values (s'.set 0 9) sum :=
  ⟨[5, 6], [5, 6, 5], [2, 1], rfl, by decide, by decide⟩

/-! ### Examples -/

example : run [4, 5, 6] (.insert (-1) (.item 9)) = ([4, 5, 9, 6], .ok (some 9)) := rfl
example : run [4, 5, 6] .reverse = ([6, 5, 4], .ok none) := rfl
example : run [4, 5, 6] (.setSlice 1 (-1) (some [.item 7, .item 8])) = ([4, 7, 8, 6], .ok none) := rfl
example : run [4, 5, 4] (.removeValue (.item 4)) = ([5, 4], .ok none) := rfl
example : Names (-1) [4, 5, 6] [4, 5] 6 [] := ⟨rfl, Or.inr rfl⟩
example : ¬ Careless (.initWith (.item 3)) ∧ Careless (.initWith .wrong) := ⟨fun h => h, trivial⟩
example : add [5, 6] [0, 0] (some [.item 1]) = ([5, 6, 5], .ok [2, 2, 1]) := rfl
example : ∀ op ∈ [Op.append (.item 1), .append .wrong, .removeItem 7], ¬ Careless op := by
  intro op h; simp at h; rcases h with rfl | rfl | rfl <;> exact fun h => h

end SvgPy.TransformSeq
