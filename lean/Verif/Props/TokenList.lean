import Verif.Model.TokenList
import Verif.Lemmas.PyStr

/-! Property C46: token lists. -/

set_option linter.unusedSimpArgs false

namespace SvgPy.TokenList

open PyStr

/-! ### Specification: an ordered list of tokens -/

/-- Adding one token at the end, unless it is there. -/
def specAdd1 (ts : List Str) (t : Str) : List Str := if t ∈ ts then ts else ts ++ [t]

/-- Replacing the first occurrence. -/
def specReplace (t new : Str) : List Str → List Str
  | [] => []
  | x :: xs => if x = t then new :: xs else x :: specReplace t new xs

/-- An admissible token: not empty and without ASCII white space (DOM standard). -/
def Admissible (t : Str) : Prop :=
  t ≠ [] ∧ '\t' ∉ t ∧ '\n' ∉ t ∧ '\x0c' ∉ t ∧ '\r' ∉ t ∧ ' ' ∉ t

/-! ### Proofs -/

private theorem valid_iff (t : Str) : valid t = true ↔ Admissible t := by
  have h1 : t.isEmpty = false ↔ t ≠ [] := by cases t <;> simp
  simp only [valid, hasAsciiSpace, Bool.and_eq_true, Bool.not_eq_true', h1, Admissible,
    List.any_eq_false, Bool.or_eq_true, decide_eq_true_eq]
  constructor
  · rintro ⟨a, b⟩
    refine ⟨a, ?_, ?_, ?_, ?_, ?_⟩ <;> intro hm <;> exact b _ hm (by decide)
  · rintro ⟨a, b1, b2, b3, b4, b5⟩
    refine ⟨a, fun c hc => ?_⟩
    rintro ((((rfl | rfl) | rfl) | rfl) | rfl)
    · exact b1 hc
    · exact b2 hc
    · exact b3 hc
    · exact b4 hc
    · exact b5 hc

private theorem valid_word (t : Str) (h : Word t) : valid t = true := by
  rw [valid_iff]
  refine ⟨h.1, ?_, ?_, ?_, ?_, ?_⟩ <;> intro hm <;> have := h.2 _ hm <;> revert this <;> decide

/-- What is stored is what is read. -/
theorem tokens_setTokens (ts : List Str) (h : ∀ t ∈ ts, Word t) : tokens (setTokens ts) = ts := by
  unfold setTokens tokens
  rw [strip_of_trimmed _ (trimmed_join ts h)]
  by_cases hj : join [' '] ts = []
  · rw [if_pos hj]
    have := splitWs_join ts h
    rw [hj] at this
    exact this
  · rw [if_neg hj]
    exact splitWs_join ts h

/-- **C46** (attribute).  The attribute is removed exactly when no token is left; it
never stays as an empty text. -/
theorem setTokens_none_iff (ts : List Str) (h : ∀ t ∈ ts, Word t) :
    (setTokens ts = none ↔ ts = []) ∧ setTokens ts ≠ some [] := by
  have hj : join [' '] ts = [] ↔ ts = [] := by
    constructor
    · intro e
      have := splitWs_join ts h
      rw [e] at this
      exact this.symm
    · rintro rfl; rfl
  unfold setTokens
  rw [strip_of_trimmed _ (trimmed_join ts h), ← hj]
  by_cases he : join [' '] ts = []
  · rw [if_pos he]; simp [he]
  · rw [if_neg he]; simp [he]

private theorem insert_end (a : Attr) (t : Str) (h : Word t) :
    ∃ a', insert a (tokens a).length t = .ok a' ∧ tokens a' = specAdd1 (tokens a) t := by
  unfold insert specAdd1
  rw [if_pos (valid_word t h)]
  by_cases hm : t ∈ tokens a
  · simp only [hm, if_true]; exact ⟨a, rfl, rfl⟩
  · simp only [hm, if_false]
    refine ⟨_, rfl, ?_⟩
    have hc : PyList.clamp (tokens a).length ((tokens a).length : Int) = (tokens a).length := by
      unfold PyList.clamp; split <;> omega
    rw [PyList.insertAt, hc]
    simp only [List.take_length, List.drop_length]
    apply tokens_setTokens
    intro x hx
    simp only [List.mem_append, List.mem_cons, List.not_mem_nil, or_false] at hx
    rcases hx with hx | rfl
    · exact splitWs_words _ x hx
    · exact h

private theorem extend_spec (ts : List Str) : ∀ (a : Attr), (∀ t ∈ ts, Word t) →
    ∃ a', extend a ts = .ok a' ∧ tokens a' = ts.foldl specAdd1 (tokens a) := by
  induction ts with
  | nil => intro a _; exact ⟨a, rfl, rfl⟩
  | cons t ts ih =>
    intro a h
    obtain ⟨a1, e1, e2⟩ := insert_end a t (h t (by simp))
    obtain ⟨a2, e3, e4⟩ := ih a1 (fun x hx => h x (by simp [hx]))
    refine ⟨a2, ?_, ?_⟩
    · simp only [extend, e1]; exact e3
    · rw [e4, e2]; rfl

/-- **C46** (add).  Adding words appends those that are missing, once, in order. -/
theorem add_spec (a : Attr) (ts : List Str) (h : ∀ t ∈ ts, Word t) :
    ∃ a', add a ts = .ok a' ∧ tokens a' = ts.foldl specAdd1 (tokens a) := by
  have hv : ts.all valid = true := by
    rw [List.all_eq_true]; exact fun t ht => valid_word t (h t ht)
  unfold add
  rw [if_pos hv]
  exact extend_spec ts a h

private theorem indexOf_none (t : Str) (ts : List Str) : PyList.indexOf t ts = none ↔ t ∉ ts := by
  induction ts with
  | nil => simp [PyList.indexOf]
  | cons x xs ih =>
    by_cases hx : x = t
    · simp [PyList.indexOf, hx]
    · have : ¬ t = x := fun e => hx e.symm
      simp [PyList.indexOf, hx, this, ih]

private theorem indexOf_some (t : Str) (ts : List Str) (k : Nat) (h : PyList.indexOf t ts = some k) :
    k < ts.length ∧ ts.eraseIdx k = ts.erase t ∧ ∀ n, ts.set k n = specReplace t n ts := by
  induction ts generalizing k with
  | nil => simp [PyList.indexOf] at h
  | cons x xs ih =>
    by_cases hx : x = t
    · simp only [PyList.indexOf, hx, if_true, Option.some.injEq] at h
      subst h
      simp [hx, specReplace]
    · simp only [PyList.indexOf, hx, if_false, Option.map_eq_some_iff] at h
      obtain ⟨j, hj, rfl⟩ := h
      obtain ⟨h1, h2, h3⟩ := ih j hj
      refine ⟨by simp; omega, ?_, ?_⟩
      · rw [List.eraseIdx_cons_succ, h2, List.erase_cons]
        simp [hx]
      · intro n
        simp [specReplace, hx, h3]

private theorem index_nat (n k : Nat) (h : k < n) : PyList.index n (k : Int) = some k := by
  unfold PyList.index
  rw [if_pos (by omega)]
  simp

private theorem removeLoop_spec (ts : List Str) : ∀ (a : Attr),
    ∃ a', removeLoop a ts = .ok a' ∧ tokens a' = ts.foldl List.erase (tokens a) := by
  induction ts with
  | nil => intro a; exact ⟨a, rfl, rfl⟩
  | cons t ts ih =>
    intro a
    cases hi : PyList.indexOf t (tokens a) with
    | none =>
      have hn := (indexOf_none t _).mp hi
      obtain ⟨a', e1, e2⟩ := ih a
      refine ⟨a', by simp only [removeLoop, hi]; exact e1, ?_⟩
      rw [e2, List.foldl_cons, List.erase_of_not_mem hn]
    | some k =>
      obtain ⟨h1, h2, _⟩ := indexOf_some t _ k hi
      have hd : delItem a k = .ok (setTokens ((tokens a).erase t)) := by
        unfold delItem PyList.delAt
        rw [index_nat _ _ h1]
        simp only [h2]
      obtain ⟨a', e1, e2⟩ := ih (setTokens ((tokens a).erase t))
      refine ⟨a', by simp only [removeLoop, hi, hd]; exact e1, ?_⟩
      rw [e2, List.foldl_cons, tokens_setTokens]
      intro x hx
      exact splitWs_words _ x (List.mem_of_mem_erase hx)

/-- **C46** (remove).  Removing admissible tokens takes out the first occurrence of
each and leaves the others in order. -/
theorem remove_spec (a : Attr) (ts : List Str) (h : ∀ t ∈ ts, Admissible t) :
    ∃ a', remove a ts = .ok a' ∧ tokens a' = ts.foldl List.erase (tokens a) := by
  have hv : ts.all valid = true := by
    rw [List.all_eq_true]; exact fun t ht => (valid_iff t).mpr (h t ht)
  unfold remove
  rw [if_pos hv]
  exact removeLoop_spec ts a

/-- **C46** (errors).  An inadmissible token makes add and remove fail. -/
theorem inadmissible_error (a : Attr) (ts : List Str) (h : ∃ t ∈ ts, ¬ Admissible t) :
    add a ts = .error .valueError ∧ remove a ts = .error .valueError := by
  have hv : ¬ ts.all valid = true := by
    rw [List.all_eq_true]
    intro hall
    obtain ⟨t, ht, hn⟩ := h
    exact hn ((valid_iff t).mp (hall t ht))
  simp only [add, remove, hv, if_false, Bool.false_eq_true, and_self]

/-- **C46** (replace).  A token that is there is replaced in place by a word that is
not, and `True` is returned; otherwise nothing changes and `False` is returned. -/
theorem replace_spec (a : Attr) (t new : Str) (ht : Admissible t) (hn : Word new) :
    (t ∈ tokens a → new ∉ tokens a →
      ∃ a', replace a t new = .ok (true, a') ∧ tokens a' = specReplace t new (tokens a)) ∧
    ((t ∉ tokens a ∨ new ∈ tokens a) → replace a t new = .ok (false, a)) := by
  have hv : [t, new].all valid = true := by
    simp [(valid_iff t).mpr ht, valid_word new hn]
  constructor
  · intro h1 h2
    unfold replace
    rw [if_pos hv, if_neg (by tauto)]
    cases hi : PyList.indexOf t (tokens a) with
    | none => exact absurd h1 ((indexOf_none t _).mp hi)
    | some k =>
      obtain ⟨h3, _, h4⟩ := indexOf_some t _ k hi
      have hs : setItem a k new = .ok (setTokens (specReplace t new (tokens a))) := by
        unfold setItem PyList.setAt
        rw [if_neg h2, index_nat _ _ h3]
        simp only [h4]
      simp only [hs]
      refine ⟨_, rfl, ?_⟩
      apply tokens_setTokens
      rw [← h4]
      intro x hx
      rcases List.mem_or_eq_of_mem_set hx with hx | rfl
      · exact splitWs_words _ x hx
      · exact hn
  · intro h
    unfold replace
    rw [if_pos hv, if_pos h]

/-- **C46** (toggle).  Toggling a word removes it (once) if it is there and adds it
otherwise; `force` restricts it to one direction. -/
theorem toggle_spec (a : Attr) (t : Str) (h : Word t) (force : Option Bool) :
    ∃ r a', toggle a t force = .ok (r, a') ∧
      (t ∈ tokens a → force ≠ some true → r = false ∧ tokens a' = (tokens a).erase t) ∧
      (t ∈ tokens a → force = some true → r = true ∧ a' = a) ∧
      (t ∉ tokens a → force ≠ some false → r = true ∧ tokens a' = tokens a ++ [t]) ∧
      (t ∉ tokens a → force = some false → r = false ∧ a' = a) := by
  have ht : Admissible t := (valid_iff t).mp (valid_word t h)
  unfold toggle
  by_cases hm : t ∈ tokens a
  · rw [if_pos hm]
    by_cases hf : force = some true
    · subst hf
      simp only [reduceCtorEq, Option.some.injEq, Bool.true_eq_false, or_self, if_false]
      exact ⟨_, _, rfl, by simp, by simp, fun h => absurd hm h, fun h => absurd hm h⟩
    · have hf' : force = none ∨ force = some false := by
        cases force with
        | none => exact .inl rfl
        | some b => cases b <;> simp_all
      rw [if_pos hf']
      obtain ⟨a', e1, e2⟩ := remove_spec a [t] (by simpa using ht)
      simp only [e1]
      exact ⟨_, _, rfl, fun _ _ => ⟨rfl, by simpa using e2⟩, fun _ h => absurd h hf,
        fun h => absurd hm h, fun h => absurd hm h⟩
  · rw [if_neg hm]
    by_cases hf : force = some false
    · subst hf
      simp only [reduceCtorEq, Option.some.injEq, Bool.false_eq_true, or_self, if_false]
      exact ⟨_, _, rfl, fun h => absurd h hm, fun h => absurd h hm, by simp, by simp⟩
    · have hf' : force = none ∨ force = some true := by
        cases force with
        | none => exact .inl rfl
        | some b => cases b <;> simp_all
      rw [if_pos hf']
      obtain ⟨a', e1, e2⟩ := add_spec a [t] (by simpa using h)
      simp only [e1]
      refine ⟨_, _, rfl, fun h => absurd h hm, fun h => absurd h hm, fun _ _ => ⟨rfl, ?_⟩,
        fun _ h => absurd h hf⟩
      rw [e2]
      simp [specAdd1, hm]

/-! ### Histories -/

/-- Operations of a history. -/
inductive Op
  | add (ts : List Str)
  | remove (ts : List Str)
  | replace (t new : Str)
  | toggle (t : Str) (force : Option Bool)

/-- One operation; an exception leaves the attribute alone. -/
def step (a : Attr) : Op → Attr
  | .add ts => (add a ts).toOption.getD a
  | .remove ts => (remove a ts).toOption.getD a
  | .replace t n => ((replace a t n).toOption.map (·.2)).getD a
  | .toggle t f => ((toggle a t f).toOption.map (·.2)).getD a

/-- The tokens named are words (in particular without non-ASCII white space). -/
def Op.Words : Op → Prop
  | .add ts => ∀ t ∈ ts, Word t
  | .remove ts => ∀ t ∈ ts, Word t
  | .replace t n => Word t ∧ Word n
  | .toggle t _ => Word t

private theorem nodup_specAdd1 (ts : List Str) (t : Str) (h : ts.Nodup) : (specAdd1 ts t).Nodup := by
  unfold specAdd1
  split
  · exact h
  · rename_i hm
    rw [List.nodup_append]
    refine ⟨h, by simp, ?_⟩
    intro a ha b hb e
    simp only [List.mem_cons, List.not_mem_nil, or_false] at hb
    exact hm (hb ▸ e ▸ ha)

private theorem nodup_foldAdd (us : List Str) : ∀ ts : List Str, ts.Nodup → (us.foldl specAdd1 ts).Nodup := by
  induction us with
  | nil => intro ts h; exact h
  | cons u us ih => intro ts h; exact ih _ (nodup_specAdd1 ts u h)

private theorem nodup_foldErase (us : List Str) : ∀ ts : List Str, ts.Nodup → (us.foldl List.erase ts).Nodup := by
  induction us with
  | nil => intro ts h; exact h
  | cons u us ih => intro ts h; exact ih _ (h.erase u)

private theorem mem_specReplace (t new : Str) (ts : List Str) (x : Str) (h : x ∈ specReplace t new ts) :
    x = new ∨ x ∈ ts := by
  induction ts with
  | nil => simp [specReplace] at h
  | cons y ys ih =>
    simp only [specReplace] at h
    split at h
    · rcases List.mem_cons.mp h with h | h
      · exact .inl h
      · exact .inr (by simp [h])
    · rcases List.mem_cons.mp h with h | h
      · exact .inr (by simp [h])
      · rcases ih h with h | h
        · exact .inl h
        · exact .inr (by simp [h])

private theorem nodup_specReplace (t new : Str) (ts : List Str) (h : ts.Nodup) (hn : new ∉ ts) :
    (specReplace t new ts).Nodup := by
  induction ts with
  | nil => exact List.nodup_nil
  | cons y ys ih =>
    rw [List.nodup_cons] at h
    simp only [List.mem_cons, not_or] at hn
    simp only [specReplace]
    split
    · rw [List.nodup_cons]; exact ⟨hn.2, h.2⟩
    · rw [List.nodup_cons]
      refine ⟨?_, ih h.2 hn.2⟩
      intro hy
      rcases mem_specReplace t new ys y hy with e | hy
      · exact hn.1 e.symm
      · exact h.1 hy

/-- **C46** (no duplicates).  No operation on words introduces a duplicate, in any
history. -/
theorem history_nodup_partial (ops : List Op) (hw : ∀ o ∈ ops, o.Words) (a : Attr) (ha : (tokens a).Nodup) :
    (tokens (ops.foldl step a)).Nodup := by
  induction ops generalizing a with
  | nil => exact ha
  | cons o os ih =>
    refine ih (fun o' h' => hw o' (by simp [h'])) _ ?_
    have ho := hw o (by simp)
    cases o with
    | add ts =>
      obtain ⟨a', e1, e2⟩ := add_spec a ts ho
      simp only [step, e1, Except.toOption, Option.getD_some, e2]
      exact nodup_foldAdd ts _ ha
    | remove ts =>
      obtain ⟨a', e1, e2⟩ := remove_spec a ts (fun t ht => (valid_iff t).mp (valid_word t (ho t ht)))
      simp only [step, e1, Except.toOption, Option.getD_some, e2]
      exact nodup_foldErase ts _ ha
    | replace t n =>
      have hs := replace_spec a t n ((valid_iff t).mp (valid_word t ho.1)) ho.2
      by_cases h : t ∈ tokens a ∧ n ∉ tokens a
      · obtain ⟨a', e1, e2⟩ := hs.1 h.1 h.2
        simp only [step, e1, Except.toOption, Option.map_some, Option.getD_some, e2]
        exact nodup_specReplace t n _ ha h.2
      · have e1 := hs.2 (by tauto)
        simp only [step, e1, Except.toOption, Option.map_some, Option.getD_some]
        exact ha
    | toggle t f =>
      obtain ⟨r, a', e1, h1, h2, h3, h4⟩ := toggle_spec a t ho f
      simp only [step, e1, Except.toOption, Option.map_some, Option.getD_some]
      by_cases hm : t ∈ tokens a
      · by_cases hf : f = some true
        · rw [(h2 hm hf).2]; exact ha
        · rw [(h1 hm hf).2]; exact ha.erase t
      · by_cases hf : f = some false
        · rw [(h4 hm hf).2]; exact ha
        · rw [(h3 hm hf).2]
          have := nodup_specAdd1 _ t ha
          rwa [specAdd1, if_neg hm] at this

private theorem mem_foldAdd (us : List Str) : ∀ (ts : List Str) (x : Str),
    x ∈ us.foldl specAdd1 ts ↔ x ∈ ts ∨ x ∈ us := by
  induction us with
  | nil => intro ts x; simp
  | cons u us ih =>
    intro ts x
    rw [List.foldl_cons, ih, List.mem_cons]
    unfold specAdd1
    split
    · rename_i hm
      constructor
      · rintro (h | h) <;> tauto
      · rintro (h | rfl | h) <;> tauto
    · simp only [List.mem_append, List.mem_cons, List.not_mem_nil, or_false]; tauto

private theorem mem_foldErase (us : List Str) : ∀ (ts : List Str) (x : Str), ts.Nodup →
    (x ∈ us.foldl List.erase ts ↔ x ∈ ts ∧ x ∉ us) := by
  induction us with
  | nil => intro ts x _; simp
  | cons u us ih =>
    intro ts x h
    rw [List.foldl_cons, ih _ _ (h.erase u), List.Nodup.mem_erase_iff h, List.mem_cons]
    tauto

/-- **C46** (membership).  After adding words exactly those are new; after removing
tokens from a list without duplicates exactly those are gone. -/
theorem membership_partial (a : Attr) (ts : List Str) (h : ∀ t ∈ ts, Word t) :
    (∃ a', add a ts = .ok a' ∧ ∀ x, contains a' x = true ↔ contains a x = true ∨ x ∈ ts) ∧
    ((tokens a).Nodup →
      ∃ a', remove a ts = .ok a' ∧ ∀ x, contains a' x = true ↔ contains a x = true ∧ x ∉ ts) := by
  constructor
  · obtain ⟨a', e1, e2⟩ := add_spec a ts h
    refine ⟨a', e1, fun x => ?_⟩
    simp only [contains, decide_eq_true_eq, e2, mem_foldAdd]
  · intro ha
    obtain ⟨a', e1, e2⟩ := remove_spec a ts (fun t ht => (valid_iff t).mp (valid_word t (h t ht)))
    refine ⟨a', e1, fun x => ?_⟩
    simp only [contains, decide_eq_true_eq, e2, mem_foldErase _ _ _ ha]

/-- **C46** (toggle).  In a list without duplicates toggling a word returns whether it
is there afterwards, and without `force` that is the opposite of before. -/
theorem toggle_returns_partial (a : Attr) (ha : (tokens a).Nodup) (t : Str) (h : Word t) (force : Option Bool) :
    ∃ r a', toggle a t force = .ok (r, a') ∧ contains a' t = r ∧
      (force = none → r = !contains a t) ∧ (∀ b, force = some b → r = b) ∧
      ∀ x, x ≠ t → contains a' x = contains a x := by
  obtain ⟨r, a', e, h1, h2, h3, h4⟩ := toggle_spec a t h force
  refine ⟨r, a', e, ?_⟩
  by_cases hm : t ∈ tokens a
  · by_cases hf : force = some true
    · obtain ⟨rfl, rfl⟩ := h2 hm hf
      refine ⟨by simp [contains, hm], by simp [hf], ?_, fun x _ => rfl⟩
      intro b hb; rw [hf] at hb; exact Option.some.inj hb
    · obtain ⟨rfl, e2⟩ := h1 hm hf
      refine ⟨?_, ?_, ?_, ?_⟩
      · simp [contains, e2, List.Nodup.mem_erase_iff ha]
      · intro _; simp [contains, hm]
      · intro b hb; cases b
        · rfl
        · exact absurd hb hf
      · intro x hx; simp [contains, e2, List.Nodup.mem_erase_iff ha, hx]
  · by_cases hf : force = some false
    · obtain ⟨rfl, rfl⟩ := h4 hm hf
      refine ⟨by simp [contains, hm], by simp [hf], ?_, fun x _ => rfl⟩
      intro b hb; rw [hf] at hb; exact Option.some.inj hb
    · obtain ⟨rfl, e2⟩ := h3 hm hf
      refine ⟨?_, ?_, ?_, ?_⟩
      · simp [contains, e2]
      · intro _; simp [contains, hm]
      · intro b hb; cases b
        · exact absurd hb hf
        · rfl
      · intro x hx; simp [contains, e2, hx]

/-- **C46** violated: with a repeated token in the attribute, removing leaves one and
toggling returns `False` although the token is still there. -/
theorem remove_duplicate_violated :
    (∃ a', remove (some "a a".toList) ["a".toList] = .ok a' ∧ contains a' "a".toList = true) ∧
    (∃ a', toggle (some "a a".toList) "a".toList none = .ok (false, a') ∧ contains a' "a".toList = true) := by
  refine ⟨⟨some "a".toList, by decide, by decide⟩, ⟨some "a".toList, by decide, by decide⟩⟩

/-- **C46** violated: an admissible token with a no-break space is not contained after
it was added, and adding it twice makes a duplicate. -/
theorem add_nbsp_violated :
    Admissible "a\u00a0b".toList ∧
    (∃ a', add none ["a\u00a0b".toList] = .ok a' ∧ contains a' "a\u00a0b".toList = false ∧
      ∃ a'', add a' ["a\u00a0b".toList] = .ok a'' ∧ ¬ (tokens a'').Nodup) := by
  refine ⟨?_, some "a\u00a0b".toList, by decide, by decide, some "a b a\u00a0b".toList, by decide, by decide⟩
  rw [← valid_iff]; decide

/-- Non-trivial instance: a history over an attribute with irregular spacing. -/
example : tokens ([Op.add ["c".toList, "a".toList], .replace "b".toList "d".toList, .toggle "a".toList none,
    .remove ["x".toList, "c".toList]].foldl step (some " a\t b ".toList)) = ["d".toList] := by decide

/-- Removing the last token removes the attribute. -/
example : remove (some " a ".toList) ["a".toList] = .ok none := by decide

end SvgPy.TokenList
