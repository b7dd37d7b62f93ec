import Verif.Model.PyDict
import Mathlib.Data.List.Nodup
import Mathlib.Data.List.Induction

/-! Lemmas about the dictionary model. -/

namespace SvgPy.Dict

variable {α β : Type} [DecidableEq α]

theorem get?_set (d : Dict α β) (k k' : α) (v : β) :
    get? (set d k v) k' = if k = k' then some v else get? d k' := by
  induction d with
  | nil => simp [set, get?]
  | cons p d ih =>
    obtain ⟨a, b⟩ := p
    by_cases h : a = k
    · subst h
      by_cases h2 : a = k' <;> simp [set, get?, h2]
    · by_cases h2 : a = k'
      · subst h2
        simp [set, get?, h, Ne.symm h]
      · simp [set, get?, h, h2, ih]

theorem get?_eq_none_iff (d : Dict α β) (k : α) : get? d k = none ↔ k ∉ keys d := by
  induction d with
  | nil => simp [get?, keys]
  | cons p d ih =>
    obtain ⟨a, b⟩ := p
    by_cases h : a = k
    · simp [get?, keys, h]
    · simp only [get?, h, if_false, ih, keys, List.map_cons, List.mem_cons, not_or]
      exact ⟨fun h' => ⟨Ne.symm h, h'⟩, fun h' => h'.2⟩

theorem contains_iff (d : Dict α β) (k : α) : contains d k = true ↔ k ∈ keys d := by
  have := get?_eq_none_iff d k
  cases h : get? d k <;> simp_all [contains]

theorem keys_set (d : Dict α β) (k : α) (v : β) :
    keys (set d k v) = if k ∈ keys d then keys d else keys d ++ [k] := by
  induction d with
  | nil => simp [set, keys]
  | cons p d ih =>
    obtain ⟨a, b⟩ := p
    by_cases h : a = k
    · simp [set, keys, h]
    · have h' : ¬ k = a := Ne.symm h
      simp only [keys] at ih
      simp only [set, h, if_false, keys, List.map_cons, ih, List.mem_cons, h', false_or]
      by_cases hm : k ∈ List.map (fun x => x.1) d <;> simp [hm]

theorem keys_del (d : Dict α β) (k : α) : keys (del d k) = (keys d).erase k := by
  induction d with
  | nil => simp [del, keys]
  | cons p d ih =>
    obtain ⟨a, b⟩ := p
    by_cases h : a = k
    · simp [del, keys, h]
    · simp only [keys] at ih
      simp [del, keys, h, ih]

theorem nodup_set (d : Dict α β) (k : α) (v : β) (h : (keys d).Nodup) :
    (keys (set d k v)).Nodup := by
  rw [keys_set]
  split
  · exact h
  · rename_i hk
    simp only [List.nodup_append, List.nodup_cons, List.not_mem_nil, not_false_eq_true, List.nodup_nil,
      and_self, List.mem_cons, or_false, forall_eq, true_and, h]
    intro a ha hb
    subst hb
    exact hk ha

theorem nodup_del (d : Dict α β) (k : α) (h : (keys d).Nodup) : (keys (del d k)).Nodup := by
  rw [keys_del]; exact h.erase k

theorem get?_del (d : Dict α β) (k k' : α) (h : (keys d).Nodup) :
    get? (del d k) k' = if k = k' then none else get? d k' := by
  induction d with
  | nil => simp [del, get?]
  | cons p d ih =>
    obtain ⟨a, b⟩ := p
    simp only [keys, List.map_cons, List.nodup_cons] at h
    by_cases h1 : a = k
    · subst h1
      by_cases h2 : a = k'
      · subst h2
        simp only [del, if_true]
        exact (get?_eq_none_iff d a).mpr h.1
      · simp [del, get?, h2]
    · by_cases h2 : a = k'
      · subst h2
        simp [del, get?, h1, Ne.symm h1]
      · simp [del, get?, h1, h2, ih h.2]

/-- A dictionary with distinct keys is determined by its key order and lookups. -/
theorem eq_map_keys (d : Dict α β) (h : (keys d).Nodup) :
    d.map (fun p => (p.1, some p.2)) = (keys d).map (fun k => (k, get? d k)) := by
  induction d with
  | nil => rfl
  | cons p d ih =>
    obtain ⟨a, b⟩ := p
    simp only [keys, List.map_cons, List.nodup_cons] at h
    simp only [List.map_cons, keys, get?, if_true, List.cons.injEq, true_and, ih h.2]
    apply List.map_congr_left
    intro k hk
    have : a ≠ k := fun e => h.1 (e ▸ hk)
    simp [this]

theorem mem_iff_get? (d : Dict α β) (h : (keys d).Nodup) (k : α) (v : β) :
    (k, v) ∈ d ↔ get? d k = some v := by
  induction d with
  | nil => simp [get?]
  | cons p d ih =>
    obtain ⟨a, b⟩ := p
    simp only [keys, List.map_cons, List.nodup_cons] at h
    by_cases h2 : a = k
    · subst h2
      have : ∀ v, (a, v) ∉ d := fun v hv => h.1 (List.mem_map_of_mem (f := (·.1)) hv)
      simp [get?, this, eq_comm]
    · simp [get?, h2, ih h.2, Ne.symm h2]

theorem nodup_update (d : Dict α β) (ps : List (α × β)) (h : (keys d).Nodup) :
    (keys (update d ps)).Nodup := by
  induction ps generalizing d with
  | nil => exact h
  | cons p ps ih => exact ih _ (nodup_set d p.1 p.2 h)

theorem get?_update_append (d : Dict α β) (ps qs : List (α × β)) :
    update d (ps ++ qs) = update (update d ps) qs := by simp [update]

/-- Updating with pairs: the last pair with the key decides. -/
theorem get?_update_last (d : Dict α β) (ps : List (α × β)) (k : α) :
    get? (update d ps) k = (get? ps.reverse k).or (get? d k) := by
  induction ps using List.reverseRecOn with
  | nil => simp [update, get?]
  | append_singleton ps p ih =>
    rw [get?_update_append]
    simp only [update, List.foldl_cons, List.foldl_nil, get?_set, List.reverse_append,
      List.reverse_singleton, List.singleton_append, get?]
    simp only [update] at ih
    by_cases h : p.1 = k <;> simp [h, ih]

/-- Updating with a dictionary: its values win. -/
theorem get?_update (d ps : Dict α β) (k : α) (h : (keys ps).Nodup) :
    get? (update d ps) k = (get? ps k).or (get? d k) := by
  induction ps generalizing d with
  | nil => simp [update, get?]
  | cons p ps ih =>
    simp only [keys, List.map_cons, List.nodup_cons] at h
    have : update d (p :: ps) = update (set d p.1 p.2) ps := rfl
    rw [this, ih _ h.2, get?_set]
    by_cases hk : p.1 = k
    · have : get? ps k = none := by
        rw [get?_eq_none_iff, ← hk]; exact h.1
      simp [hk, get?, this]
    · simp [hk, get?]

theorem get?_append (d e : Dict α β) (k : α) : get? (d ++ e) k = (get? d k).or (get? e k) := by
  induction d with
  | nil => simp [get?]
  | cons p d ih =>
    obtain ⟨a, b⟩ := p
    by_cases h : a = k <;> simp [get?, h, ih]

theorem get?_setEnd (d : Dict α β) (k k' : α) (v : β) (h : (keys d).Nodup) :
    get? (setEnd d k v) k' = if k = k' then some v else get? d k' := by
  rw [setEnd, get?_append, get?_del _ _ _ h]
  by_cases hk : k = k'
  · simp [hk, get?]
  · simp [hk, get?]

theorem nodup_setEnd (d : Dict α β) (k : α) (v : β) (h : (keys d).Nodup) :
    (keys (setEnd d k v)).Nodup := by
  have hn : k ∉ keys (del d k) := by
    rw [← get?_eq_none_iff, get?_del _ _ _ h, if_pos rfl]
  have hd := nodup_del d k h
  simp only [keys] at hn hd
  simp only [setEnd, keys, List.map_append, List.map_cons, List.map_nil]
  rw [List.nodup_append]
  refine ⟨hd, by simp, ?_⟩
  intro a ha b hb
  simp only [List.mem_cons, List.not_mem_nil, or_false] at hb
  subst hb
  intro e
  exact hn (e ▸ ha)

/-- Deleting a key of a dictionary with distinct keys is filtering. -/
theorem del_eq_filter (d : Dict α β) (k : α) (h : (keys d).Nodup) :
    del d k = d.filter (fun p => p.1 ≠ k) := by
  induction d with
  | nil => rfl
  | cons p d ih =>
    obtain ⟨a, b⟩ := p
    simp only [keys, List.map_cons, List.nodup_cons] at h
    by_cases hk : a = k
    · have : ∀ p ∈ d, p.1 ≠ k := by
        intro p hp e
        exact h.1 (hk ▸ e ▸ List.mem_map_of_mem (f := (·.1)) hp)
      have hf : d.filter (fun p => p.1 ≠ k) = d := by
        rw [List.filter_eq_self]
        intro p hp
        simpa using this p hp
      simp only [ne_eq, decide_not] at hf
      simp [del, hk, hf]
    · have := ih h.2
      simp only [ne_eq, decide_not] at this
      simp [del, hk, this]

end SvgPy.Dict
