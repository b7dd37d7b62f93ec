import Verif.Model.SeqSplit
import Verif.Lemmas.PyStr

/-! Lemmas on splitting at commas and white space. -/

namespace SvgPy.SeqSplit

open PyStr

theorem dropWhile_le (p : Char → Bool) (s : Str) : (s.dropWhile p).length ≤ s.length := by
  induction s with
  | nil => simp
  | cons x s ih =>
    rw [List.dropWhile_cons]
    split
    · simp only [List.length_cons]; omega
    · simp

theorem sepAt_lt (s r : Str) (h : sepAt s = some r) : r.length < s.length := by
  unfold sepAt at h
  split at h
  · rename_i t ht
    have h1 := dropWhile_le isSpace s
    have h2 := dropWhile_le isSpace t
    rw [ht] at h1
    simp only [Option.some.injEq] at h
    rw [← h]
    simp only [List.length_cons] at h1
    omega
  · split at h
    · cases h
    · rename_i c t _
      split at h
      · rename_i hc
        simp only [Option.some.injEq] at h
        rw [← h]
        rw [List.dropWhile_cons, if_pos hc]
        have := dropWhile_le isSpace t
        simp only [List.length_cons]
        omega
      · cases h

theorem splitN_more : ∀ (n m : Nat) (s : Str), s.length < n → s.length < m → splitN n s = splitN m s
  | 0, _, _, h, _ => absurd h (Nat.not_lt_zero _)
  | _ + 1, 0, _, _, h => absurd h (Nat.not_lt_zero _)
  | _ + 1, _ + 1, [], _, _ => rfl
  | n + 1, m + 1, c :: t, h1, h2 => by
    simp only [List.length_cons] at h1 h2
    show (match sepAt (c :: t) with
      | some r => [] :: splitN n r
      | none => match splitN n t with
        | [] => [[c]]
        | p :: ps => (c :: p) :: ps) = (match sepAt (c :: t) with
      | some r => [] :: splitN m r
      | none => match splitN m t with
        | [] => [[c]]
        | p :: ps => (c :: p) :: ps)
    cases hs : sepAt (c :: t) with
    | some r =>
      have := sepAt_lt _ _ hs
      simp only [List.length_cons] at this
      simp only
      rw [splitN_more n m r (by omega) (by omega)]
    | none =>
      simp only
      rw [splitN_more n m t (by omega) (by omega)]

theorem split_nil : split [] = [[]] := rfl

theorem split_some (c : Char) (t r : Str) (h : sepAt (c :: t) = some r) : split (c :: t) = [] :: split r := by
  have := sepAt_lt _ _ h
  simp only [List.length_cons] at this
  show (match sepAt (c :: t) with
      | some r => [] :: splitN _ r
      | none => match splitN _ t with
        | [] => [[c]]
        | p :: ps => (c :: p) :: ps) = _
  rw [h]
  simp only [split]
  rw [splitN_more _ (r.length + 1) r (by simp only [List.length_cons]; omega) (by omega)]

theorem split_none (c : Char) (t : Str) (h : sepAt (c :: t) = none) : split (c :: t) =
    (match split t with
      | [] => [[c]]
      | p :: ps => (c :: p) :: ps) := by
  show (match sepAt (c :: t) with
      | some r => [] :: splitN _ r
      | none => match splitN _ t with
        | [] => [[c]]
        | p :: ps => (c :: p) :: ps) = _
  rw [h]
  rfl

theorem split_ne (s : Str) : split s ≠ [] := by
  cases s with
  | nil => rw [split_nil]; simp
  | cons c t =>
    cases h : sepAt (c :: t) with
    | some r => rw [split_some c t r h]; simp
    | none =>
      rw [split_none c t h]
      cases split t <;> simp

/-- Neither white space nor a comma. -/
def Plain (s : Str) : Prop := ∀ c ∈ s, isSpace c = false ∧ c ≠ ','

/-- White space with at most one comma, not empty. -/
def Sep (s : Str) : Prop :=
  (s ≠ [] ∧ ∀ c ∈ s, isSpace c = true) ∨
  ∃ a b, s = a ++ ',' :: b ∧ (∀ c ∈ a, isSpace c = true) ∧ ∀ c ∈ b, isSpace c = true

theorem dropWhile_append_space (a b : Str) (h : ∀ c ∈ a, isSpace c = true) :
    (a ++ b).dropWhile isSpace = b.dropWhile isSpace := by
  induction a with
  | nil => rfl
  | cons x a ih =>
    rw [List.cons_append, List.dropWhile_cons, if_pos (h x List.mem_cons_self)]
    exact ih (fun c hc => h c (List.mem_cons_of_mem _ hc))

theorem sepAt_plain (c : Char) (t : Str) (h : isSpace c = false ∧ c ≠ ',') : sepAt (c :: t) = none := by
  have : (c :: t).dropWhile isSpace = c :: t := by rw [List.dropWhile_cons, h.1]; rfl
  unfold sepAt
  rw [this]
  split
  · rename_i t' he
    simp only [List.cons.injEq] at he
    exact absurd he.1 h.2
  · simp [h.1]

theorem split_plain_append (a s : Str) (h : Plain a) :
    split (a ++ s) = match split s with
      | [] => [a]
      | p :: ps => (a ++ p) :: ps := by
  induction a with
  | nil =>
    simp only [List.nil_append]
    cases hs : split s with
    | nil => exact absurd hs (split_ne s)
    | cons p ps => rfl
  | cons x a ih =>
    rw [List.cons_append, split_none x _ (sepAt_plain x _ (h x List.mem_cons_self)),
      ih (fun c hc => h c (List.mem_cons_of_mem _ hc))]
    cases split s <;> rfl

theorem split_plain (a : Str) (h : Plain a) : split a = [a] := by
  have := split_plain_append a [] h
  rw [List.append_nil] at this
  rw [this]
  simp [split_nil]

theorem sepAt_sep (b s : Str) (h : Sep b) (hs : ∀ c t, s = c :: t → isSpace c = false ∧ c ≠ ',') :
    sepAt (b ++ s) = some s := by
  have hd : s.dropWhile isSpace = s := by
    cases s with
    | nil => rfl
    | cons c t => rw [List.dropWhile_cons, (hs c t rfl).1]; rfl
  rcases h with ⟨hne, hb⟩ | ⟨a, b', rfl, ha, hb⟩
  · unfold sepAt
    rw [dropWhile_append_space b s hb, hd]
    cases b with
    | nil => exact absurd rfl hne
    | cons x b =>
      split
      · rename_i t
        exact absurd rfl (hs _ _ rfl).2
      · simp [hb x List.mem_cons_self]
  · unfold sepAt
    have e : a ++ ',' :: b' ++ s = a ++ (',' :: (b' ++ s)) := by simp
    rw [e, dropWhile_append_space a _ ha]
    have e2 : (',' :: (b' ++ s)).dropWhile isSpace = ',' :: (b' ++ s) := by
      rw [List.dropWhile_cons, if_neg (by decide)]
    rw [e2]
    simp only [dropWhile_append_space b' s hb, hd]

/-- An item, a separator and more. -/
theorem split_item (a b s : Str) (ha : Plain a) (hb : Sep b)
    (hs : ∀ c t, s = c :: t → isSpace c = false ∧ c ≠ ',') : split (a ++ b ++ s) = a :: split s := by
  have h1 : split (b ++ s) = [] :: split s := by
    have hsep := sepAt_sep b s hb hs
    cases hbs : b ++ s with
    | nil =>
      exfalso
      rcases hb with ⟨hne, _⟩ | ⟨x, y, rfl, _⟩
      · cases b with
        | nil => exact hne rfl
        | cons _ _ => cases hbs
      · simp at hbs
    | cons c t =>
      rw [hbs] at hsep
      exact split_some c t s hsep
  rw [List.append_assoc, split_plain_append a (b ++ s) ha, h1]
  simp

end SvgPy.SeqSplit
