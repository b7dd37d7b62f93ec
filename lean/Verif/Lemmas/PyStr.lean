import Verif.Model.PyStr
import Mathlib.Data.List.Sort
import Mathlib.Data.List.Basic

/-! Lemmas about the string model. -/

namespace SvgPy.PyStr

theorem splitOn_ne_nil (c : Char) (s : Str) : splitOn c s ≠ [] := by
  induction s with
  | nil => simp [splitOn]
  | cons x xs ih =>
    simp only [splitOn]
    split
    · simp
    · split <;> simp

theorem splitOn_notMem (c : Char) (a : Str) (h : c ∉ a) : splitOn c a = [a] := by
  induction a with
  | nil => rfl
  | cons x xs ih =>
    simp only [List.mem_cons, not_or] at h
    simp [splitOn, Ne.symm h.1, ih h.2]

theorem splitOn_append (c : Char) (a b : Str) (h : c ∉ a) :
    splitOn c (a ++ c :: b) = a :: splitOn c b := by
  induction a with
  | nil => simp [splitOn]
  | cons x xs ih =>
    simp only [List.mem_cons, not_or] at h
    simp [splitOn, Ne.symm h.1, ih h.2]

/-- `c.join(s.split(c)) == s`. -/
theorem join_splitOn (c : Char) (s : Str) : join [c] (splitOn c s) = s := by
  induction s with
  | nil => rfl
  | cons x xs ih =>
    simp only [splitOn]
    split
    · rename_i h
      subst h
      cases hs : splitOn x xs with
      | nil => exact absurd hs (splitOn_ne_nil x xs)
      | cons p ps => rw [hs] at ih; simp [join, ih]
    · cases hs : splitOn c xs with
      | nil => exact absurd hs (splitOn_ne_nil c xs)
      | cons p ps =>
        rw [hs] at ih
        cases ps with
        | nil => simp [join] at ih ⊢; exact ih
        | cons q qs => simp [join] at ih ⊢; exact ih

/-- `c.join(parts).split(c) == parts` for parts without `c`. -/
theorem splitOn_join (c : Char) (ps : List Str) (hne : ps ≠ []) (h : ∀ p ∈ ps, c ∉ p) :
    splitOn c (join [c] ps) = ps := by
  induction ps with
  | nil => exact absurd rfl hne
  | cons p ps ih =>
    cases ps with
    | nil => simp [join, splitOn_notMem c p (h p (by simp))]
    | cons q qs =>
      have := ih (by simp) (fun p' hp' => h p' (by simp [hp']))
      simp only [join, List.append_assoc, List.singleton_append]
      rw [splitOn_append c p _ (h p (by simp)), this]

theorem cut_some_iff (c : Char) (s a b : Str) : cut c s = some (a, b) ↔ s = a ++ c :: b ∧ c ∉ a := by
  induction s generalizing a with
  | nil => simp [cut]
  | cons x xs ih =>
    by_cases h : x = c
    · subst h
      simp only [cut, if_true, Option.some.injEq, Prod.mk.injEq]
      constructor
      · rintro ⟨rfl, rfl⟩; simp
      · rintro ⟨h1, h2⟩
        cases a with
        | nil => simpa using h1
        | cons y ys =>
          simp only [List.cons_append, List.cons.injEq] at h1
          simp [h1.1] at h2
    · simp only [cut, h, if_false]
      cases hc : cut c xs with
      | none =>
        simp only [reduceCtorEq, false_iff, not_and]
        intro h1
        cases a with
        | nil => simp at h1; exact absurd h1.1 h
        | cons y ys =>
          simp only [List.cons_append, List.cons.injEq] at h1
          intro h2
          simp only [List.mem_cons, not_or] at h2
          have := (ih ys).mpr ⟨h1.2, h2.2⟩
          simp [hc] at this
      | some v =>
        obtain ⟨a', b'⟩ := v
        simp only [Option.some.injEq, Prod.mk.injEq]
        constructor
        · rintro ⟨rfl, rfl⟩
          have := (ih a').mp hc
          refine ⟨by simp [this.1], ?_⟩
          simp only [List.mem_cons, not_or]
          exact ⟨Ne.symm h, this.2⟩
        · rintro ⟨h1, h2⟩
          cases a with
          | nil => simp at h1; exact absurd h1.1 h
          | cons y ys =>
            simp only [List.cons_append, List.cons.injEq] at h1
            simp only [List.mem_cons, not_or] at h2
            have := (ih ys).mpr ⟨h1.2, h2.2⟩
            rw [hc] at this
            simp only [Option.some.injEq, Prod.mk.injEq] at this
            exact ⟨by rw [h1.1, this.1], this.2⟩

theorem cut_append (c : Char) (a b : Str) (h : c ∉ a) : cut c (a ++ c :: b) = some (a, b) :=
  (cut_some_iff c _ a b).mpr ⟨rfl, h⟩

theorem cut_none_iff (c : Char) (s : Str) : cut c s = none ↔ c ∉ s := by
  induction s with
  | nil => simp [cut]
  | cons x xs ih =>
    by_cases h : x = c
    · simp [cut, h]
    · simp only [cut, h, if_false, List.mem_cons, Ne.symm h, false_or]
      rw [← ih]
      cases cut c xs <;> simp

theorem lstrip_cons_space (x : Char) (s : Str) (h : isSpace x = true) : lstrip (x :: s) = lstrip s := by
  simp [lstrip, h]

theorem strip_cons_space (x : Char) (s : Str) (h : isSpace x = true) : strip (x :: s) = strip s := by
  rw [strip, lstrip_cons_space x s h, strip]

theorem lstrip_of_head (x : Char) (s : Str) (h : isSpace x = false) : lstrip (x :: s) = x :: s := by
  simp [lstrip, h]

theorem rstrip_append_of (x : Char) (s : Str) (h : isSpace x = false) : rstrip (s ++ [x]) = s ++ [x] := by
  simp [rstrip, h]

theorem rstrip_append_space (x : Char) (s : Str) (h : isSpace x = true) : rstrip (s ++ [x]) = rstrip s := by
  simp [rstrip, h]

/-- Neither the first nor the last character is white space. -/
def Trimmed (s : Str) : Prop :=
  (∀ x, s.head? = some x → isSpace x = false) ∧ (∀ x, s.getLast? = some x → isSpace x = false)

theorem lstrip_eq (s : Str) (h : ∀ x, s.head? = some x → isSpace x = false) : lstrip s = s := by
  cases s with
  | nil => rfl
  | cons x xs => exact lstrip_of_head x xs (h x rfl)

theorem rstrip_eq (s : Str) (h : ∀ x, s.getLast? = some x → isSpace x = false) : rstrip s = s := by
  rcases List.eq_nil_or_concat s with rfl | ⟨t, x, rfl⟩
  · rfl
  · rw [List.concat_eq_append] at *
    exact rstrip_append_of x t (h x (by simp))

theorem strip_of_trimmed (s : Str) (h : Trimmed s) : strip s = s := by
  rw [strip, lstrip_eq s h.1, rstrip_eq s h.2]

theorem lstrip_split (s : Str) : ∃ a, s = a ++ lstrip s ∧ (∀ x ∈ a, isSpace x = true) ∧
    ∀ x, (lstrip s).head? = some x → isSpace x = false := by
  induction s with
  | nil => exact ⟨[], rfl, by simp, by simp [lstrip]⟩
  | cons x xs ih =>
    by_cases h : isSpace x = true
    · obtain ⟨a, h1, h2, h3⟩ := ih
      rw [lstrip_cons_space x xs h]
      exact ⟨x :: a, by rw [List.cons_append, ← h1], by simpa [h] using h2, h3⟩
    · have h' : isSpace x = false := by simpa using h
      rw [lstrip_of_head x xs h']
      exact ⟨[], rfl, by simp, by simp [h']⟩

theorem rstrip_split (s : Str) : ∃ b, s = rstrip s ++ b ∧ (∀ x ∈ b, isSpace x = true) ∧
    ∀ x, (rstrip s).getLast? = some x → isSpace x = false := by
  obtain ⟨a, h1, h2, h3⟩ := lstrip_split s.reverse
  refine ⟨a.reverse, ?_, by simpa using h2, ?_⟩
  · have := congrArg List.reverse h1
    rw [List.reverse_reverse, List.reverse_append] at this
    exact this
  · intro x hx
    apply h3 x
    rw [← List.getLast?_reverse]
    exact hx

/-- `strip` removes white space at both ends and nothing else. -/
theorem strip_split (s : Str) : ∃ a b, s = a ++ strip s ++ b ∧ (∀ x ∈ a, isSpace x = true) ∧
    (∀ x ∈ b, isSpace x = true) ∧ Trimmed (strip s) := by
  obtain ⟨a, h1, h2, h3⟩ := lstrip_split s
  obtain ⟨b, h4, h5, h6⟩ := rstrip_split (lstrip s)
  refine ⟨a, b, ?_, h2, h5, ?_, h6⟩
  · rw [strip, List.append_assoc, ← h4]; exact h1
  · intro x hx
    apply h3 x
    rw [h4]
    have : (rstrip (lstrip s)).head? = some x := hx
    cases hr : rstrip (lstrip s) with
    | nil => simp [hr] at this
    | cons y ys => simp [hr] at this; simp [this]

theorem trimmed_strip (s : Str) : Trimmed (strip s) := by
  obtain ⟨_, _, _, _, _, h⟩ := strip_split s
  exact h

theorem strip_around (a w b : Str) (ha : ∀ x ∈ a, isSpace x = true) (hb : ∀ x ∈ b, isSpace x = true)
    (hw : Trimmed w) : strip (a ++ (w ++ b)) = w := by
  have h1 : ∀ b, (∀ x ∈ b, isSpace x = true) → rstrip (w ++ b) = w := by
    intro b hb
    have e : rstrip (w ++ b) = rstrip w := by
      unfold rstrip
      rw [List.reverse_append, List.dropWhile_append_of_pos (by simpa using hb)]
    rw [e, rstrip_eq w hw.2]
  unfold strip lstrip
  rw [List.dropWhile_append_of_pos ha]
  cases w with
  | nil =>
    rw [List.nil_append]
    have := List.dropWhile_append_of_pos (l₂ := []) hb
    rw [List.append_nil] at this
    rw [this]; rfl
  | cons c t =>
    rw [List.cons_append, List.dropWhile_cons_of_neg (by simp [hw.1 c rfl]), ← List.cons_append]
    exact h1 b hb

theorem strip_strip (s : Str) : strip (strip s) = strip s := strip_of_trimmed _ (trimmed_strip s)

theorem strip_eq_nil_iff (s : Str) : strip s = [] ↔ ∀ x ∈ s, isSpace x = true := by
  obtain ⟨a, b, h, ha, hb, ht⟩ := strip_split s
  constructor
  · intro hn x hx
    rw [h, hn] at hx
    simp only [List.append_nil, List.mem_append] at hx
    exact hx.elim (ha x) (hb x)
  · intro hall
    by_contra hne
    obtain ⟨x, t, hx⟩ := List.exists_cons_of_ne_nil hne
    have h1 := ht.1 x (by rw [hx]; rfl)
    have h2 := hall x (by rw [h, hx]; simp)
    rw [h1] at h2; exact absurd h2 (by decide)

/-! ### `split()` -/

/-- A word: not empty, no white space. -/
def Word (t : Str) : Prop := t ≠ [] ∧ ∀ c ∈ t, isSpace c = false

theorem splitWsAux_words (s : Str) : ∀ acc, (∀ c ∈ acc, isSpace c = false) →
    ∀ t ∈ splitWsAux acc s, Word t := by
  induction s with
  | nil =>
    intro acc ha t ht
    cases acc with
    | nil => simp [splitWsAux] at ht
    | cons a as =>
      simp only [splitWsAux, List.isEmpty_cons, Bool.false_eq_true, if_false, List.mem_cons,
        List.not_mem_nil, or_false] at ht
      subst ht
      exact ⟨by simp, fun c hc => ha c (List.mem_reverse.mp hc)⟩
  | cons x xs ih =>
    intro acc ha t ht
    by_cases hx : isSpace x = true
    · cases acc with
      | nil =>
        simp only [splitWsAux, hx, if_true, List.isEmpty_nil] at ht
        exact ih [] (by simp) t ht
      | cons a as =>
        simp only [splitWsAux, hx, if_true, List.isEmpty_cons, Bool.false_eq_true, if_false,
          List.mem_cons] at ht
        rcases ht with rfl | ht
        · exact ⟨by simp, fun c hc => ha c (List.mem_reverse.mp hc)⟩
        · exact ih [] (by simp) t ht
    · have hx' : isSpace x = false := by simpa using hx
      simp only [splitWsAux, hx', Bool.false_eq_true, if_false] at ht
      refine ih (x :: acc) ?_ t ht
      intro c hc
      rcases List.mem_cons.mp hc with rfl | hc
      · exact hx'
      · exact ha c hc

theorem splitWs_words (s : Str) : ∀ t ∈ splitWs s, Word t := splitWsAux_words s [] (by simp)

theorem splitWsAux_append (p s : Str) (hp : ∀ c ∈ p, isSpace c = false) : ∀ acc,
    splitWsAux acc (p ++ s) = splitWsAux (p.reverse ++ acc) s := by
  induction p with
  | nil => intro acc; rfl
  | cons x xs ih =>
    intro acc
    have hx : isSpace x = false := hp x (by simp)
    simp only [List.cons_append, splitWsAux, hx, Bool.false_eq_true, if_false]
    rw [ih (fun c hc => hp c (by simp [hc]))]
    simp

theorem splitWs_join (ps : List Str) (h : ∀ p ∈ ps, Word p) : splitWs (join [' '] ps) = ps := by
  induction ps with
  | nil => rfl
  | cons p ps ih =>
    have hp := h p (by simp)
    have ih := ih (fun q hq => h q (by simp [hq]))
    have hrev : p.reverse.isEmpty = false := by
      cases p with
      | nil => exact absurd rfl hp.1
      | cons a as => simp
    cases ps with
    | nil =>
      rw [splitWs, join, ← List.append_nil p, splitWsAux_append p [] hp.2]
      simp only [List.append_nil, splitWsAux, hrev, Bool.false_eq_true, if_false, List.reverse_reverse]
    | cons q qs =>
      have hj : join [' '] (p :: q :: qs) = p ++ (' ' :: join [' '] (q :: qs)) := by simp [join]
      rw [splitWs, hj, splitWsAux_append p _ hp.2]
      have hs : isSpace ' ' = true := by decide
      simp only [List.append_nil, splitWsAux, hs, hrev, Bool.false_eq_true, if_false, if_true,
        List.reverse_reverse]
      rw [splitWs] at ih
      rw [ih]

theorem trimmed_join (ps : List Str) (h : ∀ p ∈ ps, Word p) : Trimmed (join [' '] ps) := by
  induction ps with
  | nil => exact ⟨by simp [join], by simp [join]⟩
  | cons p ps ih =>
    have hp := h p (by simp)
    obtain ⟨i1, i2⟩ := ih (fun q hq => h q (by simp [hq]))
    cases ps with
    | nil =>
      refine ⟨fun x hx => hp.2 x (List.mem_of_mem_head? hx), fun x hx => hp.2 x (List.mem_of_getLast? hx)⟩
    | cons q qs =>
      have hj : join [' '] (p :: q :: qs) = p ++ (' ' :: join [' '] (q :: qs)) := by simp [join]
      have hne : join [' '] (q :: qs) ≠ [] := by
        have hq := (h q (by simp)).1
        cases qs with
        | nil => exact hq
        | cons r rs => simp [join]
      rw [hj]
      refine ⟨?_, ?_⟩
      · intro x hx
        obtain ⟨y, t, rfl⟩ := List.exists_cons_of_ne_nil hp.1
        simp only [List.cons_append, List.head?_cons, Option.some.injEq] at hx
        exact hp.2 x (by simp [hx])
      · intro x hx
        apply i2 x
        rw [← hx]
        obtain ⟨y, t, hy⟩ := List.exists_cons_of_ne_nil hne
        rw [hy]
        simp [List.getLast?_append, List.getLast?_cons]

/-! ### The order used by `sorted` -/

theorem le_refl' (a : Str) : le a a = true := by
  induction a with
  | nil => rfl
  | cons x xs ih => simp [le, ih]

private theorem char_eq_of_toNat {a b : Char} (h : a.toNat = b.toNat) : a = b := by
  apply Char.ext; exact UInt32.toNat_inj.mp h

theorem le_antisymm' (a b : Str) (h1 : le a b = true) (h2 : le b a = true) : a = b := by
  induction a generalizing b with
  | nil => cases b <;> simp_all [le]
  | cons x xs ih =>
    cases b with
    | nil => simp [le] at h1
    | cons y ys =>
      simp only [le] at h1 h2
      by_cases e : x = y
      · subst e
        simp only [Nat.lt_irrefl, if_false, if_true] at h1 h2
        rw [ih ys h1 h2]
      · simp only [e, Ne.symm e, if_false] at h1 h2
        split at h1 <;> split at h2 <;> simp_all
        omega

theorem le_trans' (a b c : Str) (h1 : le a b = true) (h2 : le b c = true) : le a c = true := by
  induction a generalizing b c with
  | nil => simp [le]
  | cons x xs ih =>
    cases b with
    | nil => simp [le] at h1
    | cons y ys =>
      cases c with
      | nil => simp [le] at h2
      | cons z zs =>
        simp only [le] at h1 h2 ⊢
        by_cases e1 : x = y
        · subst e1
          by_cases e2 : x = z
          · subst e2
            simp only [Nat.lt_irrefl, if_false, if_true] at h1 h2 ⊢
            exact ih ys zs h1 h2
          · simp only [Nat.lt_irrefl, if_false, if_true] at h1
            simp only [e2, if_false] at h2 ⊢
            exact h2
        · simp only [e1, if_false] at h1
          have hxy : x.toNat < y.toNat := by
            by_contra h; simp [h] at h1
          by_cases e2 : y = z
          · subst e2; simp [hxy]
          · simp only [e2, if_false] at h2
            have hyz : y.toNat < z.toNat := by
              by_contra h; simp [h] at h2
            have : x.toNat < z.toNat := by omega
            simp [this]

theorem le_total' (a b : Str) : (le a b || le b a) = true := by
  induction a generalizing b with
  | nil => simp [le]
  | cons x xs ih =>
    cases b with
    | nil => simp [le]
    | cons y ys =>
      simp only [le]
      by_cases e : x = y
      · subst e; simpa using ih ys
      · simp only [e, Ne.symm e, if_false]
        have : x.toNat ≠ y.toNat := fun h => e (char_eq_of_toNat h)
        by_cases h : x.toNat < y.toNat
        · simp [h]
        · have : y.toNat < x.toNat := by omega
          simp [this]

theorem insertSorted_perm (p : Str) (ps : List Str) : (insertSorted p ps).Perm (p :: ps) := by
  induction ps with
  | nil => exact List.Perm.refl _
  | cons q qs ih =>
    simp only [insertSorted]
    split
    · exact List.Perm.refl _
    · exact (List.Perm.cons q ih).trans (List.Perm.swap p q qs)

theorem sorted_perm (ps : List Str) : (sorted ps).Perm ps := by
  induction ps with
  | nil => exact List.Perm.refl _
  | cons p ps ih => exact (insertSorted_perm p _).trans (List.Perm.cons p ih)

theorem sorted_pairwise (ps : List Str) : (sorted ps).Pairwise (fun a b => le a b = true) := by
  induction ps with
  | nil => exact List.Pairwise.nil
  | cons p ps ih =>
    simp only [sorted]
    generalize sorted ps = l at ih
    induction l with
    | nil => simp [insertSorted]
    | cons q qs ihq =>
      simp only [insertSorted]
      split
      · rename_i h
        refine List.Pairwise.cons ?_ ih
        intro x hx
        rcases List.mem_cons.mp hx with rfl | hx
        · exact h
        · exact le_trans' _ _ _ h (List.rel_of_pairwise_cons ih hx)
      · rename_i h
        refine List.Pairwise.cons ?_ (ihq ih.of_cons)
        intro x hx
        rcases List.mem_cons.mp ((insertSorted_perm p qs).mem_iff.mp hx) with rfl | hx
        · have := le_total' x q
          simp only [Bool.or_eq_true] at this
          tauto
        · exact List.rel_of_pairwise_cons ih hx

/-- `sorted` depends only on the multiset of the strings. -/
theorem sorted_eq_of_perm {ps qs : List Str} (h : ps.Perm qs) : sorted ps = sorted qs := by
  have hp : (sorted ps).Perm (sorted qs) := (sorted_perm ps).trans (h.trans (sorted_perm qs).symm)
  exact hp.eq_of_pairwise (fun a b _ _ h1 h2 => le_antisymm' a b h1 h2)
    (sorted_pairwise ps) (sorted_pairwise qs)

end SvgPy.PyStr
