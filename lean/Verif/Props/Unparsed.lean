import Verif.Model.Unparsed
import Verif.Lemmas.PyStr

/-! Properties C43 (text of unparsed values), C44 (assignment of items) and C68 (members of
unparsed values). -/

set_option linter.unusedSimpArgs false

namespace SvgPy.Unparsed

/-! ### Specification -/

/-- The part of the arguments of `var()` before the first comma, and the one after it. -/
def parts : List Tok → List Tok × Option (List Tok)
  | [] => ([], none)
  | .comma :: l => ([], some l)
  | t :: l => (t :: (parts l).1, (parts l).2)

mutual
/-- All `var()` functions, also those in fallbacks and in other functions, are written in lower
case, have no white space around the name of the variable, and have no empty fallback. -/
def Tidy : Tok → Prop
  | .text _ => True
  | .comma => True
  | .func n args => if isVar n then n = "var".toList ∧ PyStr.strip (flats (parts args).1) = flats (parts args).1 ∧ (parts args).2 ≠ some [] ∧ TidyRest args
    else Tidys args

def Tidys : List Tok → Prop
  | [] => True
  | t :: l => Tidy t ∧ Tidys l

/-- The fallback is tidy. -/
def TidyRest : List Tok → Prop
  | [] => True
  | .comma :: l => Tidys l
  | .text _ :: l => TidyRest l
  | .func _ _ :: l => TidyRest l
end

mutual
/-- The variables that are referred to, in order, leaving out those in fallbacks. -/
def Tok.refs : Tok → List Str
  | .text _ => []
  | .comma => []
  | .func n args => if isVar n then [PyStr.strip (flats (parts args).1)] else refss args

def refss : List Tok → List Str
  | [] => []
  | t :: l => t.refs ++ refss l
end

/-- The variables of the members. -/
def varsOf (l : List Member) : List Str := l.filterMap fun m => match m with | .var n _ => some n | .str _ => none

/-! ### Lemmas -/

theorem varName_parts (args : List Tok) : varName args = flats (parts args).1 := by
  induction args with
  | nil => simp [varName, parts, flats]
  | cons t l ih => cases t <;> simp [varName, parts, flats, ih]

theorem flats_parts (args : List Tok) : flats args = flats (parts args).1 ++ (match (parts args).2 with | none => [] | some r => ',' :: flats r) := by
  induction args with
  | nil => simp [parts, flats]
  | cons t l ih => cases t <;> simp [parts, flats, Tok.flat, ih]

theorem sers_append (a b : List Member) : sers (a ++ b) = sers a ++ sers b := by
  induction a with
  | nil => simp [sers]
  | cons x a ih => simp [sers, ih]

theorem sers_flush (m : List Member) (s : Str) : sers (flush m s) = sers m ++ s := by
  unfold flush
  split
  · rw [sers_append]; simp [sers, Member.ser]
  · rename_i h
    have : s = [] := by simpa using h
    simp [this]

theorem popFirst_ser (l : List Member) : (popFirst l).1 ++ sers (popFirst l).2 = sers l := by
  cases l with
  | nil => simp [popFirst]
  | cons m l =>
    cases m with
    | str x => simp only [popFirst, sers, Member.ser]
    | var n f => simp only [popFirst, List.nil_append]

theorem popLast_ser (l : List Member) : sers (popLast l).2 ++ (popLast l).1 = sers l := by
  unfold popLast
  split
  · rename_i s h
    obtain ⟨l', rfl⟩ : ∃ l', l = l' ++ [.str s] := by
      obtain ⟨l', h'⟩ := List.getLast?_eq_some_iff.1 h
      exact ⟨l', h'⟩
    simp [sers_append, sers, Member.ser]
  · simp

theorem variables_append (a b : List Member) : varsOf (a ++ b) = varsOf a ++ varsOf b := by simp [varsOf]

theorem variables_flush (m : List Member) (s : Str) : varsOf (flush m s) = varsOf m := by
  unfold flush
  split
  · rw [variables_append]; simp [varsOf]
  · rfl

theorem popFirst_vars (l : List Member) : varsOf (popFirst l).2 = varsOf l := by
  cases l with
  | nil => simp [popFirst]
  | cons m l => cases m <;> simp [popFirst, varsOf]

theorem popLast_vars (l : List Member) : varsOf (popLast l).2 = varsOf l := by
  unfold popLast
  split
  · rename_i s h
    obtain ⟨l', rfl⟩ : ∃ l', l = l' ++ [.str s] := List.getLast?_eq_some_iff.1 h
    simp [variables_append, varsOf]
  · rfl

mutual
theorem loop_ser : ∀ (ts : List Tok) (members : List Member) (s : Str), Tidys ts → sers (loop members s ts) = sers members ++ s ++ flats ts
  | [], members, s, _ => by rw [loop, sers_flush]; simp [flats]
  | .text x :: l, members, s, h => by
    rw [Tidys] at h
    rw [loop, loop_ser l members _ h.2]; simp [flats, Tok.flat]
  | .comma :: l, members, s, h => by
    rw [Tidys] at h
    rw [loop, loop_ser l members _ h.2]; simp [flats, Tok.flat]
  | .func n args :: l, members, s, h => by
    rw [Tidys, Tidy] at h
    rw [loop]
    by_cases hv : isVar n = true
    · rw [if_pos hv] at h ⊢
      obtain ⟨⟨rfl, h1, h2, h3⟩, h4⟩ := h
      rw [loop_ser l _ _ h4, sers_append, sers_flush, varName_parts, h1]
      have hr := rest_ser args h3 h2
      simp only [flats, Tok.flat, sers, List.append_nil]
      rw [flats_parts args]
      rcases hr with ⟨e1, e2⟩ | ⟨r, f, e1, e2, e3⟩
      · rw [e1, e2]; simp [Member.ser]
      · rw [e1, e2]; simp [Member.ser, e3]
    · rw [if_neg hv] at h ⊢
      simp only
      rw [loop_ser l _ _ h.2, sers_append, sers_append]
      have h1 := popFirst_ser (loop [] [] args)
      have h2 := popLast_ser (popFirst (loop [] [] args)).2
      have h3 := loop_ser args [] [] h.1
      simp only [sers, List.append_nil, List.nil_append, Member.ser, flats, Tok.flat] at h3 ⊢
      rw [← h3, ← h1, ← h2]
      simp

theorem rest_ser : ∀ (args : List Tok), TidyRest args → (parts args).2 ≠ some [] →
    ((parts args).2 = none ∧ varRest args = none) ∨
      ∃ r f, (parts args).2 = some r ∧ varRest args = some f ∧ sers f = flats r
  | [], _, _ => .inl ⟨rfl, by rw [varRest]⟩
  | .comma :: l, h, hne => by
    rw [TidyRest] at h
    right
    refine ⟨l, loop [] [] l, rfl, ?_, ?_⟩
    · rw [varRest]
      cases l with
      | nil => exact absurd rfl hne
      | cons a l => simp
    · rw [loop_ser l [] [] h]; simp [sers]
  | .text x :: l, h, hne => by
    rw [TidyRest] at h
    have := rest_ser l h hne
    rw [varRest]
    exact this
  | .func _ _ :: l, h, hne => by
    rw [TidyRest] at h
    have := rest_ser l h hne
    rw [varRest]
    exact this
end

/-! ### Text -/

/-- **C43** The text of an unparsed value is the text it was made from.  Missing: `var()` in
upper case, with white space around the name of the variable, or with an empty fallback; see
`text_violated`. -/
theorem text_partial (ts : List Tok) (h : Tidys ts) : sers (reify ts) = flats ts := by
  unfold reify
  rw [loop_ser ts [] [] h]
  simp [sers]

/-- A non-trivial instance of the hypotheses: `calc(1px + var(--a, f(var(--b))) * 2)`. -/
example : Tidys [.func "calc".toList [.text "1px + ".toList, .func "var".toList [.text "--a".toList, .comma, .text " ".toList,
    .func "f".toList [.func "var".toList [.text "--b".toList]]], .text " * 2".toList]] := by
  have h1 : isVar "calc".toList = false := by decide
  have h2 : isVar "var".toList = true := by decide
  have h3 : isVar "f".toList = false := by decide
  simp [Tidys, Tidy, TidyRest, h1, h2, h3, parts, flats, Tok.flat]
  decide

/-- **C43** is violated: an empty fallback is lost, so that `var(--a,)` becomes `var(--a)`. -/
theorem text_violated : sers (reify [.func "var".toList [.text "--a".toList, .comma]]) = "var(--a)".toList ∧
    flats [.func "var".toList [.text "--a".toList, .comma]] = "var(--a,)".toList := by
  refine ⟨?_, ?_⟩
  · have h2 : isVar "var".toList = true := by decide
    have h3 : PyStr.strip "--a".toList = "--a".toList := by decide
    unfold reify
    rw [loop, if_pos h2, loop]
    simp only [varName, varRest, Tok.flat, List.append_nil, h3]
    rfl
  · simp [flats, Tok.flat]

/-! ### Members -/

mutual
theorem loop_vars : ∀ (ts : List Tok) (members : List Member) (s : Str), varsOf (loop members s ts) = varsOf members ++ refss ts
  | [], members, s => by rw [loop, variables_flush]; simp [refss]
  | .text x :: l, members, s => by rw [loop, loop_vars l]; simp [refss, Tok.refs]
  | .comma :: l, members, s => by rw [loop, loop_vars l]; simp [refss, Tok.refs]
  | .func n args :: l, members, s => by
    rw [loop]
    by_cases hv : isVar n = true
    · rw [if_pos hv, loop_vars l, variables_append, variables_flush, varName_parts]
      simp [refss, Tok.refs, hv, varsOf]
    · rw [if_neg hv]
      simp only
      rw [loop_vars l, variables_append, variables_append, popLast_vars, popFirst_vars, loop_vars args]
      simp [refss, Tok.refs, hv, varsOf]
end

/-- **C68** The references among the members are the `var()` functions of the text, in order. -/
theorem references (ts : List Tok) : varsOf (reify ts) = refss ts := by
  unfold reify
  rw [loop_vars]
  simp [varsOf]

/-- Between two references there is at most one text, and no text is empty. -/
def Alternating : List Member → Prop
  | [] => True
  | [.str s] => s ≠ []
  | [.var _ _] => True
  | .str s :: .var n f :: l => s ≠ [] ∧ Alternating (.var n f :: l)
  | .str _ :: .str _ :: _ => False
  | .var _ _ :: m :: l => Alternating (m :: l)

/-- Only `var()` functions, outside of fallbacks. -/
def OnlyVar (ts : List Tok) : Prop := ∀ n args, Tok.func n args ∈ ts → isVar n = true

/-- The list does not end with a text. -/
def EndsVar (l : List Member) : Prop := ∀ l' s, l ≠ l' ++ [.str s]

theorem alternating_snoc_str (l : List Member) (s : Str) (h : Alternating l) (he : EndsVar l) (hs : s ≠ []) : Alternating (l ++ [.str s]) := by
  induction l with
  | nil => exact hs
  | cons m l ih =>
    have he' : EndsVar l := fun l' s' e => he (m :: l') s' (by rw [e]; rfl)
    cases l with
    | nil =>
      cases m with
      | str x => exact absurd rfl (he [] x)
      | var n f => exact hs
    | cons m' l =>
      cases m with
      | str x =>
        cases m' with
        | str y => exact h.elim
        | var n f => exact ⟨h.1, ih h.2 he'⟩
      | var n f => exact ih h he'

theorem alternating_snoc_var (l : List Member) (n : Str) (f : Option (List Member)) (h : Alternating l) : Alternating (l ++ [.var n f]) := by
  induction l with
  | nil => trivial
  | cons m l ih =>
    cases l with
    | nil =>
      cases m with
      | str x => exact ⟨h, trivial⟩
      | var n f => trivial
    | cons m' l =>
      cases m with
      | str x =>
        cases m' with
        | str y => exact h.elim
        | var n f => exact ⟨h.1, ih h.2⟩
      | var n f => exact ih h

theorem flush_alternating (m : List Member) (s : Str) (h : Alternating m) (he : EndsVar m) : Alternating (flush m s) := by
  unfold flush
  split
  · rename_i hs
    exact alternating_snoc_str m s h he (by intro e; simp [e] at hs)
  · exact h

theorem loop_alternating (ts : List Tok) (members : List Member) (s : Str) (hv : OnlyVar ts) (h : Alternating members) (he : EndsVar members) :
    Alternating (loop members s ts) := by
  induction ts generalizing members s with
  | nil => rw [loop]; exact flush_alternating _ _ h he
  | cons t l ih =>
    have hv' : OnlyVar l := fun n a hm => hv n a (List.mem_cons_of_mem _ hm)
    cases t with
    | text x => rw [loop]; exact ih _ _ hv' h he
    | comma => rw [loop]; exact ih _ _ hv' h he
    | func n args =>
      rw [loop, if_pos (hv n args (by simp))]
      apply ih _ _ hv' (alternating_snoc_var _ _ _ (flush_alternating _ _ h he))
      intro l' s' e
      have := List.append_inj_right' e rfl
      simp at this

/-- **C68** The texts between the references are single members.  Missing: other functions, see
`members_violated`. -/
theorem members_partial (ts : List Tok) (h : OnlyVar ts) : Alternating (reify ts) :=
  loop_alternating ts [] [] h trivial (by intro l' s e; simp at e)

example : OnlyVar [.text "1px ".toList, .func "var".toList [.text "--a".toList, .comma, .func "f".toList []], .comma, .text "2px".toList] := by
  intro n args h
  simp at h
  rw [h.1]; decide

/-- **C68** is violated: `calc(1px)` has two members, `calc(1px` and `)`. -/
theorem members_violated : reify [.func "calc".toList [.text "1px".toList]] = [.str "calc(1px".toList, .str ")".toList] ∧
    ¬ Alternating (reify [.func "calc".toList [.text "1px".toList]]) := by
  have h : reify [.func "calc".toList [.text "1px".toList]] = [.str "calc(1px".toList, .str ")".toList] := by
    have h2 : isVar "calc".toList = false := by decide
    unfold reify
    simp [loop, flush, popFirst, popLast]
    exact h2
  refine ⟨h, ?_⟩
  rw [h]
  exact id

/-! ### Assignment -/

/-- **C44** Values of other types are refused. -/
theorem setItem_type (l : List Member) (i : Int) : setItem l i none = .error .typeError := rfl

/-- **C44** Assignment to a slice replaces its items.  Missing: assignment to an index, see
`setItem_violated`. -/
theorem setItem_partial (l : List Member) (a b : Nat) (h : a ≤ b ∧ b ≤ l.length) (xs : List Member) :
    setSlice l a b (xs.map some) = .ok (l.take a ++ xs ++ l.drop b) := by
  unfold setSlice
  have h1 : (xs.map some).all Option.isSome = true := by simp
  rw [if_pos h1]
  have e : ∀ n : Nat, n ≤ l.length → PyList.clamp l.length n = n := by
    intro n hn
    unfold PyList.clamp
    rw [if_neg (by omega)]
    simp [hn]
  simp only
  rw [e a (by omega), e b h.2, Nat.max_eq_right h.1]
  congr 2
  congr 1
  induction xs with
  | nil => rfl
  | cons x xs ih => simp

/-- **C44** What assignment to an index does: the item is inserted before it, and the number of
items grows. -/
theorem setItem_effect (l : List Member) (k : Nat) (h : k ≤ l.length) (m : Member) :
    ∃ l', setItem l k (some m) = .ok l' ∧ l' = l.take k ++ m :: l.drop k ∧ l'.length = l.length + 1 := by
  refine ⟨_, rfl, ?_, ?_⟩
  · unfold PyList.insertAt PyList.clamp
    rw [if_neg (by omega)]
    simp [h]
  · unfold PyList.insertAt
    simp
    have : PyList.clamp l.length k ≤ l.length := by
      unfold PyList.clamp
      rw [if_neg (by omega)]
      exact Nat.min_le_right _ _
    omega

/-- **C44** is violated: assignment to the only item adds another. -/
theorem setItem_violated : setItem [.str "a".toList] 0 (some (.str "b".toList)) = .ok [.str "b".toList, .str "a".toList] := rfl

/-- **C44** Construction from a list of members keeps them all, in order. -/
theorem extend_spec (l xs : List Member) : extend l (xs.map some) = .ok (l ++ xs) := by
  induction xs generalizing l with
  | nil => simp [extend]
  | cons x xs ih =>
    rw [List.map_cons, extend]
    have : append l (some x) = .ok (l ++ [x]) := by
      unfold append insert setItem PyList.insertAt PyList.clamp
      simp only
      rw [if_neg (by omega)]
      simp
    rw [this]
    simp only
    rw [ih]
    simp

end SvgPy.Unparsed
