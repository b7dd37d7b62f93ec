import Verif.Props.UrlHref

/-! Property C70: the path of a URL. -/

set_option linter.unusedSimpArgs false

namespace SvgPy.Url

open SvgPy.UrlSplit

/-! ### Specification: RFC 3986, 5.2.4 -/

/-- Remove the segments `.` and `..`; `out` are the segments that are kept, the last one first.  A
dot segment at the end leaves an empty segment, that is, a slash at the end of the path. -/
def removeDots (out : List Str) : List Str → List Str
  | [] => out.reverse
  | s :: l =>
    if s = ".".toList then (if l = [] then ([] :: out).reverse else removeDots out l)
    else if s = "..".toList then (if l = [] then ([] :: out.tail).reverse else removeDots out.tail l)
    else removeDots (s :: out) l

/-- The path with these segments. -/
def pathOf (segs : List Str) : Str := '/' :: PyStr.join ['/'] segs

/-! ### Lemmas -/

/-- Dot segments removed, without the empty segment for one at the end. -/
def dropDots (out : List Str) : List Str → List Str
  | [] => out
  | s :: l => if s = ['.'] then dropDots out l else if s = ['.', '.'] then dropDots out.tail l else dropDots (s :: out) l

theorem removeDots_last (segs : List Str) (last : Str) (h1 : last ≠ ['.']) (h2 : last ≠ ['.', '.']) (out : List Str) :
    removeDots out (segs ++ [last]) = (last :: dropDots out segs).reverse := by
  induction segs generalizing out with
  | nil =>
    show (if last = ['.'] then _ else if last = ['.', '.'] then _ else _) = _
    rw [if_neg h1, if_neg h2]
    rfl
  | cons s l ih =>
    have hne : l ++ [last] ≠ [] := by simp
    rw [List.cons_append]
    show (if s = ['.'] then _ else if s = ['.', '.'] then _ else _) = _
    rw [dropDots]
    by_cases e1 : s = ['.']
    · rw [if_pos e1, if_pos e1, if_neg hne, ih]
    · rw [if_neg e1, if_neg e1]
      by_cases e2 : s = ['.', '.']
      · rw [if_pos e2, if_pos e2, if_neg hne, ih]
      · rw [if_neg e2, if_neg e2, ih]

theorem normLoop_eq (segs : List Str) (h : ∀ s ∈ segs, s ≠ []) (rest : List Str) (out : List Str) (ho : ['.', '.'] ∉ out) :
    normLoop true out (segs ++ rest) = normLoop true (dropDots out segs) rest ∧ ['.', '.'] ∉ dropDots out segs := by
  induction segs generalizing out with
  | nil => exact ⟨rfl, ho⟩
  | cons s l ih =>
    have hl : ∀ s ∈ l, s ≠ [] := fun s hs => h s (List.mem_cons_of_mem _ hs)
    have hs : s ≠ [] := h s (by simp)
    rw [List.cons_append, normLoop, dropDots]
    by_cases e1 : s = ['.']
    · rw [if_pos (.inr e1), if_pos e1]; exact ih hl out ho
    · rw [if_neg (by rintro (x | x); exact hs x; exact e1 x), if_neg e1]
      by_cases e2 : s = ['.', '.']
      · have : ¬ (s ≠ ['.', '.'] ∨ (true = false ∧ out = []) ∨ (out ≠ [] ∧ out.head? = some ['.', '.'])) := by
          rintro (x | ⟨x, _⟩ | ⟨_, x⟩)
          · exact x e2
          · cases x
          · exact ho (List.mem_of_mem_head? x)
        rw [if_neg this, if_pos e2]
        exact ih hl _ (fun hm => ho (List.mem_of_mem_tail hm))
      · rw [if_pos (.inl e2), if_neg e2]
        exact ih hl _ (by
          intro hm
          rcases List.mem_cons.1 hm with hm | hm
          · exact e2 hm.symm
          · exact ho hm)

theorem dropDots_mem (segs out : List Str) (s : Str) (h : s ∈ dropDots out segs) : s ∈ out ∨ (s ∈ segs ∧ s ≠ ['.'] ∧ s ≠ ['.', '.']) := by
  induction segs generalizing out with
  | nil => exact .inl h
  | cons x l ih =>
    rw [dropDots] at h
    by_cases e1 : x = ['.']
    · rw [if_pos e1] at h
      rcases ih out h with h | h
      · exact .inl h
      · exact .inr ⟨List.mem_cons_of_mem _ h.1, h.2⟩
    · rw [if_neg e1] at h
      by_cases e2 : x = ['.', '.']
      · rw [if_pos e2] at h
        rcases ih _ h with h | h
        · exact .inl (List.mem_of_mem_tail h)
        · exact .inr ⟨List.mem_cons_of_mem _ h.1, h.2⟩
      · rw [if_neg e2] at h
        rcases ih _ h with h | h
        · rcases List.mem_cons.1 h with h | h
          · exact .inr ⟨by rw [h]; simp, by rw [h]; exact e1, by rw [h]; exact e2⟩
          · exact .inl h
        · exact .inr ⟨List.mem_cons_of_mem _ h.1, h.2⟩

theorem join_snoc (xs : List Str) (hx : xs ≠ []) (y : Str) : PyStr.join ['/'] (xs ++ [y]) = PyStr.join ['/'] xs ++ '/' :: y := by
  induction xs with
  | nil => exact absurd rfl hx
  | cons x xs ih =>
    cases xs with
    | nil => simp [PyStr.join]
    | cons z zs =>
      have := ih (by simp)
      simp only [List.cons_append, PyStr.join] at this ⊢
      rw [this]
      simp

theorem join_mem (xs : List Str) (c : Char) (h : c ∈ PyStr.join ['/'] xs) : c = '/' ∨ ∃ x ∈ xs, c ∈ x := by
  induction xs with
  | nil => simp [PyStr.join] at h
  | cons x xs ih =>
    cases xs with
    | nil => exact .inr ⟨x, by simp, by simpa [PyStr.join] using h⟩
    | cons z zs =>
      rw [PyStr.join] at h
      · simp only [List.append_assoc, List.mem_append, List.mem_singleton] at h
        rcases h with h | h | h
        · exact .inr ⟨x, by simp, h⟩
        · exact .inl h
        · rcases ih h with h | ⟨y, hy, h⟩
          · exact .inl h
          · exact .inr ⟨y, List.mem_cons_of_mem _ hy, h⟩
      · simp

theorem getLast?_append_ne (a b : Str) (h : b ≠ []) : (a ++ b).getLast? = b.getLast? := by
  rw [List.getLast?_append]
  cases hb : b.getLast? with
  | none => exact absurd (List.getLast?_eq_none_iff.1 hb) h
  | some x => rfl

theorem join_last (xs : List Str) (hx : xs ≠ []) (h : ∀ x ∈ xs, x ≠ [] ∧ '/' ∉ x) : (pathOf xs).getLast? ≠ some '/' := by
  obtain ⟨ys, y, rfl⟩ : ∃ ys y, xs = ys ++ [y] := ⟨xs.dropLast, xs.getLast hx, (List.dropLast_append_getLast hx).symm⟩
  have hy := h y (by simp)
  have e : ∃ a, pathOf (ys ++ [y]) = a ++ y := by
    cases ys with
    | nil => exact ⟨['/'], rfl⟩
    | cons z zs =>
      refine ⟨'/' :: (PyStr.join ['/'] (z :: zs) ++ ['/']), ?_⟩
      unfold pathOf
      rw [join_snoc _ (by simp)]
      simp
  obtain ⟨a, e⟩ := e
  rw [e, getLast?_append_ne _ _ hy.1]
  intro hh
  exact hy.2 (List.mem_of_mem_getLast? hh)

theorem map_noop (s : Str) (h : '\\' ∉ s) : s.map (fun c => if c = '\\' then '/' else c) = s := by
  induction s with
  | nil => rfl
  | cons c s ih =>
    simp only [List.mem_cons, not_or] at h
    rw [List.map_cons, ih h.2, if_neg (Ne.symm h.1)]

theorem initialSlashes_one (segs : List Str) (last : Str) (h : ∀ s ∈ segs, s ≠ [] ∧ '/' ∉ s) (hl : '/' ∉ last) :
    initialSlashes (pathOf (segs ++ [last])) = 1 := by
  have key : ∃ t, pathOf (segs ++ [last]) = '/' :: t ∧ t.head? ≠ some '/' := by
    refine ⟨_, rfl, ?_⟩
    cases segs with
    | nil =>
      simp only [List.nil_append, PyStr.join]
      cases last with
      | nil => simp
      | cons c l => simp at hl ⊢; exact fun e => hl.1 e.symm
    | cons s l =>
      have hs := h s (by simp)
      cases s with
      | nil => exact absurd rfl hs.1
      | cons c s =>
        have hc := hs.2
        simp only [List.mem_cons, not_or] at hc
        cases l with
        | nil => simp [PyStr.join]; exact fun e => hc.1 e.symm
        | cons z zs => simp [PyStr.join]; exact fun e => hc.1 e.symm
  obtain ⟨t, e, ht⟩ := key
  rw [e]
  cases t with
  | nil => rfl
  | cons c t =>
    have : c ≠ '/' := by simpa using ht
    unfold initialSlashes
    split
    · rename_i h'; simp at h'; exact absurd h'.1 this
    · rename_i h'; simp at h'; exact absurd h'.1 this
    · rfl
    · rename_i h' ; simp at h'

theorem pathOf_split (segs : List Str) (last : Str) (h : ∀ s ∈ segs, '/' ∉ s) (hl : '/' ∉ last) :
    PyStr.splitOn '/' (pathOf (segs ++ [last])) = [] :: (segs ++ [last]) := by
  show (if '/' = '/' then [] :: PyStr.splitOn '/' (PyStr.join ['/'] (segs ++ [last])) else _) = _
  rw [if_pos rfl, PyStr.splitOn_join '/' _ (by simp)]
  intro p hp
  rcases List.mem_append.1 hp with hp | hp
  · exact h p hp
  · rw [List.mem_singleton.1 hp]; exact hl

theorem normpath_pathOf (segs : List Str) (last : Str) (h : ∀ s ∈ segs, s ≠ [] ∧ '/' ∉ s) (hl : '/' ∉ last) (h1 : last ≠ ['.']) (h2 : last ≠ ['.', '.']) :
    normpath (pathOf (segs ++ [last])) = pathOf (if last = [] then (dropDots [] segs).reverse else (dropDots [] segs).reverse ++ [last]) := by
  have hn := normLoop_eq segs (fun s hs => (h s hs).1) [last] [] (by simp)
  unfold normpath
  rw [if_neg (by unfold pathOf; simp), initialSlashes_one segs last h hl, pathOf_split segs last (fun s hs => (h s hs).2) hl]
  simp only
  have e0 : normLoop (decide (1 ≠ 0)) [] ([] :: (segs ++ [last])) = normLoop true [] (segs ++ [last]) := by
    show (if ([] : Str) = [] ∨ ([] : Str) = ['.'] then _ else _) = _
    rw [if_pos (.inl rfl)]
    rfl
  rw [e0, hn.1]
  have e1 : normLoop true (dropDots [] segs) [last] = if last = [] then (dropDots [] segs).reverse else (dropDots [] segs).reverse ++ [last] := by
    rw [normLoop]
    by_cases e : last = []
    · rw [if_pos (.inl e), if_pos e]; rfl
    · rw [if_neg (by rintro (x | x); exact e x; exact h1 x), if_pos (.inl h2), if_neg e]
      simp [normLoop]
  rw [e1]
  rw [if_neg (by simp)]
  rfl

theorem mem_pathOf (xs : List Str) (h : ∀ x ∈ xs, '\\' ∉ x) : '\\' ∉ pathOf xs := by
  unfold pathOf
  intro hm
  rcases List.mem_cons.1 hm with e | hm
  · exact absurd e (by decide)
  · rcases join_mem xs _ hm with e | ⟨x, hx, e⟩
    · exact absurd e (by decide)
    · exact h x hx e

theorem slashed (x : Str) (r : List Str) (h : x = pathOf r) : (if (!false && !isabs x) = true then '/' :: x else x) = pathOf r := by
  rw [h]; rfl

/-! ### The path of a URL -/

/-- **C70** The path that is assigned to a URL has its dot segments removed as RFC 3986 says, after
percent encoding, and nothing else is changed.  Missing: paths with empty segments except at the end,
paths that end with a dot segment, and paths that do not begin with a slash; see `path_violated`. -/
theorem path_partial (lib : Lib) (u : URL) (p : Str) (segs : List Str) (last : Str) (hp : p ≠ []) (hb : '\\' ∉ p)
    (hier : u.protocol ∉ ["about:".toList, "blob:".toList, "data:".toList])
    (hq : lib.quotePath ((lib.unquote p).map fun c => if c = '\\' then '/' else c) = pathOf (segs ++ [last]))
    (hs : ∀ s ∈ segs, s ≠ [] ∧ '/' ∉ s ∧ '\\' ∉ s) (hl : '/' ∉ last ∧ '\\' ∉ last) (h1 : last ≠ ".".toList) (h2 : last ≠ "..".toList) :
    setPathname lib u p = ({ u with pathname := pathOf (removeDots [] (segs ++ [last])) }, none) := by
  simp only [List.mem_cons, List.not_mem_nil, or_false, not_or] at hier
  have ho : opaqueProtocol u.protocol = false := by
    unfold opaqueProtocol
    rw [beq_eq_false_iff_ne.2 hier.1, beq_eq_false_iff_ne.2 hier.2.1, beq_eq_false_iff_ne.2 hier.2.2]
    rfl
  unfold setPathname
  rw [if_neg hp, if_neg (fun h => hb h.2.2)]
  congr 2
  unfold cleanPath
  simp only
  have hbd : ¬ (u.protocol = "blob:".toList ∨ u.protocol = "data:".toList) := fun h => h.elim hier.2.1 hier.2.2
  rw [if_neg hbd, hq, ho,
    normpath_pathOf segs last (fun s h => ⟨(hs s h).1, (hs s h).2.1⟩) hl.1 h1 h2, removeDots_last segs last h1 h2]
  have hd : ∀ s ∈ (dropDots [] segs).reverse, s ≠ [] ∧ '/' ∉ s ∧ '\\' ∉ s := by
    intro s h
    rcases dropDots_mem segs [] s (List.mem_reverse.1 h) with h | h
    · simp at h
    · exact hs s h.1
  apply slashed
  by_cases e : last = []
  · subst e
    rw [if_pos rfl, map_noop _ (mem_pathOf _ fun x hx => (hd x hx).2.2)]
    by_cases e2 : dropDots [] segs = []
    · rw [e2]
      have e3 : pathOf ([] : List Str).reverse = ['/'] := rfl
      rw [e3, if_neg (by simp)]
      rfl
    · have hne : (dropDots [] segs).reverse ≠ [] := by simpa using e2
      have hsegs : segs ≠ [] := by rintro rfl; exact e2 rfl
      have hend : (pathOf (segs ++ [[]])).getLast? = some '/' := by
        unfold pathOf
        rw [join_snoc _ hsegs, ← List.cons_append, getLast?_append_ne _ _ (by simp)]
        rfl
      have hlen : (pathOf (segs ++ [[]])).length ≥ 2 := by
        unfold pathOf
        rw [join_snoc _ hsegs]
        simp
      rw [if_pos ⟨hlen, hend, join_last _ hne fun x hx => ⟨(hd x hx).1, (hd x hx).2.1⟩⟩]
      have e4 : pathOf (dropDots [] segs).reverse ++ ['/'] = pathOf ([] :: dropDots [] segs).reverse := by
        rw [List.reverse_cons]
        unfold pathOf
        rw [join_snoc _ hne]
        simp
      rw [e4]
  · rw [if_neg e]
    have hd' : ∀ s ∈ (dropDots [] segs).reverse ++ [last], s ≠ [] ∧ '/' ∉ s ∧ '\\' ∉ s := by
      intro s h
      rcases List.mem_append.1 h with h | h
      · exact hd s h
      · rw [List.mem_singleton.1 h]; exact ⟨e, hl⟩
    rw [map_noop _ (mem_pathOf _ fun x hx => (hd' x hx).2.2)]
    have hend : ¬ (pathOf (segs ++ [last])).getLast? = some '/' := by
      have : ∃ a, pathOf (segs ++ [last]) = a ++ last := by
        cases segs with
        | nil => exact ⟨['/'], rfl⟩
        | cons z zs =>
          refine ⟨'/' :: (PyStr.join ['/'] (z :: zs) ++ ['/']), ?_⟩
          unfold pathOf
          rw [join_snoc _ (by simp)]
          simp
      obtain ⟨a, ha⟩ := this
      rw [ha, getLast?_append_ne _ _ e]
      exact fun hh => hl.1 (List.mem_of_mem_getLast? hh)
    rw [if_neg (fun h => hend h.2.1), List.reverse_cons]

/-- A non-trivial instance: `/a/./b/../../c/` becomes `/c/`. -/
example : setPathname plain (sample "http:" "h" "h" "") "/a/./b/../../c/".toList =
    ({ sample "http:" "h" "h" "" with pathname := pathOf (removeDots [] (["a".toList, ".".toList, "b".toList, "..".toList, "..".toList, "c".toList] ++ [[]])) }, none) ∧
      pathOf (removeDots [] (["a".toList, ".".toList, "b".toList, "..".toList, "..".toList, "c".toList] ++ [[]])) = "/c/".toList := by
  refine ⟨?_, by decide⟩
  apply path_partial
  · decide
  · decide
  · decide
  · decide
  · decide
  · decide
  · decide
  · decide

/-- **C70** is violated: a dot segment at the end should leave a slash, empty segments should be
kept, and dot segments should not remain in a path assigned without a slash in front. -/
theorem path_violated :
    ((setPathname plain (sample "http:" "h" "h" "") "/a/b/..".toList).1.pathname = "/a".toList ∧
        pathOf (removeDots [] ["a".toList, "b".toList, "..".toList]) = "/a/".toList) ∧
      ((setPathname plain (sample "http:" "h" "h" "") "/a//b".toList).1.pathname = "/a/b".toList ∧
        pathOf (removeDots [] ["a".toList, [], "b".toList]) = "/a//b".toList) ∧
      (setPathname plain (sample "http:" "h" "h" "") "../a".toList).1.pathname = "/../a".toList := by decide +kernel

/-! ### No dot segments -/

theorem normLoop_clean (l acc : List Str) (h : ∀ s ∈ acc, s ≠ ['.'] ∧ s ≠ ['.', '.']) : ∀ s ∈ normLoop true acc l, s ≠ ['.'] ∧ s ≠ ['.', '.'] := by
  induction l generalizing acc with
  | nil => intro s hs; exact h s (List.mem_reverse.1 hs)
  | cons c l ih =>
    rw [normLoop]
    by_cases e1 : c = [] ∨ c = ['.']
    · rw [if_pos e1]; exact ih acc h
    · rw [if_neg e1]
      by_cases e2 : c = ['.', '.']
      · have : ¬ (c ≠ ['.', '.'] ∨ (true = false ∧ acc = []) ∨ (acc ≠ [] ∧ acc.head? = some ['.', '.'])) := by
          rintro (x | ⟨x, _⟩ | ⟨_, x⟩)
          · exact x e2
          · cases x
          · exact (h _ (List.mem_of_mem_head? x)).2 rfl
        rw [if_neg this]
        exact ih _ fun s hs => h s (List.mem_of_mem_tail hs)
      · rw [if_pos (.inl e2)]
        apply ih
        intro s hs
        rcases List.mem_cons.1 hs with hs | hs
        · rw [hs]; exact ⟨fun x => e1 (.inr x), e2⟩
        · exact h s hs

theorem normLoop_mem (b : Bool) (l acc : List Str) (s : Str) (h : s ∈ normLoop b acc l) : s ∈ acc ∨ (s ∈ l ∧ s ≠ []) := by
  induction l generalizing acc with
  | nil => exact .inl (List.mem_reverse.1 h)
  | cons c l ih =>
    rw [normLoop] at h
    by_cases e1 : c = [] ∨ c = ['.']
    · rw [if_pos e1] at h
      rcases ih acc h with h | h
      · exact .inl h
      · exact .inr ⟨List.mem_cons_of_mem _ h.1, h.2⟩
    · rw [if_neg e1] at h
      split at h
      · rcases ih _ h with h | h
        · rcases List.mem_cons.1 h with h | h
          · exact .inr ⟨by rw [h]; simp, by rw [h]; exact fun x => e1 (.inl x)⟩
          · exact .inl h
        · exact .inr ⟨List.mem_cons_of_mem _ h.1, h.2⟩
      · rcases ih _ h with h | h
        · exact .inl (List.mem_of_mem_tail h)
        · exact .inr ⟨List.mem_cons_of_mem _ h.1, h.2⟩

theorem splitOn_parts (c : Char) (s : Str) : ∀ p ∈ PyStr.splitOn c s, c ∉ p ∧ ∀ x ∈ p, x ∈ s := by
  induction s with
  | nil => intro p hp; simp [PyStr.splitOn] at hp; subst hp; simp
  | cons x xs ih =>
    intro p hp
    rw [PyStr.splitOn] at hp
    by_cases e : x = c
    · rw [if_pos e] at hp
      rcases List.mem_cons.1 hp with hp | hp
      · subst hp; simp
      · exact ⟨(ih p hp).1, fun y hy => List.mem_cons_of_mem _ ((ih p hp).2 y hy)⟩
    · rw [if_neg e] at hp
      cases hs : PyStr.splitOn c xs with
      | nil => exact absurd hs (PyStr.splitOn_ne_nil c xs)
      | cons q qs =>
        rw [hs] at hp ih
        simp only at hp
        rcases List.mem_cons.1 hp with hp | hp
        · have := ih q (by simp)
          subst hp
          refine ⟨?_, ?_⟩
          · intro hm
            rcases List.mem_cons.1 hm with hm | hm
            · exact e hm.symm
            · exact this.1 hm
          · intro y hy
            rcases List.mem_cons.1 hy with hy | hy
            · rw [hy]; simp
            · exact List.mem_cons_of_mem _ (this.2 y hy)
        · have := ih p (List.mem_cons_of_mem _ hp)
          exact ⟨this.1, fun y hy => List.mem_cons_of_mem _ (this.2 y hy)⟩

theorem split_replicate (n : Nat) (t : Str) (s : Str) (h : s ∈ PyStr.splitOn '/' (List.replicate n '/' ++ t)) : s = [] ∨ s ∈ PyStr.splitOn '/' t := by
  induction n with
  | zero => exact .inr h
  | succ n ih =>
    have : List.replicate (n + 1) '/' ++ t = '/' :: (List.replicate n '/' ++ t) := rfl
    rw [this, PyStr.splitOn, if_pos rfl] at h
    rcases List.mem_cons.1 h with h | h
    · exact .inl h
    · exact ih h

theorem split_join_mem (l : List Str) (hl : ∀ s ∈ l, '/' ∉ s) (s : Str) (h : s ∈ PyStr.splitOn '/' (PyStr.join ['/'] l)) : s = [] ∨ s ∈ l := by
  cases l with
  | nil => left; simpa [PyStr.join, PyStr.splitOn] using h
  | cons a l => rw [PyStr.splitOn_join '/' _ (by simp) hl] at h; exact .inr h

/-- **C70** No dot segment remains in the path of a hierarchical URL, if what is assigned begins
with a slash after percent encoding. -/
theorem path_no_dots (lib : Lib) (u : URL) (p t : Str) (hp : p ≠ []) (hb : '\\' ∉ p)
    (hier : u.protocol ∉ ["about:".toList, "blob:".toList, "data:".toList])
    (hq : lib.quotePath ((lib.unquote p).map fun c => if c = '\\' then '/' else c) = '/' :: t) (ht : '\\' ∉ t) :
    ∃ v, setPathname lib u p = (v, none) ∧ ∀ s ∈ PyStr.splitOn '/' v.pathname, s ≠ ".".toList ∧ s ≠ "..".toList := by
  simp only [List.mem_cons, List.not_mem_nil, or_false, not_or] at hier
  have ho : opaqueProtocol u.protocol = false := by
    unfold opaqueProtocol
    rw [beq_eq_false_iff_ne.2 hier.1, beq_eq_false_iff_ne.2 hier.2.1, beq_eq_false_iff_ne.2 hier.2.2]
    rfl
  have hbd : ¬ (u.protocol = "blob:".toList ∨ u.protocol = "data:".toList) := fun h => h.elim hier.2.1 hier.2.2
  unfold setPathname
  rw [if_neg hp, if_neg (fun h => hb h.2.2)]
  refine ⟨_, rfl, ?_⟩
  show ∀ s ∈ PyStr.splitOn '/' (cleanPath lib u.protocol p), _
  unfold cleanPath
  simp only
  rw [if_neg hbd, hq, ho]
  obtain ⟨n, hn⟩ : ∃ n, initialSlashes ('/' :: t) = n + 1 := by
    unfold initialSlashes
    split
    · exact ⟨0, rfl⟩
    · exact ⟨1, rfl⟩
    · exact ⟨0, rfl⟩
    · rename_i h'; simp at h'
  obtain ⟨l, hl⟩ : ∃ l, l = normLoop true [] (PyStr.splitOn '/' ('/' :: t)) := ⟨_, rfl⟩
  have hnorm : normpath ('/' :: t) = '/' :: (List.replicate n '/' ++ PyStr.join ['/'] l) := by
    unfold normpath
    rw [if_neg (by simp), hn]
    simp only
    have : decide (n + 1 ≠ 0) = true := by simp
    rw [this, ← hl, if_neg (by simp [List.replicate_succ])]
    rfl
  have hclean := normLoop_clean (PyStr.splitOn '/' ('/' :: t)) [] (by simp)
  rw [← hl] at hclean
  have hmem : ∀ s ∈ l, '/' ∉ s ∧ '\\' ∉ s := by
    intro s hs
    rw [hl] at hs
    rcases normLoop_mem true _ [] s hs with h | h
    · simp at h
    · have := splitOn_parts '/' _ s h.1
      refine ⟨this.1, fun hm => ?_⟩
      rcases List.mem_cons.1 (this.2 _ hm) with e | e
      · exact absurd e (by decide)
      · exact ht e
  have hnb : '\\' ∉ '/' :: (List.replicate n '/' ++ PyStr.join ['/'] l) := by
    intro hm
    rcases List.mem_cons.1 hm with e | hm
    · exact absurd e (by decide)
    rcases List.mem_append.1 hm with hm | hm
    · exact absurd (List.eq_of_mem_replicate hm) (by decide)
    · rcases join_mem l _ hm with e | ⟨x, hx, e⟩
      · exact absurd e (by decide)
      · exact (hmem x hx).2 e
  rw [hnorm, map_noop _ hnb]
  have fin1 : ∀ s ∈ PyStr.splitOn '/' ('/' :: (List.replicate n '/' ++ PyStr.join ['/'] l)), s ≠ ['.'] ∧ s ≠ ['.', '.'] := by
    intro s hs
    rcases split_replicate (n + 1) _ s hs with e | hs
    · rw [e]; exact ⟨by simp, by simp⟩
    · rcases split_join_mem l (fun s h => (hmem s h).1) s hs with e | hs
      · rw [e]; exact ⟨by simp, by simp⟩
      · exact hclean s hs
  have fin2 : ∀ s ∈ PyStr.splitOn '/' ('/' :: (List.replicate n '/' ++ PyStr.join ['/'] l) ++ ['/']), s ≠ ['.'] ∧ s ≠ ['.', '.'] := by
    intro s hs
    have e : '/' :: (List.replicate n '/' ++ PyStr.join ['/'] l) ++ ['/'] = List.replicate (n + 1) '/' ++ (PyStr.join ['/'] l ++ ['/']) := by
      simp [List.replicate_succ]
    rw [e] at hs
    rcases split_replicate (n + 1) _ s hs with e | hs
    · rw [e]; exact ⟨by simp, by simp⟩
    · by_cases h0 : l = []
      · rw [h0] at hs
        have : s ∈ [([] : Str), []] := hs
        have : s = [] := by simpa using this
        rw [this]; exact ⟨by simp, by simp⟩
      · have := join_snoc l h0 []
        rw [← this] at hs
        rcases split_join_mem _ (by
          intro x hx
          rcases List.mem_append.1 hx with hx | hx
          · exact (hmem x hx).1
          · rw [List.mem_singleton.1 hx]; simp) s hs with e | hs
        · rw [e]; exact ⟨by simp, by simp⟩
        · rcases List.mem_append.1 hs with hs | hs
          · exact hclean s hs
          · rw [List.mem_singleton.1 hs]; exact ⟨by simp, by simp⟩
  intro s hs
  have hi : ∀ x : Str, isabs ('/' :: x) = true := fun x => rfl
  split at hs
  · rename_i hif
    rw [List.cons_append, hi] at hs
    exact fin2 s hs
  · rw [hi] at hs
    exact fin1 s hs

example : plain.quotePath ((plain.unquote "/a/../../b".toList).map fun c => if c = '\\' then '/' else c) = '/' :: "a/../../b".toList := by decide

end SvgPy.Url
