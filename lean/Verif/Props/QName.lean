import Verif.Model.QName
import Verif.Lemmas.PyStr

/-! Property C20: qualified names. -/

namespace SvgPy.QName

/-! ### Helper lemmas -/

private theorem matchBraces_mk (n l : Str) (h : '}' ∉ n) :
    matchBraces (['{'] ++ n ++ ['}'] ++ l) = some (n, l) := by
  simp only [List.cons_append, List.nil_append, List.append_assoc, matchBraces]
  exact PyStr.cut_append _ _ _ h

private theorem matchBraces_some (q n l : Str) (h : matchBraces q = some (n, l)) :
    q = '{' :: (n ++ '}' :: l) ∧ '}' ∉ n := by
  unfold matchBraces at h
  split at h
  · rename_i s
    rw [PyStr.cut_some_iff] at h
    exact ⟨by rw [h.1], h.2⟩
  · simp at h

private theorem splitPrefix_some (q p l : Str) (h : splitPrefix q = some (p, l)) :
    q = p ++ ':' :: l ∧ ':' ∉ p := (PyStr.cut_some_iff _ _ _ _).mp h

private theorem cleanNs_ok (ns ns' : Option Str) (h : cleanNs ns = .ok ns') :
    (ns' = none ∧ (ns = none ∨ ns = some [])) ∨
    ∃ n, n ≠ [] ∧ ns = some n ∧ ns' = some n ∧ hasAsciiWhitespace n = false := by
  cases ns with
  | none => simp only [cleanNs, Except.ok.injEq] at h; simp [← h]
  | some n =>
    simp only [cleanNs] at h
    split at h
    · rename_i e
      simp only [Except.ok.injEq] at h
      simp [← h, e]
    · rename_i e
      split at h
      · simp at h
      · rename_i e'
        simp only [Except.ok.injEq] at h
        right
        exact ⟨n, e, rfl, h.symm, by simpa using e'⟩

private theorem finish_ok (ns' pre : Option Str) (l : Str) (ns : Option Str) (r : QN)
    (h : finish ns' pre l ns = .ok r) :
    pre ≠ some [] ∧ l ≠ [] ∧ ns ≠ some [] ∧ (pre ≠ none → ns' ≠ none ∧ ns' = ns) ∧
    (ns' ≠ none → ns ≠ none → ns = ns') ∧
    r = mk (if ns' = none then ns else ns') l := by
  unfold finish at h
  split at h
  · simp at h
  · rename_i h1
    simp only [not_or] at h1
    split at h
    · simp at h
    · rename_i h2
      simp only [Except.ok.injEq] at h
      refine ⟨h1.1, h1.2.1, h1.2.2, ?_, ?_, ?_⟩
      · intro hp
        by_contra hc
        apply h2
        by_cases e1 : ns' = none
        · exact Or.inl ⟨hp, Or.inl e1⟩
        · by_cases e2 : ns = none
          · exact Or.inl ⟨hp, Or.inr e2⟩
          · exact Or.inr ⟨e1, e2, fun e => hc ⟨e1, e.symm⟩⟩
      · intro e1 e2
        by_contra hc
        exact h2 (Or.inr ⟨e1, e2, hc⟩)
      · rw [← h]
        cases ns' <;> cases ns <;> rfl

private theorem resolve_ok (nsmap : Str → Option Str) (ns : Option Str) (qn : Str) (r : QN)
    (h : resolve nsmap ns qn = .ok r) : ∃ ns', cleanNs ns = .ok ns' ∧ qn ≠ [] ∧
      hasAsciiWhitespace qn = false ∧
      finish ns' (analyse nsmap qn).1 (analyse nsmap qn).2.1 (analyse nsmap qn).2.2 = .ok r := by
  unfold resolve at h
  split at h
  · simp at h
  · rename_i ns' hc
    split at h
    · simp at h
    · rename_i h1
      split at h
      · simp at h
      · rename_i h2
        exact ⟨ns', hc, h1, by simpa using h2, h⟩

private theorem hasWs_append (a b : Str) :
    hasAsciiWhitespace (a ++ b) = (hasAsciiWhitespace a || hasAsciiWhitespace b) := by
  simp [hasAsciiWhitespace]

/-- **C20** (shape).  The full name is `{namespace}local`, or the bare local name
without a namespace; neither part is empty. -/
theorem resolve_name (nsmap : Str → Option Str) (ns : Option Str) (qn : Str) (r : QN)
    (h : resolve nsmap ns qn = .ok r) :
    r.name = (match r.namespace_ with
      | none => r.localName
      | some n => "{".toList ++ n ++ "}".toList ++ r.localName) ∧
    r.localName ≠ [] ∧ r.namespace_ ≠ some [] := by
  obtain ⟨ns', hc, h1, h2, hf⟩ := resolve_ok _ _ _ _ h
  obtain ⟨f1, f2, f3, f4, f5, rfl⟩ := finish_ok _ _ _ _ _ hf
  refine ⟨rfl, f2, ?_⟩
  simp only [mk]
  split
  · exact f3
  · rcases cleanNs_ok _ _ hc with ⟨rfl, _⟩ | ⟨n, hn, rfl, rfl, _⟩
    · simp
    · simpa using hn

/-- Resolving `{n}l` without a namespace argument. -/
private theorem resolve_braces (nsmap : Str → Option Str) (n l : Str) (hn : n ≠ []) (hl : l ≠ [])
    (hb : '}' ∉ n) (wn : hasAsciiWhitespace n = false) (wl : hasAsciiWhitespace l = false) :
    resolve nsmap none (['{'] ++ n ++ ['}'] ++ l) = .ok (mk (some n) l) := by
  have hw : hasAsciiWhitespace (['{'] ++ n ++ ['}'] ++ l) = false := by
    simp only [hasWs_append, wn, wl, Bool.or_false]
    decide
  have ha : analyse nsmap (['{'] ++ n ++ ['}'] ++ l) = (none, l, some n) := by
    simp only [analyse, matchBraces_mk n l hb]
  simp only [resolve, cleanNs, hw, Bool.false_eq_true, if_false, ha, finish]
  simp [hn, hl]

/-- **C20** (recovery).  Resolving the full name again, with any prefix map,
gives back the same namespace and local name.  Missing from the full statement:
namespaces containing `}`, see `resolve_brace_violated`. -/
theorem resolve_name_recovers_partial (nsmap nsmap' : Str → Option Str) (ns : Option Str) (qn : Str) (r : QN)
    (h : resolve nsmap ns qn = .ok r) (hb : ∀ n, r.namespace_ = some n → '}' ∉ n) :
    resolve nsmap' none r.name = .ok r := by
  obtain ⟨ns', hc, h1, h2, hf⟩ := resolve_ok _ _ _ _ h
  obtain ⟨f1, f2, f3, f4, f5, hr⟩ := finish_ok _ _ _ _ _ hf
  have hns' : ∀ n, ns' = some n → n ≠ [] ∧ hasAsciiWhitespace n = false := by
    rintro n rfl
    rcases cleanNs_ok _ _ hc with ⟨e, _⟩ | ⟨m, hm, _, e, hw⟩
    · simp at e
    · simp only [Option.some.injEq] at e; subst e; exact ⟨hm, hw⟩
  -- the local part and the namespace contain no white space
  have wl : hasAsciiWhitespace (analyse nsmap qn).2.1 = false ∧
      (∀ n, ns' = none → (analyse nsmap qn).2.2 = some n → hasAsciiWhitespace n = false) := by
    cases hmb : matchBraces qn with
    | some v =>
      obtain ⟨n, l⟩ := v
      obtain ⟨hq, hnb⟩ := matchBraces_some qn n l hmb
      have ha : analyse nsmap qn = (none, l, some n) := by simp [analyse, hmb]
      rw [hq, show '{' :: (n ++ '}' :: l) = ['{'] ++ (n ++ (['}'] ++ l)) by simp] at h2
      simp only [hasWs_append, Bool.or_eq_false_iff] at h2
      rw [ha]
      refine ⟨h2.2.2.2, ?_⟩
      rintro m _ e
      simp only [Option.some.injEq] at e
      exact e ▸ h2.2.1
    | none =>
      cases hsp : splitPrefix qn with
      | some v =>
        obtain ⟨p, l⟩ := v
        obtain ⟨hq, hpc⟩ := splitPrefix_some qn p l hsp
        have ha : analyse nsmap qn = (some p, l, nsmap p) := by simp [analyse, hmb, hsp]
        rw [hq, show p ++ ':' :: l = p ++ ([':'] ++ l) by simp] at h2
        simp only [hasWs_append, Bool.or_eq_false_iff] at h2
        rw [ha] at f4 ⊢
        refine ⟨h2.2.2, ?_⟩
        intro m e
        exact absurd e (f4 (by simp)).1
      | none =>
        have ha : analyse nsmap qn = (none, qn, none) := by simp [analyse, hmb, hsp]
        rw [ha]
        exact ⟨h2, by simp⟩
  obtain ⟨wl, wn⟩ := wl
  subst hr
  by_cases e : ns' = none
  · simp only [e, if_true] at hb ⊢
    cases hn : (analyse nsmap qn).2.2 with
    | some n =>
      rw [hn] at hb f3
      exact resolve_braces nsmap' n _ (by simpa using f3) f2 (hb n rfl) (wn n e hn) wl
    | none =>
      -- a bare local name
      cases hmb : matchBraces qn with
      | some v => obtain ⟨n, l⟩ := v; simp [analyse, hmb] at hn
      | none =>
        cases hsp : splitPrefix qn with
        | some v =>
          obtain ⟨p, l⟩ := v
          have ha : analyse nsmap qn = (some p, l, nsmap p) := by simp [analyse, hmb, hsp]
          rw [ha] at f4
          exact absurd e (f4 (by simp)).1
        | none =>
          have ha : ∀ m, analyse m qn = (none, qn, none) := by intro m; simp [analyse, hmb, hsp]
          simp only [ha nsmap, mk]
          simp [resolve, cleanNs, h1, h2, ha nsmap', finish, mk]
  · obtain ⟨n, hn⟩ := Option.ne_none_iff_exists'.mp e
    have := hns' n hn
    simp only [hn, reduceCtorEq, if_false] at hb ⊢
    exact resolve_braces nsmap' n _ this.1 f2 (hb n rfl) this.2 wl

/-- **C20** (injectivity).  Two resolved names with the same full name have the
same namespace and local name.  Missing: namespaces containing `}`. -/
theorem resolve_name_injective_partial (m1 m2 : Str → Option Str) (ns1 ns2 : Option Str) (q1 q2 : Str)
    (r1 r2 : QN) (h1 : resolve m1 ns1 q1 = .ok r1) (h2 : resolve m2 ns2 q2 = .ok r2)
    (b1 : ∀ n, r1.namespace_ = some n → '}' ∉ n) (b2 : ∀ n, r2.namespace_ = some n → '}' ∉ n)
    (e : r1.name = r2.name) : r1.namespace_ = r2.namespace_ ∧ r1.localName = r2.localName := by
  have a1 := resolve_name_recovers_partial m1 (fun _ => none) ns1 q1 r1 h1 b1
  have a2 := resolve_name_recovers_partial m2 (fun _ => none) ns2 q2 r2 h2 b2
  rw [e, a2] at a1
  injection a1 with a1
  exact ⟨by rw [a1], by rw [a1]⟩

/-- **C20** is violated when the namespace contains `}`: two different pairs get
the same full name. -/
theorem resolve_brace_violated :
    ∃ r1 r2 : QN, resolve (fun _ => none) (some "a".toList) "b}c".toList = .ok r1 ∧
      resolve (fun _ => none) (some "a}b".toList) "c".toList = .ok r2 ∧
      r1.name = r2.name ∧ r1.namespace_ ≠ r2.namespace_ ∧ r1.localName ≠ r2.localName := by
  refine ⟨mk (some "a".toList) "b}c".toList, mk (some "a}b".toList) "c".toList, ?_, ?_, ?_, ?_, ?_⟩
  · rfl
  · rfl
  · decide +kernel
  · decide +kernel
  · decide +kernel

/-- **C20** (prefixes).  A prefixed name is accepted exactly when a namespace is
given and the prefix is bound to that very namespace; otherwise it is a
`NamespaceError`.  (`p` is a usable prefix: not empty, no colon, not starting
with a brace; neither part contains white space.) -/
theorem resolve_prefixed (nsmap : Str → Option Str) (ns : Option Str) (p l : Str)
    (hp : p ≠ []) (hpc : ':' ∉ p) (hpb : p.head? ≠ some '{') (hl : l ≠ [])
    (hwp : hasAsciiWhitespace p = false) (hwl : hasAsciiWhitespace l = false)
    (hns : ∀ n, ns = some n → hasAsciiWhitespace n = false) (hm : nsmap p ≠ some []) :
    (∀ n, n ≠ [] → ns = some n → nsmap p = some n →
      resolve nsmap ns (p ++ ':' :: l) = .ok ⟨some n, l, "{".toList ++ n ++ "}".toList ++ l⟩) ∧
    (¬ (∃ n, n ≠ [] ∧ ns = some n ∧ nsmap p = some n) →
      resolve nsmap ns (p ++ ':' :: l) = .error (.dom "NamespaceError")) := by
  have hmb : matchBraces (p ++ ':' :: l) = none := by
    cases p with
    | nil => exact absurd rfl hp
    | cons x xs =>
      simp only [List.head?_cons, ne_eq, Option.some.injEq] at hpb
      unfold matchBraces
      split
      · rename_i s hs
        simp only [List.cons_append, List.cons.injEq] at hs
        exact absurd hs.1 hpb
      · rfl
  have hsp : splitPrefix (p ++ ':' :: l) = some (p, l) := PyStr.cut_append _ _ _ hpc
  have ha : analyse nsmap (p ++ ':' :: l) = (some p, l, nsmap p) := by simp [analyse, hmb, hsp]
  have hw : hasAsciiWhitespace (p ++ ':' :: l) = false := by
    rw [show p ++ ':' :: l = p ++ ([':'] ++ l) by simp]
    simp only [hasWs_append, hwp, hwl, Bool.or_false, Bool.false_or]
    decide
  have hq : (p ++ ':' :: l) ≠ [] := by simp
  constructor
  · rintro n hn rfl hmp
    have hw' := hns n rfl
    simp only [resolve, cleanNs, hn, if_false, hw', Bool.false_eq_true, hq, hw, ha, finish, hmp]
    simp [hp, hl, hn, mk]
  · intro hno
    have hno' : ∀ n, n ≠ [] → ns = some n → nsmap p ≠ some n := fun n a b c => hno ⟨n, a, b, c⟩
    cases ns with
    | none =>
      simp only [resolve, cleanNs, if_false, Bool.false_eq_true, hq, hw, ha, finish]
      simp [hp, hl, hm]
    | some n =>
      by_cases e : n = []
      · subst e
        simp only [resolve, cleanNs, if_true, if_false, Bool.false_eq_true, hq, hw, ha, finish]
        simp [hp, hl, hm]
      · have hne := hno' n e rfl
        have hw' := hns n rfl
        simp only [resolve, cleanNs, e, if_false, hw', Bool.false_eq_true, hq, hw, ha, finish]
        simp only [Option.some.injEq, hp, hl, hm, or_self, if_false]
        rw [if_pos]
        cases hc : nsmap p with
        | none => simp
        | some m => rw [hc] at hne; right; simpa using hne

/-- **C20** (conflict).  A name that spells out one namespace is rejected when
another one is given. -/
theorem resolve_braced_conflict (nsmap : Str → Option Str) (n m l : Str) (hn : n ≠ []) (hm : m ≠ [])
    (hl : l ≠ []) (hb : '}' ∉ n) (wn : hasAsciiWhitespace n = false) (wm : hasAsciiWhitespace m = false)
    (wl : hasAsciiWhitespace l = false) (hne : n ≠ m) :
    resolve nsmap (some m) ("{".toList ++ n ++ "}".toList ++ l) = .error (.dom "NamespaceError") := by
  have hw : hasAsciiWhitespace (['{'] ++ n ++ ['}'] ++ l) = false := by
    simp only [hasWs_append, wn, wl, Bool.or_false]
    decide
  have ha : analyse nsmap (['{'] ++ n ++ ['}'] ++ l) = (none, l, some n) := by
    simp only [analyse, matchBraces_mk n l hb]
  show resolve nsmap (some m) (['{'] ++ n ++ ['}'] ++ l) = _
  simp only [resolve, cleanNs, hm, wm, hw, Bool.false_eq_true, if_false, ha, finish]
  simp [hn, hl, hne]

/-- Non-trivial instances: `xml:lang` with its namespace, and with another one. -/
example : resolve (fun p => if p = "xml".toList then some "http://x".toList else none)
      (some "http://x".toList) "xml:lang".toList =
    .ok ⟨some "http://x".toList, "lang".toList, "{http://x}lang".toList⟩ := by rfl

example : resolve (fun p => if p = "xml".toList then some "http://x".toList else none)
      (some "http://y".toList) "xml:lang".toList = .error (.dom "NamespaceError") := by rfl

end SvgPy.QName
