import Verif.Model.Content
import Mathlib.Tactic.Tauto

/-! Properties C48, C49 and C65: the content of elements. -/

set_option linter.unusedSimpArgs false

namespace SvgPy.Content

/-! ### Specification -/

/-- Content in document order: characters and nodes. -/
inductive Item
  | chr (c : Char)
  | node (n : Nat)
  deriving DecidableEq

/-- Characters of a text. -/
def chars (s : Str) : List Item := s.map .chr

/-- Children with the text that follows each. -/
def flat (tail : Nat → Str) (l : List Nat) : List Item := l.flatMap (fun n => .node n :: chars (tail n))

/-- The content of the element. -/
def content (st : St) : List Item := chars st.text ++ flat st.tail st.kids

/-- The content that arguments stand for. -/
def given : List Arg → List Item
  | [] => []
  | .str s :: l => chars s ++ given l
  | .node n :: l => .node n :: given l

/-- The nodes among the arguments. -/
def nodes : List Arg → List Nat
  | [] => []
  | .str _ :: l => nodes l
  | .node n :: l => n :: nodes l

/-- New nodes: different from each other and from the children, not followed by text. -/
def New (st : St) (l : List Nat) : Prop := l.Nodup ∧ ∀ n ∈ l, n ∉ st.kids ∧ st.tail n = []

/-! ### Lemmas -/

theorem chars_append (a b : Str) : chars (a ++ b) = chars a ++ chars b := by simp [chars]

theorem chars_nil : chars [] = [] := rfl

theorem flat_append (t : Nat → Str) (a b : List Nat) : flat t (a ++ b) = flat t a ++ flat t b := by simp [flat]

theorem flat_cons (t : Nat → Str) (a : Nat) (b : List Nat) : flat t (a :: b) = .node a :: (chars (t a) ++ flat t b) := by simp [flat]

theorem flat_nil (t : Nat → Str) : flat t [] = [] := rfl

theorem flat_set (st : St) (n : Nat) (s : Str) (l : List Nat) (h : n ∉ l) : flat (setTail st n s).tail l = flat st.tail l := by
  induction l with
  | nil => rfl
  | cons a l ih =>
    simp only [List.mem_cons, not_or] at h
    rw [flat_cons, flat_cons, ih h.2]
    have : a ≠ n := fun e => h.1 e.symm
    simp [setTail, this]

theorem tail_set (st : St) (n m : Nat) (s : Str) (h : m ≠ n) : (setTail st n s).tail m = st.tail m := by simp [setTail, h]

theorem erase_new (l : List Nat) (n : Nat) (h : n ∉ l) : l.erase n = l := List.erase_of_not_mem h

theorem new_tail (st st' : St) (n : Nat) (l : List Nat) (h : New st (n :: l)) (hk : ∀ m ∈ l, m ∈ st'.kids → m ∈ st.kids ∨ m = n)
    (ht : ∀ m ∈ l, st'.tail m = st.tail m) : New st' l := by
  obtain ⟨h1, h2⟩ := h
  simp only [List.nodup_cons] at h1
  refine ⟨h1.2, fun m hm => ⟨fun hm' => ?_, ?_⟩⟩
  · rcases hk m hm hm' with h | rfl
    · exact (h2 m (by simp [hm])).1 h
    · exact h1.1 hm
  · rw [ht m hm]; exact (h2 m (by simp [hm])).2

/-! ### append -/

/-- Text put at the end. -/
theorem content_appendData (st : St) (target : Option Nat) (data : Str)
    (ht : (target = none ∧ st.kids = []) ∨ ∃ init t, st.kids = init ++ [t] ∧ t ∉ init ∧ target = some t) :
    content (appendData st target data) = content st ++ chars data := by
  rcases ht with ⟨rfl, hk⟩ | ⟨init, t, hk, hn, rfl⟩
  · simp [appendData, content, hk, flat_nil, chars_append]
  · have h1 : (setTail st t (st.tail t ++ data)).kids = st.kids := rfl
    have h2 : (setTail st t (st.tail t ++ data)).text = st.text := rfl
    have h3 : (setTail st t (st.tail t ++ data)).tail t = st.tail t ++ data := by simp [setTail]
    simp only [appendData, content, h1, h2, hk, flat_append, flat_set _ _ _ _ hn, flat_cons, flat_nil, h3, chars_append,
      List.append_assoc, List.append_nil, List.cons_append]

theorem appendLoop_spec (l : List Arg) (st : St) (data : Str) (target : Option Nat) (hnd : st.kids.Nodup)
    (hf : New st (nodes l)) (ht : (target = none ∧ st.kids = []) ∨ ∃ init t, st.kids = init ++ [t] ∧ t ∉ init ∧ target = some t) :
    content (appendLoop st data target l) = content st ++ chars data ++ given l := by
  induction l generalizing st data target with
  | nil =>
    simp only [appendLoop, given, List.append_nil]
    split
    · exact content_appendData st target data ht
    · have : data = [] := by cases data <;> simp_all
      simp [this, chars_nil]
  | cons a l ih =>
    cases a with
    | str s =>
      simp only [appendLoop, given]
      rw [ih st (data ++ s) target hnd hf ht, chars_append]
      simp
    | node n =>
      simp only [appendLoop, given]
      generalize hst : (if data.length > 0 then appendData st target data else st) = st1
      have hc : content st1 = content st ++ chars data := by
        rw [← hst]
        split
        · exact content_appendData st target data ht
        · have : data = [] := by cases data <;> simp_all
          simp [this, chars_nil]
      have hk : st1.kids = st.kids := by
        rw [← hst]; split
        · cases target <;> rfl
        · rfl
      have htail : ∀ m, m ∉ st.kids → st1.tail m = st.tail m := by
        intro m hm
        rw [← hst]; split
        · rcases ht with ⟨rfl, -⟩ | ⟨init, t, hk, hn, rfl⟩
          · rfl
          · exact tail_set _ _ _ _ (fun e => hm (by rw [e, hk]; simp))
        · rfl
      have hf' : New st (n :: nodes l) := hf
      have hn := hf'.2 n (by simp)
      have hlk : (lxmlAppend st1 n).kids = st.kids ++ [n] := by
        simp only [lxmlAppend, hk, erase_new _ _ hn.1]
      rw [ih]
      · have : content (lxmlAppend st1 n) = content st1 ++ [.node n] := by
          simp only [content, hlk, flat_append, flat_cons, flat_nil]
          simp only [lxmlAppend, htail n hn.1, hn.2, chars_nil, hk, List.append_nil, List.append_assoc]
        rw [this, hc]
        simp [chars_nil]
      · rw [hlk, List.nodup_append]
        refine ⟨hnd, by simp, ?_⟩
        intro a ha b hb
        simp at hb
        rintro rfl
        exact hn.1 (hb ▸ ha)
      · refine new_tail st _ n _ hf' ?_ ?_
        · intro m hm hm'
          rw [hlk] at hm'
          simpa using hm'
        · intro m hm
          exact htail m (hf'.2 m (by simp [hm])).1
      · exact .inr ⟨st.kids, n, hlk, hn.1, rfl⟩

/-- **C48** `append` puts its arguments, in order, after everything else, if the element has no
children yet or the first argument is a node.  Missing: see `append_text_violated`. -/
theorem append_partial (st : St) (l : List Arg) (hnd : st.kids.Nodup) (hf : New st (nodes l))
    (h : st.kids = [] ∨ ∀ s l', l ≠ .str s :: l') : content (append st l) = content st ++ given l := by
  rcases h with h | h
  · have := appendLoop_spec l st [] none hnd hf (.inl ⟨rfl, h⟩)
    simpa [append, chars_nil] using this
  · cases l with
    | nil => simp [append, appendLoop, given]
    | cons a l =>
      cases a with
      | str s => exact absurd rfl (h s l)
      | node n =>
        have hf' : New st (n :: nodes l) := hf
        have hn := hf'.2 n (by simp)
        have hlk : (lxmlAppend st n).kids = st.kids ++ [n] := by simp only [lxmlAppend, erase_new _ _ hn.1]
        simp only [append, appendLoop, List.length_nil, gt_iff_lt, Nat.lt_irrefl, if_false]
        rw [appendLoop_spec]
        · have : content (lxmlAppend st n) = content st ++ [.node n] := by
            simp only [content, hlk, flat_append, flat_cons, flat_nil]
            simp only [lxmlAppend, hn.2, chars_nil, List.append_nil, List.append_assoc]
          rw [this]
          simp [chars_nil, given]
        · rw [hlk, List.nodup_append]
          refine ⟨hnd, by simp, ?_⟩
          intro a ha b hb
          simp at hb
          rintro rfl
          exact hn.1 (hb ▸ ha)
        · refine new_tail st _ n _ hf' ?_ (fun m _ => rfl)
          intro m hm hm'
          rw [hlk] at hm'
          simpa using hm'
        · exact .inr ⟨st.kids, n, hlk, hn.1, rfl⟩

/-- A non-trivial instance of the hypotheses. -/
example : (⟨"ab".toList, [1, 2], fun n => if n = 1 then "x".toList else []⟩ : St).kids.Nodup ∧
    New ⟨"ab".toList, [1, 2], fun n => if n = 1 then "x".toList else []⟩ (nodes [.node 3, .str "y".toList, .node 4]) ∧
    ∀ s l', [Arg.node 3, .str "y".toList, .node 4] ≠ .str s :: l' := by
  refine ⟨by decide, ⟨by decide, ?_⟩, by simp⟩
  intro n hn
  simp [nodes] at hn
  rcases hn with rfl | rfl <;> simp

/-- **C48** is violated when text is appended first to an element with children: it is put before
the first child instead of after the last. -/
theorem append_text_violated :
    let st : St := ⟨[], [1], fun _ => []⟩
    content (append st [.str "a".toList]) = [.chr 'a', .node 1] ∧ content st ++ given [.str "a".toList] = [.node 1, .chr 'a'] := by
  decide

/-- **C48** is violated when a child is appended again: the text that follows it moves along. -/
theorem append_move_violated :
    let st : St := ⟨[], [1, 2], fun n => if n = 1 then "x".toList else []⟩
    content st = [.node 1, .chr 'x', .node 2] ∧ content (append st [.node 1]) = [.node 2, .node 1, .chr 'x'] := by
  decide

/-! ### prepend -/

theorem putBefore_head (ins : List Nat) (f : Nat) (old : List Nat) (n : Nat) (h : f ∉ ins) :
    putBefore f n (ins ++ f :: old) = ins ++ n :: f :: old := by
  induction ins with
  | nil => simp [putBefore]
  | cons a ins ih =>
    simp only [List.mem_cons, not_or] at h
    have : a ≠ f := fun e => h.1 e.symm
    simp [putBefore, this, ih h.2]

/-- The variables of the loop: nodes put in so far, the last of them the target. -/
def PInv (st : St) (target : Option Nat) (ins rest : List Nat) : Prop :=
  st.kids = ins ++ rest ∧ (ins ++ rest).Nodup ∧
    ((target = none ∧ ins = [] ∧ st.text = []) ∨ ∃ init t, ins = init ++ [t] ∧ target = some t ∧ st.tail t = [])

/-- What has been put in. -/
def done (st : St) (ins : List Nat) : List Item := chars st.text ++ flat st.tail ins

theorem prependData_inv (st : St) (target : Option Nat) (ins rest : List Nat) (data : Str) (h : PInv st target ins rest) :
    done (prependData st target data) ins = done st ins ++ chars data ∧ flat (prependData st target data).tail rest = flat st.tail rest := by
  obtain ⟨h1, h2, ⟨rfl, rfl, h3⟩ | ⟨init, t, rfl, rfl, h3⟩⟩ := h
  · simp [prependData, done, flat_nil, h3, chars_nil]
  · have hti : t ∉ init ∧ t ∉ rest := by
      simp only [List.append_assoc, List.singleton_append, List.nodup_append, List.nodup_cons] at h2
      exact ⟨fun h => h2.2.2 t h t (by simp) rfl, h2.2.1.1⟩
    have h4 : (setTail st t (data ++ st.tail t)).text = st.text := rfl
    have h5 : (setTail st t (data ++ st.tail t)).tail t = data := by simp [setTail, h3]
    constructor
    · simp only [prependData, done, h4, flat_append, flat_set _ _ _ _ hti.1, flat_cons, flat_nil, h5]
      simp [h3, chars_nil]
    · exact flat_set _ _ _ _ hti.2

theorem appendData_inv (st : St) (target : Option Nat) (ins rest : List Nat) (data : Str)
    (h2 : (ins ++ rest).Nodup) (h : (target = none ∧ ins = []) ∨ ∃ init t, ins = init ++ [t] ∧ target = some t) :
    done (appendData st target data) ins = done st ins ++ chars data ∧ flat (appendData st target data).tail rest = flat st.tail rest := by
  obtain ⟨rfl, rfl⟩ | ⟨init, t, rfl, rfl⟩ := h
  · simp [appendData, done, flat_nil, chars_append]
  · have hti : t ∉ init ∧ t ∉ rest := by
      simp only [List.append_assoc, List.singleton_append, List.nodup_append, List.nodup_cons] at h2
      exact ⟨fun h => h2.2.2 t h t (by simp) rfl, h2.2.1.1⟩
    have h4 : (setTail st t (st.tail t ++ data)).text = st.text := rfl
    have h5 : (setTail st t (st.tail t ++ data)).tail t = st.tail t ++ data := by simp [setTail]
    constructor
    · simp only [appendData, done, h4, flat_append, flat_set _ _ _ _ hti.1, flat_cons, flat_nil, h5, chars_append,
        List.append_nil, List.append_assoc, List.cons_append]
    · exact flat_set _ _ _ _ hti.2

theorem kids_prependData (st : St) (target : Option Nat) (data : Str) : (prependData st target data).kids = st.kids := by
  cases target <;> rfl

theorem kids_appendData (st : St) (target : Option Nat) (data : Str) : (appendData st target data).kids = st.kids := by
  cases target <;> rfl

/-- The end of `prepend`. -/
theorem prependLoop_nil (text : Str) (st : St) (data : Str) (target first : Option Nat) (ins rest : List Nat)
    (h : PInv st target ins rest) :
    content (prependLoop text st data target first []) = done st ins ++ chars data ++ chars text ++ flat st.tail rest := by
  simp only [prependLoop]
  generalize hs1 : (if data.length > 0 then prependData st target data else st) = s1
  have a1 : done s1 ins = done st ins ++ chars data ∧ flat s1.tail rest = flat st.tail rest ∧ s1.kids = st.kids := by
    rw [← hs1]
    split
    · exact ⟨(prependData_inv _ _ _ _ _ h).1, (prependData_inv _ _ _ _ _ h).2, kids_prependData _ _ _⟩
    · have : data = [] := by cases data <;> simp_all
      simp [this, chars_nil]
  have ht : (target = none ∧ ins = []) ∨ ∃ init t, ins = init ++ [t] ∧ target = some t := by
    obtain ⟨-, -, ⟨a, b, -⟩ | ⟨i, t, a, b, -⟩⟩ := h
    · exact .inl ⟨a, b⟩
    · exact .inr ⟨i, t, a, b⟩
  generalize hs2 : (if text.length > 0 then appendData s1 target text else s1) = s2
  have a2 : done s2 ins = done s1 ins ++ chars text ∧ flat s2.tail rest = flat s1.tail rest ∧ s2.kids = s1.kids := by
    rw [← hs2]
    split
    · exact ⟨(appendData_inv _ _ _ _ _ h.2.1 ht).1, (appendData_inv _ _ _ _ _ h.2.1 ht).2, kids_appendData _ _ _⟩
    · have : text = [] := by cases text <;> simp_all
      simp [this, chars_nil]
  have : content s2 = done s2 ins ++ flat s2.tail rest := by
    simp only [content, done, a2.2.2, a1.2.2, h.1, flat_append, List.append_assoc]
  rw [this, a2.1, a2.2.1, a1.1, a1.2.1]

theorem prependLoop_spec (text : Str) (l : List Arg) (st : St) (data : Str) (target : Option Nat) (ins : List Nat) (f : Nat)
    (old : List Nat) (h : PInv st target ins (f :: old)) (hf : New st (nodes l)) :
    content (prependLoop text st data target (some f) l) =
      done st ins ++ chars data ++ given l ++ chars text ++ flat st.tail (f :: old) := by
  induction l generalizing st data target ins with
  | nil => rw [prependLoop_nil text st data target (some f) ins (f :: old) h]; simp [given]
  | cons a l ih =>
    cases a with
    | str s =>
      simp only [prependLoop, given]
      rw [ih st (data ++ s) target ins h hf, chars_append]
      simp
    | node n =>
      have hf' : New st (n :: nodes l) := hf
      have hn := hf'.2 n (by simp)
      simp only [prependLoop, given, prependNode]
      generalize hs1 : (if data.length > 0 then prependData st target data else st) = s1
      have a1 : done s1 ins = done st ins ++ chars data ∧ flat s1.tail (f :: old) = flat st.tail (f :: old) ∧ s1.kids = st.kids ∧
          ∀ m, m ∉ st.kids → s1.tail m = st.tail m := by
        rw [← hs1]
        split
        · refine ⟨(prependData_inv _ _ _ _ _ h).1, (prependData_inv _ _ _ _ _ h).2, kids_prependData _ _ _, ?_⟩
          intro m hm
          obtain ⟨b1, -, ⟨rfl, -⟩ | ⟨i, t, rfl, rfl, -⟩⟩ := h
          · rfl
          · exact tail_set _ _ _ _ (fun e => hm (by rw [e, b1]; simp))
        · have : data = [] := by cases data <;> simp_all
          simp [this, chars_nil]
      obtain ⟨c1, c2, c3, c4⟩ := a1
      obtain ⟨b1, b2, -⟩ := h
      have hfn : f ≠ n := fun e => hn.1 (by rw [b1, ← e]; simp)
      have hfi : f ∉ ins := by
        simp only [List.nodup_append] at b2
        exact fun h => b2.2.2 f h f (by simp) rfl
      have hni : n ∉ ins ++ f :: old := by rw [← b1]; exact hn.1
      have hk : (addprevious s1 f n).kids = (ins ++ [n]) ++ f :: old := by
        have e : putBefore f n (st.kids.erase n) = ins ++ n :: f :: old := by
          rw [erase_new _ _ hn.1, b1, putBefore_head _ _ _ _ hfi]
        simp [addprevious, hfn, c3, e]
      have ht : (addprevious s1 f n).tail = s1.tail ∧ (addprevious s1 f n).text = s1.text := by
        simp only [addprevious, hfn, if_false, and_self]
      have hinv : PInv (addprevious s1 f n) (some n) (ins ++ [n]) (f :: old) := by
        refine ⟨hk, ?_, .inr ⟨ins, n, rfl, rfl, ?_⟩⟩
        · have : (ins ++ [n] ++ f :: old).Perm (n :: (ins ++ f :: old)) := by
            rw [List.append_assoc]; exact List.perm_middle
          rw [this.nodup_iff, List.nodup_cons]
          exact ⟨hni, b2⟩
        · rw [ht.1, c4 n hn.1, hn.2]
      rw [ih _ _ _ _ hinv]
      · simp only [done, ht.1, ht.2, flat_append, flat_cons, flat_nil, c4 n hn.1, hn.2, chars_nil, List.append_nil]
        rw [← flat_cons, c2, ← flat_cons]
        simp only [done] at c1
        rw [← List.append_assoc, c1]
        simp
      · refine new_tail st _ n _ hf' ?_ ?_
        · intro m hm hm'
          rw [hk] at hm'
          rw [b1]
          simp only [List.mem_append, List.mem_cons, List.not_mem_nil, or_false] at hm' ⊢
          tauto
        · intro m hm
          rw [ht.1]
          exact c4 m (hf'.2 m (by simp [hm])).1

theorem prependLoop_str (text : Str) (l : List Arg) (st : St) (data : Str) (target first : Option Nat) (ins rest : List Nat)
    (h : PInv st target ins rest) (hl : nodes l = []) :
    content (prependLoop text st data target first l) = done st ins ++ chars data ++ given l ++ chars text ++ flat st.tail rest := by
  induction l generalizing data with
  | nil => rw [prependLoop_nil text st data target first ins rest h]; simp [given]
  | cons a l ih =>
    cases a with
    | str s =>
      simp only [prependLoop, given]
      rw [ih (data ++ s) hl, chars_append]
      simp
    | node n => simp [nodes] at hl

theorem prependLoop_empty (text : Str) (l : List Arg) (st : St) (data : Str) (hk : st.kids = []) (ht : st.text = [])
    (hf : New st (nodes l)) (hl : (nodes l).length ≤ 1) :
    content (prependLoop text st data none none l) = chars data ++ given l ++ chars text := by
  have h0 : PInv st none [] [] := ⟨by simp [hk], by simp, .inl ⟨rfl, rfl, ht⟩⟩
  induction l generalizing data with
  | nil =>
    rw [prependLoop_nil text st data none none [] [] h0]
    simp [done, ht, chars_nil, flat_nil, given]
  | cons a l ih =>
    cases a with
    | str s =>
      simp only [prependLoop, given]
      rw [ih (data ++ s) hf hl, chars_append]
      simp
    | node n =>
      have hf' : New st (n :: nodes l) := hf
      have hn := hf'.2 n (by simp)
      have hl' : nodes l = [] := by
        simp only [nodes, List.length_cons] at hl
        exact List.length_eq_zero_iff.1 (by omega)
      simp only [prependLoop, given, prependNode]
      generalize hs1 : (if data.length > 0 then prependData st none data else st) = s1
      have a1 : s1.text = data ∧ s1.kids = [] ∧ s1.tail = st.tail := by
        rw [← hs1]
        split
        · simp [prependData, ht, hk]
        · have : data = [] := by cases data <;> simp_all
          simp [this, ht, hk]
      have hinv : PInv (lxmlAppend s1 n) (some n) [n] [] := by
        refine ⟨by simp [lxmlAppend, a1.2.1], by simp, .inr ⟨[], n, rfl, rfl, ?_⟩⟩
        simp [lxmlAppend, a1.2.2, hn.2]
      rw [prependLoop_str _ _ _ _ _ _ _ _ hinv hl']
      simp [done, lxmlAppend, a1, chars_nil, flat_nil, flat_cons, hn.2]

/-- **C48** `prepend` puts its arguments, in order, before everything else, if the element has
children already or there is at most one node among the arguments.  Missing: see
`prepend_order_violated`. -/
theorem prepend_partial (st : St) (l : List Arg) (hnd : st.kids.Nodup) (hf : New st (nodes l))
    (h : st.kids ≠ [] ∨ (nodes l).length ≤ 1) : content (prepend st l) = given l ++ content st := by
  unfold prepend
  generalize hs : (if st.text.length > 0 then { st with text := [] } else st) = s0
  have hs0 : s0.text = [] ∧ s0.kids = st.kids ∧ s0.tail = st.tail := by
    rw [← hs]
    split
    · exact ⟨rfl, rfl, rfl⟩
    · have : st.text = [] := by cases h : st.text <;> simp_all
      simp [this]
  have hf0 : New s0 (nodes l) := ⟨hf.1, fun n hn => by rw [hs0.2.1, hs0.2.2]; exact hf.2 n hn⟩
  cases hk : st.kids with
  | nil =>
    have hl : (nodes l).length ≤ 1 := by
      rcases h with h | h
      · exact absurd hk h
      · exact h
    simp only [List.head?_nil]
    rw [prependLoop_empty st.text l s0 [] (by rw [hs0.2.1, hk]) hs0.1 hf0 hl]
    simp [chars_nil, content, hk, flat_nil]
  | cons f old =>
    simp only [List.head?_cons]
    have hinv : PInv s0 none [] (f :: old) := ⟨by rw [hs0.2.1, hk]; rfl, by simpa [hk] using hnd, .inl ⟨rfl, rfl, hs0.1⟩⟩
    rw [prependLoop_spec st.text l s0 [] none [] f old hinv hf0]
    simp [done, hs0.1, hs0.2.2, chars_nil, flat_nil, content, hk]

/-- A non-trivial instance of the hypotheses. -/
example : New ⟨"ab".toList, [1, 2], fun n => if n = 1 then "x".toList else []⟩ (nodes [.str "y".toList, .node 3, .str "y".toList, .node 4]) := by
  refine ⟨by decide, ?_⟩
  intro n hn
  simp [nodes] at hn
  rcases hn with rfl | rfl <;> simp

/-- **C48** is violated when two nodes are prepended to an element without children: they come
out in reverse order. -/
theorem prepend_order_violated :
    let st : St := ⟨[], [], fun _ => []⟩
    content (prepend st [.node 1, .node 2]) = [.node 2, .node 1] ∧ given [.node 1, .node 2] ++ content st = [.node 1, .node 2] := by
  decide

/-! ### Single children -/

theorem split_at (l : List Nat) (n : Nat) (h : n ∈ l) (hnd : l.Nodup) : ∃ a b, l = a ++ n :: b ∧ n ∉ a ∧ n ∉ b := by
  obtain ⟨a, b, rfl⟩ := List.append_of_mem h
  simp only [List.nodup_append, List.nodup_cons] at hnd
  exact ⟨a, b, rfl, fun h => hnd.2.2 n h n (by simp) rfl, hnd.2.1.1⟩

/-- **C65** Inserting a new node before a child puts it directly before that child and changes
nothing else; a node that is not a child is refused; without a child the node is put at the
end. -/
theorem insertBefore_spec (st : St) (n : Nat) (hnd : st.kids.Nodup) (hn : n ∉ st.kids) (ht : st.tail n = []) :
    (∀ c ∈ st.kids, ∃ st' a b, insertBefore st n (some c) = .ok st' ∧ content st = a ++ .node c :: b ∧
      content st' = a ++ .node n :: .node c :: b) ∧
    (∀ c, c ∉ st.kids → insertBefore st n (some c) = .error (.dom "NotFoundError")) ∧
    (∃ st', insertBefore st n none = .ok st' ∧ content st' = content st ++ [.node n]) := by
  refine ⟨fun c hc => ?_, fun c hc => by simp [insertBefore, hc], ?_⟩
  · obtain ⟨a, b, hk, ha, hb⟩ := split_at _ c hc hnd
    have hcn : c ≠ n := fun e => hn (e ▸ hc)
    have e : insertBefore st n (some c) = .ok (addprevious st c n) := by
      simp [insertBefore, hc, hcn]
    have hk' : (addprevious st c n).kids = a ++ n :: c :: b := by
      simp only [addprevious, hcn, if_false, erase_new _ _ hn]
      rw [hk, putBefore_head _ _ _ _ ha]
    have h2 : (addprevious st c n).tail = st.tail ∧ (addprevious st c n).text = st.text := by
      simp only [addprevious, hcn, if_false, and_self]
    refine ⟨_, chars st.text ++ flat st.tail a, chars (st.tail c) ++ flat st.tail b, e, ?_, ?_⟩
    · simp [content, hk, flat_append, flat_cons]
    · simp [content, hk', h2, flat_append, flat_cons, ht, chars_nil]
  · refine ⟨append st [.node n], by simp [insertBefore], ?_⟩
    have := append_partial st [.node n] hnd ⟨by simp [nodes], by simpa [nodes] using ⟨hn, ht⟩⟩ (.inr (by simp))
    simpa [given] using this

theorem getnext_split (a b : List Nat) (n : Nat) (h : n ∉ a) : getnext n (a ++ n :: b) = b.head? := by
  induction a with
  | nil => simp [getnext]
  | cons x a ih =>
    simp only [List.mem_cons, not_or] at h
    have : x ≠ n := fun e => h.1 e.symm
    simp [getnext, this, ih h.2]

/-- **C65** Inserting a child before itself changes nothing. -/
theorem insertBefore_self (st : St) (n : Nat) (hnd : st.kids.Nodup) (hn : n ∈ st.kids) :
    ∃ st', insertBefore st n (some n) = .ok st' ∧ content st' = content st := by
  obtain ⟨a, b, hk, ha, hb⟩ := split_at _ n hn hnd
  have e : (a ++ n :: b).erase n = a ++ b := by rw [List.erase_append_right _ ha]; simp
  have hg : getnext n st.kids = b.head? := by rw [hk, getnext_split _ _ _ ha]
  cases b with
  | nil =>
    refine ⟨append st [.node n], by simp [insertBefore, hn, hg], ?_⟩
    simp [append, appendLoop, lxmlAppend, content, hk, e]
  | cons r b =>
    have hrn : r ≠ n := fun h => hb (by simp [h])
    have hra : r ∉ a := by
      rw [hk] at hnd
      simp only [List.nodup_append] at hnd
      exact fun h => hnd.2.2 r h r (by simp) rfl
    refine ⟨addprevious st r n, by simp [insertBefore, hn, hg], ?_⟩
    simp only [addprevious, hrn, if_false, hk, e, putBefore_head _ _ _ _ hra, content]

/-- **C65** Inserting a new node at a position puts it directly before the child that is there,
or at the end. -/
theorem insert_spec (st : St) (i n : Nat) (hnd : st.kids.Nodup) (hn : n ∉ st.kids) (ht : st.tail n = []) :
    (∀ c, st.kids[i]? = some c → ∃ a b, content st = a ++ .node c :: b ∧ content (insert st i n) = a ++ .node n :: .node c :: b) ∧
    (st.kids.length ≤ i → content (insert st i n) = content st ++ [.node n]) := by
  constructor
  · intro c hc
    have hm : c ∈ st.kids := List.mem_of_getElem? hc
    obtain ⟨st', a, b, h1, h2, h3⟩ := (insertBefore_spec st n hnd hn ht).1 c hm
    have hcn : c ≠ n := fun e => hn (e ▸ hm)
    refine ⟨a, b, h2, ?_⟩
    rw [← h3]
    simp [insertBefore, hm, hcn] at h1
    rw [← h1]
    simp [insert, hc]
  · intro hi
    have : st.kids[i]? = none := by simpa using hi
    simp [insert, this, lxmlAppend, content, erase_new _ _ hn, flat_append, flat_cons, flat_nil, ht, chars_nil]

/-- **C65** Removing a child that is not followed by text takes out just that child; a node that
is not a child is refused.  Missing: see `remove_tail_violated`. -/
theorem remove_partial (st : St) (n : Nat) (hnd : st.kids.Nodup) :
    (n ∈ st.kids → st.tail n = [] → ∃ st' a b, remove st n = .ok st' ∧ content st = a ++ .node n :: b ∧ content st' = a ++ b) ∧
    (n ∉ st.kids → remove st n = .error (.dom "NotFoundError")) := by
  refine ⟨fun h ht => ?_, fun h => by simp [remove, h]⟩
  obtain ⟨a, b, hk, ha, hb⟩ := split_at _ n h hnd
  have e : (a ++ n :: b).erase n = a ++ b := by rw [List.erase_append_right _ ha]; simp
  refine ⟨_, chars st.text ++ flat st.tail a, flat st.tail b, by rw [remove, if_pos h], ?_, ?_⟩
  · simp [content, hk, flat_append, flat_cons, ht, chars_nil]
  · simp [content, hk, e, flat_append]

/-- **C65** is violated when text follows the removed child: it is removed as well. -/
theorem remove_tail_violated :
    let st : St := ⟨"a".toList, [1], fun _ => "b".toList⟩
    content st = [.chr 'a', .node 1, .chr 'b'] ∧ ∃ st', remove st 1 = .ok st' ∧ content st' = [.chr 'a'] := by
  exact ⟨by decide, _, rfl, by decide⟩

theorem swap_split (a b : List Nat) (old new : Nat) (h : old ∉ a) : swap old new (a ++ old :: b) = a ++ new :: b := by
  induction a with
  | nil => simp [swap]
  | cons x a ih =>
    simp only [List.mem_cons, not_or] at h
    have : x ≠ old := fun e => h.1 e.symm
    simp [swap, this, ih h.2]

/-- **C65** Replacing a child that is not followed by text by a new node puts the node in its
place; a node that is not a child is refused.  Missing: see `replace_tail_violated`. -/
theorem replace_partial (st : St) (old new : Nat) (hnd : st.kids.Nodup) :
    (old ∈ st.kids → new ∉ st.kids → st.tail new = [] → st.tail old = [] →
      ∃ st' a b, replace st old new = .ok st' ∧ content st = a ++ .node old :: b ∧ content st' = a ++ .node new :: b) ∧
    (old ∉ st.kids → replace st old new = .error (.dom "NotFoundError")) := by
  refine ⟨fun h hn ht ht' => ?_, fun h => by simp [replace, h]⟩
  obtain ⟨a, b, hk, ha, hb⟩ := split_at _ old h hnd
  have hne : old ≠ new := fun e => hn (e ▸ h)
  refine ⟨_, chars st.text ++ flat st.tail a, flat st.tail b, by rw [replace, if_pos h, if_neg hne], ?_, ?_⟩
  · simp [content, hk, flat_append, flat_cons, ht', chars_nil]
  · have e : swap old new (st.kids.erase new) = a ++ new :: b := by rw [erase_new _ _ hn, hk, swap_split _ _ _ _ ha]
    simp [content, e, flat_append, flat_cons, ht, chars_nil]

/-- **C65** A child that is replaced by itself stays, and so does everything else. -/
theorem replace_self (st : St) (n : Nat) (h : n ∈ st.kids) :
    ∃ st', replace st n n = .ok st' ∧ content st' = content st := by
  exact ⟨st, by simp [replace, h], rfl⟩

/-- **C65** is violated when text follows the replaced child: it is lost. -/
theorem replace_tail_violated :
    let st : St := ⟨[], [1], fun n => if n = 1 then "b".toList else []⟩
    content st = [.node 1, .chr 'b'] ∧ ∃ st', replace st 1 2 = .ok st' ∧ content st' = [.node 2] := by
  exact ⟨by decide, _, rfl, by decide⟩

/-! ### C49 -/

mutual
/-- All character data of a subtree in document order. -/
def allText : Tree → Str
  | .elem _ text kids => text.getD [] ++ kidsText kids

/-- All character data among children. -/
def kidsText : Kids → Str
  | .nil => []
  | .other tail rest => tail.getD [] ++ kidsText rest
  | .cons t tail rest => allText t ++ tail.getD [] ++ kidsText rest
end

mutual
/-- Subtrees in which all character data stands where the code looks for it: inside or after
`tspan` elements, inside `text` elements; no text in other elements or after other nodes. -/
def Plain : Tree → Prop
  | .elem _ _ kids => PlainKids kids

/-- The same for children. -/
def PlainKids : Kids → Prop
  | .nil => True
  | .other tail rest => tail.getD [] = [] ∧ PlainKids rest
  | .cons t tail rest => (t.name = "tspan" ∧ Plain t ∨ t.name = "text" ∧ Plain t ∧ tail.getD [] = [] ∨
      allText t = [] ∧ tail.getD [] = []) ∧ PlainKids rest
end

theorem flatten_toList (o : Option Str) : o.toList.flatten = o.getD [] := by cases o <;> simp

mutual
theorem getText_eq : (t : Tree) → Plain t → (getText t).flatten = allText t
  | .elem n text kids, h => by
    simp only [getText, allText, List.flatten_append, flatten_toList]
    rw [getKids_eq kids h]

theorem getKids_eq : (k : Kids) → PlainKids k → (getKids k).flatten = kidsText k
  | .nil, _ => rfl
  | .other tail rest, h => by
    simp only [getKids, kidsText, h.1, List.nil_append]
    exact getKids_eq rest h.2
  | .cons t tail rest, h => by
    have ih := getKids_eq rest h.2
    have h1 := h.1
    simp only [getKids, kidsText, List.flatten_append, ih]
    congr 1
    rcases h1 with ⟨hn, hp⟩ | ⟨hn, hp, ht⟩ | ⟨ha, ht⟩
    · have := getText_eq t hp
      simp [hn, textElements, textChildElements, this, flatten_toList]
    · have := getText_eq t hp
      simp [hn, textElements, textChildElements, this, ht]
    · rw [ha, ht]
      by_cases h3 : t.name ∈ textElements
      · have h4 := getText_nil t ha
        simp only [h3, if_true, List.flatten_append, h4, List.nil_append]
        split
        · rw [flatten_toList, ht]
        · rfl
      · simp [h3]

theorem getText_nil : (t : Tree) → allText t = [] → (getText t).flatten = []
  | .elem n text kids, h => by
    simp only [allText, List.append_eq_nil_iff] at h
    simp only [getText, List.flatten_append, flatten_toList, h.1, List.nil_append]
    exact getKids_nil kids h.2

theorem getKids_nil : (k : Kids) → kidsText k = [] → (getKids k).flatten = []
  | .nil, _ => rfl
  | .other tail rest, h => by
    simp only [kidsText, List.append_eq_nil_iff] at h
    exact getKids_nil rest h.2
  | .cons t tail rest, h => by
    simp only [kidsText, List.append_eq_nil_iff] at h
    have ih := getKids_nil rest h.2
    have h1 := getText_nil t h.1.1
    simp only [getKids, List.flatten_append, ih, List.append_nil]
    split
    · simp only [List.flatten_append, h1, List.nil_append]
      split
      · rw [flatten_toList]; exact h.1.2
      · rfl
    · rfl
end

/-- **C49** The text content of a `text` or `tspan` element is all its character data in
document order, if that stands where the code looks for it.  Missing: see the violations. -/
theorem textContent_partial (t : Tree) (hn : t.name = "text" ∨ t.name = "tspan") (h : Plain t) :
    textContent t = some (allText t) := by
  obtain ⟨n, text, kids⟩ := t
  have := getText_eq _ h
  simp only [Tree.name] at hn
  rcases hn with rfl | rfl
  · simp [textContent, descriptive, textElements, this]
  · simp [textContent, descriptive, textElements, this]

/-- A non-trivial instance of the hypotheses. -/
example : Plain (.elem "text" (some "a".toList) (.other none (.cons (.elem "tspan" (some "b".toList) .nil) (some "c".toList) .nil))) ∧
    allText (.elem "text" (some "a".toList) (.other none (.cons (.elem "tspan" (some "b".toList) .nil) (some "c".toList) .nil))) =
      "abc".toList := by
  constructor
  · simp [Plain, PlainKids, Tree.name]
  · rfl

/-- **C49** is violated by a comment inside text: the characters after it are left out. -/
theorem textContent_comment_violated :
    let t : Tree := .elem "text" (some "a".toList) (.other (some "b".toList) .nil)
    textContent t = some "a".toList ∧ allText t = "ab".toList := by
  decide

/-- **C49** is violated by a link or a text path inside text: neither its characters nor those
after it count. -/
theorem textContent_link_violated (n : String) (h : n = "a" ∨ n = "textPath") :
    let t : Tree := .elem "text" (some "a".toList) (.cons (.elem n (some "b".toList) .nil) (some "c".toList) .nil)
    textContent t = some "a".toList ∧ allText t = "abc".toList := by
  rcases h with rfl | rfl <;> decide

theorem removeAll_nil (k : Kids) : removeAll k = .nil := by
  induction k using Kids.rec (motive_1 := fun _ => True) with
  | elem => trivial
  | nil => rfl
  | other _ _ ih => exact ih
  | cons _ _ _ _ ih => exact ih

/-- **C49** Assigning the text content of any element leaves just that text in it; reading it
back from a text element gives it. -/
theorem setTextContent_spec (t : Tree) (s : Str) :
    allText (setTextContent (some s) t) = s ∧ (setTextContent (some s) t).name = t.name ∧
    (t.name ∈ ["text", "tspan", "desc", "metadata", "title"] → textContent (setTextContent (some s) t) = some s) := by
  obtain ⟨n, text, kids⟩ := t
  refine ⟨by simp [setTextContent, removeAll_nil, allText, kidsText], rfl, ?_⟩
  intro h
  simp only [Tree.name] at h
  simp only [setTextContent, removeAll_nil, textContent, getText, getKids]
  simp only [List.mem_cons, List.not_mem_nil, or_false] at h
  rcases h with rfl | rfl | rfl | rfl | rfl <;> simp [descriptive, textElements]

/-- **C49** Elements that are neither `text`, `tspan` nor descriptive, also a `textPath`, give no text content
whatever text they have. -/
theorem textContent_other (t : Tree) (h : t.name ∉ ["text", "tspan", "desc", "metadata", "title"]) :
    textContent t = none := by
  obtain ⟨n, text, kids⟩ := t
  simp only [Tree.name, List.mem_cons, List.not_mem_nil, or_false, not_or] at h
  simp [textContent, descriptive, textElements, h]

/-- A group with a text. -/
example : let t : Tree := .elem "g" none (.cons (.elem "text" (some "a".toList) .nil) none .nil)
    t.name ∉ ["text", "tspan", "desc", "metadata", "title"] ∧ allText t = "a".toList := by
  constructor
  · decide
  · simp [allText, kidsText]

end SvgPy.Content
