import Verif.Model.DocChildren
import Verif.Props.Content

/-! Property C55: the children of a document. -/

set_option linter.unusedSimpArgs false

namespace SvgPy.DocChildren

open SvgPy.Content (putBefore getnext putBefore_head getnext_split split_at)

/-! ### Specification -/

/-- Trees as lxml keeps them: among the top-level nodes of a tree there is just one element, no
node occurs twice, and no node is in two trees; the root of a document is an element. -/
structure WF (st : St) : Prop where
  tree : ∀ e, st.isElem e = true → (st.sib e).Nodup ∧ e ∈ st.sib e ∧ ∀ n ∈ st.sib e, st.isElem n = true → n = e
  apart : ∀ e e', st.isElem e = true → st.isElem e' = true → e ≠ e' → ∀ n ∈ st.sib e, n ∉ st.sib e'
  root : ∀ r, st.root = some r → st.isElem r = true

/-- The children of a proper document: none, or different nodes with just one element among
them, the root. -/
def Proper (st : St) : Prop :=
  (childNodes st).Nodup ∧ (childNodes st).filter st.isElem = st.root.toList

/-! ### Lemmas -/

theorem mem_putBefore (ref n : Nat) (l : List Nat) (h : ref ∈ l) (m : Nat) : m ∈ putBefore ref n l ↔ m = n ∨ m ∈ l := by
  induction l with
  | nil => simp at h
  | cons k l ih =>
    by_cases hk : k = ref
    · simp [putBefore, hk]
    · have : ref ∈ l := by
        rcases List.mem_cons.1 h with h | h
        · exact absurd h.symm hk
        · exact h
      simp only [putBefore, hk, if_false, List.mem_cons, ih this]
      tauto

theorem putAfter_split (a b : List Nat) (ref n : Nat) (h : ref ∉ a) : putAfter ref n (a ++ ref :: b) = a ++ ref :: n :: b := by
  induction a with
  | nil => simp [putAfter]
  | cons x a ih =>
    simp only [List.mem_cons, not_or] at h
    have : x ≠ ref := fun e => h.1 e.symm
    simp [putAfter, this, ih h.2]

theorem perm_putBefore (ref n : Nat) (l : List Nat) (h : ref ∈ l) (hnd : l.Nodup) : (putBefore ref n l).Perm (n :: l) := by
  obtain ⟨a, b, rfl, ha, -⟩ := split_at l ref h hnd
  rw [putBefore_head _ _ _ _ ha]
  exact List.perm_middle

theorem perm_putAfter (ref n : Nat) (l : List Nat) (h : ref ∈ l) (hnd : l.Nodup) : (putAfter ref n l).Perm (n :: l) := by
  obtain ⟨a, b, rfl, ha, -⟩ := split_at l ref h hnd
  rw [putAfter_split _ _ _ _ ha]
  have : a ++ ref :: n :: b = (a ++ [ref]) ++ n :: b := by simp
  have h2 : n :: (a ++ ref :: b) = n :: ((a ++ [ref]) ++ b) := by simp
  rw [this, h2]
  exact List.perm_middle

theorem wf_takeOut (st : St) (n : Nat) (h : WF st) (hn : st.isElem n = false) : WF (takeOut st n) := by
  refine ⟨fun e he => ?_, fun e e' he he' hne m hm hm' => ?_, h.root⟩
  · obtain ⟨h1, h2, h3⟩ := h.tree e he
    refine ⟨h1.erase n, ?_, fun m hm => h3 m (List.mem_of_mem_erase hm)⟩
    refine (List.mem_erase_of_ne ?_).2 h2
    rintro rfl
    have : st.isElem e = true := he
    rw [hn] at this; cases this
  · exact h.apart e e' he he' hne m (List.mem_of_mem_erase hm) (List.mem_of_mem_erase hm')

/-- Putting a comment somewhere into a tree. -/
theorem wf_put (st : St) (r n : Nat) (l : List Nat) (h : WF st) (hr : st.isElem r = true) (hn : st.isElem n = false)
    (hl : l.Perm (n :: (st.sib r).erase n)) :
    WF { st with sib := fun e => if e = r then l else (takeOut st n).sib e } := by
  have ht := wf_takeOut st n h hn
  have hnd : ∀ e, st.isElem e = true → n ∉ (st.sib e).erase n := fun e he => (h.tree e he).1.not_mem_erase
  refine ⟨fun e he => ?_, fun e e' he he' hne m hm hm' => ?_, h.root⟩
  · obtain ⟨h1, h2, h3⟩ := ht.tree e he
    by_cases hee : e = r
    · subst hee
      simp only [if_true]
      refine ⟨?_, hl.mem_iff.2 (by simp; exact .inr h2), fun m hm hme => ?_⟩
      · rw [hl.nodup_iff, List.nodup_cons]
        exact ⟨hnd e hr, h1⟩
      · rcases List.mem_cons.1 (hl.mem_iff.1 hm) with rfl | hm
        · have : st.isElem m = true := hme
          rw [hn] at this; cases this
        · exact h3 m hm hme
    · simp only [hee, if_false]
      exact ⟨h1, h2, h3⟩
  · have key : ∀ a, st.isElem a = true → a ≠ r → ∀ x ∈ l, x ∉ (takeOut st n).sib a := by
      intro a ha har x hx hx'
      rcases List.mem_cons.1 (hl.mem_iff.1 hx) with rfl | hx
      · exact hnd a ha hx'
      · exact ht.apart r a hr ha (Ne.symm har) x hx hx'
    by_cases h1 : e = r
    · subst h1
      have h2 : e' ≠ e := fun h => hne h.symm
      simp only [if_true, h2, if_false] at hm hm'
      exact key e' he' h2 m hm hm'
    · by_cases h2 : e' = r
      · subst h2
        simp only [if_true, h1, if_false] at hm hm'
        exact key e he h1 m hm' hm
      · simp only [h1, h2, if_false] at hm hm'
        exact ht.apart e e' he he' hne m hm hm'

theorem mem_erase' (l : List Nat) (c n : Nat) (h : c ∈ l) (hne : c ≠ n) : c ∈ l.erase n := (List.mem_erase_of_ne hne).2 h

theorem wf_addprevious (st : St) (r c n : Nat) (h : WF st) (hr : st.isElem r = true) (hc : c ∈ st.sib r) :
    WF (addprevious st r c n).1 ∧ (addprevious st r c n).1.isElem = st.isElem ∧ (addprevious st r c n).1.root = st.root := by
  unfold addprevious
  split
  · exact ⟨h, rfl, rfl⟩
  · rename_i hn
    split
    · exact ⟨h, rfl, rfl⟩
    · rename_i hcn
      refine ⟨?_, rfl, rfl⟩
      have e : (fun e => if e = r then putBefore c n ((takeOut st n).sib e) else (takeOut st n).sib e) =
          (fun e => if e = r then putBefore c n ((st.sib r).erase n) else (takeOut st n).sib e) := by
        funext e; split
        · rename_i he; rw [he]; rfl
        · rfl
      simp only [e]
      exact wf_put st r n _ h hr (by simpa using hn) (perm_putBefore c n _ (mem_erase' _ _ _ hc hcn) ((h.tree r hr).1.erase n))

theorem wf_addnext (st : St) (r c n : Nat) (h : WF st) (hr : st.isElem r = true) (hc : c ∈ st.sib r) :
    WF (addnext st r c n).1 ∧ (addnext st r c n).1.isElem = st.isElem ∧ (addnext st r c n).1.root = st.root := by
  unfold addnext
  split
  · exact ⟨h, rfl, rfl⟩
  · rename_i hn
    split
    · exact ⟨h, rfl, rfl⟩
    · rename_i hcn
      refine ⟨?_, rfl, rfl⟩
      have e : (fun e => if e = r then putAfter c n ((takeOut st n).sib e) else (takeOut st n).sib e) =
          (fun e => if e = r then putAfter c n ((st.sib r).erase n) else (takeOut st n).sib e) := by
        funext e; split
        · rename_i he; rw [he]; rfl
        · rfl
      simp only [e]
      exact wf_put st r n _ h hr (by simpa using hn) (perm_putAfter c n _ (mem_erase' _ _ _ hc hcn) ((h.tree r hr).1.erase n))

/-- What `addnext` makes of the children. -/
theorem addnext_children (st : St) (r c n : Nat) (h : WF st) (hr : st.root = some r) (hc : c ∈ childNodes st)
    (hn : st.isElem n = false) (hcn : c ≠ n) :
    ∃ st' a b, addnext st r c n = (st', none) ∧ (childNodes st).erase n = a ++ c :: b ∧ childNodes st' = a ++ c :: n :: b := by
  have hre := h.root r hr
  simp only [childNodes, hr] at hc ⊢
  obtain ⟨a, b, hk, ha, -⟩ := split_at _ c (mem_erase' _ _ n hc hcn) ((h.tree r hre).1.erase n)
  refine ⟨_, a, b, by simp only [addnext, hn, hcn, if_false]; rfl, hk, ?_⟩
  simp only [hr, if_true, takeOut, hk, putAfter_split _ _ _ _ ha]

/-- What `addprevious` makes of the children. -/
theorem addprevious_children (st : St) (r c n : Nat) (h : WF st) (hr : st.root = some r) (hc : c ∈ childNodes st)
    (hn : st.isElem n = false) (hcn : c ≠ n) :
    ∃ st' a b, addprevious st r c n = (st', none) ∧ (childNodes st).erase n = a ++ c :: b ∧ childNodes st' = a ++ n :: c :: b := by
  have hre := h.root r hr
  simp only [childNodes, hr] at hc ⊢
  obtain ⟨a, b, hk, ha, -⟩ := split_at _ c (mem_erase' _ _ n hc hcn) ((h.tree r hre).1.erase n)
  refine ⟨_, a, b, by simp only [addprevious, hn, hcn, if_false]; rfl, hk, ?_⟩
  simp only [hr, if_true, takeOut, hk, putBefore_head _ _ _ _ ha]

theorem mem_addnext (st : St) (r c n : Nat) (st' : St) (h : WF st) (hr : st.root = some r) (hc : c ∈ childNodes st)
    (he : addnext st r c n = (st', none)) : n ∈ childNodes st' := by
  by_cases hn : st.isElem n = true
  · simp [addnext, hn] at he
  · by_cases hcn : c = n
    · simp only [addnext, hn, hcn, if_true] at he
      cases he
      exact hcn ▸ hc
    · obtain ⟨s2, a, b, h1, -, h3⟩ := addnext_children st r c n h hr hc (by simpa using hn) hcn
      rw [h1] at he
      cases he
      rw [h3]; simp

/-! ### The invariant -/

theorem wf_appendLoop (l : List Nat) (st : St) (last : Option Nat) (h : WF st) (hl : ∀ c, last = some c → c ∈ childNodes st) :
    WF (appendLoop st last l).1 ∧ (appendLoop st last l).1.isElem = st.isElem := by
  induction l generalizing st last with
  | nil => exact ⟨h, rfl⟩
  | cons n l ih =>
    rw [appendLoop]
    cases hr : st.root with
    | none =>
      simp only
      split
      · rename_i hn
        have h' : WF { st with root := some n } := ⟨h.tree, h.apart, fun r e => by cases e; exact hn⟩
        have := ih { st with root := some n } last h' (fun c hc => by
          have := hl c hc
          simp [childNodes, hr] at this)
        exact this
      · exact ⟨h, rfl⟩
    | some r =>
      simp only
      split
      · exact ih st last h hl
      · split
        · exact ⟨h, rfl⟩
        · rename_i c hc
          have hcm : c ∈ childNodes st := by
            cases last with
            | some c' => simp at hc; cases hc; exact hl _ rfl
            | none => simp at hc; exact List.mem_of_getLast? hc
          have hcs : c ∈ st.sib r := by simpa [childNodes, hr] using hcm
          have hw := wf_addnext st r c n h (h.root r hr) hcs
          split
          · rename_i st' e he
            rw [he] at hw
            exact ⟨hw.1, hw.2.1⟩
          · rename_i st' he
            rw [he] at hw
            have hm := mem_addnext st r c n st' h hr hcm he
            have := ih st' (some n) hw.1 (fun c hc => by cases hc; exact hm)
            exact ⟨this.1, this.2.trans hw.2.1⟩

theorem wf_prependLoop (l : List Nat) (st : St) (first : Option Nat) (h : WF st) (hl : ∀ c, first = some c → c ∈ childNodes st) :
    WF (prependLoop st first l).1 := by
  induction l generalizing st first with
  | nil => exact h
  | cons n l ih =>
    rw [prependLoop]
    cases hr : st.root with
    | none =>
      simp only
      have hf : ∀ c, first ≠ some c := fun c hc => by have := hl c hc; simp [childNodes, hr] at this
      have hw := (wf_appendLoop [n] st none h (by simp)).1
      split
      · rename_i st' e he
        rw [append] at he
        rw [he] at hw; exact hw
      · rename_i st' he
        rw [append] at he
        rw [he] at hw
        exact ih st' first hw (fun c hc => absurd hc (hf c))
    | some r =>
      simp only
      split
      · exact ih st first h hl
      · split
        · exact h
        · rename_i c hc
          have hcm : c ∈ childNodes st := by
            cases first with
            | some c' => simp at hc; cases hc; exact hl _ rfl
            | none => simp at hc; exact List.mem_of_mem_head? hc
          have hcs : c ∈ st.sib r := by simpa [childNodes, hr] using hcm
          have hw := wf_addprevious st r c n h (h.root r hr) hcs
          split
          · rename_i st' e he
            rw [he] at hw; exact hw.1
          · rename_i st' he
            rw [he] at hw
            refine ih st' (some c) hw.1 (fun c' hc' => ?_)
            cases hc'
            by_cases hn : st.isElem n = true
            · simp [addprevious, hn] at he
            · by_cases hcn : c = n
              · simp only [addprevious, hn, hcn, if_true] at he
                cases he
                exact hcm
              · obtain ⟨s2, a, b, h1, -, h3⟩ := addprevious_children st r c n h hr hcm (by simpa using hn) hcn
                rw [h1] at he
                cases he
                rw [h3]; simp

theorem pyIndex_mem (l : List Nat) (i : Int) (c : Nat) (h : pyIndex l i = some c) : c ∈ l := by
  unfold pyIndex at h
  split at h
  · exact List.mem_of_getElem? h
  · split at h
    · exact List.mem_of_getElem? h
    · cases h

theorem wf_remove (st : St) (n : Nat) (h : WF st) : WF (remove st n).1 := by
  unfold remove
  split
  · rename_i hm
    split
    · exact ⟨h.tree, h.apart, by simp⟩
    · rename_i hr
      cases hr' : st.root with
      | none => simp [childNodes, hr'] at hm
      | some r =>
        simp only [childNodes, hr'] at hm
        refine wf_takeOut st n h ?_
        cases hn : st.isElem n with
        | false => rfl
        | true =>
          have := (h.tree r (h.root r hr')).2.2 n hm hn
          rw [hr', this] at hr
          exact absurd rfl hr
  · exact h

theorem proper_of_wf (st : St) (h : WF st) : Proper st := by
  unfold Proper
  cases hr : st.root with
  | none => simp [childNodes, hr]
  | some r =>
    obtain ⟨h1, h2, h3⟩ := h.tree r (h.root r hr)
    simp only [childNodes, hr, Option.toList_some]
    refine ⟨h1, ?_⟩
    obtain ⟨a, b, hk, ha, hb⟩ := split_at _ r h2 h1
    have key : ∀ l : List Nat, (∀ x ∈ l, x ∈ st.sib r) → r ∉ l → l.filter st.isElem = [] := by
      intro l hl hrl
      rw [List.filter_eq_nil_iff]
      intro x hx hxe
      exact hrl (h3 x (hl x hx) hxe ▸ hx)
    have e1 := key a (fun x hx => by rw [hk]; simp [hx]) ha
    have e2 := key b (fun x hx => by rw [hk]; simp [hx]) hb
    rw [hk, List.filter_append, List.filter_cons, e1, e2]
    simp [h.root r hr]

theorem wf_exec (st : St) (h : WF st) (c : Cmd) : WF (exec st c) := by
  cases c with
  | append l => exact (wf_appendLoop l st none h (by simp)).1
  | prepend l => exact wf_prependLoop l st none h (by simp)
  | insert i n =>
    simp only [exec, insert]
    cases hr : st.root with
    | none => exact (wf_appendLoop [n] st none h (by simp)).1
    | some r =>
      simp only
      split
      · exact h
      · split
        · exact h
        · rename_i c hc
          have := pyIndex_mem _ _ _ hc
          simp only [childNodes, hr] at this
          exact (wf_addprevious st r c n h (h.root r hr) this).1
  | remove n => exact wf_remove st n h
  | replace o n =>
    simp only [exec, replace]
    split
    · rename_i hm
      cases hr : st.root with
      | none => exact h
      | some r =>
        simp only
        split
        · have hw := wf_remove st o h
          split
          · rename_i st' e he
            rw [he] at hw; exact hw
          · rename_i st' he
            rw [he] at hw
            exact (wf_appendLoop [n] st' none hw (by simp)).1
        · simp only [childNodes, hr] at hm
          have hw := (wf_addprevious st r o n h (h.root r hr) hm).1
          split
          · rename_i st' e he
            rw [he] at hw; exact hw
          · rename_i st' he
            rw [he] at hw
            exact wf_remove st' o hw
    · exact h
  | insertBefore n child =>
    have key : ∀ o : Option Nat, (∀ c, o = some c → c ∈ childNodes st) →
        WF (match o with
          | none => append st [n]
          | some c => match st.root with
            | none => (st, none)
            | some r => addprevious st r c n).1 := by
      intro o ho
      cases o with
      | none => exact (wf_appendLoop [n] st none h (by simp)).1
      | some c =>
        cases hr : st.root with
        | none => exact h
        | some r =>
          have := ho c rfl
          simp only [childNodes, hr] at this
          exact (wf_addprevious st r c n h (h.root r hr) this).1
    have hnext : ∀ c, n ∈ childNodes st → getnext n (childNodes st) = some c → c ∈ childNodes st := by
      intro c hnm hc
      obtain ⟨a, b, hk, ha, -⟩ := split_at _ n hnm (proper_of_wf st h).1
      rw [hk, getnext_split _ _ _ ha] at hc
      rw [hk]
      have := List.mem_of_mem_head? hc
      simp [this]
    cases child with
    | none => exact key none (by simp)
    | some d =>
      simp only [exec, insertBefore]
      by_cases hd : d ∈ childNodes st
      · simp only [hd, decide_true, if_true]
        refine key _ (fun c hc => ?_)
        split at hc
        · rename_i e
          cases e
          exact hnext c hd hc
        · cases hc; exact hd
      · simp only [hd, decide_false, Bool.false_eq_true, if_false]
        exact h

/-- **C55** After any sequence of operations on a document, failing ones included, the children
are different nodes and the root is the only element among them. -/
theorem history_proper (cmds : List Cmd) (st : St) (h : WF st) : Proper (cmds.foldl exec st) := by
  apply proper_of_wf
  induction cmds generalizing st with
  | nil => exact h
  | cons c cmds ih => exact ih _ (wf_exec st h c)

/-! ### Single operations -/

/-- **C55** Appending comments that are not children yet to a document with a root puts them, in
order, after all children. -/
theorem append_spec (st : St) (r : Nat) (l : List Nat) (h : WF st) (hr : st.root = some r) (hl : l.Nodup)
    (hn : ∀ n ∈ l, st.isElem n = false ∧ n ∉ childNodes st) :
    ∃ st', append st l = (st', none) ∧ childNodes st' = childNodes st ++ l := by
  have key : ∀ (l : List Nat) (st : St) (last : Option Nat), WF st → st.root = some r → l.Nodup →
      (∀ n ∈ l, st.isElem n = false ∧ n ∉ childNodes st) → (∀ c, last = some c → (childNodes st).getLast? = some c) →
      ∃ st', appendLoop st last l = (st', none) ∧ childNodes st' = childNodes st ++ l := by
    intro l
    induction l with
    | nil => intro st last h hr _ _ _; exact ⟨st, rfl, by simp⟩
    | cons n l ih =>
      intro st last h hr hl hn hlast
      obtain ⟨hn1, hn2⟩ := hn n (by simp)
      have hnr : n ≠ r := by
        rintro rfl
        rw [h.root n hr] at hn1; cases hn1
      have hrm : r ∈ childNodes st := by simp only [childNodes, hr]; exact (h.tree r (h.root r hr)).2.1
      obtain ⟨c, hc⟩ : ∃ c, (childNodes st).getLast? = some c := by
        cases hh : (childNodes st).getLast? with
        | none => rw [List.getLast?_eq_none_iff] at hh; rw [hh] at hrm; simp at hrm
        | some c => exact ⟨c, rfl⟩
      have hor : last.orElse (fun _ => (childNodes st).getLast?) = some c := by
        cases last with
        | none => simpa using hc
        | some c' => simp [hlast c' rfl] at hc; simp [hc]
      have hcm := List.mem_of_getLast? hc
      have hcn : c ≠ n := fun e => hn2 (e ▸ hcm)
      obtain ⟨st', a, b, h1, h2, h3⟩ := addnext_children st r c n h hr hcm hn1 hcn
      have hnd : (childNodes st).Nodup := (proper_of_wf st h).1
      rw [List.erase_of_not_mem hn2] at h2
      have hb : b = [] := by
        rw [h2] at hc hnd
        rcases List.eq_nil_or_concat b with rfl | ⟨b', x, rfl⟩
        · rfl
        · have : (a ++ c :: (b' ++ [x])).getLast? = some x := by
            rw [show a ++ c :: (b' ++ [x]) = (a ++ c :: b') ++ [x] by simp, List.getLast?_concat]
          rw [List.concat_eq_append] at hc hnd
          rw [this] at hc
          cases hc
          simp [List.nodup_append] at hnd
      subst hb
      have h4 : childNodes st' = childNodes st ++ [n] := by rw [h3, h2]; simp
      have hw := wf_addnext st r c n h (h.root r hr) (by simpa [childNodes, hr] using hcm)
      rw [h1] at hw
      obtain ⟨w1, w2, w3⟩ := hw
      simp only [List.nodup_cons] at hl
      obtain ⟨s2, e1, e2⟩ := ih st' (some n) w1 (w3.trans hr) hl.2 (fun m hm => by
          rw [h4]
          refine ⟨?_, ?_⟩
          · show st'.isElem m = false
            have : st'.isElem = st.isElem := w2
            rw [this]; exact (hn m (by simp [hm])).1
          · simp only [List.mem_append, List.mem_singleton, not_or]
            exact ⟨(hn m (by simp [hm])).2, fun e => hl.1 (e ▸ hm)⟩)
        (fun c hc => by cases hc; rw [h4]; simp)
      refine ⟨s2, ?_, by rw [e2, h4]; simp⟩
      rw [appendLoop]
      simp only [hr, hnr, if_false, hor, h1, e1]
  exact key l st none h hr hl hn (by simp)

/-- **C55** The first node appended to an empty document must be an element, which brings its own
tree. -/
theorem append_first (st : St) (n : Nat) (h : WF st) (hr : st.root = none) :
    (st.isElem n = true → ∃ st', append st [n] = (st', none) ∧ st'.root = some n ∧ childNodes st' = st.sib n) ∧
    (st.isElem n = false → append st [n] = (st, some (.dom "HierarchyRequestError"))) := by
  constructor
  · intro hn
    exact ⟨{ st with root := some n }, by simp [append, appendLoop, hr, hn], rfl, rfl⟩
  · intro hn
    simp [append, appendLoop, hr, hn]

theorem split_unique (a a' b b' : List Nat) (c : Nat) (h : c ∉ a) (h' : c ∉ a') (e : a ++ c :: b = a' ++ c :: b') : a = a' ∧ b = b' := by
  induction a generalizing a' with
  | nil =>
    cases a' with
    | nil => simpa using e
    | cons x a' => simp at e h'; exact absurd e.1 h'.1
  | cons x a ih =>
    cases a' with
    | nil => simp at e h; exact absurd e.1.symm h.1
    | cons y a' =>
      simp only [List.cons_append, List.cons.injEq, List.mem_cons, not_or] at e h h'
      obtain ⟨h1, h2⟩ := ih a' h.2 h'.2 e.2
      exact ⟨by rw [e.1, h1], h2⟩

/-- **C55** Prepending comments that are not children yet to a document with a root puts them, in
order, before all children.  Missing: a document without a root, see `prepend_violated`. -/
theorem prepend_partial (st : St) (r : Nat) (l : List Nat) (h : WF st) (hr : st.root = some r) (hl : l.Nodup)
    (hn : ∀ n ∈ l, st.isElem n = false ∧ n ∉ childNodes st) :
    ∃ st', prepend st l = (st', none) ∧ childNodes st' = l ++ childNodes st := by
  have key : ∀ (l : List Nat) (st : St) (first : Option Nat) (ins : List Nat) (c : Nat) (old : List Nat), WF st → st.root = some r →
      l.Nodup → (∀ n ∈ l, st.isElem n = false ∧ n ∉ childNodes st) → childNodes st = ins ++ c :: old →
      ((first = none ∧ ins = []) ∨ first = some c) →
      ∃ st', prependLoop st first l = (st', none) ∧ childNodes st' = ins ++ l ++ c :: old := by
    intro l
    induction l with
    | nil => intro st first ins c old h hr _ _ hk _; exact ⟨st, rfl, by simp [hk]⟩
    | cons n l ih =>
      intro st first ins c old h hr hl hn hk hf
      obtain ⟨hn1, hn2⟩ := hn n (by simp)
      have hnr : n ≠ r := by
        rintro rfl
        rw [h.root n hr] at hn1; cases hn1
      have hor : first.orElse (fun _ => (childNodes st).head?) = some c := by
        rcases hf with ⟨rfl, rfl⟩ | rfl
        · simp [hk]
        · rfl
      have hcm : c ∈ childNodes st := by rw [hk]; simp
      have hcn : c ≠ n := fun e => hn2 (e ▸ hcm)
      obtain ⟨st', a, b, h1, h2, h3⟩ := addprevious_children st r c n h hr hcm hn1 hcn
      have hnd : (childNodes st).Nodup := (proper_of_wf st h).1
      rw [List.erase_of_not_mem hn2] at h2
      have hab : a = ins ∧ b = old := by
        rw [h2] at hk hnd
        have hca : c ∉ a := by
          simp only [List.nodup_append] at hnd
          exact fun h => hnd.2.2 c h c (by simp) rfl
        have hci : c ∉ ins := by
          rw [hk] at hnd
          simp only [List.nodup_append] at hnd
          exact fun h => hnd.2.2 c h c (by simp) rfl
        exact split_unique a ins b old c hca hci hk
      obtain ⟨rfl, rfl⟩ := hab
      have hw := wf_addprevious st r c n h (h.root r hr) (by simpa [childNodes, hr] using hcm)
      rw [h1] at hw
      obtain ⟨w1, w2, w3⟩ := hw
      simp only [List.nodup_cons] at hl
      obtain ⟨s2, e1, e2⟩ := ih st' (some c) (a ++ [n]) c b w1 (w3.trans hr) hl.2 (fun m hm => by
          rw [h3]
          refine ⟨?_, ?_⟩
          · have : st'.isElem = st.isElem := w2
            rw [this]; exact (hn m (by simp [hm])).1
          · have h5 := (hn m (by simp [hm])).2
            rw [hk] at h5
            simp only [List.mem_append, List.mem_cons, not_or] at h5 ⊢
            exact ⟨h5.1, fun e => hl.1 (e ▸ hm), h5.2⟩)
        (by rw [h3]; simp) (.inr rfl)
      refine ⟨s2, ?_, by rw [e2]; simp⟩
      rw [prependLoop]
      simp only [hr, hnr, if_false, hor, h1, e1]
  have hrm : r ∈ childNodes st := by simp only [childNodes, hr]; exact (h.tree r (h.root r hr)).2.1
  cases hk : childNodes st with
  | nil => rw [hk] at hrm; simp at hrm
  | cons c old =>
    obtain ⟨s2, e1, e2⟩ := key l st none [] c old h hr hl hn hk (.inl ⟨rfl, rfl⟩)
    exact ⟨s2, e1, by rw [e2]; simp⟩

/-- **C55** Inserting a comment (a new one, or another child) at the position of a child puts it
directly before that child; all other children stay. -/
theorem insert_spec (st : St) (r : Nat) (i : Int) (c n : Nat) (h : WF st) (hr : st.root = some r)
    (hc : pyIndex (childNodes st) i = some c) (hn : st.isElem n = false) (hcn : c ≠ n) :
    ∃ st' a b, insert st i n = (st', none) ∧ (childNodes st).erase n = a ++ c :: b ∧ childNodes st' = a ++ n :: c :: b := by
  have hnr : n ≠ r := by
    rintro rfl
    rw [h.root n hr] at hn; cases hn
  obtain ⟨st', a, b, h1, h2, h3⟩ := addprevious_children st r c n h hr (pyIndex_mem _ _ _ hc) hn hcn
  exact ⟨st', a, b, by simp only [insert, hr, hnr, if_false, hc, h1], h2, h3⟩

/-- **C55** Inserting a comment before a child, likewise; a node that is not a child is
refused. -/
theorem insertBefore_spec (st : St) (r c n : Nat) (h : WF st) (hr : st.root = some r) (hn : st.isElem n = false) (hcn : c ≠ n) :
    (c ∈ childNodes st → ∃ st' a b, insertBefore st n (some c) = (st', none) ∧ (childNodes st).erase n = a ++ c :: b ∧
      childNodes st' = a ++ n :: c :: b) ∧
    (c ∉ childNodes st → insertBefore st n (some c) = (st, some (.dom "NotFoundError"))) := by
  refine ⟨fun hc => ?_, fun hc => by simp [insertBefore, hc]⟩
  obtain ⟨st', a, b, h1, h2, h3⟩ := addprevious_children st r c n h hr hc hn hcn
  refine ⟨st', a, b, ?_, h2, h3⟩
  have : some c ≠ some n := by simpa using hcn
  simp only [insertBefore, hc, decide_true, if_true, this, if_false, hr, h1]

/-- **C55** Removing a child other than the root leaves the others in place; a node that is not a
child is refused.  Missing: removing the root, see `remove_root_violated`. -/
theorem remove_partial (st : St) (n : Nat) (hr : st.root ≠ some n) :
    (n ∈ childNodes st → ∃ st', remove st n = (st', none) ∧ childNodes st' = (childNodes st).erase n) ∧
    (n ∉ childNodes st → remove st n = (st, some (.dom "NotFoundError"))) := by
  refine ⟨fun h => ⟨takeOut st n, by simp [remove, h, hr], ?_⟩, fun h => by simp [remove, h]⟩
  simp only [childNodes, takeOut]
  cases st.root <;> simp

/-- **C55** Replacing a child other than the root by a comment that is not a child yet puts it in
its place.  Missing: replacing the root, see `replace_root_violated`. -/
theorem replace_partial (st : St) (r old new : Nat) (h : WF st) (hr : st.root = some r) (ho : old ≠ r) (hm : old ∈ childNodes st)
    (hn : st.isElem new = false) (hnew : new ∉ childNodes st) :
    ∃ st' a b, replace st old new = (st', none) ∧ childNodes st = a ++ old :: b ∧ childNodes st' = a ++ new :: b := by
  have hon : old ≠ new := fun e => hnew (e ▸ hm)
  obtain ⟨st', a, b, h1, h2, h3⟩ := addprevious_children st r old new h hr hm hn hon
  rw [List.erase_of_not_mem hnew] at h2
  have hw := wf_addprevious st r old new h (h.root r hr) (by simpa [childNodes, hr] using hm)
  rw [h1] at hw
  obtain ⟨s2, e1, e2⟩ := (remove_partial st' old (by rw [hw.2.2, hr]; simpa using Ne.symm ho)).1 (by rw [h3]; simp)
  refine ⟨s2, a, b, ?_, h2, ?_⟩
  · simp only [replace, hm, if_true, hr, ho, if_false, h1, e1]
  · have hnd : (childNodes st).Nodup := (proper_of_wf st h).1
    rw [h2] at hnd
    have hoa : old ∉ a := by
      simp only [List.nodup_append] at hnd
      exact fun h => hnd.2.2 old h old (by simp) rfl
    rw [e2, h3, List.erase_append_right _ hoa]
    simp [List.erase_cons, Ne.symm hon]

/-- **C55** Replacing the root of a document that has no other children by an element that stands
alone. -/
theorem replace_root_partial (st : St) (r new : Nat) (hr : st.root = some r) (hs : st.sib r = [r])
    (hn : st.isElem new = true) (hnew : st.sib new = [new]) :
    ∃ st', replace st r new = (st', none) ∧ st'.root = some new ∧ childNodes st' = [new] := by
  refine ⟨{ st with root := some new }, ?_, rfl, hnew⟩
  simp [replace, childNodes, hr, hs, remove, append, appendLoop, hn]

/-- A document with a comment on each side of its root: 1, 0, 2; further element 10, further
comments. -/
def sample : St := ⟨fun n => n = 0 ∨ n = 10, some 0, fun n => if n = 0 then [1, 0, 2] else if n = 10 then [10] else []⟩

/-- A non-trivial instance of the hypotheses. -/
example : WF sample ∧ sample.root = some 0 ∧ (∀ n ∈ [3, 4], sample.isElem n = false ∧ n ∉ childNodes sample) ∧
    pyIndex (childNodes sample) (-1) = some 2 := by
  refine ⟨⟨?_, ?_, ?_⟩, rfl, by decide, by decide⟩
  · intro e he
    simp [sample] at he
    rcases he with rfl | rfl <;> decide
  · intro e e' he he' hne
    simp [sample] at he he'
    rcases he with rfl | rfl <;> rcases he' with rfl | rfl <;> first | exact absurd rfl hne | decide
  · intro r hr
    cases hr
    rfl

/-- **C55** is violated by removing the root: the comments around it are lost as well. -/
theorem remove_root_violated : childNodes sample = [1, 0, 2] ∧ childNodes (remove sample 0).1 = [] := by decide

/-- **C55** is violated by replacing the root: the comments around it are lost; if the new node is
a comment, an exception is raised, and the document is left empty. -/
theorem replace_root_violated :
    childNodes sample = [1, 0, 2] ∧ childNodes (replace sample 0 10).1 = [10] ∧
      (replace sample 0 3).2 = some (.dom "HierarchyRequestError") ∧ childNodes (replace sample 0 3).1 = [] := by decide

/-- **C55** is violated by prepending a root and a comment to an empty document: they come out in
reverse order. -/
theorem prepend_violated : childNodes (prepend { sample with root := none } [10, 3]).1 = [3, 10] := by decide

end SvgPy.DocChildren
