import Verif.Model.AttrMap
import Batteries.Tactic.Init

/-! Property C47: attribute objects and element attributes stay in sync. -/

set_option linter.unusedSimpArgs false

namespace SvgPy.AttrMap

/-! ### Specification -/

/-- Object `a` is attached to attribute `n` of element `e`. -/
def Attached (st : St) (a e : Nat) (n : Str) : Prop := a < st.next ∧ (st.obj a).owner = some e ∧ (st.obj a).name = n

/-- The objects attached to elements are those in the maps of the elements, each at its place. -/
structure WF (st : St) : Prop where
  entry : ∀ e n a, st.map e n = some a → Attached st a e n
  attached : ∀ a e n, Attached st a e n → st.map e n = some a

/-! ### Lemmas -/

theorem upd_same {α β : Type} [DecidableEq α] (f : α → β) (a : α) (b : β) : upd f a b a = b := by simp [upd]

theorem upd_ne {α β : Type} [DecidableEq α] (f : α → β) (a x : α) (b : β) (h : x ≠ a) : upd f a b x = f x := by simp [upd, h]

theorem upd_upd {α β : Type} [DecidableEq α] (f : α → β) (a : α) (b c : β) : upd (upd f a b) a c = upd f a c := by
  funext x
  by_cases h : x = a <;> simp [upd, h]

theorem upd2 {β : Type} (f : Nat → Str → β) (e : Nat) (n : Str) (b : β) (e' : Nat) (n' : Str) :
    upd f e (upd (f e) n b) e' n' = if e' = e ∧ n' = n then b else f e' n' := by
  unfold upd
  by_cases h1 : e' = e
  · subst h1; by_cases h2 : n' = n <;> simp [h2]
  · simp [h1]

theorem attrib_setAttrib (st : St) (e : Nat) (n : Str) (v : Option Str) (e' : Nat) (n' : Str) :
    (setAttrib st e n v).attrib e' n' = if e' = e ∧ n' = n then v else st.attrib e' n' := upd2 ..

theorem map_setMap (st : St) (e : Nat) (n : Str) (v : Option Nat) (e' : Nat) (n' : Str) :
    (setMap st e n v).map e' n' = if e' = e ∧ n' = n then v else st.map e' n' := upd2 ..

theorem wf_of_same (st st' : St) (h : WF st) (h1 : st'.next = st.next) (h2 : st'.obj = st.obj) (h3 : st'.map = st.map) : WF st' := by
  refine ⟨fun e n a => ?_, fun a e n => ?_⟩
  · rw [h3]; unfold Attached; rw [h1, h2]; exact h.entry e n a
  · rw [h3]; unfold Attached; rw [h1, h2]; exact h.attached a e n

theorem wf_setAttrib (st : St) (e : Nat) (n : Str) (v : Option Str) (h : WF st) : WF (setAttrib st e n v) :=
  wf_of_same _ _ h rfl rfl rfl

/-- A write to an attached object is a write to the attribute, where the empty string removes. -/
theorem setValue_attached (st : St) (a e : Nat) (n : Str) (v : Option Str) (h : (st.obj a).owner = some e) (hn : (st.obj a).name = n) :
    setValue st a v = setAttrib st e n (if v = some [] then none else v) := by
  unfold setValue
  rw [h]
  cases v with
  | none => simp [hn]
  | some s => cases s <;> simp [hn]

theorem setValue_detached (st : St) (a : Nat) (v : Option Str) (h : (st.obj a).owner = none) :
    setValue st a v = setObj st a { st.obj a with value := v } := by
  unfold setValue; rw [h]

theorem wf_setObj_same (st : St) (a : Nat) (o : Obj) (h : WF st) (ho : o.owner = (st.obj a).owner) (hn : o.name = (st.obj a).name) :
    WF (setObj st a o) := by
  have key : ∀ b e n, Attached (setObj st a o) b e n ↔ Attached st b e n := by
    intro b e n
    unfold Attached setObj upd
    simp only
    by_cases hb : b = a
    · subst hb; simp [ho, hn]
    · simp [hb]
  exact ⟨fun e n b hb => (key b e n).2 (h.entry e n b hb), fun b e n hb => h.attached b e n ((key b e n).1 hb)⟩

theorem wf_setValue (st : St) (a : Nat) (v : Option Str) (h : WF st) : WF (setValue st a v) := by
  cases ho : (st.obj a).owner with
  | none => rw [setValue_detached _ _ _ ho]; exact wf_setObj_same _ _ _ h rfl rfl
  | some e => rw [setValue_attached _ _ e _ _ ho rfl]; exact wf_setAttrib _ _ _ _ h

/-- What detaching an attached object gives. -/
theorem detach_some (st : St) (a e : Nat) (h : (st.obj a).owner = some e) :
    detach st a = setObj st a ⟨(st.obj a).name, st.attrib e (st.obj a).name, none⟩ := by
  unfold detach getValue; rw [h]

/-- What removing an entry gives. -/
theorem popEntry_some (st : St) (e : Nat) (n : Str) (a : Nat) (h : WF st) (hm : st.map e n = some a) :
    popEntry st e n = setObj (setMap st e n none) a ⟨n, st.attrib e n, none⟩ := by
  obtain ⟨h1, h2, h3⟩ := h.entry e n a hm
  unfold popEntry
  rw [hm]
  simp only
  rw [detach_some _ a e (by exact h2)]
  simp only [setMap, h3]

theorem popEntry_none (st : St) (e : Nat) (n : Str) (hm : st.map e n = none) : popEntry st e n = st := by
  unfold popEntry; rw [hm]

theorem wf_unlink (st : St) (e : Nat) (n : Str) (a : Nat) (v : Option Str) (h : WF st) (hm : st.map e n = some a) :
    WF (setObj (setMap st e n none) a ⟨n, v, none⟩) := by
  refine ⟨fun e' n' b hb => ?_, fun b e' n' hb => ?_⟩
  · have hb' : (setMap st e n none).map e' n' = some b := hb
    rw [map_setMap] at hb'
    split at hb'
    · cases hb'
    · rename_i hne
      have := h.entry e' n' b hb'
      have hba : b ≠ a := by
        rintro rfl
        obtain ⟨-, h1, h2⟩ := h.entry e n b hm
        obtain ⟨-, h3, h4⟩ := this
        rw [h1] at h3; cases h3
        exact hne ⟨rfl, h4.symm.trans h2⟩
      simpa [Attached, setObj, setMap, upd, hba] using this
  · have hba : b ≠ a := by
      rintro rfl
      simp [Attached, setObj, upd] at hb
    have hb' : Attached st b e' n' := by simpa [Attached, setObj, setMap, upd, hba] using hb
    have := h.attached b e' n' hb'
    show (setMap st e n none).map e' n' = some b
    rw [map_setMap, if_neg ?_]
    · exact this
    · rintro ⟨rfl, rfl⟩
      rw [hm] at this; cases this; exact hba rfl

theorem wf_popEntry (st : St) (e : Nat) (n : Str) (h : WF st) : WF (popEntry st e n) := by
  cases hm : st.map e n with
  | none => rw [popEntry_none _ _ _ hm]; exact h
  | some a => rw [popEntry_some _ _ _ a h hm]; exact wf_unlink _ _ _ _ _ h hm

theorem wf_newEntry (st : St) (e : Nat) (n : Str) (h : WF st) (hm : st.map e n = none) : WF (newEntry st e n) := by
  refine ⟨fun e' n' b hb => ?_, fun b e' n' hb => ?_⟩
  · unfold newEntry at hb
    rw [map_setMap] at hb
    split at hb
    · rename_i heq
      cases hb
      obtain ⟨rfl, rfl⟩ := heq
      simp [Attached, newEntry, setMap, setObj, upd]
    · obtain ⟨h1, h2, h3⟩ := h.entry e' n' b hb
      have : b ≠ st.next := Nat.ne_of_lt h1
      simp [Attached, newEntry, setMap, setObj, upd, this, h2, h3]
      omega
  · unfold newEntry
    rw [map_setMap]
    by_cases hbn : b = st.next
    · subst hbn
      simp [Attached, newEntry, setMap, setObj, upd] at hb
      obtain ⟨rfl, rfl⟩ := hb
      simp
    · have hb' : Attached st b e' n' := by
        obtain ⟨h1, h2⟩ := hb
        simp [newEntry, setMap, setObj, upd, hbn] at h1 h2
        exact ⟨by omega, h2⟩
      have := h.attached b e' n' hb'
      rw [if_neg]
      · exact this
      · rintro ⟨rfl, rfl⟩
        rw [hm] at this; cases this

theorem setDefault_present (st : St) (e : Nat) (n : Str) (h : st.attrib e n ≠ none) :
    setDefault st e n = match st.map e n with | some _ => st | none => newEntry st e n := by
  unfold setDefault
  cases st.map e n <;> simp [h]

theorem wf_setDefault (st : St) (e : Nat) (n : Str) (h : WF st) (hp : st.attrib e n ≠ none) : WF (setDefault st e n) := by
  rw [setDefault_present _ _ _ hp]
  cases hm : st.map e n with
  | none => exact wf_newEntry _ _ _ h hm
  | some a => exact h

theorem wf_getItem (st : St) (e : Nat) (n : Str) (h : WF st) : WF (getItem st e n).1 := by
  unfold getItem
  split
  · exact wf_popEntry _ _ _ h
  · rename_i hp
    split <;> exact wf_setDefault _ _ _ h hp

theorem get_fst (st : St) (e : Nat) (n : Str) : (get st e n).1 = (getItem st e n).1 := by
  unfold get
  split <;> rename_i heq <;> rw [heq]

theorem wf_get (st : St) (e : Nat) (n : Str) (h : WF st) : WF (get st e n).1 := by
  rw [get_fst]; exact wf_getItem st e n h

theorem wf_delItem (st : St) (e : Nat) (n : Str) (h : WF st) : WF (delItem st e n).1 := by
  unfold delItem
  split
  · exact wf_popEntry _ _ _ h
  · exact wf_setAttrib _ _ _ _ (wf_popEntry _ _ _ h)

theorem wf_setItemStr (st : St) (e : Nat) (n : Str) (v : Option Str) (h : WF st) : WF (setItemStr st e n v) := by
  unfold setItemStr
  cases v with
  | none => simp only; split; exacts [h, wf_delItem _ _ _ h]
  | some s =>
    simp only
    split
    · split; exacts [h, wf_delItem _ _ _ h]
    · refine wf_setDefault _ _ _ (wf_setAttrib _ _ _ _ h) ?_
      rw [attrib_setAttrib]; simp

/-- What putting a free object with a value into the map gives. -/
theorem setItemAttr_free (st : St) (e a : Nat) (v : Str) (h : WF st) (ho : (st.obj a).owner = none) (hv : (st.obj a).value = some v)
    (hne : v ≠ []) :
    setItemAttr st e (st.obj a).name a =
      (setAttrib (setMap (setObj (popEntry st e (st.obj a).name) a ⟨(st.obj a).name, none, some e⟩) e (st.obj a).name (some a)) e
        (st.obj a).name (some v), none) := by
  have hlen : v.length ≠ 0 := by cases v <;> simp at hne ⊢
  have hat : ∀ s : St, s.obj a = st.obj a →
      attach s a e = setAttrib (setObj s a ⟨(st.obj a).name, none, some e⟩) e (st.obj a).name (some v) := by
    intro s hs
    unfold attach
    rw [hs, ho]
    simp only [hv]
    rw [setValue_attached _ a e (st.obj a).name _ (by simp [setObj, upd]) (by simp [setObj, upd])]
    rw [if_neg (by simpa using hne)]
  unfold setItemAttr
  simp only [ne_eq, not_true, if_false, ho, getValue, hv, hlen]
  cases hm : st.map e (st.obj a).name with
  | none =>
    simp only
    rw [hat st rfl, popEntry_none _ _ _ hm]
    rfl
  | some old =>
    obtain ⟨h1, h2, h3⟩ := h.entry _ _ _ hm
    have hoa : old ≠ a := by
      rintro rfl
      rw [ho] at h2; cases h2
    simp only
    rw [detach_some _ _ e h2, hat _ (by simp [setObj, upd, Ne.symm hoa]), popEntry_some _ _ _ old h hm, h3]
    simp only [setMap, setObj, setAttrib, upd_upd, upd_same]

theorem wf_link (st : St) (e a : Nat) (n : Str) (h : WF st) (ha : a < st.next) (ho : (st.obj a).owner = none) (hn : (st.obj a).name = n)
    (hm : st.map e n = none) : WF (setMap (setObj st a ⟨n, none, some e⟩) e n (some a)) := by
  refine ⟨fun e' n' b hb => ?_, fun b e' n' hb => ?_⟩
  · rw [map_setMap] at hb
    split at hb
    · rename_i heq
      cases hb
      obtain ⟨rfl, rfl⟩ := heq
      simp [Attached, setMap, setObj, upd, ha]
    · have := h.entry e' n' b hb
      have hba : b ≠ a := by
        rintro rfl
        rw [this.2.1] at ho; cases ho
      simpa [Attached, setMap, setObj, upd, hba] using this
  · rw [map_setMap]
    by_cases hba : b = a
    · subst hba
      simp [Attached, setMap, setObj, upd] at hb
      obtain ⟨-, rfl, rfl⟩ := hb
      simp
    · have hb' : Attached st b e' n' := by simpa [Attached, setMap, setObj, upd, hba] using hb
      have := h.attached b e' n' hb'
      rw [if_neg]
      · exact this
      · rintro ⟨rfl, rfl⟩
        rw [hm] at this; cases this

theorem popEntry_map (st : St) (e : Nat) (n : Str) (h : WF st) : (popEntry st e n).map e n = none := by
  cases hm : st.map e n with
  | none => rw [popEntry_none _ _ _ hm]; exact hm
  | some a =>
    rw [popEntry_some _ _ _ a h hm]
    show (setMap st e n none).map e n = none
    rw [map_setMap]; simp

theorem popEntry_next (st : St) (e : Nat) (n : Str) : (popEntry st e n).next = st.next := by
  unfold popEntry
  split
  · rfl
  · unfold detach; split <;> rfl

theorem popEntry_attrib (st : St) (e : Nat) (n : Str) : (popEntry st e n).attrib = st.attrib := by
  unfold popEntry
  split
  · rfl
  · unfold detach; split <;> rfl

/-- Objects that are not in the entry are not concerned. -/
theorem popEntry_obj (st : St) (e : Nat) (n : Str) (b : Nat) (h : st.map e n ≠ some b) : (popEntry st e n).obj b = st.obj b := by
  unfold popEntry
  split
  · rfl
  · rename_i a hm
    have hba : b ≠ a := by rintro rfl; exact h hm
    unfold detach
    split
    · rfl
    · simp [setObj, setMap, upd, hba]

theorem wf_setItemAttr (st : St) (e : Nat) (n : Str) (a : Nat) (h : WF st) (ha : a < st.next) : WF (setItemAttr st e n a).1 := by
  by_cases hn : n = (st.obj a).name
  · subst hn
    cases ho : (st.obj a).owner with
    | some e' =>
      unfold setItemAttr
      simp only [ne_eq, not_true, if_false, ho]
      split <;> exact h
    | none =>
      cases hv : (st.obj a).value with
      | none =>
        unfold setItemAttr
        simp only [ne_eq, not_true, if_false, ho, getValue, hv]
        split; exacts [h, wf_delItem _ _ _ h]
      | some v =>
        by_cases hne : v = []
        · unfold setItemAttr
          simp only [ne_eq, not_true, if_false, ho, getValue, hv, hne, List.length_nil, if_true]
          split; exacts [h, wf_delItem _ _ _ h]
        · rw [setItemAttr_free _ _ _ v h ho hv hne]
          have hna : st.map e (st.obj a).name ≠ some a := by
            intro hm
            rw [(h.entry _ _ _ hm).2.1] at ho; cases ho
          have he := popEntry_obj st e (st.obj a).name a hna
          exact wf_setAttrib _ _ _ _ (wf_link _ _ _ _ (wf_popEntry _ _ _ h) (by rw [popEntry_next]; exact ha) (by rw [he]; exact ho)
            (by rw [he]) (popEntry_map _ _ _ h))
  · unfold setItemAttr; simp only [ne_eq, hn, not_false_eq_true, if_true]; exact h

theorem next_getItem (st : St) (e : Nat) (n : Str) : st.next ≤ (getItem st e n).1.next := by
  unfold getItem
  split
  · rw [popEntry_next]; exact Nat.le_refl _
  · rename_i hp
    have : st.next ≤ (setDefault st e n).next := by
      rw [setDefault_present _ _ _ hp]
      cases st.map e n with
      | none => exact Nat.le_succ _
      | some a => exact Nat.le_refl _
    split <;> exact this

theorem wf_detach_free (st : St) (a : Nat) (h : (st.obj a).owner = none) : detach st a = st := by
  unfold detach; rw [h]

/-- What reading an attribute gives. -/
theorem getItem_present (st : St) (e : Nat) (n : Str) (h : WF st) (v : Str) (hv : st.attrib e n = some v) :
    ∃ st' a, getItem st e n = (st', .ok a) ∧ Attached st' a e n ∧ st'.map e n = some a ∧ st'.attrib = st.attrib ∧ WF st' ∧
      (∀ b, st.map e n = some b → st' = st ∧ a = b) ∧ (st.map e n = none → st' = newEntry st e n ∧ a = st.next) := by
  have hp : st.attrib e n ≠ none := by rw [hv]; simp
  have hw := wf_setDefault st e n h hp
  have hd := setDefault_present st e n hp
  cases hm : st.map e n with
  | none =>
    simp only [hm] at hd
    have hmm : (newEntry st e n).map e n = some st.next := by unfold newEntry; rw [map_setMap]; simp
    rw [hd] at hw
    refine ⟨newEntry st e n, st.next, ?_, hw.entry _ _ _ hmm, hmm, rfl, hw, by simp, fun _ => ⟨rfl, rfl⟩⟩
    unfold getItem
    simp only [hp, if_false, hd, hmm]
  | some a =>
    simp only [hm] at hd
    refine ⟨st, a, ?_, h.entry _ _ _ hm, hm, rfl, h, fun b hb => ⟨rfl, by cases hb; rfl⟩, by simp⟩
    unfold getItem
    simp only [hp, if_false, hd, hm]

theorem delItem_present (st : St) (e : Nat) (n : Str) (h : WF st) (v : Str) (hv : st.attrib e n = some v) (a : Nat) (hm : st.map e n = some a) :
    delItem st e n = (setAttrib (setObj (setMap st e n none) a ⟨n, some v, none⟩) e n none, none) := by
  unfold delItem
  rw [popEntry_some _ _ _ a h hm, hv]
  simp

theorem wf_removeNamedItem (st : St) (e : Nat) (n : Str) (h : WF st) : WF (removeNamedItem st e n).1 := by
  unfold removeNamedItem
  have := wf_getItem st e n h
  split
  · rename_i heq; rw [heq] at this; exact this
  · rename_i heq; rw [heq] at this; exact wf_delItem _ _ _ this

/-- **C47** Removing an attribute takes it away from the element and returns its object (the one
that was there, if there was one), which keeps the value and is free. -/
theorem remove_keeps (st : St) (e : Nat) (n v : Str) (h : WF st) (hv : st.attrib e n = some v) :
    ∃ st' a, removeNamedItem st e n = (st', .ok a) ∧ (∀ b, Attached st b e n → a = b) ∧
      st'.attrib e n = none ∧ (st'.obj a).owner = none ∧ getValue st' a = some v ∧ st'.map e n = none := by
  obtain ⟨s, a, h1, h2, h3, h4, h5, h6, -⟩ := getItem_present st e n h v hv
  have hd := delItem_present s e n h5 v (by rw [h4]; exact hv) a h3
  refine ⟨_, a, by unfold removeNamedItem; rw [h1], fun b hb => (h6 b (h.attached b e n hb)).2, ?_⟩
  rw [hd]
  refine ⟨by rw [attrib_setAttrib]; simp, by simp [setAttrib, setObj, upd], by simp [getValue, setAttrib, setObj, upd], ?_⟩
  show (setMap s e n none).map e n = none
  rw [map_setMap]; simp

theorem removeAttribute_eq (st : St) (e : Nat) (n : Str) (h : WF st) : removeAttribute st e n = (removeNamedItem st e n).1 := by
  unfold removeAttribute
  cases hv : st.attrib e n with
  | none =>
    have : (removeNamedItem st e n) = (popEntry st e n, .error .keyError) := by simp [removeNamedItem, getItem, hv]
    rw [this]
  | some v =>
    obtain ⟨st', a, h1, -, -, h2, -⟩ := remove_keeps st e n v h hv
    rw [h1]
    exact wf_detach_free _ _ h2

theorem wf_exec (st : St) (c : Cmd) (h : WF st) : WF (exec st c) := by
  cases c with
  | newAttr n v =>
    have key : ∀ b e m, Attached (newAttr st n v) b e m ↔ Attached st b e m := by
      intro b e m
      by_cases hb : b = st.next
      · subst hb; simp [Attached, newAttr, setObj, upd]
      · simp [Attached, newAttr, setObj, upd, hb]; intros; omega
    exact ⟨fun e n b hb => (key b e n).2 (h.entry e n b hb), fun b e n hb => h.attached b e n ((key b e n).1 hb)⟩
  | lxmlSet e n v => exact wf_setAttrib _ _ _ _ h
  | lxmlDel e n => exact wf_setAttrib _ _ _ _ h
  | setValue a v => simp only [exec]; split; exacts [wf_setValue _ _ _ h, h]
  | get e n => exact wf_get _ _ _ h
  | setItemStr e n v => exact wf_setItemStr _ _ _ _ h
  | setItemAttr e n a => simp only [exec]; split; exacts [wf_setItemAttr _ _ _ _ h ‹_›, h]
  | delItem e n => exact wf_delItem _ _ _ h
  | setNamedItem e a =>
    simp only [exec]
    split
    · rename_i ha
      have hw := wf_get st e (st.obj a).name h
      have hn := next_getItem st e (st.obj a).name
      rw [← get_fst] at hn
      unfold setNamedItem
      exact wf_setItemAttr _ _ _ _ hw (Nat.lt_of_lt_of_le ha hn)
    · exact h
  | removeNamedItem e n => exact wf_removeNamedItem _ _ _ h
  | removeAttribute e n => simp only [exec]; rw [removeAttribute_eq _ _ _ h]; exact wf_removeNamedItem _ _ _ h
  | toggleAttribute e n f =>
    simp only [exec, toggleAttribute]
    split
    · split
      · rw [removeAttribute_eq _ _ _ h]; exact wf_removeNamedItem _ _ _ h
      · exact h
    · split
      · exact wf_setAttrib _ _ _ _ h
      · exact h

theorem wf_initial (attrib : Nat → Str → Option Str) : WF (initial attrib) :=
  ⟨fun _ _ _ h => (by cases h), fun _ _ _ h => (by have := h.1; simp [initial] at this)⟩

theorem wf_history (attrib : Nat → Str → Option Str) (cmds : List Cmd) : WF (cmds.foldl exec (initial attrib)) := by
  have : ∀ (cmds : List Cmd) (st : St), WF st → WF (cmds.foldl exec st) := by
    intro cmds
    induction cmds with
    | nil => intro st h; exact h
    | cons c cmds ih => intro st h; exact ih _ (wf_exec st c h)
  exact this cmds _ (wf_initial attrib)

/-! ### Theorems -/

/-- **C47** After any history, an attribute of an element has at most one object attached to it,
and that object is the one the element hands out; all states below are well-formed in this
sense. -/
theorem history_unique (attrib : Nat → Str → Option Str) (cmds : List Cmd) :
    WF (cmds.foldl exec (initial attrib)) ∧
    ∀ a b e n, Attached (cmds.foldl exec (initial attrib)) a e n → Attached (cmds.foldl exec (initial attrib)) b e n → a = b := by
  refine ⟨wf_history attrib cmds, fun a b e n ha hb => ?_⟩
  have h := wf_history attrib cmds
  have h1 := h.attached a e n ha
  rw [h.attached b e n hb] at h1
  cases h1; rfl

/-- **C47** Asking an element for an attribute it has gives an object that is attached to it and
reads its value; the attributes do not change, and asking again gives the same object. -/
theorem get_reads (st : St) (e : Nat) (n v : Str) (h : WF st) (hv : st.attrib e n = some v) :
    ∃ st' a, get st e n = (st', some a) ∧ Attached st' a e n ∧ getValue st' a = some v ∧ st'.attrib = st.attrib ∧
      get st' e n = (st', some a) := by
  obtain ⟨s, a, h1, h2, h3, h4, h5, -, -⟩ := getItem_present st e n h v hv
  obtain ⟨s', a', g1, -, -, -, -, g6, -⟩ := getItem_present s e n h5 v (by rw [h4]; exact hv)
  obtain ⟨rfl, rfl⟩ := g6 a h3
  refine ⟨s', a', by unfold get; rw [h1], h2, ?_, h4, by unfold get; rw [g1]⟩
  unfold getValue
  rw [h2.2.1]
  simp only [h2.2.2, h4, hv]

/-- **C47** Asking for an attribute that the element does not have gives nothing, and leaves no
object attached to it. -/
theorem get_absent (st : St) (e : Nat) (n : Str) (h : WF st) (hv : st.attrib e n = none) :
    ∃ st', get st e n = (st', none) ∧ st'.attrib = st.attrib ∧ ∀ a, ¬ Attached st' a e n := by
  refine ⟨popEntry st e n, by simp [get, getItem, hv], popEntry_attrib _ _ _, fun a ha => ?_⟩
  have := (wf_popEntry st e n h).attached a e n ha
  rw [popEntry_map _ _ _ h] at this; cases this

/-- **C47** Writing a value to an attached object writes it to the element, and to no other
attribute; the element keeps handing out that object. -/
theorem write_object (st : St) (a e : Nat) (n v : Str) (h : WF st) (ha : Attached st a e n) (hv : v ≠ []) :
    (setValue st a (some v)).attrib e n = some v ∧
    (∀ e' n', (e', n') ≠ (e, n) → (setValue st a (some v)).attrib e' n' = st.attrib e' n') ∧
    getValue (setValue st a (some v)) a = some v ∧
    get (setValue st a (some v)) e n = (setValue st a (some v), some a) := by
  have e1 := setValue_attached st a e n (some v) ha.2.1 ha.2.2
  rw [if_neg (by simpa using hv)] at e1
  rw [e1]
  have hat : (setAttrib st e n (some v)).attrib e n = some v := by rw [attrib_setAttrib]; simp
  refine ⟨hat, fun e' n' hne => ?_, ?_, ?_⟩
  · rw [attrib_setAttrib, if_neg]
    rintro ⟨rfl, rfl⟩
    exact hne rfl
  · unfold getValue
    have h1 : ((setAttrib st e n (some v)).obj a).owner = some e := ha.2.1
    have h2 : ((setAttrib st e n (some v)).obj a).name = n := ha.2.2
    rw [h1]
    simp only [h2, hat]
  · obtain ⟨s, b, g1, -, -, -, -, g6, -⟩ := getItem_present (setAttrib st e n (some v)) e n (wf_setAttrib _ _ _ _ h) v hat
    obtain ⟨rfl, rfl⟩ := g6 a (h.attached a e n ha)
    unfold get; rw [g1]

/-- **C47** Writing a value to an attribute of an element, through lxml or through the map, is
seen by the object attached to it, which stays attached. -/
theorem write_element (st : St) (a e : Nat) (n v : Str) (h : WF st) (ha : Attached st a e n) (hv : v ≠ []) :
    (getValue (exec st (.lxmlSet e n v)) a = some v ∧ Attached (exec st (.lxmlSet e n v)) a e n) ∧
    (getValue (exec st (.setItemStr e n (some v))) a = some v ∧ Attached (exec st (.setItemStr e n (some v))) a e n) := by
  have hat : (setAttrib st e n (some v)).attrib e n = some v := by rw [attrib_setAttrib]; simp
  have key : getValue (setAttrib st e n (some v)) a = some v ∧ Attached (setAttrib st e n (some v)) a e n := by
    refine ⟨?_, ha⟩
    unfold getValue
    have h1 : ((setAttrib st e n (some v)).obj a).owner = some e := ha.2.1
    have h2 : ((setAttrib st e n (some v)).obj a).name = n := ha.2.2
    rw [h1]
    simp only [h2, hat]
  refine ⟨key, ?_⟩
  have : exec st (.setItemStr e n (some v)) = setAttrib st e n (some v) := by
    simp only [exec, setItemStr]
    rw [if_neg (by cases v <;> simp at hv ⊢), setDefault_present _ _ _ (by rw [hat]; simp)]
    have hm : (setAttrib st e n (some v)).map e n = some a := h.attached a e n ha
    rw [hm]
  rw [this]
  exact key

/-- **C47** Whatever is assigned through the map is the value of the attribute afterwards; None
and the empty string remove it, and the object that was attached keeps the last value. -/
theorem setItemStr_spec (st : St) (e : Nat) (n : Str) (v : Option Str) (h : WF st) :
    (setItemStr st e n v).attrib e n = (if v = some [] then none else v) ∧
    (∀ e' n', (e', n') ≠ (e, n) → (setItemStr st e n v).attrib e' n' = st.attrib e' n') ∧
    (∀ a w, (v = none ∨ v = some []) → Attached st a e n → st.attrib e n = some w →
      getValue (setItemStr st e n v) a = some w ∧ ((setItemStr st e n v).obj a).owner = none) := by
  have hdel : (v = none ∨ v = some []) → setItemStr st e n v = if st.attrib e n = none then st else (delItem st e n).1 := by
    rintro (rfl | rfl) <;> simp [setItemStr]
  have hset : ∀ s, v = some s → s ≠ [] → (setItemStr st e n v).attrib = (setAttrib st e n (some s)).attrib := by
    rintro s rfl hs
    simp only [setItemStr]
    rw [if_neg (by cases s <;> simp at hs ⊢), setDefault_present _ _ _ (by rw [attrib_setAttrib]; simp)]
    cases (setAttrib st e n (some s)).map e n <;> rfl
  have hdela : (delItem st e n).1.attrib e n = none := by
    unfold delItem
    split
    · rw [popEntry_attrib]; assumption
    · rw [attrib_setAttrib]; simp
  have hdelo : ∀ e' n', (e', n') ≠ (e, n) → (delItem st e n).1.attrib e' n' = st.attrib e' n' := by
    intro e' n' hne
    unfold delItem
    split
    · rw [popEntry_attrib]
    · rw [attrib_setAttrib, if_neg, popEntry_attrib]
      rintro ⟨rfl, rfl⟩
      exact hne rfl
  by_cases hv : v = none ∨ v = some []
  · rw [hdel hv]
    refine ⟨?_, fun e' n' hne => ?_, fun a w _ ha hw => ?_⟩
    · have : (if v = some [] then none else v) = none := by rcases hv with rfl | rfl <;> simp
      rw [this]
      split
      · assumption
      · exact hdela
    · split
      · rfl
      · exact hdelo e' n' hne
    · rw [if_neg (by rw [hw]; simp), delItem_present st e n h w hw a (h.attached a e n ha)]
      simp [getValue, setAttrib, setObj, upd]
  · obtain ⟨s, rfl, hs⟩ : ∃ s, v = some s ∧ s ≠ [] := by
      cases v with
      | none => simp at hv
      | some s => exact ⟨s, rfl, fun e => hv (.inr (by rw [e]))⟩
    rw [hset s rfl hs]
    refine ⟨?_, fun e' n' hne => ?_, fun a w hv' => absurd hv' hv⟩
    · rw [attrib_setAttrib]; simp [hs]
    · rw [attrib_setAttrib, if_neg]
      rintro ⟨rfl, rfl⟩
      exact hne rfl

/-- **C47** A removed attribute, seen through `remove_attribute`, likewise. -/
theorem removeAttribute_keeps (st : St) (a e : Nat) (n v : Str) (h : WF st) (hv : st.attrib e n = some v) (ha : Attached st a e n) :
    (removeAttribute st e n).attrib e n = none ∧ ((removeAttribute st e n).obj a).owner = none ∧
      getValue (removeAttribute st e n) a = some v := by
  obtain ⟨st', b, h1, h2, h3, h4, h5, -⟩ := remove_keeps st e n v h hv
  rw [removeAttribute_eq _ _ _ h, h1]
  have := h2 a ha
  subst this
  exact ⟨h3, h4, h5⟩

/-- **C47** A free object does not affect any element, and holds what is written to it; no other
object changes. -/
theorem free_object (st : St) (a : Nat) (v : Option Str) (ho : (st.obj a).owner = none) :
    (setValue st a v).attrib = st.attrib ∧ getValue (setValue st a v) a = v ∧
      ∀ b, b ≠ a → getValue (setValue st a v) b = getValue st b := by
  rw [setValue_detached _ _ _ ho]
  refine ⟨rfl, by simp [getValue, setObj, upd, ho], fun b hb => ?_⟩
  simp [getValue, setObj, upd, hb]

/-- **C47** Setting a free object with a value on an element: the attribute gets the value of the
object, which becomes attached; the object that was attached before is returned, keeps its value
and is free. -/
theorem set_object (st : St) (a e : Nat) (v : Str) (h : WF st) (ha : a < st.next) (ho : (st.obj a).owner = none)
    (hv : (st.obj a).value = some v) (hne : v ≠ []) :
    ∃ st' old, setNamedItem st e a = (st', old, none) ∧ st'.attrib e (st.obj a).name = some v ∧
      (∀ e' n', (e', n') ≠ (e, (st.obj a).name) → st'.attrib e' n' = st.attrib e' n') ∧
      Attached st' a e (st.obj a).name ∧ getValue st' a = some v ∧
      (∀ w, st.attrib e (st.obj a).name = some w → ∃ b, old = some b ∧ (∀ c, Attached st c e (st.obj a).name → b = c) ∧
        (st'.obj b).owner = none ∧ getValue st' b = some w) ∧
      (st.attrib e (st.obj a).name = none → old = none) := by
  generalize hN : (st.obj a).name = n
  have hna : st.map e n ≠ some a := by
    intro hm
    rw [(h.entry _ _ _ hm).2.1] at ho; cases ho
  -- the state after the lookup
  obtain ⟨s, old, hg, hobj, hsw, hsa, hsn, hold⟩ : ∃ s old, get st e n = (s, old) ∧ s.obj a = st.obj a ∧ WF s ∧ s.attrib = st.attrib ∧
      a < s.next ∧ ((∃ w b, st.attrib e n = some w ∧ old = some b ∧ s.map e n = some b ∧ ∀ c, Attached st c e n → b = c) ∨
        (st.attrib e n = none ∧ old = none ∧ s.map e n = none)) := by
    cases hw : st.attrib e n with
    | none =>
      refine ⟨popEntry st e n, none, by simp [get, getItem, hw], popEntry_obj _ _ _ _ hna, wf_popEntry _ _ _ h, popEntry_attrib _ _ _,
        by rw [popEntry_next]; exact ha, .inr ⟨rfl, rfl, popEntry_map _ _ _ h⟩⟩
    | some w =>
      obtain ⟨s, b, h1, h2, h3, h4, h5, h6, h7⟩ := getItem_present st e n h w hw
      have hs : s.obj a = st.obj a ∧ a < s.next := by
        cases hm : st.map e n with
        | none =>
          obtain ⟨rfl, -⟩ := h7 hm
          have : a ≠ st.next := Nat.ne_of_lt ha
          simp [newEntry, setMap, setObj, upd, this]
          omega
        | some c =>
          obtain ⟨rfl, -⟩ := h6 c hm
          exact ⟨rfl, ha⟩
      exact ⟨s, some b, by unfold get; rw [h1], hs.1, h5, h4, hs.2,
        .inl ⟨w, b, rfl, rfl, h3, fun c hc => (h6 c (h.attached c e n hc)).2⟩⟩
  have hs := setItemAttr_free s e a v hsw (by rw [hobj]; exact ho) (by rw [hobj]; exact hv) hne
  rw [hobj, hN] at hs
  have hset : setNamedItem st e a =
      (setAttrib (setMap (setObj (popEntry s e n) a ⟨n, none, some e⟩) e n (some a)) e n (some v), old, none) := by
    unfold setNamedItem; rw [hN, hg]; simp only [hobj, hN, hs]
  refine ⟨_, old, hset, ?_, ?_, ?_, ?_, ?_, ?_⟩
  · rw [attrib_setAttrib]; simp
  · intro e' n' hne'
    rw [attrib_setAttrib, if_neg]
    · show (popEntry s e n).attrib e' n' = _
      rw [popEntry_attrib, hsa]
    · rintro ⟨rfl, rfl⟩
      exact hne' rfl
  · refine ⟨?_, by simp [setAttrib, setMap, setObj, upd], by simp [setAttrib, setMap, setObj, upd]⟩
    show a < (popEntry s e n).next
    rw [popEntry_next]; exact hsn
  · simp [getValue, setAttrib, setMap, setObj, upd]
  · intro w hw
    rcases hold with ⟨w', b, hw', rfl, hm, hb⟩ | ⟨hn, -⟩
    · rw [hw] at hw'; cases hw'
      refine ⟨b, rfl, hb, ?_⟩
      have hba : b ≠ a := by
        rintro rfl
        have := (hsw.entry _ _ _ hm).2.1
        rw [hobj, ho] at this; cases this
      rw [popEntry_some _ _ _ b hsw hm, hsa, hw]
      simp [getValue, setAttrib, setMap, setObj, upd, hba]
    · rw [hw] at hn; cases hn
  · intro hn
    rcases hold with ⟨w', b, hw', -⟩ | ⟨-, rfl, -⟩
    · rw [hn] at hw'; cases hw'
    · rfl

/-- **C47** An object attached to another element, or one with another name, is refused, and
nothing changes. -/
theorem set_in_use (st : St) (a e e' : Nat) (n : Str) :
    ((st.obj a).owner = some e' → e' ≠ e → setItemAttr st e (st.obj a).name a = (st, some (.dom "InUseAttributeError"))) ∧
    (n ≠ (st.obj a).name → setItemAttr st e n a = (st, some .valueError)) := by
  constructor
  · intro h1 h2
    simp [setItemAttr, h1, h2]
  · intro h1
    simp [setItemAttr, h1]

/-- **C47** Toggling an attribute. -/
theorem toggle_spec (st : St) (e : Nat) (n : Str) (f : Option Bool) (h : WF st) :
    ∃ st' r, toggleAttribute st e n f = (st', r) ∧ (r = true ↔ st'.attrib e n ≠ none) ∧
      (r = match f with | some b => b | none => decide (st.attrib e n = none)) ∧ (r = true → ∀ v, st.attrib e n = some v → st' = st) := by
  unfold toggleAttribute
  cases hv : st.attrib e n with
  | none =>
    have hs : (setAttrib st e n (some [])).attrib e n ≠ none := by rw [attrib_setAttrib]; simp
    cases f with
    | none => exact ⟨setAttrib st e n (some []), true, by simp, by simpa using hs, by simp, by simp⟩
    | some b =>
      cases b with
      | true => exact ⟨setAttrib st e n (some []), true, by simp, by simpa using hs, by simp, by simp⟩
      | false => exact ⟨st, false, by simp, by simp [hv], by simp, by simp⟩
  | some v =>
    have hr : (removeAttribute st e n).attrib e n = none := by
      obtain ⟨st', a, h1, -, h2, -⟩ := remove_keeps st e n v h hv
      rw [removeAttribute_eq _ _ _ h, h1]
      exact h2
    cases f with
    | none => exact ⟨removeAttribute st e n, false, by simp, by simp [hr], by simp, by simp⟩
    | some b =>
      cases b with
      | true => exact ⟨st, true, by simp, by simp [hv], by simp, by simp⟩
      | false => exact ⟨removeAttribute st e n, false, by simp, by simp [hr], by simp, by simp⟩

/-- The attribute that a command is about. -/
def Cmd.place (st : St) : Cmd → Option (Nat × Str)
  | .newAttr _ _ => none
  | .lxmlSet e n _ => some (e, n)
  | .lxmlDel e n => some (e, n)
  | .setValue a _ => (st.obj a).owner.map fun e => (e, (st.obj a).name)
  | .get e n => some (e, n)
  | .setItemStr e n _ => some (e, n)
  | .setItemAttr e n _ => some (e, n)
  | .delItem e n => some (e, n)
  | .setNamedItem e a => some (e, (st.obj a).name)
  | .removeNamedItem e n => some (e, n)
  | .removeAttribute e n => some (e, n)
  | .toggleAttribute e n _ => some (e, n)

theorem delItem_other (st : St) (e : Nat) (n : Str) (e' : Nat) (n' : Str) (hne : (e', n') ≠ (e, n)) :
    (delItem st e n).1.attrib e' n' = st.attrib e' n' := by
  unfold delItem
  split
  · rw [popEntry_attrib]
  · rw [attrib_setAttrib, if_neg, popEntry_attrib]
    rintro ⟨rfl, rfl⟩
    exact hne rfl

theorem getItem_attrib (st : St) (e : Nat) (n : Str) : (getItem st e n).1.attrib = st.attrib := by
  unfold getItem
  split
  · rw [popEntry_attrib]
  · rename_i hp
    have : (setDefault st e n).attrib = st.attrib := by
      rw [setDefault_present _ _ _ hp]
      cases st.map e n <;> rfl
    split <;> exact this

theorem setItemAttr_other (st : St) (e : Nat) (n : Str) (a : Nat) (h : WF st) (e' : Nat) (n' : Str) (hne : (e', n') ≠ (e, n)) :
    (setItemAttr st e n a).1.attrib e' n' = st.attrib e' n' := by
  by_cases hn : n = (st.obj a).name
  · subst hn
    have key : (if st.attrib e (st.obj a).name = none then (st, none) else delItem st e (st.obj a).name).1.attrib e' n' = st.attrib e' n' := by
      split
      · rfl
      · exact delItem_other _ _ _ _ _ hne
    cases ho : (st.obj a).owner with
    | some e'' =>
      unfold setItemAttr
      simp only [ne_eq, not_true, if_false, ho]
      split <;> rfl
    | none =>
      cases hv : (st.obj a).value with
      | none =>
        unfold setItemAttr
        simp only [ne_eq, not_true, if_false, ho, getValue, hv]
        exact key
      | some v =>
        by_cases hv0 : v = []
        · unfold setItemAttr
          simp only [ne_eq, not_true, if_false, ho, getValue, hv, hv0, List.length_nil, if_true]
          exact key
        · rw [setItemAttr_free _ _ _ v h ho hv hv0, attrib_setAttrib, if_neg]
          · show (popEntry st e (st.obj a).name).attrib e' n' = _
            rw [popEntry_attrib]
          · rintro ⟨rfl, rfl⟩
            exact hne rfl
  · unfold setItemAttr; simp only [ne_eq, hn, not_false_eq_true, if_true]

theorem removeNamedItem_other (st : St) (e : Nat) (n : Str) (e' : Nat) (n' : Str) (hne : (e', n') ≠ (e, n)) :
    (removeNamedItem st e n).1.attrib e' n' = st.attrib e' n' := by
  have hg := getItem_attrib st e n
  unfold removeNamedItem
  split
  · rename_i heq; rw [heq] at hg; simp only at hg ⊢; rw [hg]
  · rename_i heq
    rw [heq] at hg
    simp only at hg ⊢
    rw [delItem_other _ _ _ _ _ hne, hg]

theorem getItem_name (st : St) (e : Nat) (n : Str) (a : Nat) (ha : a < st.next) : ((getItem st e n).1.obj a).name = (st.obj a).name := by
  have hdet : ∀ (s : St) (b : Nat), ((detach s b).obj a).name = (s.obj a).name := by
    intro s b
    unfold detach
    split
    · rfl
    · by_cases hb : a = b
      · subst hb; simp [setObj, upd]
      · simp [setObj, upd, hb]
  have hne : a ≠ st.next := Nat.ne_of_lt ha
  unfold getItem
  split
  · unfold popEntry
    split
    · rfl
    · exact hdet _ _
  · rename_i hp
    have : ((setDefault st e n).obj a).name = (st.obj a).name := by
      rw [setDefault_present _ _ _ hp]
      cases st.map e n with
      | none => simp [newEntry, setMap, setObj, upd, hne]
      | some b => rfl
    split <;> exact this

/-- **C47** No command, failing or not, changes any attribute but the one it is about. -/
theorem other_attributes (st : St) (c : Cmd) (h : WF st) (e : Nat) (n : Str) (hp : c.place st ≠ some (e, n)) :
    (exec st c).attrib e n = st.attrib e n := by
  have hset : ∀ e' n' v, (e, n) ≠ (e', n') → (setAttrib st e' n' v).attrib e n = st.attrib e n := by
    intro e' n' v hne
    rw [attrib_setAttrib, if_neg]
    rintro ⟨rfl, rfl⟩
    exact hne rfl
  have flip : ∀ {e' : Nat} {n' : Str}, some (e', n') ≠ some (e, n) → (e, n) ≠ (e', n') := by
    intro e' n' h1 h2; exact h1 (by rw [h2])
  cases c with
  | newAttr n v => rfl
  | lxmlSet e' n' v => exact hset _ _ _ (flip hp)
  | lxmlDel e' n' => exact hset _ _ _ (flip hp)
  | setValue a v =>
    simp only [exec]
    split
    · cases ho : (st.obj a).owner with
      | none => rw [setValue_detached _ _ _ ho]; rfl
      | some e' =>
        rw [setValue_attached _ _ e' _ _ ho rfl]
        simp only [Cmd.place, ho, Option.map_some] at hp
        exact hset _ _ _ (flip hp)
    · rfl
  | get e' n' => simp only [exec]; rw [get_fst, getItem_attrib]
  | setItemStr e' n' v => exact (setItemStr_spec st e' n' v h).2.1 _ _ (flip hp)
  | setItemAttr e' n' a =>
    simp only [exec]
    split
    · exact setItemAttr_other _ _ _ _ h _ _ (flip hp)
    · rfl
  | delItem e' n' => exact delItem_other _ _ _ _ _ (flip hp)
  | setNamedItem e' a =>
    simp only [exec]
    split
    · rename_i ha
      unfold setNamedItem
      simp only
      rw [setItemAttr_other _ _ _ _ (wf_get _ _ _ h)]
      · rw [get_fst, getItem_attrib]
      · rw [get_fst, getItem_name _ _ _ _ ha]; exact flip hp
    · rfl
  | removeNamedItem e' n' => exact removeNamedItem_other _ _ _ _ _ (flip hp)
  | removeAttribute e' n' =>
    simp only [exec]
    rw [removeAttribute_eq _ _ _ h]
    exact removeNamedItem_other _ _ _ _ _ (flip hp)
  | toggleAttribute e' n' f =>
    simp only [exec, toggleAttribute]
    split
    · split
      · simp only
        rw [removeAttribute_eq _ _ _ h]
        exact removeNamedItem_other _ _ _ _ _ (flip hp)
      · rfl
    · split
      · exact hset _ _ _ (flip hp)
      · rfl

/-- A non-trivial instance of the hypotheses: an element with two attributes, an object attached
to one of them, and a free object of the same name. -/
example :
    let st := [Cmd.get 0 "x".toList, .newAttr "x".toList "5".toList].foldl exec
      (initial fun _ n => if n = "x".toList then some "1".toList else if n = "y".toList then some "2".toList else none)
    WF st ∧ st.attrib 0 "x".toList = some "1".toList ∧ Attached st 0 0 "x".toList ∧ 1 < st.next ∧ (st.obj 1).owner = none ∧
      (st.obj 1).value = some "5".toList :=
  ⟨wf_history _ _, by decide, ⟨by decide, by decide, by decide⟩, by decide, by decide, by decide⟩

/-- **C47** is violated by removing an attribute by writing the empty string to its object: the
object does not keep the value, but reads None. -/
theorem write_empty_violated :
    let st := exec (initial fun _ _ => some "1".toList) (.get 0 "x".toList)
    Attached st 0 0 "x".toList ∧ getValue st 0 = some "1".toList ∧
      (setValue st 0 (some [])).attrib 0 "x".toList = none ∧ getValue (setValue st 0 (some [])) 0 = none :=
  ⟨⟨by decide, by decide, by decide⟩, by decide, by decide, by decide⟩

/-- **C47** is violated by objects constructed with an owner element: they are attached besides
the object in the map; when the attribute is removed, they do not keep the value, and still
affect the element. -/
theorem owned_violated :
    let st := newOwned (initial fun _ _ => none) 0 "x".toList "1".toList
    let st' := removeAttribute st 0 "x".toList
    getValue st 0 = some "1".toList ∧ st.attrib 0 "x".toList = some "1".toList ∧ st'.attrib 0 "x".toList = none ∧
      getValue st' 0 = none ∧ (setValue st' 0 (some "2".toList)).attrib 0 "x".toList = some "2".toList := by
  decide

/-- **C47** A new attribute object has the name and value given and no element, until it is used; elements and other
objects are not affected. -/
theorem new_attr (st : St) (n v : Str) :
    getValue (newAttr st n v) st.next = some v ∧ ((newAttr st n v).obj st.next).name = n ∧
    ((newAttr st n v).obj st.next).owner = none ∧ (newAttr st n v).attrib = st.attrib ∧
    (∀ b, b ≠ st.next → (newAttr st n v).obj b = st.obj b ∧ getValue (newAttr st n v) b = getValue st b) ∧
    st.next < (newAttr st n v).next := by
  refine ⟨?_, ?_, ?_, rfl, fun b hb => ?_, Nat.lt_succ_self _⟩
  · simp [newAttr, getValue, setObj, upd]
  · simp [newAttr, setObj, upd]
  · simp [newAttr, setObj, upd]
  · simp [newAttr, getValue, setObj, upd, hb]

end SvgPy.AttrMap
