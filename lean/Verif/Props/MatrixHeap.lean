import Verif.Props.Matrix

/-! Property C06, last part: operations on one matrix object do not disturb others. -/

set_option linter.unusedSimpArgs false

namespace SvgPy.Matrix

/-! ### Specification: matrices as values in a list -/

/-- The effect of a command when matrices are plain values: an in-place operation
replaces its own entry, a copying operation appends its result. -/
noncomputable def execValues (vs : List Mat) : Cmd → List Mat
  | .new x => vs ++ [x]
  | .set i k v => match vs[i]? with
    | none => vs
    | some x => vs.set i (Matrix.set x k v)
  | .inplace i op => match vs[i]? with
    | none => vs
    | some x => match step x op with
      | .error _ => vs
      | .ok y => vs.set i y
  | .mulSelf i j => match vs[i]?, vs[j]? with
    | some x, some y => vs.set i (multiplySelf x y)
    | _, _ => vs
  | .copying i op => match vs[i]? with
    | none => vs
    | some x => match step x op with
      | .error _ => vs
      | .ok y => vs ++ [y]
  | .mul i j => match vs[i]?, vs[j]? with
    | some x, some y => vs ++ [multiplySelf x y]
    | _, _ => vs

/-- New matrices come from constructors; the operand of a multiplication is an object. -/
def Admissible : Cmd → Prop
  | .new x => Reachable x
  | .inplace _ op | .copying _ op => ∀ z, op ≠ .multiply z
  | _ => True

/-! ### Proofs -/

/-- Every object has an array of its own. -/
structure WF (h : Heap) : Prop where
  bound : ∀ p ∈ h.objs, p.1 < h.arrays.length
  nodup : (h.objs.map Prod.fst).Nodup

/-- Heap and values agree. -/
structure Rel (h : Heap) (vs : List Mat) : Prop where
  wf : WF h
  len : h.objs.length = vs.length
  view : ∀ i, view h i = vs[i]?
  reach : ∀ x ∈ vs, Reachable x

theorem view_alloc (h : Heap) (x : Mat) (hw : WF h) (i : Nat) :
    view (alloc h x) i = if i = h.objs.length then some x else view h i := by
  unfold view alloc
  simp only
  by_cases hi : i < h.objs.length
  · rw [List.getElem?_append_left hi, if_neg (by omega), List.getElem?_eq_getElem hi]
    have hb := hw.bound _ (List.getElem_mem hi)
    generalize h.objs[i] = o at hb ⊢
    obtain ⟨r, b⟩ := o
    simp only at hb ⊢
    rw [List.getElem?_append_left hb]
  · by_cases he : i = h.objs.length
    · subst he
      simp
    · rw [List.getElem?_eq_none (by simp; omega), if_neg he, List.getElem?_eq_none (by omega)]

theorem wf_alloc (h : Heap) (x : Mat) (hw : WF h) : WF (alloc h x) := by
  constructor
  · intro p hp
    simp only [alloc, List.mem_append, List.mem_singleton] at hp
    simp only [alloc, List.length_append, List.length_singleton]
    rcases hp with hp | rfl
    · have := hw.bound p hp; omega
    · simp
  · simp only [alloc, List.map_append, List.map_cons, List.map_nil]
    rw [List.nodup_append]
    refine ⟨hw.nodup, by simp, ?_⟩
    intro a ha b hb
    simp only [List.mem_singleton] at hb
    rw [List.mem_map] at ha
    obtain ⟨p, hp, rfl⟩ := ha
    have := hw.bound p hp
    omega

theorem view_rebind (h : Heap) (i : Nat) (x : Mat) (hw : WF h) (hi : i < h.objs.length) (j : Nat) :
    view (rebind h i x) j = if j = i then some x else view h j := by
  unfold view rebind
  simp only
  by_cases he : j = i
  · subst he
    simp [hi]
  · rw [if_neg he, List.getElem?_set_ne (Ne.symm he)]
    by_cases hj : j < h.objs.length
    · rw [List.getElem?_eq_getElem hj]
      have hb := hw.bound _ (List.getElem_mem hj)
      generalize h.objs[j] = o at hb ⊢
      obtain ⟨r, b⟩ := o
      simp only at hb ⊢
      rw [List.getElem?_append_left hb]
    · rw [List.getElem?_eq_none (by omega)]

theorem nodup_set (l : List Nat) (i : Nat) (v : Nat) (h : l.Nodup) (hv : v ∉ l) : (l.set i v).Nodup := by
  induction l generalizing i with
  | nil => simp
  | cons a l ih =>
    rw [List.nodup_cons] at h
    simp only [List.mem_cons, not_or] at hv
    cases i with
    | zero => exact List.nodup_cons.mpr ⟨hv.2, h.2⟩
    | succ i =>
      refine List.nodup_cons.mpr ⟨?_, ih i h.2 hv.2⟩
      intro hm
      rcases List.mem_or_eq_of_mem_set hm with hm | hm
      · exact h.1 hm
      · exact hv.1 hm.symm

theorem wf_rebind (h : Heap) (i : Nat) (x : Mat) (hw : WF h) : WF (rebind h i x) := by
  constructor
  · intro p hp
    simp only [rebind] at hp
    simp only [rebind, List.length_append, List.length_singleton]
    rcases List.mem_or_eq_of_mem_set hp with hp | rfl
    · have := hw.bound p hp; omega
    · simp
  · simp only [rebind, List.map_set]
    apply nodup_set _ _ _ hw.nodup
    intro hm
    rw [List.mem_map] at hm
    obtain ⟨p, hp, he⟩ := hm
    have := hw.bound p hp
    omega

theorem view_poke (h : Heap) (i : Nat) (x : Mat) (hw : WF h) (hi : i < h.objs.length) (j : Nat) :
    view (poke h i x) j = if j = i then some x else view h j := by
  unfold poke
  have hb := hw.bound _ (List.getElem_mem hi)
  rw [List.getElem?_eq_getElem hi]
  unfold view
  simp only
  by_cases he : j = i
  · subst he
    simp [hi, hb]
  · rw [if_neg he, List.getElem?_set_ne (Ne.symm he)]
    by_cases hj : j < h.objs.length
    · rw [List.getElem?_eq_getElem hj]
      simp only
      have hne : h.objs[i].1 ≠ h.objs[j].1 := by
        intro heq
        have hn := List.nodup_iff_injective_get.mp hw.nodup
        have := @hn ⟨i, by simpa using hi⟩ ⟨j, by simpa using hj⟩ (by simpa using heq)
        simp only [Fin.mk.injEq] at this
        exact he this.symm
      rw [List.getElem?_set_ne hne]
    · rw [List.getElem?_eq_none (by omega)]

theorem wf_poke (h : Heap) (i : Nat) (x : Mat) (hw : WF h) (hi : i < h.objs.length) : WF (poke h i x) := by
  have hb := hw.bound _ (List.getElem_mem hi)
  unfold poke
  rw [List.getElem?_eq_getElem hi]
  simp only
  constructor
  · intro p hp
    simp only at hp ⊢
    rw [List.length_set]
    rcases List.mem_or_eq_of_mem_set hp with hp | rfl
    · exact hw.bound p hp
    · exact hb
  · simp only [List.map_set]
    have : (h.objs.map Prod.fst).set i h.objs[i].1 = h.objs.map Prod.fst := by
      apply List.ext_getElem (by simp)
      intro n h1 h2
      rw [List.getElem_set]
      split
      · rename_i e; subst e; simp
      · rfl
    rw [this]
    exact hw.nodup

theorem lt_of_view (h : Heap) (vs : List Mat) (r : Rel h vs) (i : Nat) (x : Mat) (hx : vs[i]? = some x) :
    i < h.objs.length := by
  rw [r.len]
  exact (List.getElem?_eq_some_iff.mp hx).1

theorem rel_alloc (h : Heap) (vs : List Mat) (r : Rel h vs) (x : Mat) (hx : Reachable x) : Rel (alloc h x) (vs ++ [x]) := by
  refine ⟨wf_alloc h x r.wf, by simp [alloc, r.len], ?_, ?_⟩
  · intro i
    rw [view_alloc h x r.wf, r.len]
    split
    · rename_i e; subst e; simp
    · rename_i e
      rw [r.view]
      by_cases hi : i < vs.length
      · rw [List.getElem?_append_left hi]
      · rw [List.getElem?_eq_none (by omega), List.getElem?_eq_none (by simp; omega)]
  · intro y hy
    simp only [List.mem_append, List.mem_singleton] at hy
    rcases hy with hy | rfl
    · exact r.reach y hy
    · exact hx

theorem rel_set (h h' : Heap) (vs : List Mat) (r : Rel h vs) (i : Nat) (x : Mat) (hi : i < h.objs.length) (hw : WF h')
    (hl : h'.objs.length = h.objs.length) (hv : ∀ j, view h' j = if j = i then some x else view h j)
    (hx : Reachable x) : Rel h' (vs.set i x) := by
  refine ⟨hw, by rw [hl, r.len, List.length_set], ?_, ?_⟩
  · intro j
    rw [hv j]
    split
    · rename_i e
      subst e
      rw [r.len] at hi
      simp [hi]
    · rename_i e
      rw [r.view, List.getElem?_set_ne (Ne.symm e)]
  · intro y hy
    rcases List.mem_or_eq_of_mem_set hy with hy | rfl
    · exact r.reach y hy
    · exact hx

theorem rel_exec (h : Heap) (vs : List Mat) (r : Rel h vs) (c : Cmd) (hc : Admissible c) :
    Rel (exec h c) (execValues vs c) := by
  have mem : ∀ i x, vs[i]? = some x → Reachable x := fun i x hx => r.reach x (List.mem_of_getElem? hx)
  cases c with
  | new x => exact rel_alloc h vs r x hc
  | set i k v =>
    simp only [exec, execValues, r.view]
    cases hx : vs[i]? with
    | none => exact r
    | some x =>
      have hi := lt_of_view h vs r i x hx
      refine rel_set h _ vs r i _ hi (wf_poke h i _ r.wf hi) ?_ (view_poke h i _ r.wf hi)
        (.op x _ (.set k v) (mem i x hx) (fun z hz => by cases hz) rfl)
      unfold poke
      rw [List.getElem?_eq_getElem hi]
      simp
  | inplace i op =>
    simp only [exec, execValues, r.view]
    cases hx : vs[i]? with
    | none => exact r
    | some x =>
      simp only
      cases hs : step x op with
      | error e => exact r
      | ok y =>
        have hi := lt_of_view h vs r i x hx
        exact rel_set h _ vs r i y hi (wf_rebind h i y r.wf) (by simp [rebind]) (view_rebind h i y r.wf hi)
          (.op x y op (mem i x hx) hc hs)
  | mulSelf i j =>
    simp only [exec, execValues, r.view]
    cases hx : vs[i]? with
    | none => exact r
    | some x =>
      cases hy : vs[j]? with
      | none => exact r
      | some y =>
        have hi := lt_of_view h vs r i x hx
        exact rel_set h _ vs r i _ hi (wf_rebind h i _ r.wf) (by simp [rebind]) (view_rebind h i _ r.wf hi)
          (.mul x _ y (mem i x hx) (mem j y hy) rfl)
  | copying i op =>
    simp only [exec, execValues, r.view]
    cases hx : vs[i]? with
    | none => exact r
    | some x =>
      simp only
      rw [copying_eq x (mem i x hx)]
      cases hs : step x op with
      | error e => exact r
      | ok y => exact rel_alloc h vs r y (.op x y op (mem i x hx) hc hs)
  | mul i j =>
    simp only [exec, execValues, r.view]
    cases hx : vs[i]? with
    | none => exact r
    | some x =>
      cases hy : vs[j]? with
      | none => exact r
      | some y =>
        simp only
        rw [copying_eq x (mem i x hx)]
        exact rel_alloc h vs r _ (.mul x _ y (mem i x hx) (mem j y hy) rfl)

/-- **C06** Whatever a program does, its matrix objects behave as independent values:
in-place operations change their own object only, copying operations change none. -/
theorem objects_independent (cs : List Cmd) (hc : ∀ c ∈ cs, Admissible c) :
    ∀ i, view (cs.foldl exec ⟨[], []⟩) i = (cs.foldl execValues [])[i]? := by
  have key : ∀ (cs : List Cmd) (h : Heap) (vs : List Mat), Rel h vs → (∀ c ∈ cs, Admissible c) →
      Rel (cs.foldl exec h) (cs.foldl execValues vs) := by
    intro cs
    induction cs with
    | nil => intro h vs r _; exact r
    | cons c cs ih =>
      intro h vs r hc
      exact ih _ _ (rel_exec h vs r c (hc c List.mem_cons_self)) (fun c' hc' => hc c' (List.mem_cons_of_mem _ hc'))
  have r0 : Rel ⟨[], []⟩ [] := ⟨⟨by simp, by simp⟩, rfl, fun i => by simp [view], by simp⟩
  exact (key cs _ _ r0 hc).view

/-- Non-trivial instance: a copy and a multiplication by itself. -/
example : Admissible (.new ident) ∧ Admissible (.copying 0 (.translate 1 2 0)) ∧ Admissible (.mulSelf 1 1) :=
  ⟨.array [1, 0, 0, 1, 0, 0] ident rfl, show ∀ z, Op.translate 1 2 0 ≠ .multiply z by simp, trivial⟩

end SvgPy.Matrix
