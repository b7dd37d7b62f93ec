import Verif.Props.Matrix

/-! Property C08: importing and exporting matrices. -/

set_option linter.unusedSimpArgs false

namespace SvgPy.Matrix

/-! ### C08 -/

/-- **C08** A matrix survives `tolist` and `from_float_array`. -/
theorem fromArray_tolist (x : Mat) (h : Reachable x) : ofArray (tolist x) = .ok x :=
  ofArray_tolist x (reachable_is2d x h)

/-- **C08** A matrix survives `tojson` and `from_matrix`. -/
theorem fromMatrix_tojson (x : Mat) (h : Reachable x) : ofInit (tojson x) = .ok x := by
  have h := reachable_is2d x h
  cases hb : x.is2d with
  | true =>
    have e : tojson x = ⟨json2 x, some true, []⟩ := by unfold tojson; rw [if_pos hb]
    have hc : ¬ anyClash ⟨json2 x, some true, []⟩ := by simp [anyClash, clash, json2]
    have h3 : ¬ has3d ⟨json2 x, some true, []⟩ := by simp [has3d, off, json2]
    rw [e]
    unfold ofInit
    rw [if_neg hc, if_neg (by simp)]
    simp only
    rw [if_neg h3]
    obtain ⟨a1, a2, a3, a4, a5, a6, a7, a8, a9, a10⟩ := h hb
    congr 1
    apply eq_of_get
    · intro k
      cases k <;> first | rfl | (simp only [a1, a2, a3, a4, a5, a6, a7, a8, a9, a10]; rfl)
    · exact hb.symm
  | false =>
    have e : tojson x = ⟨json3 x, some false, []⟩ := by unfold tojson; rw [if_neg (by simp [hb])]
    have hc : ¬ anyClash ⟨json3 x, some false, []⟩ := by simp [anyClash, clash, json3]
    rw [e]
    unfold ofInit
    rw [if_neg hc, if_neg (by simp)]
    simp only
    congr 1
    apply eq_of_get
    · intro k
      cases k <;> rfl
    · exact hb.symm

/-- Both names of a component are given and differ. -/
def Contradictory (i : Init) : Prop :=
  ∃ k k' v v', sameComp k = sameComp k' ∧ i.val k = some v ∧ i.val k' = some v' ∧ v ≠ v'

/-- The 2D default of a component. -/
def default2d : Comp → ℝ
  | .m11 | .m22 | .m33 | .m44 | .a | .d => 1
  | _ => 0

/-- A component of the third dimension. -/
def Is3DComp (k : Comp) : Prop :=
  sameComp k ∉ [Comp.m11, .m12, .m21, .m22, .m41, .m42]

/-- A component of the third dimension is given with another value than its default. -/
def Given3D (i : Init) : Prop := ∃ k v, Is3DComp k ∧ i.val k = some v ∧ v ≠ default2d k

private theorem get_sameComp (x : Mat) (k : Comp) : get x k = get x (sameComp k) := by
  cases k <;> rfl

private theorem pairs (k k' : Comp) (h : sameComp k = sameComp k') : k = k' ∨
    ((k, k') ∈ [(Comp.a, Comp.m11), (.b, .m12), (.c, .m21), (.d, .m22), (.e, .m41), (.f, .m42)] ∨
     (k', k) ∈ [(Comp.a, Comp.m11), (.b, .m12), (.c, .m21), (.d, .m22), (.e, .m41), (.f, .m42)]) := by
  have h' : ∀ k ∈ allComps, ∀ k' ∈ allComps, sameComp k = sameComp k' → k = k' ∨
    ((k, k') ∈ [(Comp.a, Comp.m11), (.b, .m12), (.c, .m21), (.d, .m22), (.e, .m41), (.f, .m42)] ∨
     (k', k) ∈ [(Comp.a, Comp.m11), (.b, .m12), (.c, .m21), (.d, .m22), (.e, .m41), (.f, .m42)]) := by
    decide +kernel
  exact h' k (mem_allComps k) k' (mem_allComps k') h

theorem contradictory_iff (i : Init) : Contradictory i ↔ anyClash i := by
  constructor
  · rintro ⟨k, k', v, v', hk, h1, h2, hv⟩
    have key : ∀ s l, i.val s = some v → i.val l = some v' → clash i s l := fun s l a b => ⟨v, v', a, b, hv⟩
    have key' : ∀ s l, i.val s = some v' → i.val l = some v → clash i s l := fun s l a b => ⟨v', v, a, b, hv.symm⟩
    have same : k = k' → False := by
      rintro rfl
      rw [h1] at h2
      exact hv (Option.some.inj h2)
    have hp := pairs k k' hk
    unfold anyClash
    rcases hp with h | h
    · exact absurd h same
    · simp only [List.mem_cons, List.not_mem_nil, or_false, Prod.mk.injEq] at h
      rcases h with (⟨e1, e2⟩ | ⟨e1, e2⟩ | ⟨e1, e2⟩ | ⟨e1, e2⟩ | ⟨e1, e2⟩ | ⟨e1, e2⟩) |
        (⟨e1, e2⟩ | ⟨e1, e2⟩ | ⟨e1, e2⟩ | ⟨e1, e2⟩ | ⟨e1, e2⟩ | ⟨e1, e2⟩)
      · subst e1 e2; exact .inl (key _ _ h1 h2)
      · subst e1 e2; exact .inr (.inl (key _ _ h1 h2))
      · subst e1 e2; exact .inr (.inr (.inl (key _ _ h1 h2)))
      · subst e1 e2; exact .inr (.inr (.inr (.inl (key _ _ h1 h2))))
      · subst e1 e2; exact .inr (.inr (.inr (.inr (.inl (key _ _ h1 h2)))))
      · subst e1 e2; exact .inr (.inr (.inr (.inr (.inr (key _ _ h1 h2)))))
      · subst e1 e2; exact .inl (key' _ _ h2 h1)
      · subst e1 e2; exact .inr (.inl (key' _ _ h2 h1))
      · subst e1 e2; exact .inr (.inr (.inl (key' _ _ h2 h1)))
      · subst e1 e2; exact .inr (.inr (.inr (.inl (key' _ _ h2 h1))))
      · subst e1 e2; exact .inr (.inr (.inr (.inr (.inl (key' _ _ h2 h1)))))
      · subst e1 e2; exact .inr (.inr (.inr (.inr (.inr (key' _ _ h2 h1)))))
  · rintro (⟨v, w, h1, h2, hv⟩ | ⟨v, w, h1, h2, hv⟩ | ⟨v, w, h1, h2, hv⟩ | ⟨v, w, h1, h2, hv⟩ | ⟨v, w, h1, h2, hv⟩ |
      ⟨v, w, h1, h2, hv⟩)
    · exact ⟨.a, .m11, v, w, rfl, h1, h2, hv⟩
    · exact ⟨.b, .m12, v, w, rfl, h1, h2, hv⟩
    · exact ⟨.c, .m21, v, w, rfl, h1, h2, hv⟩
    · exact ⟨.d, .m22, v, w, rfl, h1, h2, hv⟩
    · exact ⟨.e, .m41, v, w, rfl, h1, h2, hv⟩
    · exact ⟨.f, .m42, v, w, rfl, h1, h2, hv⟩

theorem given3d_iff (i : Init) : Given3D i ↔ has3d i := by
  constructor
  · rintro ⟨k, v, hk, h1, hv⟩
    unfold Is3DComp at hk
    unfold has3d
    have o : off i k (default2d k) := ⟨v, h1, hv⟩
    cases k <;> first | exact absurd hk (by decide) | (simp only [default2d] at o; simp only [o, true_or, or_true])
  · unfold has3d off
    rintro (h | h | h | h | h | h | h | h | h | h) <;> obtain ⟨v, h1, hv⟩ := h <;>
      exact ⟨_, v, by unfold Is3DComp; decide, h1, hv⟩

/-- **C08** An import is refused exactly when it contradicts itself, has an unknown
keyword, or declares 2D with a component of the third dimension. -/
theorem ofInit_refused_iff (i : Init) :
    (∃ e, ofInit i = .error e) ↔ Contradictory i ∨ i.extra ≠ [] ∨ (i.is2d = some true ∧ Given3D i) := by
  rw [contradictory_iff, given3d_iff]
  unfold ofInit
  by_cases h1 : anyClash i
  · simp [h1]
  by_cases h2 : i.extra = []
  · rcases hb : i.is2d with _ | (_ | _)
    · by_cases h3 : has3d i <;> simp [h1, h2, h3]
    · simp [h1, h2]
    · by_cases h3 : has3d i <;> simp [h1, h2, h3]
  · simp [h1, h2]

private def table (i : Init) : Comp → ℝ
  | .a | .m11 => pick i .a .m11 1
  | .b | .m12 => pick i .b .m12 0
  | .c | .m21 => pick i .c .m21 0
  | .d | .m22 => pick i .d .m22 1
  | .e | .m41 => pick i .e .m41 0
  | .f | .m42 => pick i .f .m42 0
  | .m13 => (i.val .m13).getD 0
  | .m14 => (i.val .m14).getD 0
  | .m23 => (i.val .m23).getD 0
  | .m24 => (i.val .m24).getD 0
  | .m31 => (i.val .m31).getD 0
  | .m32 => (i.val .m32).getD 0
  | .m33 => (i.val .m33).getD 1
  | .m34 => (i.val .m34).getD 0
  | .m43 => (i.val .m43).getD 0
  | .m44 => (i.val .m44).getD 1

private def table2 (i : Init) : Comp → ℝ
  | .a | .m11 => pick i .a .m11 1
  | .b | .m12 => pick i .b .m12 0
  | .c | .m21 => pick i .c .m21 0
  | .d | .m22 => pick i .d .m22 1
  | .e | .m41 => pick i .e .m41 0
  | .f | .m42 => pick i .f .m42 0
  | .m33 => 1
  | .m44 => 1
  | _ => 0

private theorem get_init3d (i : Init) (k : Comp) : get (init3d i) k = table i k := by
  cases k <;> simp [get, init3d, matrix3d, row, col, table]

private theorem get_init2d (i : Init) (k : Comp) : get (init2d i) k = table2 i k := by
  cases k <;> simp [get, init2d, matrix2d, row, col, table2]

/-- **C08** An accepted import has every given value under both names of its component,
the defaults elsewhere, and the declared flag; without a declared flag it is 2D exactly
when no component of the third dimension is given. -/
theorem ofInit_values (i : Init) (x : Mat) (h : ofInit i = .ok x) :
    (∀ k v, i.val k = some v → ∀ k', sameComp k' = sameComp k → get x k' = v) ∧
    (∀ k, (∀ k', sameComp k' = sameComp k → i.val k' = none) → get x k = default2d k) ∧
    (∀ b, i.is2d = some b → x.is2d = b) ∧ (i.is2d = none → (x.is2d = true ↔ ¬ Given3D i)) := by
  have hr : ¬ (Contradictory i ∨ i.extra ≠ [] ∨ (i.is2d = some true ∧ Given3D i)) := by
    intro hc
    obtain ⟨e, he⟩ := (ofInit_refused_iff i).mpr hc
    rw [h] at he; cases he
  have hcl : ∀ k k' v v', sameComp k = sameComp k' → i.val k = some v → i.val k' = some v' → v = v' := by
    intro k k' v v' hk h1 h2
    by_contra hv
    exact hr (.inl ⟨k, k', v, v', hk, h1, h2, hv⟩)
  have pick_some : ∀ s l d k v, (k = s ∨ k = l) → sameComp s = sameComp l → i.val k = some v → pick i s l d = v := by
    intro s l d k v hk hsl hv
    unfold pick
    cases hl : i.val l with
    | some w =>
      rcases hk with rfl | rfl
      · exact (hcl _ _ _ _ hsl hv hl).symm
      · rw [hl] at hv; exact Option.some.inj hv
    | none =>
      rcases hk with rfl | rfl
      · simp [hv]
      · rw [hl] at hv; cases hv
  have pick_none : ∀ s l d, i.val s = none → i.val l = none → pick i s l d = d := by
    intro s l d hs hl
    simp [pick, hs, hl]
  have c3 : (∀ k v, i.val k = some v → ∀ k', sameComp k' = sameComp k → get (init3d i) k' = v) ∧
      (∀ k, (∀ k', sameComp k' = sameComp k → i.val k' = none) → get (init3d i) k = default2d k) := by
    constructor
    · intro k v hv k' hk
      rw [get_sameComp, hk, ← get_sameComp, get_init3d]
      have g : ∀ d, (i.val k).getD d = v := fun d => by rw [hv]; rfl
      cases k with
      | a | m11 => exact pick_some .a .m11 1 _ v (by simp) rfl hv
      | b | m12 => exact pick_some .b .m12 0 _ v (by simp) rfl hv
      | c | m21 => exact pick_some .c .m21 0 _ v (by simp) rfl hv
      | d | m22 => exact pick_some .d .m22 1 _ v (by simp) rfl hv
      | e | m41 => exact pick_some .e .m41 0 _ v (by simp) rfl hv
      | f | m42 => exact pick_some .f .m42 0 _ v (by simp) rfl hv
      | _ => exact g _
    · intro k hk
      rw [get_init3d]
      have g : ∀ d, (i.val k).getD d = d := fun d => by rw [hk k rfl]; rfl
      cases k with
      | a | m11 => exact pick_none .a .m11 1 (hk _ rfl) (hk _ rfl)
      | b | m12 => exact pick_none .b .m12 0 (hk _ rfl) (hk _ rfl)
      | c | m21 => exact pick_none .c .m21 0 (hk _ rfl) (hk _ rfl)
      | d | m22 => exact pick_none .d .m22 1 (hk _ rfl) (hk _ rfl)
      | e | m41 => exact pick_none .e .m41 0 (hk _ rfl) (hk _ rfl)
      | f | m42 => exact pick_none .f .m42 0 (hk _ rfl) (hk _ rfl)
      | _ => exact g _
  have c2 : ¬ Given3D i → ∀ k, get (init2d i) k = get (init3d i) k := by
    intro hg k
    rw [get_init3d, get_init2d]
    have gd : Is3DComp k → default2d k = (i.val k).getD (default2d k) := by
      intro hk
      cases hv : i.val k with
      | none => rfl
      | some v =>
        by_contra hne
        exact hg ⟨k, v, hk, hv, fun e => hne e.symm⟩
    unfold Is3DComp at gd
    cases k with
    | a | m11 | b | m12 | c | m21 | d | m22 | e | m41 | f | m42 => rfl
    | _ => exact gd (by decide)
  have vals2 : ¬ Given3D i → x = init2d i →
      (∀ k v, i.val k = some v → ∀ k', sameComp k' = sameComp k → get x k' = v) ∧
      (∀ k, (∀ k', sameComp k' = sameComp k → i.val k' = none) → get x k = default2d k) := by
    intro hg hx
    subst hx
    exact ⟨fun k v hv k' hk => by rw [c2 hg]; exact c3.1 k v hv k' hk, fun k hk => by rw [c2 hg]; exact c3.2 k hk⟩
  unfold ofInit at h
  split at h
  · cases h
  split at h
  · cases h
  split at h
  · rename_i hb
    split at h
    · rename_i h3
      cases h
      refine ⟨c3.1, c3.2, fun b hb' => ?_, fun _ => ?_⟩
      · rw [hb] at hb'; cases hb'
      rw [given3d_iff]
      simp [init3d, h3]
    · rename_i h3
      cases h
      have h3' : ¬ Given3D i := fun hg => h3 ((given3d_iff i).mp hg)
      refine ⟨(vals2 h3' rfl).1, (vals2 h3' rfl).2, fun b hb' => ?_, fun _ => ?_⟩
      · rw [hb] at hb'; cases hb'
      simp [init2d, h3']
  · rename_i hb
    split at h
    · cases h
    · rename_i h3
      cases h
      have h3' : ¬ Given3D i := fun hg => h3 ((given3d_iff i).mp hg)
      refine ⟨(vals2 h3' rfl).1, (vals2 h3' rfl).2, fun b hb' => ?_, fun hn => ?_⟩
      · rw [hb] at hb'; cases hb'; rfl
      · rw [hb] at hn; cases hn
  · rename_i hb
    cases h
    refine ⟨c3.1, c3.2, fun b hb' => ?_, fun hn => ?_⟩
    · rw [hb] at hb'; cases hb'; rfl
    · rw [hb] at hn; cases hn

/-- `to_float_array` does not keep the flag: a 2D matrix comes back as 3D, with the
same components. -/
theorem toFloatArray_flag (x : Mat) : ofArray (toFloatArray x) = .ok ⟨x.m, false⟩ := by
  show Except.ok _ = Except.ok _
  congr 1
  apply eq_of_get
  · intro k
    cases k <;> rfl
  · rfl

end SvgPy.Matrix
