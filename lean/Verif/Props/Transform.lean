import Verif.Model.Transform
import Verif.Props.Matrix

/-! Property C09: transform lists. -/

set_option linter.unusedSimpArgs false

namespace SvgPy.Transform

open SvgPy.Matrix

/-! ### Specification -/

/-- What one transform function does to a point of the plane (SVG, transform attribute). -/
noncomputable def act : Item ℝ → ℝ × ℝ → ℝ × ℝ
  | .unknown, p => p
  | .matrix a b c d e f, (x, y) => (a * x + c * y + e, b * x + d * y + f)
  | .translate tx ty, (x, y) => (x + tx, y + ty)
  | .scale sx sy, (x, y) => (sx * x, sy * y)
  | .rotate t cx cy, (x, y) =>
    (cx + (x - cx) * Real.cos (t * Real.pi / 180) - (y - cy) * Real.sin (t * Real.pi / 180),
     cy + (x - cx) * Real.sin (t * Real.pi / 180) + (y - cy) * Real.cos (t * Real.pi / 180))
  | .skewX t, (x, y) => (x + Real.tan (t * Real.pi / 180) * y, y)
  | .skewY t, (x, y) => (x, y + Real.tan (t * Real.pi / 180) * x)

/-- A list acts from its last item to its first. -/
noncomputable def actAll : List (Item ℝ) → ℝ × ℝ → ℝ × ℝ
  | [], p => p
  | t :: ts, p => act t (actAll ts p)

/-- What a matrix does to a point of the plane, through `transform_point`. -/
noncomputable def Acts (m : Mat) (f : ℝ × ℝ → ℝ × ℝ) : Prop :=
  ∀ x y, transformPoint m x y 0 1 = [(f (x, y)).1, (f (x, y)).2]

/-! ### Proofs -/

theorem apply_new (p : P4) : apply newMatrix p = p :=
  (isidentity_iff newMatrix).mp (by simp [isidentity, Matrix.get, row, col, newMatrix, matrix2d]) p

theorem about_apply (m : Mat) (cx cy dx dy : ℝ) (h : cx = 0 → cy = 0 → dx = 0 ∧ dy = 0) (p : P4) :
    apply (about m cx cy dx dy) p = apply m (shift dx dy 0 p) := by
  unfold about
  split
  · exact translate_apply ..
  · rename_i hc
    have h1 : cx = 0 := by by_contra h'; exact hc (.inl h')
    have h2 : cy = 0 := by by_contra h'; exact hc (.inr h')
    obtain ⟨rfl, rfl⟩ := h h1 h2
    simp [shift]

theorem rotate_flag (y : Mat) (t : ℝ) : (rotateSelf y 0 0 t).is2d = y.is2d := by
  unfold rotateSelf
  simp only [ne_eq, not_true_eq_false, if_false]
  split
  · unfold rotateAxisAngleSelf
    simp only
    split
    · rfl
    · split <;> simp [rotateUnit]
  · rfl

theorem about_flag (m : Mat) (cx cy dx dy : ℝ) : (about m cx cy dx dy).is2d = m.is2d := by
  unfold about translateSelf
  split
  · split <;> simp
  · rfl

theorem item_apply (t : Item ℝ) (m : Mat) (h : itemMatrix t = some m) :
    m.is2d = true ∧ ∀ x y, apply m ⟨x, y, 0, 1⟩ = ⟨(act t (x, y)).1, (act t (x, y)).2, 0, 1⟩ := by
  cases t with
  | unknown => cases h
  | matrix a b c d e f =>
    cases h
    refine ⟨rfl, fun x y => ?_⟩
    ext <;> simp [apply, Matrix.get, row, col, matrix2d, act]
  | translate tx ty =>
    cases h
    refine ⟨?_, fun x y => ?_⟩
    · unfold translateSelf; split <;> simp [newMatrix]
    · rw [translate_apply, apply_new]
      ext <;> simp [shift, act]
  | scale sx sy =>
    cases h
    refine ⟨?_, fun x y => ?_⟩
    · unfold scaleSelf; simp only; split <;> simp [newMatrix]
    · rw [scale_apply, apply_new]
      ext <;> simp [scaleFrom, act]
  | rotate t cx cy =>
    cases h
    refine ⟨?_, fun x y => ?_⟩
    · rw [about_flag, rotate_flag, about_flag]; rfl
    · rw [about_apply _ _ _ _ _ (by rintro rfl rfl; simp), rotate_apply, about_apply _ _ _ _ _ (by rintro rfl rfl; simp),
        apply_new]
      simp only [rot_zero]
      ext <;> simp only [shift, rotZ, act, sinDeg, cosDeg] <;> ring
  | skewX t =>
    cases h
    refine ⟨rfl, fun x y => ?_⟩
    rw [(skew_apply _ _ _).1, apply_new]
    rfl
  | skewY t =>
    cases h
    refine ⟨rfl, fun x y => ?_⟩
    rw [(skew_apply _ _ _).2, apply_new]
    rfl

theorem mulAll_spec (l : List (Item ℝ)) (m : Mat) :
    (Item.unknown ∈ l → mulAll m l = .error .typeError) ∧
    (Item.unknown ∉ l → ∃ n, mulAll m l = .ok n ∧ (m.is2d = true → n.is2d = true) ∧
      ∀ x y, apply n ⟨x, y, 0, 1⟩ = apply m ⟨(actAll l (x, y)).1, (actAll l (x, y)).2, 0, 1⟩) := by
  induction l generalizing m with
  | nil => exact ⟨fun h => by simp at h, fun _ => ⟨m, rfl, id, fun x y => rfl⟩⟩
  | cons t ts ih =>
    cases ht : itemMatrix t with
    | none =>
      have : t = .unknown := by cases t <;> simp [itemMatrix] at ht ⊢
      subst this
      refine ⟨fun _ => rfl, fun h => by simp at h⟩
    | some n =>
      have hne : t ≠ .unknown := by rintro rfl; cases ht
      obtain ⟨h2, ha⟩ := item_apply t n ht
      have e : mulAll m (t :: ts) = mulAll (multiplySelf m n) ts := by
        rw [mulAll, ht]
      constructor
      · intro h
        rw [e]
        apply (ih _).1
        simp only [List.mem_cons] at h
        rcases h with h | h
        · exact absurd h.symm hne
        · exact h
      · intro h
        simp only [List.mem_cons, not_or] at h
        obtain ⟨k, hk, hf, hv⟩ := (ih (multiplySelf m n)).2 h.2
        refine ⟨k, by rw [e, hk], fun hm => hf (by simp [multiplySelf, hm, h2]), fun x y => ?_⟩
        rw [hv x y]
        have := multiply_apply m n (multiplySelf m n) rfl
        rw [this, ha]
        rfl

/-- **C09** The matrix of a list without unknown items: absent for the empty list,
otherwise a 2D matrix that acts as the items do one after the other, the last first. -/
theorem listMatrix_spec (l : List (Item ℝ)) (h : Item.unknown ∉ l) :
    (l = [] → listMatrix l = .ok none) ∧
    (l ≠ [] → ∃ m, listMatrix l = .ok (some m) ∧ m.is2d = true ∧ Acts m (actAll l)) := by
  constructor
  · rintro rfl; rfl
  · intro hne
    obtain ⟨n, hn, h2, ha⟩ := (mulAll_spec l newMatrix).2 h
    refine ⟨n, by simp [listMatrix, hne, hn], h2 rfl, fun x y => ?_⟩
    have := transformPoint_spec n ⟨x, y, 0, 1⟩
    simp only [h2 rfl, and_self, if_true] at this
    rw [this, ha, apply_new]

/-- **C09** A list with an item of unknown type has no matrix: reading it raises. -/
theorem listMatrix_unknown (l : List (Item ℝ)) (h : Item.unknown ∈ l) : listMatrix l = .error .typeError := by
  have hne : l ≠ [] := by rintro rfl; simp at h
  simp [listMatrix, hne, (mulAll_spec l newMatrix).1 h]

theorem matrix2d_of_acts (m : Mat) (h2 : m.is2d = true) (f : ℝ × ℝ → ℝ × ℝ) (h : Acts m f) :
    ∀ n : Mat, n.is2d = true → Acts n f → tolist m = tolist n := by
  intro n hn hf
  have e : ∀ x y, transformPoint m x y 0 1 = transformPoint n x y 0 1 := fun x y => by rw [h, hf]
  simp only [transformPoint_2d m h2, transformPoint_2d n hn, List.cons.injEq, and_true] at e
  obtain ⟨e1, e2⟩ := e 0 0
  obtain ⟨e3, e4⟩ := e 1 0
  obtain ⟨e5, e6⟩ := e 0 1
  simp only [mul_zero, mul_one, zero_add, add_zero] at e1 e2 e3 e4 e5 e6
  unfold tolist
  rw [if_pos h2, if_pos hn]
  simp only [List.cons.injEq, and_true]
  exact ⟨by linarith, by linarith, by linarith, by linarith, e1, e2⟩

/-- **C09** Consolidating a non-empty list leaves exactly one item, a matrix, which is
also returned and acts as the whole list did. -/
theorem consolidate_spec (l : List (Item ℝ)) (hne : l ≠ []) (h : Item.unknown ∉ l) :
    ∃ a b c d e f, consolidate l = (.ok (some (.matrix a b c d e f)), [.matrix a b c d e f]) ∧
      (∀ p, act (.matrix a b c d e f) p = actAll l p) ∧
      (∀ m m', listMatrix l = .ok (some m) → listMatrix [.matrix a b c d e f] = .ok (some m') → tolist m = tolist m') := by
  obtain ⟨m, hm, h2, ha⟩ := (listMatrix_spec l h).2 hne
  have ht : tolist m = [Matrix.get m .a, Matrix.get m .b, Matrix.get m .c, Matrix.get m .d, Matrix.get m .e, Matrix.get m .f] := by
    unfold tolist; rw [if_pos h2]
  refine ⟨Matrix.get m .a, Matrix.get m .b, Matrix.get m .c, Matrix.get m .d, Matrix.get m .e, Matrix.get m .f, ?_, ?_, ?_⟩
  · simp only [consolidate, hne, if_false, hm, fromMatrix, h2, if_true, ht]
  · rintro ⟨x, y⟩
    have h1 := ha x y
    rw [transformPoint_2d m h2] at h1
    simp only [List.cons.injEq, and_true] at h1
    show (_, _) = _
    rw [h1.1, h1.2]
  · intro m1 m2 h1 h3
    rw [hm] at h1
    cases h1
    obtain ⟨k, hk, hk2, hka⟩ := (listMatrix_spec [Item.matrix (Matrix.get m .a) (Matrix.get m .b) (Matrix.get m .c) (Matrix.get m .d) (Matrix.get m .e)
      (Matrix.get m .f)] (by simp)).2 (by simp)
    rw [hk] at h3
    obtain rfl : k = m2 := by simpa using h3
    apply matrix2d_of_acts m h2 (actAll l) ha k hk2
    intro x y
    rw [hka]
    have h1 := ha x y
    rw [transformPoint_2d m h2] at h1
    simp only [List.cons.injEq, and_true] at h1
    simp only [actAll, act]
    rw [h1.1, h1.2]

/-- **C09** Consolidating the empty list returns nothing and changes nothing; with an
item of unknown type it raises and changes nothing. -/
theorem consolidate_other (l : List (Item ℝ)) :
    consolidate [] = (.ok none, []) ∧ (Item.unknown ∈ l → consolidate l = (.error .typeError, l)) := by
  constructor
  · rfl
  · intro h
    have hne : l ≠ [] := by rintro rfl; simp at h
    simp [consolidate, hne, listMatrix_unknown l h]

/-- Non-trivial instance. -/
example : actAll [.translate 10 0, .scale 2 3] (1, 1) = (12, 3) ∧ Item.unknown ∉ [Item.translate (10 : ℝ) 0, .scale 2 3] := by
  constructor
  · simp only [actAll, act]; norm_num
  · simp

end SvgPy.Transform
