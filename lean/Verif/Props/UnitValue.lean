import Verif.Model.UnitValue
import Mathlib.Tactic.Ring
import Mathlib.Tactic.FieldSimp
import Mathlib.Tactic.Linarith
import Mathlib.Tactic.NormNum
import Mathlib.Tactic.Positivity

/-! Properties C38 (conversion of unit values) and C66 (comparison of unit values). -/

set_option linter.unusedSimpArgs false

namespace SvgPy.UnitValue

/-! ### Specification -/

/-- The kinds of units: those that measure the same quantity, whatever the context, are of the
same kind; the others, which depend on a context, are of a kind of their own. -/
inductive Kind
  | number | absoluteLength | angle | time | frequency | resolution | own (u : U)
  deriving DecidableEq

def kind : U → Kind
  | .number => .number
  | .cm | .mm | .q | .inch | .pt | .pc | .px => .absoluteLength
  | .deg | .grad | .rad | .turn => .angle
  | .s | .ms => .time
  | .hz | .khz => .frequency
  | .dpi | .dpcm | .dppx => .resolution
  | u => .own u

/-- The size of a unit: in metres, radians, seconds, hertz and dots per inch; 1 for the others. -/
noncomputable def size : U → ℝ
  | .cm => 1 / 100
  | .mm => 1 / 1000
  | .q => 1 / 4000
  | .inch => 0.0254
  | .pt => 0.0254 / 72
  | .pc => 0.0254 / 6
  | .px => 0.0254 / 96
  | .deg => Real.pi / 180
  | .grad => Real.pi / 200
  | .rad => 1
  | .turn => 2 * Real.pi
  | .s => 1
  | .ms => 1 / 1000
  | .hz => 1
  | .khz => 1000
  | .dpi => 1
  | .dpcm => 2.54
  | .dppx => 96
  | _ => 1

/-- The quantity that a value stands for. -/
noncomputable def quantity (x : UV) : ℝ := x.value * size x.unit

/-! ### Conversion -/

theorem size_pos (u : U) : 0 < size u := by
  have := Real.pi_pos
  cases u <;> simp only [size] <;> positivity

theorem ratio_pos (u : U) : 0 < ratio u := by
  have := Real.pi_pos
  cases u <;> simp only [ratio] <;> positivity

theorem canon_eq_iff (u w : U) (h : u ≠ w) : ((∃ c, canon u = some c ∧ canon w = some c) ↔ kind u = kind w) := by
  revert h
  cases u <;> cases w <;> simp [canon, kind]

/-- The ratios are the sizes in canonical units. -/
theorem ratio_size (u c : U) (h : canon u = some c) : ratio u * size c = size u := by
  have := Real.pi_pos
  cases u <;> simp only [canon, reduceCtorEq, Option.some.injEq] at h <;> subst h <;> simp only [ratio, size] <;> first | (field_simp; done) | (norm_num; done) | (field_simp; norm_num)

theorem to_cases (x : UV) (u : U) :
    (kind x.unit = kind u → ∃ y, convert x (some u) = .ok y ∧ y.unit = u ∧ quantity y = quantity x) ∧
    (kind x.unit ≠ kind u → convert x (some u) = .error .valueError) := by
  obtain ⟨v, w⟩ := x
  by_cases hu : w = u
  · subst hu
    exact ⟨fun _ => ⟨_, by simp [convert], rfl, rfl⟩, fun h => absurd rfl h⟩
  · have hk := canon_eq_iff w u hu
    constructor
    · intro h
      obtain ⟨c, h1, h2⟩ := hk.2 h
      refine ⟨⟨v * (ratio w / ratio u), u⟩, by simp [convert, hu, h1, h2], rfl, ?_⟩
      have e1 := ratio_size w c h1
      have e2 := ratio_size u c h2
      have p1 := ratio_pos u
      simp only [quantity]
      rw [← e1, ← e2]
      field_simp
    · intro h
      have hn : ¬ ∃ c, canon w = some c ∧ canon u = some c := fun hc => h (hk.1 hc)
      simp only [convert, hu, if_false]
      cases h1 : canon w with
      | none => rfl
      | some c1 =>
        cases h2 : canon u with
        | none => rfl
        | some c2 =>
          have : c1 ≠ c2 := fun e => hn ⟨c1, h1, e ▸ h2⟩
          simp [this]

/-- **C38** A value can be converted exactly to the units of its kind; otherwise ValueError is
raised. -/
theorem to_defined_iff (x : UV) (u : U) : (∃ y, convert x (some u) = .ok y) ↔ kind x.unit = kind u := by
  constructor
  · rintro ⟨y, hy⟩
    by_contra h
    rw [(to_cases x u).2 h] at hy; cases hy
  · intro h
    obtain ⟨y, hy, -⟩ := (to_cases x u).1 h
    exact ⟨y, hy⟩

/-- **C38** The result has the unit asked for and stands for the same quantity. -/
theorem to_quantity (x y : UV) (u : U) (h : convert x (some u) = .ok y) : y.unit = u ∧ quantity y = quantity x := by
  obtain ⟨z, hz, h1, h2⟩ := (to_cases x u).1 ((to_defined_iff x u).1 ⟨y, h⟩)
  rw [hz] at h; cases h
  exact ⟨h1, h2⟩

theorem ext_quantity (x y : UV) (hu : x.unit = y.unit) (hq : quantity x = quantity y) : x = y := by
  obtain ⟨a, u⟩ := x
  obtain ⟨b, w⟩ := y
  simp only at hu
  subst hu
  simp only [quantity] at hq
  rw [mul_right_cancel₀ (ne_of_gt (size_pos u)) hq]

/-- **C38** Conversion can be reverted. -/
theorem to_back (x y : UV) (u : U) (h : convert x (some u) = .ok y) : convert y (some x.unit) = .ok x := by
  obtain ⟨h1, h2⟩ := to_quantity x y u h
  obtain ⟨z, hz, h3, h4⟩ := (to_cases y x.unit).1 (by rw [h1]; exact ((to_defined_iff x u).1 ⟨y, h⟩).symm)
  rw [hz, ext_quantity z x h3 (h4.trans h2)]

/-- **C38** Two conversions in turn give what the second gives at once. -/
theorem to_to (x y : UV) (u w : U) (h : convert x (some u) = .ok y) : convert y (some w) = convert x (some w) := by
  obtain ⟨h1, h2⟩ := to_quantity x y u h
  have hk := (to_defined_iff x u).1 ⟨y, h⟩
  by_cases hw : kind x.unit = kind w
  · obtain ⟨z, hz, h3, h4⟩ := (to_cases x w).1 hw
    obtain ⟨z', hz', h3', h4'⟩ := (to_cases y w).1 (by rw [h1, ← hk, hw])
    rw [hz, hz', ext_quantity z' z (h3'.trans h3.symm) (by rw [h4', h2, h4])]
  · rw [(to_cases x w).2 hw, (to_cases y w).2 (by rw [h1, ← hk]; exact hw)]

/-- The abbreviations of the units in CSS. -/
def abbreviations : List (String × U) :=
  [("number", .number), ("percent", .percent),
   ("em", .em), ("rem", .rem), ("ex", .ex), ("ch", .ch), ("ic", .ic), ("lh", .lh), ("rlh", .rlh),
   ("vw", .vw), ("vh", .vh), ("vi", .vi), ("vb", .vb), ("vmin", .vmin), ("vmax", .vmax),
   ("px", .px), ("cm", .cm), ("mm", .mm), ("q", .q), ("in", .inch), ("pc", .pc), ("pt", .pt),
   ("deg", .deg), ("rad", .rad), ("grad", .grad), ("turn", .turn), ("ms", .ms), ("s", .s),
   ("hz", .hz), ("khz", .khz), ("dpi", .dpi), ("dpcm", .dpcm), ("dppx", .dppx), ("fr", .fr)]

/-- **C38** Texts that are not units are refused; the names of units are known in any case. -/
theorem names (u : U) (x : UV) (v : ℝ) :
    (u.name, u) ∈ abbreviations ∧ ofName u.name = some u ∧ ofName (String.ofList (u.name.toList.map Char.toUpper)) = some u ∧
      convert x none = .error .valueError ∧ make v u.name = .ok ⟨v, u⟩ := by
  have h1 : ofName u.name = some u := by cases u <;> decide +kernel
  refine ⟨by cases u <;> decide +kernel, h1, by cases u <;> decide +kernel, rfl, by unfold make; rw [h1]⟩

/-- Non-trivial instances of the hypotheses. -/
example : kind U.grad = kind U.turn ∧ kind U.dpi = kind U.dppx ∧ kind U.em ≠ kind U.px ∧ kind U.s ≠ kind U.hz ∧
    ∃ y, convert ⟨2.5, .inch⟩ (some .q) = .ok y :=
  ⟨rfl, rfl, by decide, by decide, (to_defined_iff _ _).2 rfl⟩

/-! ### Comparison -/

theorem isClose_symm (a b : ℝ) : IsClose a b ↔ IsClose b a := by
  have : ∀ a b, IsClose a b → IsClose b a := by
    intro a b h
    unfold IsClose at h ⊢
    rw [abs_sub_comm a b]
    rcases h with h | h | h | h
    · exact .inl h.symm
    · exact .inr (.inr (.inl h))
    · exact .inr (.inl h)
    · exact .inr (.inr (.inr h))
  exact ⟨this a b, this b a⟩

theorem isClose_scale (a b k : ℝ) (hk : 0 < k) : IsClose (a * k) (b * k) ↔ IsClose a b := by
  unfold IsClose
  have e1 : b * k - a * k = (b - a) * k := by ring
  have e0 : |(b - a) * k| = |b - a| * k := by rw [abs_mul, abs_of_pos hk]
  have e2 : ∀ x : ℝ, |1e-9 * (x * k)| = |1e-9 * x| * k := fun x => by rw [← mul_assoc, abs_mul, abs_of_pos hk]
  rw [e1, e2, e2, e0, mul_le_mul_iff_left₀ hk, mul_le_mul_iff_left₀ hk]
  have e3 : (a * k = b * k) ↔ a = b := ⟨fun h => mul_right_cancel₀ (ne_of_gt hk) h, fun h => by rw [h]⟩
  have e4 : |b - a| * k ≤ 0 ↔ |b - a| ≤ 0 := by
    constructor
    · intro h; by_contra hc; push Not at hc; have := mul_pos hc hk; linarith
    · intro h; have := mul_le_mul_of_nonneg_right h (le_of_lt hk); simpa using this
  rw [e3, e4]

/-- Two quantities are taken as equal: a relative difference of 1e-9 is allowed. -/
def Same (x y : UV) : Prop := IsClose (quantity x) (quantity y)

theorem normalize_cases (x y : UV) :
    (kind x.unit = kind y.unit → ∃ z, normalize x y = .ok z ∧ z.unit = x.unit ∧ quantity z = quantity y) ∧
    (kind x.unit ≠ kind y.unit → normalize x y = .error .valueError) := by
  unfold normalize
  by_cases hu : x.unit = y.unit
  · rw [if_neg (by simpa using hu)]
    exact ⟨fun _ => ⟨y, rfl, hu.symm, rfl⟩, fun h => absurd (by rw [hu]) h⟩
  · rw [if_pos hu]
    exact ⟨fun h => (to_cases y x.unit).1 h.symm, fun h => (to_cases y x.unit).2 (fun e => h e.symm)⟩

theorem compare_cases (x y : UV) (p : ℝ → ℝ → Bool) (hp : ∀ a b k, 0 < k → p (a * k) (b * k) = p a b) :
    (kind x.unit = kind y.unit → compare x y p = .ok (p (quantity x) (quantity y))) ∧
    (kind x.unit ≠ kind y.unit → compare x y p = .error .valueError) := by
  constructor
  · intro h
    obtain ⟨z, h1, h2, h3⟩ := (normalize_cases x y).1 h
    unfold compare
    rw [h1, ← h3]
    simp only [quantity, h2, hp _ _ _ (size_pos x.unit)]
  · intro h
    unfold compare
    rw [(normalize_cases x y).2 h]

open Classical in
/-- **C66** What the comparisons say, in terms of quantities: values of one kind can be compared,
others cannot. -/
theorem compare_spec (x y : UV) :
    (kind x.unit = kind y.unit →
      eq x y = .ok (decide (Same x y)) ∧
      lt x y = .ok (decide (¬ Same x y ∧ quantity x < quantity y)) ∧
      gt x y = .ok (decide (¬ Same x y ∧ quantity x > quantity y)) ∧
      le x y = .ok (decide (Same x y ∨ quantity x < quantity y)) ∧
      ge x y = .ok (decide (Same x y ∨ quantity x > quantity y))) ∧
    (kind x.unit ≠ kind y.unit →
      eq x y = .error .valueError ∧ lt x y = .error .valueError ∧ gt x y = .error .valueError ∧
      le x y = .error .valueError ∧ ge x y = .error .valueError) := by
  have hc := isClose_scale
  have hlt : ∀ a b k : ℝ, 0 < k → (a * k < b * k ↔ a < b) := fun a b k hk => mul_lt_mul_iff_left₀ hk
  have hle : ∀ a b k : ℝ, 0 < k → (a * k ≤ b * k ↔ a ≤ b) := fun a b k hk => mul_le_mul_iff_left₀ hk
  have p1 := compare_cases x y (fun a b => decide (IsClose a b)) (fun a b k hk => by simp only [hc a b k hk])
  have p2 := compare_cases x y (fun a b => if IsClose a b then false else decide (a < b)) (fun a b k hk => by simp only [hc a b k hk, hlt a b k hk])
  have p3 := compare_cases x y (fun a b => if IsClose a b then false else decide (a > b)) (fun a b k hk => by
    have := hlt b a k hk
    simp only [hc a b k hk, gt_iff_lt, this])
  have p4 := compare_cases x y (fun a b => if IsClose a b then true else decide (a ≤ b)) (fun a b k hk => by simp only [hc a b k hk, hle a b k hk])
  have p5 := compare_cases x y (fun a b => if IsClose a b then true else decide (a ≥ b)) (fun a b k hk => by
    have := hle b a k hk
    simp only [hc a b k hk, ge_iff_le, this])
  refine ⟨fun h => ⟨p1.1 h, (p2.1 h).trans ?_, (p3.1 h).trans ?_, (p4.1 h).trans ?_, (p5.1 h).trans ?_⟩,
    fun h => ⟨p1.2 h, p2.2 h, p3.2 h, p4.2 h, p5.2 h⟩⟩
  all_goals
    congr 1
    unfold Same
    by_cases hs : IsClose (quantity x) (quantity y)
    · simp [hs]
    · have hne : quantity x ≠ quantity y := fun e => hs (.inl e)
      simp [hs, le_iff_lt_or_eq, hne, hne.symm]

/-- **C66** Equality does not depend on the order of the operands, and any value equals itself,
also after conversion. -/
theorem eq_laws (x y : UV) : eq x y = eq y x ∧ eq x x = .ok true ∧ ∀ u z, convert x (some u) = .ok z → eq x z = .ok true ∧ eq z x = .ok true := by
  have hs : Same x y ↔ Same y x := isClose_symm _ _
  have key : ∀ a b : UV, kind a.unit = kind b.unit → quantity a = quantity b → eq a b = .ok true := by
    intro a b h1 h2
    rw [((compare_spec a b).1 h1).1]
    simp [Same, IsClose, h2]
  refine ⟨?_, key x x rfl rfl, fun u z h => ?_⟩
  · by_cases h : kind x.unit = kind y.unit
    · rw [((compare_spec x y).1 h).1, ((compare_spec y x).1 h.symm).1]
      exact congrArg Except.ok (decide_eq_decide.2 hs)
    · rw [((compare_spec x y).2 h).1, ((compare_spec y x).2 (Ne.symm h)).1]
  · obtain ⟨h1, h2⟩ := to_quantity x z u h
    have hk := (to_defined_iff x u).1 ⟨z, h⟩
    exact ⟨key x z (by rw [h1]; exact hk) h2.symm, key z x (by rw [h1]; exact hk.symm) h2⟩

/-- **C66** For values of one kind exactly one of less, equal and greater holds; the other
comparisons are made of these, and swapping the operands swaps the comparison. -/
theorem order_laws (x y : UV) (h : kind x.unit = kind y.unit) :
    ∃ l e g : Bool, lt x y = .ok l ∧ eq x y = .ok e ∧ gt x y = .ok g ∧
      ((l, e, g) = (true, false, false) ∨ (l, e, g) = (false, true, false) ∨ (l, e, g) = (false, false, true)) ∧
      le x y = .ok (l || e) ∧ ge x y = .ok (g || e) ∧ gt y x = .ok l ∧ lt y x = .ok g := by
  obtain ⟨h1, h2, h3, h4, h5⟩ := (compare_spec x y).1 h
  obtain ⟨g1, g2, g3, -, -⟩ := (compare_spec y x).1 h.symm
  have hs : Same y x ↔ Same x y := isClose_symm _ _
  refine ⟨_, _, _, h2, h1, h3, ?_, h4.trans ?_, h5.trans ?_, g3.trans ?_, g2.trans ?_⟩
  · by_cases hc : Same x y
    · simp [hc]
    · have hne : quantity x ≠ quantity y := fun e => hc (.inl e)
      rcases lt_or_gt_of_ne hne with hl | hl
      · simp [hc, hl, le_of_lt hl]
      · simp [hc, hl, le_of_lt hl]
  · by_cases hc : Same x y <;> simp [hc]
  · by_cases hc : Same x y <;> simp [hc]
  · exact congrArg Except.ok (decide_eq_decide.2 (by rw [hs]))
  · exact congrArg Except.ok (decide_eq_decide.2 (by rw [hs]))

/-- A non-trivial instance of the hypothesis, and of the order: 1in is less than 3cm. -/
example : lt ⟨1, .inch⟩ ⟨3, .cm⟩ = .ok true := by
  have h : kind (UV.mk 1 .inch).unit = kind (UV.mk 3 .cm).unit := rfl
  rw [((compare_spec _ _).1 h).2.1]
  congr 1
  simp only [Same, IsClose, quantity, size, decide_eq_true_eq]
  norm_num

/-- **C66**: the equality is not transitive (this is what the tolerance implies). -/
theorem eq_not_transitive :
    eq ⟨1, .number⟩ ⟨1 + 6e-10, .number⟩ = .ok true ∧ eq ⟨1 + 6e-10, .number⟩ ⟨1 + 12e-10, .number⟩ = .ok true ∧
      eq ⟨1, .number⟩ ⟨1 + 12e-10, .number⟩ = .ok false := by
  have h : ∀ a b : ℝ, kind (UV.mk a .number).unit = kind (UV.mk b .number).unit := fun _ _ => rfl
  refine ⟨?_, ?_, ?_⟩ <;>
    (rw [((compare_spec _ _).1 (h _ _)).1]; congr 1; simp only [Same, quantity, size]; simp only [IsClose, decide_eq_true_eq, decide_eq_false_iff_not]; norm_num [abs_le, lt_abs])

end SvgPy.UnitValue
