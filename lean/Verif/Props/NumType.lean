import Verif.Model.NumType
import Mathlib.Tactic.Tauto

/-! Properties C39 (algebra of types) and C40 (constructions leave their operands alone). -/

set_option linter.unusedSimpArgs false

namespace SvgPy.NumType

open SvgPy.UnitValue (U)

/-! ### Specification -/

/-- The dimensions of a type: the power of each base type and of percentages. -/
def dim (t : NType) : Key → Int := t.get

/-- Percentages taken as multiples of base type `h`. -/
def resolve (h : Key) (d : Key → Int) : Key → Int := fun k => if k = h then d h + d .percent else if k = .percent then 0 else d k

/-- What two types become when percentages stand for what one of them says: the common hint, and
the dimensions.  There is none if the hints differ. -/
inductive Unified (a b : NType) : Option Key → (Key → Int) → (Key → Int) → Prop
  | neither : a.hint = none → b.hint = none → Unified a b none (dim a) (dim b)
  | both (h : Key) : a.hint = some h → b.hint = some h → Unified a b (some h) (dim a) (dim b)
  | left (h : Key) : a.hint = some h → b.hint = none → Unified a b (some h) (dim a) (resolve h (dim b))
  | right (h : Key) : a.hint = none → b.hint = some h → Unified a b (some h) (resolve h (dim a)) (dim b)

/-- Sums: the dimensions must be the same, or become so when percentages are taken as multiples of
some base type, which is then the hint of the sum. -/
def SpecAdd (a b : NType) (d : Key → Int) (h : Option Key) : Prop :=
  ∃ h0 x y, Unified a b h0 x y ∧
    ((x = y ∧ d = x ∧ h = h0) ∨ (x ≠ y ∧ ∃ k ∈ base, resolve k x = resolve k y ∧ d = resolve k x ∧ h = some k))

/-- Products: the dimensions add up. -/
def SpecMul (a b : NType) (d : Key → Int) (h : Option Key) : Prop :=
  ∃ h0 x y, Unified a b h0 x y ∧ d = (fun k => x k + y k) ∧ h = h0

/-- Types as they are meant to be: the hint, if any, is a base type, and there is no key that is
the empty string. -/
structure Clean (t : NType) : Prop where
  hint : ∀ h, t.hint = some h → h ∈ base
  empty : t.pow .empty = none

/-! ### Lemmas -/

theorem percent_base : Key.percent ∉ base := by decide

theorem empty_base : Key.empty ∉ base := by decide

theorem key_cases (k : Key) : k ∈ base ∨ k = .percent ∨ k = .empty := by cases k <;> simp [base]

theorem dim_applyHint (t : NType) (h : Key) (hb : h ∈ base) : dim (applyHint t h) = resolve h (dim t) := by
  have hp : h ≠ .percent := fun e => percent_base (e ▸ hb)
  funext k
  unfold dim applyHint resolve NType.get NType.set
  simp only
  by_cases h1 : t.pow h = none
  · simp only [h1, if_true]
    have hne : Key.percent ≠ h := Ne.symm hp
    simp only [hne, if_false]
    cases h2 : t.pow .percent with
    | none =>
      by_cases hk : k = h
      · subst hk; simp
      · by_cases hk2 : k = .percent
        · subst hk2; simp [hk, h2]
        · simp [hk, hk2]
    | some p =>
      by_cases hk : k = h
      · subst hk; simp [hp]
      · by_cases hk2 : k = .percent
        · subst hk2; simp [hk]
        · simp [hk, hk2]
  · simp only [h1, if_false]
    cases h2 : t.pow .percent with
    | none =>
      by_cases hk : k = h
      · subst hk; simp
      · by_cases hk2 : k = .percent
        · subst hk2; simp [hk, h2]
        · simp [hk, hk2]
    | some p =>
      by_cases hk : k = h
      · subst hk; simp [hp]
      · by_cases hk2 : k = .percent
        · subst hk2; simp [hk]
        · simp [hk, hk2]

theorem hint_applyHint (t : NType) (h : Key) : (applyHint t h).hint = some h := rfl

theorem empty_applyHint (t : NType) (h : Key) (hb : h ∈ base) (he : t.pow .empty = none) : (applyHint t h).pow .empty = none := by
  have h1 : Key.empty ≠ h := fun e => empty_base (e ▸ hb)
  unfold applyHint NType.set
  simp only
  by_cases h2 : t.pow h = none <;> simp only [h2, if_true, if_false]
  · split <;> simp [h1, he]
  · split <;> simp [h1, he]

theorem clean_applyHint (t : NType) (h : Key) (hb : h ∈ base) (ht : Clean t) : Clean (applyHint t h) :=
  ⟨fun h' e => by cases e; exact hb, empty_applyHint t h hb ht.empty⟩

theorem dim_empty (t : NType) (ht : Clean t) : dim t .empty = 0 := by simp [dim, NType.get, ht.empty]

theorem sameBase_iff (t1 t2 : NType) : sameBase t1 t2 = true ↔ ∀ k ∈ base, dim t1 k = dim t2 k := by
  unfold sameBase
  rw [List.all_eq_true]
  refine forall_congr' fun k => forall_congr' fun _ => ?_
  unfold dim NType.get
  cases h1 : t1.pow k with
  | none =>
    cases h2 : t2.pow k with
    | none => simp
    | some q => simp; exact eq_comm
  | some p =>
    cases h2 : t2.pow k with
    | none => simp
    | some q =>
      simp only [Option.getD_some, Bool.and_eq_true, Bool.or_eq_true, beq_iff_eq, Option.some.injEq]
      constructor
      · rintro ⟨h | h, h' | h'⟩
        · rw [h, h']
        · exact h'
        · exact h.symm
        · exact h'
      · intro h; subst h; exact ⟨.inr rfl, .inr rfl⟩

theorem matchBase_same (t1 t2 : NType) (k : Key) (l : List Key) (he : dim t1 k = dim t2 k) : matchBase t1 t2 (k :: l) = matchBase t1 t2 l := by
  have h1 : ¬ ((t1.get k ≠ 0 ∨ t2.get k ≠ 0) ∧ t1.get k ≠ t2.get k) := fun h => h.2 he
  have h3 : ¬ t1.get k ≠ t2.get k := fun h => h he
  rw [matchBase]
  simp only [if_neg h1]
  rw [if_neg h3]

theorem matchBase_diff (t1 t2 : NType) (k : Key) (l : List Key) (hk : k ∈ base) (he : dim t1 k ≠ dim t2 k) : matchBase t1 t2 (k :: l) =
    if dim t1 k + dim t1 .percent ≠ dim t2 k + dim t2 .percent then none else matchBase (applyHint t1 k) (applyHint t2 k) l := by
  have h0 : t1.get k ≠ 0 ∨ t2.get k ≠ 0 := by
    by_contra hc; push Not at hc; exact he (hc.1.trans hc.2.symm)
  have h1 : (t1.get k ≠ 0 ∨ t2.get k ≠ 0) ∧ t1.get k ≠ t2.get k := ⟨h0, he⟩
  have e : ∀ t, (applyHint t k).get k = dim t k + dim t .percent := by
    intro t
    have := congrFun (dim_applyHint t k hk) k
    simpa [resolve, dim] using this
  rw [matchBase]
  simp only [if_pos h1, e]

theorem matchBase_zero (l : List Key) (t1 t2 : NType) (hl : ∀ k ∈ l, k ∈ base) (h1 : dim t1 .percent = 0) (h2 : dim t2 .percent = 0)
    (r : NType × NType) : matchBase t1 t2 l = some r ↔ (∀ k ∈ l, dim t1 k = dim t2 k) ∧ r = (t1, t2) := by
  induction l with
  | nil =>
    rw [matchBase]
    constructor
    · intro h; cases h; exact ⟨fun k hk => absurd hk (by simp), rfl⟩
    · rintro ⟨-, rfl⟩; rfl
  | cons k l ih =>
    have hk := hl k (by simp)
    by_cases he : dim t1 k = dim t2 k
    · rw [matchBase_same _ _ _ _ he, ih (fun k hk => hl k (by simp [hk]))]
      simp [he]
    · rw [matchBase_diff _ _ _ _ hk he, if_pos (by simpa [h1, h2] using he)]
      constructor
      · intro h; cases h
      · rintro ⟨h, -⟩; exact absurd (h k (by simp)) he

/-- What the loop over the base types finds. -/
theorem matchBase_iff (l : List Key) (t1 t2 : NType) (hl : ∀ k ∈ l, k ∈ base) (hnd : l.Nodup) (r : NType × NType) :
    matchBase t1 t2 l = some r ↔ ((∀ k ∈ l, dim t1 k = dim t2 k) ∧ r = (t1, t2)) ∨
      ∃ k ∈ l, dim t1 k ≠ dim t2 k ∧ (∀ k' ∈ l, k' ≠ k → dim t1 k' = dim t2 k') ∧ dim t1 k + dim t1 .percent = dim t2 k + dim t2 .percent ∧
        r = (applyHint t1 k, applyHint t2 k) := by
  induction l with
  | nil =>
    rw [matchBase]
    constructor
    · intro h; cases h; exact .inl ⟨fun k hk => absurd hk (by simp), rfl⟩
    · rintro (⟨-, rfl⟩ | ⟨k, hk, -⟩)
      · rfl
      · exact absurd hk (by simp)
  | cons k l ih =>
    have hk := hl k (by simp)
    have hl' : ∀ k ∈ l, k ∈ base := fun k hk => hl k (by simp [hk])
    simp only [List.nodup_cons] at hnd
    by_cases he : dim t1 k = dim t2 k
    · rw [matchBase_same _ _ _ _ he, ih hl' hnd.2]
      constructor
      · rintro (⟨h1, h2⟩ | ⟨j, h1, h2, h3, h4⟩)
        · exact .inl ⟨by simpa [he] using h1, h2⟩
        · refine .inr ⟨j, by simp [h1], h2, ?_, h4⟩
          intro k' hk' hne
          rcases List.mem_cons.1 hk' with rfl | hk'
          · exact he
          · exact h3 k' hk' hne
      · rintro (⟨h1, h2⟩ | ⟨j, h1, h2, h3, h4⟩)
        · exact .inl ⟨fun k hk => h1 k (by simp [hk]), h2⟩
        · have : j ∈ l := by
            rcases List.mem_cons.1 h1 with rfl | h1
            · exact absurd he h2
            · exact h1
          exact .inr ⟨j, this, h2, fun k' hk' => h3 k' (by simp [hk']), h4⟩
    · rw [matchBase_diff _ _ _ _ hk he]
      have d1 := dim_applyHint t1 k hk
      have d2 := dim_applyHint t2 k hk
      have hpk : Key.percent ≠ k := fun e => percent_base (e ▸ hk)
      have other : ∀ k' ∈ l, (dim (applyHint t1 k) k' = dim (applyHint t2 k) k' ↔ dim t1 k' = dim t2 k') := by
        intro k' hk'
        have n1 : k' ≠ k := fun e => hnd.1 (e ▸ hk')
        have n2 : k' ≠ .percent := fun e => percent_base (e ▸ hl' k' hk')
        rw [d1, d2]
        simp [resolve, n1, n2]
      by_cases hs : dim t1 k + dim t1 .percent = dim t2 k + dim t2 .percent
      · rw [if_neg (fun h => h hs), matchBase_zero l _ _ hl' (by rw [d1]; simp [resolve, hpk]) (by rw [d2]; simp [resolve, hpk])]
        constructor
        · rintro ⟨h1, rfl⟩
          refine .inr ⟨k, by simp, he, ?_, hs, rfl⟩
          intro k' hk' hne
          rcases List.mem_cons.1 hk' with rfl | hk'
          · exact absurd rfl hne
          · exact (other k' hk').1 (h1 k' hk')
        · rintro (⟨h1, -⟩ | ⟨j, h1, h2, h3, h4, h5⟩)
          · exact absurd (h1 k (by simp)) he
          · have : j = k := by
              by_contra hne
              exact he (h3 k (by simp) (Ne.symm hne))
            subst this
            refine ⟨fun k' hk' => (other k' hk').2 (h3 k' (by simp [hk']) ?_), h5⟩
            exact fun e => hnd.1 (e ▸ hk')
      · rw [if_pos hs]
        constructor
        · intro h; cases h
        · rintro (⟨h1, -⟩ | ⟨j, h1, h2, h3, h4, h5⟩)
          · exact absurd (h1 k (by simp)) he
          · have : j = k := by
              by_contra hne
              exact he (h3 k (by simp) (Ne.symm hne))
            subst this
            exact absurd h4 hs

/-- What the unification of the hints gives. -/
theorem unify_iff (a b : NType) (ha : Clean a) (hb : Clean b) :
    (∀ h0 x y, Unified a b h0 x y → ∃ a' b', unifyHints a b = some (a', b') ∧ dim a' = x ∧ dim b' = y ∧ a'.hint = h0 ∧ b'.hint = h0 ∧
      Clean a' ∧ Clean b') ∧
    ((∀ h0 x y, ¬ Unified a b h0 x y) → unifyHints a b = none) := by
  constructor
  · rintro h0 x y (⟨h1, h2⟩ | ⟨h, h1, h2⟩ | ⟨h, h1, h2⟩ | ⟨h, h1, h2⟩)
    · exact ⟨a, b, by simp [unifyHints, h1, h2], rfl, rfl, h1, h2, ha, hb⟩
    · exact ⟨a, b, by simp [unifyHints, h1, h2], rfl, rfl, h1, h2, ha, hb⟩
    · exact ⟨a, applyHint b h, by simp [unifyHints, h1, h2], rfl, dim_applyHint b h (ha.hint h h1), h1, rfl, ha,
        clean_applyHint b h (ha.hint h h1) hb⟩
    · exact ⟨applyHint a h, b, by simp [unifyHints, h1, h2], dim_applyHint a h (hb.hint h h2), rfl, rfl, h2,
        clean_applyHint a h (hb.hint h h2) ha, hb⟩
  · intro hn
    unfold unifyHints
    cases h1 : a.hint with
    | none =>
      cases h2 : b.hint with
      | none => exact absurd (Unified.neither h1 h2) (hn _ _ _)
      | some h => exact absurd (Unified.right h h1 h2) (hn _ _ _)
    | some h =>
      cases h2 : b.hint with
      | none => exact absurd (Unified.left h h1 h2) (hn _ _ _)
      | some h' =>
        by_cases he : h = h'
        · subst he; exact absurd (Unified.both h h1 h2) (hn _ _ _)
        · simp [he]

theorem unified_unique (a b : NType) (h0 h0' : Option Key) (x x' y y' : Key → Int) (h : Unified a b h0 x y) (h' : Unified a b h0' x' y') :
    h0 = h0' ∧ x = x' ∧ y = y' := by
  rcases h with ⟨h1, h2⟩ | ⟨h, h1, h2⟩ | ⟨h, h1, h2⟩ | ⟨h, h1, h2⟩ <;>
    rcases h' with ⟨g1, g2⟩ | ⟨g, g1, g2⟩ | ⟨g, g1, g2⟩ | ⟨g, g1, g2⟩ <;> simp_all

theorem unified_symm (a b : NType) (h0 : Option Key) (x y : Key → Int) (h : Unified a b h0 x y) : Unified b a h0 y x := by
  rcases h with ⟨h1, h2⟩ | ⟨h, h1, h2⟩ | ⟨h, h1, h2⟩ | ⟨h, h1, h2⟩
  · exact .neither h2 h1
  · exact .both h h2 h1
  · exact .right h h2 h1
  · exact .left h h2 h1

/-! ### Sums -/

/-- **C39** The result of adding types does not depend on the order in which the code runs
through the set of base types (which changes from run to run). -/
theorem add_order (o1 o2 : List Key) (h1 : o1.Perm base) (h2 : o2.Perm base) (a b : NType) : addTypes o1 a b = addTypes o2 a b := by
  have key : ∀ t1 t2, matchBase t1 t2 o1 = matchBase t1 t2 o2 := by
    intro t1 t2
    have nd : base.Nodup := by decide
    apply Option.ext
    intro r
    rw [matchBase_iff o1 t1 t2 (fun k hk => h1.mem_iff.1 hk) (h1.nodup_iff.2 nd),
      matchBase_iff o2 t1 t2 (fun k hk => h2.mem_iff.1 hk) (h2.nodup_iff.2 nd)]
    simp only [h1.mem_iff, h2.mem_iff]
  unfold addTypes
  simp only [key]

/-- **C39** Types are added just as specified.  Missing: two types that differ only in their
percentages, see `add_percent_violated`. -/
theorem add_partial (o : List Key) (ho : o.Perm base) (a b : NType) (ha : Clean a) (hb : Clean b)
    (hp : ∀ h0 x y, Unified a b h0 x y → (∀ k ∈ base, x k = y k) → x .percent = y .percent) (d : Key → Int) (h : Option Key) :
    (∃ t, addTypes o a b = some t ∧ dim t = d ∧ t.hint = h) ↔ SpecAdd a b d h := by
  by_cases hu : ∃ h0 x y, Unified a b h0 x y
  · obtain ⟨h0, x, y, hu⟩ := hu
    obtain ⟨a', b', hab, rfl, rfl, ha', hb', ca, cb⟩ := (unify_iff a b ha hb).1 h0 x y hu
    have hspec : SpecAdd a b d h ↔ ((dim a' = dim b' ∧ d = dim a' ∧ h = h0) ∨
        (dim a' ≠ dim b' ∧ ∃ k ∈ base, resolve k (dim a') = resolve k (dim b') ∧ d = resolve k (dim a') ∧ h = some k)) := by
      constructor
      · rintro ⟨g0, x, y, hg, hc⟩
        obtain ⟨rfl, rfl, rfl⟩ := unified_unique a b _ _ _ _ _ _ hg hu
        exact hc
      · intro hc; exact ⟨h0, _, _, hu, hc⟩
    rw [hspec]
    have he : dim a' .empty = dim b' .empty := by rw [dim_empty a' ca, dim_empty b' cb]
    unfold addTypes
    simp only [hab]
    by_cases hs : ∀ k ∈ base, dim a' k = dim b' k
    · have hpe := hp h0 _ _ hu hs
      have hall : dim a' = dim b' := by
        funext k
        rcases key_cases k with hk | rfl | rfl
        · exact hs k hk
        · exact hpe
        · exact he
      rw [if_pos ((sameBase_iff a' b').2 hs)]
      have hm : dim (merge a' b') = dim a' := by
        funext k
        have := congrFun hall k
        unfold dim NType.get merge at *
        simp only
        cases hk : a'.pow k with
        | none => rw [hk] at this; exact this.symm
        | some p => rfl
      have hh : (merge a' b').hint = h0 := by
        unfold merge
        simp only [ha', hb']
        cases h0 <;> rfl
      constructor
      · rintro ⟨t, ht, rfl, rfl⟩
        cases ht
        exact .inl ⟨hall, hm, hh⟩
      · rintro (⟨-, rfl, rfl⟩ | ⟨hne, -⟩)
        · exact ⟨_, rfl, hm, hh⟩
        · exact absurd hall hne
    · rw [if_neg (fun hc => hs ((sameBase_iff a' b').1 hc))]
      have hne : dim a' ≠ dim b' := fun e => hs (fun k _ => congrFun e k)
      have nd : base.Nodup := by decide
      have hmb := fun r => matchBase_iff o a' b' (fun k hk => ho.mem_iff.1 hk) (ho.nodup_iff.2 nd) r
      have hres : ∀ k ∈ base, (resolve k (dim a') = resolve k (dim b') ↔
          (∀ k' ∈ base, k' ≠ k → dim a' k' = dim b' k') ∧ dim a' k + dim a' .percent = dim b' k + dim b' .percent) := by
        intro k hk
        constructor
        · intro e
          refine ⟨fun k' hk' hne' => ?_, ?_⟩
          · have := congrFun e k'
            have n2 : k' ≠ .percent := fun e => percent_base (e ▸ hk')
            simpa [resolve, hne', n2] using this
          · have := congrFun e k
            simpa [resolve] using this
        · rintro ⟨e1, e2⟩
          funext k'
          by_cases h1 : k' = k
          · subst h1; simpa [resolve] using e2
          · by_cases h2 : k' = .percent
            · simp only [resolve, if_neg h1, if_pos h2]
            · simp only [resolve, if_neg h1, if_neg h2]
              rcases key_cases k' with hk' | rfl | rfl
              · exact e1 k' hk' h1
              · exact absurd rfl h2
              · exact he
      have hfin : ∀ k ∈ base, resolve k (dim a') = resolve k (dim b') →
          dim (mergeBase (applyHint a' k) (applyHint b' k)) = resolve k (dim a') ∧ (mergeBase (applyHint a' k) (applyHint b' k)).hint = some k := by
        intro k hk e
        refine ⟨?_, rfl⟩
        rw [← dim_applyHint a' k hk] at e ⊢
        rw [← dim_applyHint b' k hk] at e
        funext k'
        have := congrFun e k'
        unfold dim NType.get mergeBase at *
        simp only
        cases hk' : (applyHint a' k).pow k' with
        | some p => rfl
        | none =>
          rw [hk'] at this
          simp only
          split
          · exact this.symm
          · rfl
      constructor
      · rintro ⟨t, ht, rfl, rfl⟩
        split at ht
        · split at ht
          · cases ht
          · rename_i t1 t2 hm
            cases ht
            rcases (hmb (t1, t2)).1 hm with ⟨h1, -⟩ | ⟨k, hk, h1, h2, h3, h4⟩
            · exact absurd (fun k hk => h1 k (ho.mem_iff.2 hk)) hs
            · cases h4
              have hk' := ho.mem_iff.1 hk
              have hr := (hres k hk').2 ⟨fun k' hk'' => h2 k' (ho.mem_iff.2 hk''), h3⟩
              obtain ⟨f1, f2⟩ := hfin k hk' hr
              exact .inr ⟨hne, k, hk', hr, f1, f2⟩
        · cases ht
      · rintro (⟨e, -⟩ | ⟨-, k, hk, hr, rfl, rfl⟩)
        · exact absurd e hne
        · obtain ⟨r1, r2⟩ := (hres k hk).1 hr
          have hd : dim a' k ≠ dim b' k := by
            intro e
            apply hs
            intro k' hk'
            by_cases hkk : k' = k
            · subst hkk; exact e
            · exact r1 k' hk' hkk
          have hpc : a'.get .percent ≠ 0 ∨ b'.get .percent ≠ 0 := by
            by_contra hc
            push Not at hc
            have h1 : dim a' .percent = 0 := hc.1
            have h2 : dim b' .percent = 0 := hc.2
            rw [h1, h2] at r2
            exact hd (by simpa using r2)
          have hot : hasOther a' = true ∨ hasOther b' = true := by
            have : dim a' k ≠ 0 ∨ dim b' k ≠ 0 := by
              by_contra hc; push Not at hc; exact hd (hc.1.trans hc.2.symm)
            rcases this with h | h
            · left
              unfold hasOther
              rw [Bool.or_eq_true]
              left
              rw [List.any_eq_true]
              exact ⟨k, by simp [hk], by simpa [dim] using h⟩
            · right
              unfold hasOther
              rw [Bool.or_eq_true]
              left
              rw [List.any_eq_true]
              exact ⟨k, by simp [hk], by simpa [dim] using h⟩
          rw [if_pos ⟨hpc, hot⟩]
          have hm := (hmb (applyHint a' k, applyHint b' k)).2
            (.inr ⟨k, ho.mem_iff.2 hk, hd, fun k' hk' => r1 k' (ho.mem_iff.1 hk'), r2, rfl⟩)
          obtain ⟨f1, f2⟩ := hfin k hk hr
          exact ⟨_, by rw [hm], f1, f2⟩
  · have hn : ∀ h0 x y, ¬ Unified a b h0 x y := fun h0 x y h => hu ⟨h0, x, y, h⟩
    have := (unify_iff a b ha hb).2 hn
    unfold addTypes
    rw [this]
    constructor
    · rintro ⟨t, ht, -⟩; cases ht
    · rintro ⟨h0, x, y, h, -⟩; exact absurd h (hn _ _ _)

theorem specAdd_comm (a b : NType) (d : Key → Int) (h : Option Key) (hs : SpecAdd a b d h) : SpecAdd b a d h := by
  obtain ⟨h0, x, y, hu, hc⟩ := hs
  refine ⟨h0, y, x, unified_symm a b _ _ _ hu, ?_⟩
  rcases hc with ⟨rfl, rfl, rfl⟩ | ⟨hne, k, hk, h1, rfl, rfl⟩
  · exact .inl ⟨rfl, rfl, rfl⟩
  · exact .inr ⟨Ne.symm hne, k, hk, h1.symm, h1, rfl⟩

/-- **C39** Adding types is symmetric.  Missing: as in `add_partial`. -/
theorem add_comm_partial (o : List Key) (ho : o.Perm base) (a b : NType) (ha : Clean a) (hb : Clean b)
    (hp : ∀ h0 x y, Unified a b h0 x y → (∀ k ∈ base, x k = y k) → x .percent = y .percent) (d : Key → Int) (h : Option Key) :
    (∃ t, addTypes o a b = some t ∧ dim t = d ∧ t.hint = h) ↔ (∃ t, addTypes o b a = some t ∧ dim t = d ∧ t.hint = h) := by
  rw [add_partial o ho a b ha hb hp, add_partial o ho b a hb ha
    (fun h0 x y hu hc => (hp h0 y x (unified_symm b a _ _ _ hu) (fun k hk => (hc k hk).symm)).symm)]
  exact ⟨specAdd_comm a b d h, specAdd_comm b a d h⟩

/-- What a unit measures. -/
inductive Cat
  | number | percent | base (k : Key)
  deriving DecidableEq

def cat : U → Cat
  | .number => .number
  | .percent => .percent
  | .deg | .grad | .rad | .turn => .base .angle
  | .s | .ms => .base .time
  | .hz | .khz => .base .frequency
  | .dpi | .dpcm | .dppx => .base .resolution
  | .fr => .base .flex
  | _ => .base .length

def ofCat : Cat → NType
  | .number => .zero
  | .percent => NType.zero.set .percent 1
  | .base k => NType.zero.set k 1

theorem createType_cat (u : U) : createType u = ofCat (cat u) := by cases u <;> rfl

theorem cat_base (u : U) (k : Key) (h : cat u = .base k) : k ∈ base := by cases u <;> simp [cat] at h <;> subst h <;> decide

/-- **C39** For values with units: they can be added if they measure the same, or if one is a
percentage and the other is neither a percentage nor a number.  Missing: a number and a
percentage. -/
theorem add_units_partial (u w : U) (hn : ¬ (cat u = .number ∧ cat w = .percent) ∧ ¬ (cat u = .percent ∧ cat w = .number)) :
    (addTypes base (createType u) (createType w)).isSome = true ↔
      cat u = cat w ∨ (cat u = .percent ∧ ∃ k, cat w = .base k) ∨ (cat w = .percent ∧ ∃ k, cat u = .base k) := by
  rw [createType_cat, createType_cat]
  have h1 := cat_base u
  have h2 := cat_base w
  generalize cat u = c at *
  generalize cat w = c' at *
  cases c with
  | number =>
    cases c' with
    | number => simp; decide
    | percent => simp at hn
    | base k' => have := h2 k' rfl; cases k' <;> simp [base] at this <;> simp <;> decide
  | percent =>
    cases c' with
    | number => simp at hn
    | percent => simp; decide
    | base k' => have := h2 k' rfl; cases k' <;> simp [base] at this <;> simp <;> decide
  | base k =>
    have := h1 k rfl
    cases c' with
    | number => cases k <;> simp [base] at this <;> simp <;> decide
    | percent => cases k <;> simp [base] at this <;> simp <;> decide
    | base k' =>
      have := h2 k' rfl
      cases k <;> cases k' <;> simp [base] at * <;> decide

/-- **C39** is violated: a number and a percentage are added without a hint. -/
theorem add_percent_violated :
    ∃ t, addTypes base (createType .percent) (createType .number) = some t ∧ t.hint = none ∧ dim t .percent = 1 ∧
      dim (createType .number) .percent = 0 := ⟨_, rfl, rfl, rfl, rfl⟩

/-- **C39** is violated: adding is not symmetric, for percentages of different powers. -/
theorem add_comm_violated :
    let a := NType.zero.set .percent 1
    let b := NType.zero.set .percent 2
    ∃ t s, addTypes base a b = some t ∧ addTypes base b a = some s ∧ dim t .percent = 1 ∧ dim s .percent = 2 := ⟨_, _, rfl, rfl, rfl, rfl⟩

/-! ### Products -/

/-- **C39** The dimensions of a product are the sums of those of the operands.  Missing: a second
operand with percentages, see `mul_percent_violated`. -/
theorem mul_partial (a b : NType) (ha : Clean a) (hb : Clean b) (hp : ∀ h0 x y, Unified a b h0 x y → y .percent = 0)
    (d : Key → Int) (h : Option Key) :
    (∃ t, mulTypes a b = some t ∧ dim t = d ∧ t.hint = h) ↔ SpecMul a b d h := by
  by_cases hu : ∃ h0 x y, Unified a b h0 x y
  · obtain ⟨h0, x, y, hu⟩ := hu
    have hpy := hp h0 x y hu
    obtain ⟨a', b', hab, rfl, rfl, ha', hb', ca, cb⟩ := (unify_iff a b ha hb).1 h0 x y hu
    have hspec : SpecMul a b d h ↔ d = (fun k => dim a' k + dim b' k) ∧ h = h0 := by
      constructor
      · rintro ⟨g0, x, y, hg, hc⟩
        obtain ⟨rfl, rfl, rfl⟩ := unified_unique a b _ _ _ _ _ _ hg hu
        exact hc
      · intro hc; exact ⟨h0, _, _, hu, hc⟩
    rw [hspec]
    unfold mulTypes
    simp only [hab]
    generalize hg : (⟨fun k => if k ∈ base then
        (match a'.pow k, b'.pow k with
        | some p, some q => some (p + q)
        | none, some q => some q
        | p, none => p)
      else a'.pow k, a'.hint⟩ : NType) = g
    have hd : dim g = fun k => dim a' k + dim b' k := by
      subst hg
      funext k
      by_cases hk : k ∈ base
      · unfold dim NType.get
        simp only [hk, if_true]
        cases a'.pow k <;> cases b'.pow k <;> simp
      · have hb0 : dim b' k = 0 := by
          rcases key_cases k with h | rfl | rfl
          · exact absurd h hk
          · exact hpy
          · exact dim_empty b' cb
        rw [hb0]
        unfold dim NType.get
        simp [hk]
    have hh : g.hint = h0 := by subst hg; exact ha'
    constructor
    · rintro ⟨t, ht, rfl, rfl⟩
      cases ht
      exact ⟨hd, hh⟩
    · rintro ⟨rfl, rfl⟩
      exact ⟨g, rfl, hd, hh⟩
  · have hn : ∀ h0 x y, ¬ Unified a b h0 x y := fun h0 x y h => hu ⟨h0, x, y, h⟩
    have := (unify_iff a b ha hb).2 hn
    unfold mulTypes
    rw [this]
    constructor
    · rintro ⟨t, ht, -⟩; cases ht
    · rintro ⟨h0, x, y, h, -⟩; exact absurd h (hn _ _ _)

/-- **C39** The order of the operands does not matter.  Missing: operands with percentages. -/
theorem mul_comm_partial (a b : NType) (ha : Clean a) (hb : Clean b)
    (hp : ∀ h0 x y, Unified a b h0 x y → x .percent = 0 ∧ y .percent = 0) (d : Key → Int) (h : Option Key) :
    (∃ t, mulTypes a b = some t ∧ dim t = d ∧ t.hint = h) ↔ (∃ t, mulTypes b a = some t ∧ dim t = d ∧ t.hint = h) := by
  rw [mul_partial a b ha hb (fun h0 x y hu => (hp h0 x y hu).2),
    mul_partial b a hb ha (fun h0 x y hu => (hp h0 y x (unified_symm b a _ _ _ hu)).1)]
  have : ∀ a b, SpecMul a b d h → SpecMul b a d h := by
    rintro a b ⟨h0, x, y, hu, rfl, rfl⟩
    exact ⟨_, y, x, unified_symm a b _ _ _ hu, by funext k; omega, rfl⟩
  exact ⟨this a b, this b a⟩

/-- **C39** is violated: percentages of the second operand are dropped, so that the order
matters. -/
theorem mul_percent_violated :
    ∃ t s, mulTypes (createType .px) (createType .percent) = some t ∧ mulTypes (createType .percent) (createType .px) = some s ∧
      dim t .percent = 0 ∧ dim s .percent = 1 ∧ dim t .length = 1 ∧ dim s .length = 1 := ⟨_, _, rfl, rfl, rfl, rfl, rfl, rfl⟩

theorem clean_createType (u : U) : Clean (createType u) := by
  refine ⟨?_, ?_⟩
  · cases u <;> simp [createType, NType.set, NType.zero]
  · cases u <;> rfl

/-- Non-trivial instances of the hypotheses: a length and a percentage, and a length squared with
a hint. -/
example : ∃ t, addTypes base (createType .px) (createType .percent) = some t ∧ t.hint = some .length ∧ Clean t ∧
    (∀ h0 x y, Unified (createType .px) (createType .percent) h0 x y → (∀ k ∈ base, x k = y k) → x .percent = y .percent) ∧
    (∀ h0 x y, Unified t (createType .em) h0 x y → x .percent = 0 ∧ y .percent = 0) := by
  refine ⟨_, rfl, rfl, ⟨fun h e => by cases e; decide, rfl⟩, ?_, ?_⟩
  · rintro h0 x y h hc
    rcases h with ⟨h1, h2⟩ | ⟨h, h1, h2⟩ | ⟨h, h1, h2⟩ | ⟨h, h1, h2⟩
    · have := hc .length (by decide)
      exact absurd this (by decide)
    · cases h1
    · cases h1
    · cases h2
  · rintro h0 x y h
    rcases h with ⟨h1, h2⟩ | ⟨h, h1, h2⟩ | ⟨h, h1, h2⟩ | ⟨h, h1, h2⟩
    · cases h1
    · cases h2
    · cases h1; exact ⟨rfl, rfl⟩
    · cases h1

/-! ### Constructions -/

/-- All values and type objects that are used exist. -/
structure Valid (h : Heap) : Prop where
  type : ∀ v < h.nvals, (h.val v).type < h.ntypes

/-- The values that exist are the same in both heaps, with the same types. -/
def Kept (h h' : Heap) : Prop := h.nvals ≤ h'.nvals ∧ ∀ v < h.nvals, h'.val v = h.val v ∧ h'.typeOf v = h.typeOf v

theorem typeLoop_keeps (f : NType → NType → Option NType) (l : List Nat) (h : Heap) (ref : Nat) (hr : ref < h.ntypes) :
    (typeLoop f h ref l).1.nvals = h.nvals ∧ (typeLoop f h ref l).1.val = h.val ∧ h.ntypes ≤ (typeLoop f h ref l).1.ntypes ∧
      (∀ x < h.ntypes, (typeLoop f h ref l).1.type x = h.type x) ∧
      ∀ r, (typeLoop f h ref l).2 = some r → r < (typeLoop f h ref l).1.ntypes := by
  induction l generalizing h ref with
  | nil => exact ⟨rfl, rfl, Nat.le_refl _, fun _ _ => rfl, fun r e => by cases e; exact hr⟩
  | cons v l ih =>
    rw [typeLoop]
    split
    · exact ⟨rfl, rfl, Nat.le_refl _, fun _ _ => rfl, fun r e => by cases e⟩
    · rename_i t _
      obtain ⟨h1, h2, h3, h4, h5⟩ := ih (h.newType t) h.ntypes (Nat.lt_succ_self _)
      refine ⟨h1, h2, Nat.le_trans (Nat.le_succ _) h3, fun x hx => ?_, h5⟩
      rw [h4 x (Nat.lt_succ_of_lt hx)]
      have : x ≠ h.ntypes := Nat.ne_of_lt hx
      simp [Heap.newType, this]

theorem newVal_kept (h : Heap) (v : Val) : Kept h (h.newVal v) := by
  refine ⟨Nat.le_succ _, fun w hw => ?_⟩
  have : w ≠ h.nvals := Nat.ne_of_lt hw
  simp [Heap.newVal, Heap.typeOf, this]

theorem construct_kept (h : Heap) (hv : Valid h) (op : Op) (f : NType → NType → Option NType) (args : List Nat)
    (ha : ∀ a ∈ args, a < h.nvals) : Kept h (construct h op f args).1 ∧ Valid (construct h op f args).1 := by
  cases args with
  | nil => exact ⟨⟨Nat.le_refl _, fun _ _ => ⟨rfl, rfl⟩⟩, hv⟩
  | cons a l =>
    obtain ⟨h1, h2, h3, h4, h5⟩ := typeLoop_keeps f l h (h.val a).type (hv.type a (ha a (by simp)))
    rw [construct]
    split
    · rename_i h' heq
      rw [heq] at h1 h2 h3 h4 h5
      simp only at h1 h2 h3 h4 h5 ⊢
      refine ⟨⟨by omega, fun v hv' => ⟨by rw [h2], ?_⟩⟩, ⟨fun v hv' => ?_⟩⟩
      · unfold Heap.typeOf; rw [h2, h4 _ (hv.type v hv')]
      · rw [h2]; exact Nat.lt_of_lt_of_le (hv.type v (by omega)) h3
    · rename_i h' ref heq
      rw [heq] at h1 h2 h3 h4 h5
      simp only at h1 h2 h3 h4 h5 ⊢
      refine ⟨⟨by simp [Heap.newVal]; omega, fun v hv' => ?_⟩, ⟨fun v hv' => ?_⟩⟩
      · have hne : v ≠ h'.nvals := by omega
        refine ⟨by simp [Heap.newVal, hne, h2], ?_⟩
        unfold Heap.typeOf Heap.newVal
        simp only [hne, if_false]
        rw [h2, h4 _ (hv.type v hv')]
      · unfold Heap.newVal at hv' ⊢
        simp only at hv' ⊢
        by_cases hne : v = h'.nvals
        · simp only [hne, if_true]
          exact h5 ref rfl
        · simp only [hne, if_false]
          rw [h2]
          exact Nat.lt_of_lt_of_le (hv.type v (by omega)) h3

/-- The operands of a command. -/
def Cmd.args : Cmd → List Nat
  | .unit _ => []
  | .add _ l => l
  | .product l => l
  | .negate v => [v]
  | .invert v => [v]

theorem exec_valid (o : List Key) (h : Heap) (hv : Valid h) (c : Cmd) (ha : ∀ a ∈ c.args, a < h.nvals) : Valid (exec o h c) := by
  cases c with
  | unit u =>
    refine ⟨fun v hv' => ?_⟩
    simp only [exec, Heap.newVal, Heap.newType] at hv' ⊢
    by_cases hne : v = h.nvals
    · simp [hne]
    · simp only [hne, if_false]
      exact Nat.lt_succ_of_lt (hv.type v (by omega))
  | add op l => exact (construct_kept h hv op _ l ha).2
  | product l => exact (construct_kept h hv .product _ l ha).2
  | negate a =>
    refine ⟨fun v hv' => ?_⟩
    simp only [exec, Heap.newVal] at hv' ⊢
    by_cases hne : v = h.nvals
    · simp only [hne, if_true]; exact hv.type a (ha a (by simp [Cmd.args]))
    · simp only [hne, if_false]; exact hv.type v (by omega)
  | invert a =>
    refine ⟨fun v hv' => ?_⟩
    simp only [exec, Heap.newVal] at hv' ⊢
    by_cases hne : v = h.nvals
    · simp only [hne, if_true]; exact hv.type a (ha a (by simp [Cmd.args]))
    · simp only [hne, if_false]; exact hv.type v (by omega)

/-- **C40** Constructing unit values, sums, products, negations, minima, maxima and clamps leaves
all values that exist as they were, with their types, whether or not the construction succeeds.
Missing: inversions, see `invert_violated`. -/
theorem construct_partial (o : List Key) (h : Heap) (hv : Valid h) (c : Cmd) (ha : ∀ a ∈ c.args, a < h.nvals)
    (hc : ∀ v, c ≠ .invert v) : Kept h (exec o h c) := by
  cases c with
  | unit u =>
    refine ⟨Nat.le_succ _, fun w hw => ?_⟩
    have h1 : w ≠ h.nvals := Nat.ne_of_lt hw
    have h2 : (h.val w).type ≠ h.ntypes := Nat.ne_of_lt (hv.type w hw)
    simp [exec, Heap.newVal, Heap.newType, Heap.typeOf, h1, h2]
  | add op l => exact (construct_kept h hv op _ l ha).1
  | product l => exact (construct_kept h hv .product _ l ha).1
  | negate a => exact newVal_kept _ _
  | invert v => exact absurd rfl (hc v)

/-- **C40** What an inversion does: the values stay, but every value that shares the type object
of the operand has its type inverted; all others keep theirs. -/
theorem invert_effect (o : List Key) (h : Heap) (a : Nat) (v : Nat) (hv : v < h.nvals) :
    (exec o h (.invert a)).val v = h.val v ∧
    (exec o h (.invert a)).typeOf v = if (h.val v).type = (h.val a).type then negateAll (h.typeOf v) else h.typeOf v := by
  have h1 : v ≠ h.nvals := Nat.ne_of_lt hv
  refine ⟨by simp [exec, Heap.newVal, h1], ?_⟩
  simp only [exec, Heap.newVal, Heap.typeOf, h1, if_false]
  by_cases h2 : (h.val v).type = (h.val a).type <;> simp [h2]

/-- **C40** The types of the new values, for negations and inversions. -/
theorem negate_type (o : List Key) (h : Heap) (a : Nat) :
    (exec o h (.negate a)).typeOf h.nvals = h.typeOf a ∧
    (exec o h (.invert a)).typeOf h.nvals = negateAll (h.typeOf a) ∧ ∀ k, dim (negateAll (h.typeOf a)) k = - dim (h.typeOf a) k := by
  refine ⟨by simp [exec, Heap.newVal, Heap.typeOf], by simp [exec, Heap.newVal, Heap.typeOf], fun k => ?_⟩
  simp only [dim, NType.get, negateAll]
  cases (h.typeOf a).pow k <;> simp

/-- The empty heap. -/
def Heap.init : Heap := ⟨0, fun _ => ⟨.unit, [], 0⟩, 0, fun _ => .zero⟩

/-- A non-trivial instance of the hypotheses: 1px and 1em, and their sum. -/
example : Valid (exec base (exec base .init (.unit .px)) (.unit .em)) ∧
    (∀ a ∈ (Cmd.add .sum [0, 1]).args, a < (exec base (exec base .init (.unit .px)) (.unit .em)).nvals) := by
  refine ⟨?_, by decide⟩
  have h0 : Valid Heap.init := ⟨fun v hv => by simp [Heap.init] at hv⟩
  exact exec_valid _ _ (exec_valid _ _ h0 _ (by simp [Cmd.args])) _ (by simp [Cmd.args])

/-- **C40** is violated: inverting 2px makes 2px itself an inverse length, so that 2px + 3px is
refused afterwards. -/
theorem invert_violated :
    let h := exec base (exec base .init (.unit .px)) (.unit .px)
    let h' := exec base h (.invert 0)
    dim (h.typeOf 0) .length = 1 ∧ dim (h'.typeOf 0) .length = -1 ∧
      (∃ v, (construct h .sum (addTypes base) [0, 1]).2 = .ok v) ∧ (construct h' .sum (addTypes base) [0, 1]).2 = .error .valueError :=
  ⟨rfl, rfl, ⟨_, rfl⟩, rfl⟩

end SvgPy.NumType
