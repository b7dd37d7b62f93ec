import Verif.Model.FontMatch
import Verif.Lemmas.PyStr
import Mathlib.Tactic.Linarith
import Mathlib.Tactic.Tauto

/-!
C103: the face that is chosen for a text.
-/

set_option linter.unusedSimpArgs false
set_option linter.unusedVariables false

namespace SvgPy.FontMatch
open Classical

/-! ### Specification -/

namespace Spec

/-- The value `a` is closer to the wanted value `v` than `b` is; of two values that are equally far
the smaller one counts as closer if `small`, otherwise the larger one. -/
def Closer (small : Bool) (v a b : ℚ) : Prop :=
  |a - v| < |b - v| ∨ (|a - v| = |b - v| ∧ (if small = true then a < b else b < a))

/-- The keywords of `font-stretch`: the width, and whether the narrower one of two widths is the
one to prefer. -/
def stretches : List (Str × ℚ × Bool) :=
  [("normal".toList, 100, true),
   ("semi-condensed".toList, 87, true), ("condensed".toList, 75, true),
   ("extra-condensed".toList, 63, true), ("ultra-condensed".toList, 50, true),
   ("semi-expanded".toList, 113, false), ("expanded".toList, 125, false),
   ("extra-expanded".toList, 150, false), ("ultra-expanded".toList, 200, false)]

/-- Upright, italic and oblique faces, as fontconfig numbers them, in the order in which they
serve for the style. -/
def slants (style : Str) : ℚ × ℚ × ℚ :=
  if style = "italic".toList then (100, 110, 0)
  else if style = "oblique".toList then (110, 100, 0)
  else (0, 110, 100)

/-- The place of a slant in that order. -/
def rank (style : Str) (s : ℚ) : Nat :=
  if s = (slants style).1 then 0
  else if s = (slants style).2.1 then 1
  else if s = (slants style).2.2 then 2
  else 3

/-- The face `f` serves better than `g`: first the width counts, then the slant, then the weight,
then the size. -/
def Better (w : Wanted) (v : ℚ) (small : Bool) (f g : Face) : Prop :=
  Closer small v f.width g.width ∨ (f.width = g.width ∧
    (rank w.style f.slant < rank w.style g.slant ∨ (rank w.style f.slant = rank w.style g.slant ∧
      (Closer (decide (400 ≤ w.weight)) w.weight f.weight g.weight ∨ (f.weight = g.weight ∧
        Closer true w.size f.size g.size)))))

/-- No face of the family serves better. -/
def Best (w : Wanted) (fam : List Face) (f : Face) : Prop :=
  f ∈ fam ∧ ∃ v small, (w.stretch, v, small) ∈ stretches ∧ ∀ g ∈ fam, ¬ Better w v small g f

/-- The face has every character of the text other than tabs, line ends and spaces. -/
def Shows (lib : Library) (text : Option Str) (f : Face) : Prop :=
  ∀ t, text = some t → ∀ c ∈ t, c ∉ ['\t', '\r', '\n', ' '] → lib.has f c = true

/-- CSS Fonts: the value `x` is the one to take among `xs` if the groups of values are tried in
order, and within a group the closest to `v` wins. -/
def FirstOf (v : ℚ) (xs : List ℚ) (x : ℚ) : List (ℚ → Prop) → Prop
  | [] => False
  | p :: ps => (p x ∧ x ∈ xs ∧ ∀ y ∈ xs, p y → |x - v| ≤ |y - v|) ∨
      ((∀ y ∈ xs, ¬ p y) ∧ FirstOf v xs x ps)

/-- CSS Fonts, section 5.2, step 4.1: for `normal` and the condensed widths narrower faces first,
then wider ones; for the expanded widths the other way around. -/
def widthGroups (v : ℚ) (small : Bool) : List (ℚ → Prop) :=
  if small = true then [(· = v), (· < v), (v < ·)] else [(· = v), (v < ·), (· < v)]

/-- CSS Fonts, section 5.2, step 4.3. -/
def weightGroups (v : ℚ) : List (ℚ → Prop) :=
  if v < 400 then [(· = v), (· < v), (v < ·)]
  else if v ≤ 500 then [(· = v), (fun x => v < x ∧ x ≤ 500), (· < v), (500 < ·)]
  else [(· = v), (v < ·), (· < v)]

/-- The face that CSS Fonts asks for within a family. -/
def CssFace (w : Wanted) (fam : List Face) (f : Face) : Prop :=
  f ∈ fam ∧ ∃ v small, (w.stretch, v, small) ∈ stretches ∧
    FirstOf v (fam.map Face.width) f.width (widthGroups v small) ∧
    (∀ g ∈ fam, g.width = f.width → rank w.style f.slant ≤ rank w.style g.slant) ∧
    FirstOf w.weight ((fam.filter (fun g => g.width = f.width ∧
      rank w.style g.slant = rank w.style f.slant)).map Face.weight) f.weight (weightGroups w.weight)

/-- The wanted value is there, or all values lie on one side of it. -/
def OneSided (v : ℚ) (xs : List ℚ) : Prop :=
  v ∈ xs ∨ (∀ x ∈ xs, x < v) ∨ (∀ x ∈ xs, v < x)

end Spec
open Spec

/-! ### The nearest value -/

theorem mem_insertNum (le : ℚ → ℚ → Bool) (x a : ℚ) (l : List ℚ) :
    a ∈ insertNum le x l ↔ a = x ∨ a ∈ l := by
  induction l with
  | nil => simp [insertNum]
  | cons y ys ih =>
    simp only [insertNum]
    split
    · rename_i h; subst h; simp
    · split
      · simp
      · simp [ih]; tauto

theorem mem_table (le : ℚ → ℚ → Bool) (a : ℚ) (l : List ℚ) : a ∈ table le l ↔ a ∈ l := by
  induction l with
  | nil => simp [table]
  | cons y ys ih => simp [table, mem_insertNum, ih]

/-- The strict order that belongs to `small`. -/
def Lt (small : Bool) (a b : ℚ) : Prop := if small = true then a < b else b < a

/-- The order of the table that belongs to `small`. -/
def leOf (small : Bool) : ℚ → ℚ → Bool := if small = true then up else down

theorem leOf_true (small : Bool) (a b : ℚ) : leOf small a b = true ↔ a = b ∨ Lt small a b := by
  cases small <;> simp [leOf, up, down, Lt, le_iff_lt_or_eq] <;> tauto

theorem leOf_false (small : Bool) (a b : ℚ) (h : a ≠ b) : leOf small a b = false ↔ Lt small b a := by
  cases small
  · simp [leOf, down, Lt]
  · simp [leOf, up, Lt]

theorem Lt_trans (small : Bool) (a b c : ℚ) (h1 : Lt small a b) (h2 : Lt small b c) :
    Lt small a c := by
  cases small <;> simp [Lt] at * <;> linarith

theorem insertNum_pairwise (small : Bool) (x : ℚ) (l : List ℚ) (h : l.Pairwise (Lt small)) :
    (insertNum (leOf small) x l).Pairwise (Lt small) := by
  induction l with
  | nil => simp [insertNum]
  | cons y ys ih =>
    have h' := h
    rw [List.pairwise_cons] at h'
    simp only [insertNum]
    split
    · exact h
    · rename_i hne
      split
      · rename_i hle
        rw [leOf_true] at hle
        have hlt : Lt small x y := by tauto
        rw [List.pairwise_cons]
        refine ⟨?_, h⟩
        intro a ha
        rcases List.mem_cons.mp ha with rfl | ha
        · exact hlt
        · exact Lt_trans _ _ _ _ hlt (h'.1 a ha)
      · rename_i hle
        have hlt : Lt small y x := (leOf_false small x y hne).mp (by simpa using hle)
        rw [List.pairwise_cons]
        refine ⟨?_, ih h'.2⟩
        intro a ha
        rcases (mem_insertNum _ _ _ _).mp ha with rfl | ha
        · exact hlt
        · exact h'.1 a ha

theorem table_pairwise (small : Bool) (l : List ℚ) :
    (table (leOf small) l).Pairwise (Lt small) := by
  induction l with
  | nil => simp [table]
  | cons y ys ih => exact insertNum_pairwise _ _ _ ih

theorem nearest_none (v : ℚ) (l : List ℚ) (h : nearest v l = none) : l = [] := by
  cases l with
  | nil => rfl
  | cons x xs =>
    simp only [nearest] at h
    split at h
    · simp at h
    · split at h <;> simp at h

theorem nearest_spec (small : Bool) (v y : ℚ) (l : List ℚ) (hp : l.Pairwise (Lt small))
    (h : nearest v l = some y) : y ∈ l ∧ ∀ x ∈ l, ¬ Closer small v x y := by
  induction l generalizing y with
  | nil => simp [nearest] at h
  | cons x xs ih =>
    rw [List.pairwise_cons] at hp
    simp only [nearest] at h
    split at h
    · rename_i hn
      have := nearest_none _ _ hn
      subst this
      simp at h
      subst h
      refine ⟨by simp, ?_⟩
      intro a ha
      simp at ha
      subst ha
      cases small <;> simp [Closer]
    · rename_i z hz
      have hi := ih z hp.2 hz
      split at h
      · rename_i hlt
        simp at h
        subst h
        refine ⟨by simp [hi.1], ?_⟩
        intro a ha
        rcases List.mem_cons.mp ha with rfl | ha
        · rintro (h1 | ⟨h1, _⟩) <;> linarith
        · exact hi.2 a ha
      · rename_i hlt
        simp at h
        subst h
        refine ⟨by simp, ?_⟩
        push Not at hlt
        intro a ha
        rcases List.mem_cons.mp ha with rfl | ha
        · cases small <;> simp [Closer]
        · intro hc
          have h3 := hi.2 a ha
          have h4 := hp.1 a ha
          rcases hc with h1 | ⟨h1, h2⟩
          · exact h3 (Or.inl (by linarith))
          · cases small <;> simp [Lt] at h2 h4 <;> linarith

theorem closer_irrefl (small : Bool) (v a : ℚ) : ¬ Closer small v a a := by
  cases small <;> simp [Closer]

theorem closer_tri (small : Bool) (v a b : ℚ) (h1 : ¬ Closer small v a b) (h2 : ¬ Closer small v b a) :
    a = b := by
  unfold Closer at h1 h2
  push Not at h1 h2
  have he : |a - v| = |b - v| := le_antisymm h2.1 h1.1
  have h3 := h1.2 he
  have h4 := h2.2 he.symm
  cases small <;> simp at h3 h4 <;> exact le_antisymm (by assumption) (by assumption)

/-- Faces of a list that no other face beats. -/
noncomputable def minOf (B : Face → Face → Prop) (m : List Face) : List Face :=
  m.filter (fun f => decide (∀ g ∈ m, ¬ B g f))

theorem narrow_eq (get : Face → ℚ) (small : Bool) (v : ℚ) (m : List Face) :
    narrow get (leOf small) v m = minOf (fun g f => Closer small v (get g) (get f)) m := by
  unfold narrow minOf
  simp only []
  split
  · rename_i he
    cases hn : nearest v (table (leOf small) (m.map get)) with
    | none =>
      have hnil := nearest_none _ _ hn
      have : m = [] := by
        cases m with
        | nil => rfl
        | cons f fs =>
          have : get f ∈ table (leOf small) ((f :: fs).map get) := by simp [mem_table]
          rw [hnil] at this
          simp at this
      subst this
      rfl
    | some w =>
      have hs := nearest_spec small v w _ (table_pairwise small _) hn
      have hw : w ∈ m.map get := (mem_table _ _ _).mp hs.1
      simp only []
      apply List.filter_congr
      intro f hf
      rw [decide_eq_decide]
      constructor
      · rintro rfl g hg
        exact hs.2 _ ((mem_table _ _ _).mpr (List.mem_map_of_mem hg))
      · intro h
        obtain ⟨g, hg, rfl⟩ := List.mem_map.mp hw
        exact closer_tri small v _ _ (h g hg)
          (hs.2 _ ((mem_table _ _ _).mpr (List.mem_map_of_mem hf)))
  · rename_i he
    have : ∃ f0 ∈ m, v = get f0 := by
      by_contra hc
      push Not at hc
      apply he
      rw [List.isEmpty_iff, List.filter_eq_nil_iff]
      intro a ha
      simpa using hc a ha
    obtain ⟨f0, hf0, hv⟩ := this
    apply List.filter_congr
    intro f hf
    rw [decide_eq_decide]
    constructor
    · rintro rfl g hg hc
      rcases hc with h1 | ⟨h1, h2⟩
      · simp at h1
        linarith [abs_nonneg (get g - get f)]
      · have : get g = get f := by
          have : |get g - get f| = 0 := by simpa using h1
          linarith [abs_eq_zero.mp this]
        rw [this] at h2
        simp at h2
    · intro h
      have := h f0 hf0
      by_contra hne
      apply this
      left
      rw [← hv]
      simp
      exact sub_ne_zero.mpr (fun h => hne h.symm)

theorem byStyleLoop_cons (m : List Face) (s : Str) (ss : List Str) :
    byStyleLoop m (s :: ss) =
      if (m.filter (fun x => decide (slantMap s = some x.slant))).isEmpty then byStyleLoop m ss
      else m.filter (fun x => decide (slantMap s = some x.slant)) := rfl

theorem slantMap_normal : slantMap "normal".toList = some 0 := by decide +kernel
theorem slantMap_italic : slantMap "italic".toList = some 100 := by decide +kernel
theorem slantMap_oblique : slantMap "oblique".toList = some 110 := by decide +kernel

/-- The place of a slant among three. -/
def rank3 (a b c s : ℚ) : Nat := if s = a then 0 else if s = b then 1 else if s = c then 2 else 3

theorem loop3 (m : List Face) (sa sb sc : Str) (a b c : ℚ) (ha : slantMap sa = some a)
    (hb : slantMap sb = some b) (hc : slantMap sc = some c) :
    byStyleLoop m [sa, sb, sc] = minOf (fun g f => rank3 a b c g.slant < rank3 a b c f.slant) m := by
  have key : ∀ (k : Nat) (P : Face → Prop) [DecidablePred P], (∀ f, P f ↔ rank3 a b c f.slant = k) →
      (∃ f ∈ m, P f) → (∀ f ∈ m, k ≤ rank3 a b c f.slant) →
      m.filter (fun x => decide (P x)) =
        minOf (fun g f => rank3 a b c g.slant < rank3 a b c f.slant) m := by
    intro k P _ hP hex hle
    apply List.filter_congr
    intro f hf
    rw [decide_eq_decide, hP f]
    constructor
    · intro h g hg
      have := hle g hg
      omega
    · intro h
      obtain ⟨f0, hf0, hP0⟩ := hex
      have h1 := h f0 hf0
      have h2 := hle f hf
      rw [hP f0] at hP0
      omega
  have conv : ∀ (t : Str) (q : ℚ), slantMap t = some q →
      m.filter (fun x => decide (slantMap t = some x.slant)) = m.filter (fun x => decide (x.slant = q)) := by
    intro t q ht
    apply List.filter_congr
    intro f hf
    rw [ht, decide_eq_decide]
    simp [eq_comm]
  have hexi : ∀ (P : Face → Prop) [DecidablePred P], ¬ (m.filter (fun x => decide (P x))).isEmpty = true ↔ ∃ f ∈ m, P f := by
    intro P _
    rw [List.isEmpty_iff]
    rw [List.filter_eq_nil_iff]
    push Not
    simp
  simp only [byStyleLoop_cons, conv sa a ha, conv sb b hb, conv sc c hc]
  by_cases h1 : ∃ f ∈ m, f.slant = a
  · rw [if_neg ((hexi _).mpr h1)]
    refine key 0 _ ?_ h1 (by simp)
    intro f
    unfold rank3
    split
    · simp_all
    · split
      · simp_all
      · split <;> simp_all
  · rw [if_pos (not_not.mp (fun h => h1 ((hexi _).mp h)))]
    push Not at h1
    by_cases h2 : ∃ f ∈ m, f.slant = b
    · rw [if_neg ((hexi _).mpr h2)]
      have hmem : ∀ f ∈ m, 1 ≤ rank3 a b c f.slant := by
        intro f hf
        simp [rank3, h1 f hf]
        split
        · omega
        · split <;> omega
      have : m.filter (fun x => decide (x.slant = b)) =
          m.filter (fun x => decide (rank3 a b c x.slant = 1)) := by
        apply List.filter_congr
        intro f hf
        rw [decide_eq_decide]
        simp [rank3, h1 f hf]
        split <;> simp_all
      rw [this]
      refine key 1 _ (fun _ => Iff.rfl) ?_ hmem
      obtain ⟨f, hf, he⟩ := h2
      exact ⟨f, hf, by simp [rank3, h1 f hf, he]; intro h; exact absurd (he.trans h) (h1 f hf)⟩
    · rw [if_pos (not_not.mp (fun h => h2 ((hexi _).mp h)))]
      push Not at h2
      by_cases h3 : ∃ f ∈ m, f.slant = c
      · rw [if_neg ((hexi _).mpr h3)]
        have hmem : ∀ f ∈ m, 2 ≤ rank3 a b c f.slant := by
          intro f hf
          simp [rank3, h1 f hf, h2 f hf]
          split <;> omega
        have : m.filter (fun x => decide (x.slant = c)) =
            m.filter (fun x => decide (rank3 a b c x.slant = 2)) := by
          apply List.filter_congr
          intro f hf
          rw [decide_eq_decide]
          simp [rank3, h1 f hf, h2 f hf]
        rw [this]
        refine key 2 _ (fun _ => Iff.rfl) ?_ hmem
        obtain ⟨f, hf, he⟩ := h3
        refine ⟨f, hf, ?_⟩
        have e1 := h1 f hf
        have e2 := h2 f hf
        simp only [rank3, if_neg e1, if_neg e2, if_pos he]
      · rw [if_pos (not_not.mp (fun h => h3 ((hexi _).mp h)))]
        push Not at h3
        have hall : ∀ f ∈ m, rank3 a b c f.slant = 3 := by
          intro f hf
          simp [rank3, h1 f hf, h2 f hf, h3 f hf]
        simp only [byStyleLoop, minOf]
        symm
        rw [List.filter_eq_self]
        intro f hf
        simp
        intro g hg
        rw [hall f hf, hall g hg]

theorem byStyle_eq (style : Str) (m : List Face) :
    byStyle style m = minOf (fun g f => rank style g.slant < rank style f.slant) m := by
  unfold byStyle styleOrder
  split
  · rename_i h
    rw [loop3 m _ _ _ 100 110 0 slantMap_italic slantMap_oblique slantMap_normal]
    simp only [rank, rank3, slants, if_pos h]
  · rename_i h
    split
    · rename_i h'
      rw [loop3 m _ _ _ 110 100 0 slantMap_oblique slantMap_italic slantMap_normal]
      simp only [rank, rank3, slants, if_neg h, if_pos h']
    · rename_i h'
      rw [loop3 m _ _ _ 0 110 100 slantMap_normal slantMap_oblique slantMap_italic]
      simp only [rank, rank3, slants, if_neg h, if_neg h']

theorem byWeight_eq (v : ℚ) (m : List Face) :
    byWeight v m = minOf (fun g f => Closer (decide (400 ≤ v)) v g.weight f.weight) m := by
  unfold byWeight
  split
  · rename_i h
    have hd : decide ((400 : ℚ) ≤ v) = false := by simpa using h
    rw [hd]
    exact narrow_eq Face.weight false v m
  · rename_i h
    have hd : decide ((400 : ℚ) ≤ v) = true := by simpa using h
    rw [hd]
    exact narrow_eq Face.weight true v m

theorem bySize_eq (v : ℚ) (m : List Face) :
    bySize v m = minOf (fun g f => Closer true v g.size f.size) m :=
  narrow_eq Face.size true v m

/-- Two narrowings, one after the other, are one narrowing by the lexicographic order. -/
theorem minOf_minOf {κ : Type} (R : κ → κ → Prop) (k : Face → κ) (B : Face → Face → Prop)
    (irr : ∀ a, ¬ R a a) (tri : ∀ a b, ¬ R a b → ¬ R b a → a = b) (m : List Face) :
    minOf B (minOf (fun g f => R (k g) (k f)) m) =
      minOf (fun g f => R (k g) (k f) ∨ (k g = k f ∧ B g f)) m := by
  unfold minOf
  rw [List.filter_filter]
  apply List.filter_congr
  intro f hf
  rw [← Bool.decide_and, decide_eq_decide]
  constructor
  · rintro ⟨h1, h2⟩ g hg (h | ⟨he, hb⟩)
    · exact h2 g hg h
    · refine h1 g ?_ hb
      rw [List.mem_filter]
      refine ⟨hg, ?_⟩
      rw [decide_eq_true_eq]
      intro x hx hr
      simp only [he] at hr
      exact h2 x hx hr
  · intro h
    refine ⟨?_, fun g hg hr => h g hg (Or.inl hr)⟩
    intro g hg hb
    rw [List.mem_filter, decide_eq_true_eq] at hg
    refine h g hg.1 (Or.inr ⟨tri _ _ ?_ ?_, hb⟩)
    · exact fun hr => h g hg.1 (Or.inl hr)
    · exact hg.2 f hf

theorem narrowed_eq (w : Wanted) (v : ℚ) (small : Bool) (fam : List Face) :
    bySize w.size (byWeight w.weight (byStyle w.style (narrow Face.width (leOf small) v fam))) =
      minOf (fun g f => Better w v small g f) fam := by
  rw [bySize_eq, byWeight_eq, byStyle_eq, narrow_eq]
  rw [minOf_minOf (Closer (decide (400 ≤ w.weight)) w.weight) Face.weight _
    (closer_irrefl _ _) (closer_tri _ _)]
  rw [minOf_minOf (· < ·) (fun f => rank w.style f.slant) _ (fun a => lt_irrefl a)
    (fun a b h1 h2 => by omega)]
  rw [minOf_minOf (Closer small v) Face.width _ (closer_irrefl _ _) (closer_tri _ _)]
  rfl

theorem stretches_cases (s : Str) (v : ℚ) (small : Bool) (h : (s, v, small) ∈ stretches) :
    ∀ m, byWidth s m = narrow Face.width (leOf small) v m := by
  intro m
  have hn : widthMap "normal".toList = some 100 := by decide +kernel
  simp only [stretches, List.mem_cons, Prod.mk.injEq, List.not_mem_nil, or_false] at h
  rcases h with ⟨rfl, rfl, rfl⟩ | ⟨rfl, rfl, rfl⟩ | ⟨rfl, rfl, rfl⟩ | ⟨rfl, rfl, rfl⟩ |
    ⟨rfl, rfl, rfl⟩ | ⟨rfl, rfl, rfl⟩ | ⟨rfl, rfl, rfl⟩ | ⟨rfl, rfl, rfl⟩ | ⟨rfl, rfl, rfl⟩ <;> rfl

theorem stretches_none (s : Str) (h : ∀ v small, (s, v, small) ∉ stretches) : widthMap s = none := by
  unfold widthMap
  repeat' split
  all_goals first
    | rfl
    | (exfalso
       rename_i he
       rw [he] at h
       first
         | exact h 50 true (by decide +kernel)
         | exact h 63 true (by decide +kernel)
         | exact h 75 true (by decide +kernel)
         | exact h 87 true (by decide +kernel)
         | exact h 100 true (by decide +kernel)
         | exact h 113 false (by decide +kernel)
         | exact h 125 false (by decide +kernel)
         | exact h 150 false (by decide +kernel)
         | exact h 200 false (by decide +kernel))

/-! ### The order of the files -/

theorem insertFace_perm (x : Face) (l : List Face) : (insertFace x l).Perm (x :: l) := by
  induction l with
  | nil => simp [insertFace]
  | cons y ys ih =>
    simp only [insertFace]
    split
    · exact List.Perm.refl _
    · exact (List.Perm.cons y ih).trans (List.Perm.swap x y ys)

theorem sortFaces_perm (l : List Face) : (sortFaces l).Perm l := by
  induction l with
  | nil => exact List.Perm.refl _
  | cons x xs ih => exact (insertFace_perm x _).trans (List.Perm.cons x ih)

theorem insertFace_pairwise (x : Face) (l : List Face)
    (h : l.Pairwise (fun a b => PyStr.le a.file b.file = true)) :
    (insertFace x l).Pairwise (fun a b => PyStr.le a.file b.file = true) := by
  induction l with
  | nil => simp [insertFace]
  | cons y ys ih =>
    have h' := h
    rw [List.pairwise_cons] at h'
    simp only [insertFace]
    split
    · rename_i hle
      rw [List.pairwise_cons]
      refine ⟨?_, h⟩
      intro a ha
      rcases List.mem_cons.mp ha with rfl | ha
      · exact hle
      · exact PyStr.le_trans' _ _ _ hle (h'.1 a ha)
    · rename_i hle
      rw [List.pairwise_cons]
      refine ⟨?_, ih h'.2⟩
      intro a ha
      rcases List.mem_cons.mp ((insertFace_perm x ys).mem_iff.mp ha) with rfl | ha
      · have := PyStr.le_total' a.file y.file
        simp only [Bool.or_eq_true] at this
        tauto
      · exact h'.1 a ha

theorem sortFaces_pairwise (l : List Face) :
    (sortFaces l).Pairwise (fun a b => PyStr.le a.file b.file = true) := by
  induction l with
  | nil => simp [sortFaces]
  | cons x xs ih => exact insertFace_pairwise x _ ih

theorem insertFace_filter (P : Str) (x : Face) (l : List Face) :
    (insertFace x l).filter (fun f => decide (f.file = P)) =
      (x :: l).filter (fun f => decide (f.file = P)) := by
  induction l with
  | nil => simp [insertFace]
  | cons y ys ih =>
    simp only [insertFace]
    split
    · rfl
    · rename_i hle
      rw [List.filter_cons, ih, List.filter_cons, List.filter_cons, List.filter_cons]
      by_cases hx : x.file = P <;> by_cases hy : y.file = P <;> simp [hx, hy]
      exact absurd (by rw [hx, hy]; exact PyStr.le_refl' P) hle

theorem sortFaces_filter (P : Str) (l : List Face) :
    (sortFaces l).filter (fun f => decide (f.file = P)) = l.filter (fun f => decide (f.file = P)) := by
  induction l with
  | nil => rfl
  | cons x xs ih =>
    simp only [sortFaces]
    rw [insertFace_filter, List.filter_cons, List.filter_cons, ih]

/-! ### The candidates -/

theorem candidates_eq (w : Wanted) (fam : List Face) :
    candidates w fam = sortFaces (fam.filter (fun f => decide (Best w fam f))) := by
  unfold candidates
  congr 1
  by_cases h : ∃ v small, (w.stretch, v, small) ∈ stretches
  · obtain ⟨v, small, hm⟩ := h
    rw [stretches_cases _ v small hm, narrowed_eq]
    apply List.filter_congr
    intro f hf
    rw [decide_eq_decide]
    constructor
    · intro hb
      exact ⟨hf, v, small, hm, hb⟩
    · rintro ⟨_, v', small', hm', hb⟩
      have : v' = v ∧ small' = small := by
        clear hb
        simp only [stretches, List.mem_cons, Prod.mk.injEq, List.not_mem_nil, or_false] at hm hm'
        rcases hm with h | h | h | h | h | h | h | h | h <;>
          (obtain ⟨h1, rfl, rfl⟩ := h; rw [h1] at hm'; revert hm'; simp)
      rw [← this.1, ← this.2]
      exact hb
  · push Not at h
    have : byWidth w.stretch fam = [] := by
      unfold byWidth
      rw [stretches_none _ h]
    rw [this]
    have e : bySize w.size (byWeight w.weight (byStyle w.style [])) = [] := by
      rw [bySize_eq, byWeight_eq, byStyle_eq]
      rfl
    rw [e]
    symm
    rw [List.filter_eq_nil_iff]
    intro f hf
    rw [decide_eq_true_eq]
    rintro ⟨_, v, small, hm, _⟩
    exact h v small hm

/-- The faces that are left of a family are those than which none serves better. -/
theorem candidates_best (w : Wanted) (fam : List Face) (f : Face) :
    f ∈ candidates w fam ↔ Best w fam f := by
  rw [candidates_eq, (sortFaces_perm _).mem_iff, List.mem_filter, decide_eq_true_eq]
  exact ⟨fun h => h.2, fun h => ⟨h.1, h⟩⟩

theorem covers_iff (lib : Library) (text : Option Str) (f : Face) :
    covers lib.has text f = true ↔ Shows lib text f := by
  cases text with
  | none => simp [covers, Shows]
  | some t =>
    simp only [covers, Shows, Option.some.injEq, forall_eq', List.all_eq_true]
    apply forall_congr'
    intro c
    apply imp_congr_right
    intro _
    simp only [Bool.or_eq_true, beq_iff_eq, List.mem_cons, List.not_mem_nil, or_false]
    tauto

/-- The face that a family gives for a text. -/
def pick (lib : Library) (w : Wanted) (text : Option Str) (n : Str) : Option Face :=
  (candidates w (lib.faces n)).find? (covers lib.has text)

theorem findIn_eq (lib : Library) (w : Wanted) (text : Option Str) (ns : List Str) :
    findIn lib w text ns = ns.findSome? (pick lib w text) := by
  induction ns with
  | nil => rfl
  | cons n ns ih =>
    simp only [findIn, List.findSome?_cons, ih, pick]
    cases (candidates w (lib.faces n)).find? (covers lib.has text) <;> rfl

theorem familyNames_find (family : Str → Option Str) (g : Str → Option Face) (ns acc : List Str) :
    (familyNames family acc ns).findSome? g = (acc ++ ns.filterMap family).findSome? g := by
  induction ns generalizing acc with
  | nil => simp [familyNames]
  | cons n ns ih =>
    simp only [familyNames, List.filterMap_cons]
    cases hf : family n with
    | none => exact ih acc
    | some m =>
      simp only []
      split
      · rename_i hm
        rw [ih acc, List.findSome?_append, List.findSome?_append, List.findSome?_cons]
        cases hg : g m with
        | none => rfl
        | some f =>
          have : (acc.findSome? g).isSome = true := by
            rw [List.findSome?_isSome_iff]
            exact ⟨m, hm, by simp [hg]⟩
          obtain ⟨y, hy⟩ := Option.isSome_iff_exists.mp this
          rw [hy]
          rfl
      · rw [ih (acc ++ [m])]
        simp

theorem findFace_eq (lib : Library) (w : Wanted) (text : Option Str) :
    findFace lib w text = (w.families.filterMap lib.family).findSome? (pick lib w text) := by
  unfold findFace
  rw [findIn_eq, familyNames_find]
  rfl

theorem pick_none (lib : Library) (w : Wanted) (text : Option Str) (n : Str) :
    pick lib w text n = none ↔ ∀ g, Best w (lib.faces n) g → ¬ Shows lib text g := by
  unfold pick
  rw [List.find?_eq_none]
  constructor
  · intro h g hg hs
    exact h g ((candidates_best _ _ _).mpr hg) ((covers_iff _ _ _).mpr hs)
  · intro h g hg hs
    exact h g ((candidates_best _ _ _).mp hg) ((covers_iff _ _ _).mp hs)

theorem pick_some (lib : Library) (w : Wanted) (text : Option Str) (n : Str) (f : Face)
    (h : pick lib w text n = some f) :
    Best w (lib.faces n) f ∧ Shows lib text f ∧
      (∀ g, Best w (lib.faces n) g → Shows lib text g → PyStr.le f.file g.file = true) ∧
      ((lib.faces n).filter (fun g => decide (Best w (lib.faces n) g ∧ Shows lib text g ∧
        g.file = f.file))).head? = some f := by
  unfold pick at h
  have hmem := List.mem_of_find?_eq_some h
  have hcov := List.find?_some h
  refine ⟨(candidates_best _ _ _).mp hmem, (covers_iff _ _ _).mp hcov, ?_, ?_⟩
  · intro g hg hs
    have hg' := (candidates_best _ _ _).mpr hg
    have hs' := (covers_iff _ _ _).mpr hs
    obtain ⟨as, bs, he, hno⟩ := (List.find?_eq_some_iff_append.mp h).2
    have hpw : (candidates w (lib.faces n)).Pairwise (fun a b => PyStr.le a.file b.file = true) :=
      sortFaces_pairwise _
    rw [he] at hg' hpw
    rcases List.mem_append.mp hg' with hin | hin
    · have := hno g hin
      simp [hs'] at this
    · rcases List.mem_cons.mp hin with rfl | hin
      · exact PyStr.le_refl' _
      · have h2 := (List.pairwise_append.mp hpw).2.1
        exact (List.pairwise_cons.mp h2).1 g hin
  · have e1 : (lib.faces n).filter (fun g => decide (Best w (lib.faces n) g ∧ Shows lib text g ∧
        g.file = f.file)) =
        ((candidates w (lib.faces n)).filter (fun g => decide (g.file = f.file))).filter
          (covers lib.has text) := by
      rw [candidates_eq, sortFaces_filter, List.filter_filter, List.filter_filter]
      apply List.filter_congr
      intro g hg
      rw [Bool.eq_iff_iff]
      simp only [decide_eq_true_eq, Bool.and_eq_true, covers_iff]
      tauto
    rw [e1, List.head?_filter, List.find?_filter]
    obtain ⟨hp, as, bs, he, hno⟩ := List.find?_eq_some_iff_append.mp h
    rw [List.find?_eq_some_iff_append]
    refine ⟨by simp [hp], as, bs, he, ?_⟩
    intro a ha
    have := hno a ha
    simp at this
    simp [this]

theorem findSome_split {α β : Type} (g : α → Option β) (l : List α) (b : β)
    (h : l.findSome? g = some b) :
    ∃ pre a post, l = pre ++ a :: post ∧ g a = some b ∧ ∀ x ∈ pre, g x = none := by
  induction l with
  | nil => simp at h
  | cons a l ih =>
    rw [List.findSome?_cons] at h
    cases hg : g a with
    | some c =>
      rw [hg] at h
      simp at h
      subst h
      exact ⟨[], a, l, rfl, hg, by simp⟩
    | none =>
      rw [hg] at h
      obtain ⟨pre, a', post, rfl, h1, h2⟩ := ih h
      refine ⟨a :: pre, a', post, rfl, h1, ?_⟩
      intro x hx
      rcases List.mem_cons.mp hx with rfl | hx
      · exact hg
      · exact h2 x hx

theorem filterMap_split {α β : Type} (g : α → Option β) (l : List α) (pre : List β) (b : β) (post : List β)
    (h : l.filterMap g = pre ++ b :: post) :
    ∃ p a q, l = p ++ a :: q ∧ g a = some b ∧ p.filterMap g = pre := by
  induction l generalizing pre with
  | nil => simp at h
  | cons a l ih =>
    rw [List.filterMap_cons] at h
    cases hg : g a with
    | none =>
      rw [hg] at h
      obtain ⟨p, a', q, rfl, h1, h2⟩ := ih pre h
      exact ⟨a :: p, a', q, rfl, h1, by simp [hg, h2]⟩
    | some c =>
      rw [hg] at h
      cases pre with
      | nil =>
        simp at h
        exact ⟨[], a, l, rfl, by rw [hg, h.1], rfl⟩
      | cons d pre =>
        simp at h
        obtain ⟨p, a', q, rfl, h1, h2⟩ := ih pre h.2
        exact ⟨a :: p, a', q, rfl, h1, by simp [hg, h2, h.1]⟩

/-! ### Theorems -/

/-- The chosen face comes from the first of the wanted families that has one to offer: a face than
which no other of the family serves better and which has the characters of the text. Among several
of this kind it is the one whose file comes first, and within a file the first that fontconfig
lists. -/
theorem chosen_face (lib : Library) (w : Wanted) (text : Option Str) (f : Face)
    (h : findFace lib w text = some f) :
    ∃ pre name post n, w.families = pre ++ name :: post ∧ lib.family name = some n ∧
      (∀ name' ∈ pre, ∀ n', lib.family name' = some n' →
        ∀ g, Best w (lib.faces n') g → ¬ Shows lib text g) ∧
      Best w (lib.faces n) f ∧ Shows lib text f ∧
      (∀ g, Best w (lib.faces n) g → Shows lib text g → PyStr.le f.file g.file = true) ∧
      ((lib.faces n).filter (fun g => decide (Best w (lib.faces n) g ∧ Shows lib text g ∧
        g.file = f.file))).head? = some f := by
  rw [findFace_eq] at h
  obtain ⟨pre, n, post, he, hg, hno⟩ := findSome_split _ _ _ h
  obtain ⟨p, name, q, hq, hn, hp⟩ := filterMap_split _ _ _ _ _ he
  refine ⟨p, name, q, n, hq, hn, ?_, pick_some lib w text n f hg⟩
  intro name' hname n' hn' g
  exact (pick_none lib w text n').mp
    (hno n' (hp ▸ List.mem_filterMap.mpr ⟨name', hname, hn'⟩)) g

/-- The fallback font is taken exactly if none of the families has such a face. -/
theorem fallback_iff (lib : Library) (w : Wanted) (text : Option Str) :
    findFace lib w text = none ↔ ∀ name ∈ w.families, ∀ n, lib.family name = some n →
      ∀ g, Best w (lib.faces n) g → ¬ Shows lib text g := by
  rw [findFace_eq, List.findSome?_eq_none_iff]
  simp only [List.mem_filterMap, forall_exists_index, and_imp]
  constructor
  · intro h name hname n hn g
    exact (pick_none lib w text n).mp (h n name hname hn) g
  · intro h n name hname hn
    exact (pick_none lib w text n).mpr (h name hname n hn)

theorem exists_minOf (R : Face → Face → Prop) (asym : ∀ a b c, R a b → R b c → R a c)
    (irr : ∀ a, ¬ R a a) (l : List Face) (h : l ≠ []) : ∃ f ∈ l, ∀ g ∈ l, ¬ R g f := by
  induction l with
  | nil => exact absurd rfl h
  | cons x xs ih =>
    by_cases hx : xs = []
    · subst hx
      exact ⟨x, by simp, by simp [irr]⟩
    · obtain ⟨f, hf, hm⟩ := ih hx
      by_cases hr : R x f
      · refine ⟨x, by simp, ?_⟩
        intro g hg
        rcases List.mem_cons.mp hg with rfl | hg
        · exact irr _
        · exact fun hgx => hm g hg (asym _ _ _ hgx hr)
      · refine ⟨f, by simp [hf], ?_⟩
        intro g hg
        rcases List.mem_cons.mp hg with rfl | hg
        · exact hr
        · exact hm g hg

theorem closer_trans (small : Bool) (v a b c : ℚ) (h1 : Closer small v a b) (h2 : Closer small v b c) :
    Closer small v a c := by
  unfold Closer at *
  rcases h1 with h1 | ⟨h1, h1'⟩ <;> rcases h2 with h2 | ⟨h2, h2'⟩
  · left; linarith
  · left; linarith
  · left; linarith
  · right
    refine ⟨by linarith, ?_⟩
    cases small <;> simp at * <;> linarith

theorem better_trans (w : Wanted) (v : ℚ) (small : Bool) (a b c : Face) (h1 : Better w v small a b)
    (h2 : Better w v small b c) : Better w v small a c := by
  unfold Better at *
  rcases h1 with h1 | ⟨e1, h1⟩
  · rcases h2 with h2 | ⟨e2, h2⟩
    · exact Or.inl (closer_trans _ _ _ _ _ h1 h2)
    · exact Or.inl (e2 ▸ h1)
  · rcases h2 with h2 | ⟨e2, h2⟩
    · exact Or.inl (e1 ▸ h2)
    · refine Or.inr ⟨e1.trans e2, ?_⟩
      rcases h1 with h1 | ⟨f1, h1⟩
      · rcases h2 with h2 | ⟨f2, h2⟩
        · left; omega
        · left; omega
      · rcases h2 with h2 | ⟨f2, h2⟩
        · left; omega
        · refine Or.inr ⟨f1.trans f2, ?_⟩
          rcases h1 with h1 | ⟨g1, h1⟩
          · rcases h2 with h2 | ⟨g2, h2⟩
            · exact Or.inl (closer_trans _ _ _ _ _ h1 h2)
            · exact Or.inl (g2 ▸ h1)
          · rcases h2 with h2 | ⟨g2, h2⟩
            · exact Or.inl (g1 ▸ h2)
            · exact Or.inr ⟨g1.trans g2, closer_trans _ _ _ _ _ h1 h2⟩

/-- A family that has faces has one than which none serves better, whatever keyword of
`font-stretch` is asked for; so without a text the first family that has faces is taken. -/
theorem best_exists (w : Wanted) (fam : List Face) (hf : fam ≠ [])
    (v : ℚ) (small : Bool) (hs : (w.stretch, v, small) ∈ stretches) : ∃ f, Best w fam f := by
  obtain ⟨f, hf, hm⟩ := exists_minOf (Better w v small) (better_trans w v small) (by
    intro a h
    unfold Better at h
    rcases h with h | ⟨_, h | ⟨_, h | ⟨_, h⟩⟩⟩
    · exact closer_irrefl _ _ _ h
    · omega
    · exact closer_irrefl _ _ _ h
    · exact closer_irrefl _ _ _ h) fam hf
  exact ⟨f, hf, v, small, hs, hm⟩

theorem family_without_text (lib : Library) (w : Wanted) (pre : List Str) (name : Str)
    (post : List Str) (n : Str) (v : ℚ) (small : Bool) (hs : (w.stretch, v, small) ∈ stretches)
    (hw : w.families = pre ++ name :: post) (hn : lib.family name = some n)
    (hpre : ∀ name' ∈ pre, ∀ n', lib.family name' = some n' → lib.faces n' = [])
    (hfaces : lib.faces n ≠ []) :
    ∃ f, findFace lib w none = some f ∧ Best w (lib.faces n) f := by
  obtain ⟨b, hb⟩ := best_exists w (lib.faces n) hfaces v small hs
  have hp : ∃ f, pick lib w none n = some f := by
    cases h : pick lib w none n with
    | some f => exact ⟨f, rfl⟩
    | none => exact absurd (by intro t ht; simp at ht) ((pick_none lib w none n).mp h b hb)
  obtain ⟨f, hf⟩ := hp
  refine ⟨f, ?_, (pick_some lib w none n f hf).1⟩
  rw [findFace_eq, hw, List.filterMap_append, List.findSome?_append, List.filterMap_cons, hn]
  have : (pre.filterMap lib.family).findSome? (pick lib w none) = none := by
    rw [List.findSome?_eq_none_iff]
    intro n' hn'
    obtain ⟨name', h1, h2⟩ := List.mem_filterMap.mp hn'
    rw [pick_none, hpre name' h1 n' h2]
    intro g hg
    exact absurd hg.1 (by simp)
  rw [this]
  simp [hf]

/-- A value of `font-stretch` that is not one of the keywords leaves no face at all: the
fallback font is taken although the wanted family may be there. -/
theorem other_stretch_fallback (lib : Library) (w : Wanted) (text : Option Str)
    (h : ∀ v small, (w.stretch, v, small) ∉ stretches) : findFace lib w text = none := by
  rw [fallback_iff]
  rintro name _ n _ g ⟨_, v, small, hm, _⟩
  exact absurd hm (h v small)

/-! ### CSS Fonts -/

theorem oneSided_nearest (v x : ℚ) (xs : List ℚ) (hx : x ∈ xs) (hside : OneSided v xs)
    (hmin : ∀ y ∈ xs, |x - v| ≤ |y - v|) (ps qs : ℚ → Prop)
    (hp : ∀ y ∈ xs, y < v → ps y) (hq : ∀ y ∈ xs, v < y → qs y)
    (hpn : ∀ y, ps y → y < v) (hqn : ∀ y, qs y → v < y) :
    FirstOf v xs x [(· = v), ps, qs] ∧ FirstOf v xs x [(· = v), qs, ps] := by
  have hv : v ∈ xs → x = v := by
    intro h
    have := hmin v h
    simp at this
    linarith
  unfold FirstOf
  rcases hside with h | h | h
  · have := hv h
    subst this
    exact ⟨Or.inl ⟨rfl, hx, by simp⟩, Or.inl ⟨rfl, hx, by simp⟩⟩
  · have hne : ∀ y ∈ xs, ¬ y = v := fun y hy he => by have := h y hy; linarith
    have hnq : ∀ y ∈ xs, ¬ qs y := fun y hy hh => by have := h y hy; have := hqn y hh; linarith
    have hyes : ps x ∧ x ∈ xs ∧ ∀ y ∈ xs, ps y → |x - v| ≤ |y - v| :=
      ⟨hp x hx (h x hx), hx, fun y hy _ => hmin y hy⟩
    exact ⟨Or.inr ⟨hne, Or.inl hyes⟩, Or.inr ⟨hne, Or.inr ⟨hnq, Or.inl hyes⟩⟩⟩
  · have hne : ∀ y ∈ xs, ¬ y = v := fun y hy he => by have := h y hy; linarith
    have hnp : ∀ y ∈ xs, ¬ ps y := fun y hy hh => by have := h y hy; have := hpn y hh; linarith
    have hyes : qs x ∧ x ∈ xs ∧ ∀ y ∈ xs, qs y → |x - v| ≤ |y - v| :=
      ⟨hq x hx (h x hx), hx, fun y hy _ => hmin y hy⟩
    exact ⟨Or.inr ⟨hne, Or.inr ⟨hnp, Or.inl hyes⟩⟩, Or.inr ⟨hne, Or.inl hyes⟩⟩

theorem oneSided_weight (v x : ℚ) (xs : List ℚ) (hx : x ∈ xs) (hside : OneSided v xs)
    (hmin : ∀ y ∈ xs, |x - v| ≤ |y - v|) : FirstOf v xs x (weightGroups v) := by
  have key := oneSided_nearest v x xs hx hside hmin (· < v) (v < ·) (fun _ _ h => h) (fun _ _ h => h)
    (fun _ h => h) (fun _ h => h)
  unfold weightGroups
  split
  · exact key.1
  · split
    · rename_i h4 h5
      rcases key.2 with ⟨h1, h2, h3⟩ | ⟨hne, ⟨h1, h2, h3⟩ | ⟨hno, ⟨h1, h2, h3⟩ | ⟨_, hF⟩⟩⟩
      · exact Or.inl ⟨h1, h2, h3⟩
      · refine Or.inr ⟨hne, ?_⟩
        by_cases hx5 : x ≤ 500
        · exact Or.inl ⟨⟨h1, hx5⟩, h2, fun y hy hh => h3 y hy hh.1⟩
        · right
          have hall : ∀ y ∈ xs, v < y → 500 < y := by
            intro y hy hvy
            have := h3 y hy hvy
            rw [abs_of_pos (by linarith), abs_of_pos (by linarith)] at this
            linarith
          refine ⟨fun y hy hh => by have := hall y hy hh.1; linarith [hh.2], ?_⟩
          right
          constructor
          · intro y hy hh
            rcases hside with h | h | h
            · exact hne v h rfl
            · linarith [h x h2]
            · linarith [h y hy]
          · exact Or.inl ⟨by linarith, h2, fun y hy hh => hmin y hy⟩
      · refine Or.inr ⟨hne, Or.inr ⟨fun y hy hh => hno y hy hh.1, Or.inl ⟨h1, h2, h3⟩⟩⟩
      · exact hF.elim
    · exact key.2

/-- Where the wanted width is there or all widths of the family lie on one side of it, and
likewise for the weights of the faces that are left, the choice within a family is that of CSS
Fonts. Missing for the full claim: the other cases, in which the code goes by the distance
alone (see below). -/
theorem css_face_partial (w : Wanted) (fam : List Face) (f : Face) (h : Best w fam f)
    (hw : ∀ v small, (w.stretch, v, small) ∈ stretches → OneSided v (fam.map Face.width))
    (hg : OneSided w.weight ((fam.filter (fun g => g.width = f.width ∧
      rank w.style g.slant = rank w.style f.slant)).map Face.weight)) :
    CssFace w fam f := by
  obtain ⟨hf, v, small, hs, hb⟩ := h
  have hmin : ∀ y ∈ fam.map Face.width, |f.width - v| ≤ |y - v| := by
    intro y hy
    obtain ⟨g, hg, rfl⟩ := List.mem_map.mp hy
    by_contra hc
    push Not at hc
    exact hb g hg (Or.inl (Or.inl hc))
  refine ⟨hf, v, small, hs, ?_, ?_, ?_⟩
  · have := oneSided_nearest v f.width _ (List.mem_map_of_mem hf) (hw v small hs) hmin (· < v) (v < ·)
      (fun _ _ h => h) (fun _ _ h => h) (fun _ h => h) (fun _ h => h)
    unfold widthGroups
    split
    · exact this.1
    · exact this.2
  · intro g hg hgw
    by_contra hc
    push Not at hc
    exact hb g hg (Or.inr ⟨hgw, Or.inl hc⟩)
  · refine oneSided_weight _ _ _ ?_ hg ?_
    · exact List.mem_map_of_mem (List.mem_filter.mpr ⟨hf, by simp⟩)
    · intro y hy
      obtain ⟨g, hg', rfl⟩ := List.mem_map.mp hy
      rw [List.mem_filter, decide_eq_true_eq] at hg'
      by_contra hc
      push Not at hc
      exact hb g hg'.1 (Or.inr ⟨hg'.2.1, Or.inr ⟨hg'.2.2, Or.inl (Or.inl hc)⟩⟩)

/-- A face for the examples. -/
def ex (file : String) (width slant weight : ℚ) : Face := ⟨file.toList, 0, width, slant, weight, 0⟩

/-- A library with one family, `f`, which has the given faces and all characters. -/
def exLib (fs : List Face) : Library :=
  ⟨fun _ => some "f".toList, fun _ => fs, fun _ _ => true⟩

/-- Bold text. -/
def exBold : Wanted := ⟨["f".toList], "normal".toList, "normal".toList, 700, 16⟩

/-- For weight 700, of a semi-bold and an (extra) black face CSS Fonts asks for the heavier one; the
code takes the nearer one. -/
theorem css_weight_violated :
    findFace (exLib [ex "semi" 100 0 600, ex "black" 100 0 900]) exBold none =
        some (ex "semi" 100 0 600) ∧
      ¬ CssFace exBold [ex "semi" 100 0 600, ex "black" 100 0 900] (ex "semi" 100 0 600) ∧
      CssFace exBold [ex "semi" 100 0 600, ex "black" 100 0 900] (ex "black" 100 0 900) := by
  refine ⟨by decide +kernel, ?_, ?_⟩
  · rintro ⟨_, v, small, _, _, _, h⟩
    have e : ([ex "semi" 100 0 600, ex "black" 100 0 900].filter (fun g => decide (g.width =
        (ex "semi" 100 0 600).width ∧ rank exBold.style g.slant =
        rank exBold.style (ex "semi" 100 0 600).slant))).map Face.weight = [600, 900] := by
      simp [ex, List.filter_cons]
    rw [e] at h
    simp [weightGroups, exBold, ex] at h
    norm_num [FirstOf] at h
  · refine ⟨by simp, 100, true, by simp [stretches, exBold], ?_, ?_, ?_⟩
    · simp [widthGroups, FirstOf, ex]
    · intro g hg _
      simp at hg
      rcases hg with rfl | rfl <;> simp [ex]
    · have e : ([ex "semi" 100 0 600, ex "black" 100 0 900].filter (fun g => decide (g.width =
          (ex "black" 100 0 900).width ∧ rank exBold.style g.slant =
          rank exBold.style (ex "black" 100 0 900).slant))).map Face.weight = [600, 900] := by
        simp [ex, List.filter_cons]
      rw [e]
      simp [weightGroups, exBold, ex]
      norm_num [FirstOf]

/-- For the normal width, of a condensed and a semi-expanded face CSS Fonts asks for the narrower
one; the code takes the nearer one. -/
theorem css_width_violated :
    findFace (exLib [ex "cond" 75 0 700, ex "wide" 113 0 700]) exBold none =
        some (ex "wide" 113 0 700) ∧
      ¬ CssFace exBold [ex "cond" 75 0 700, ex "wide" 113 0 700] (ex "wide" 113 0 700) := by
  refine ⟨by decide +kernel, ?_⟩
  rintro ⟨_, v, small, hs, h, _, _⟩
  simp only [stretches, exBold, List.mem_cons, Prod.mk.injEq, List.not_mem_nil, or_false] at hs
  have hv : v = 100 ∧ small = true := by
    revert hs
    simp
  rw [hv.1, hv.2] at h
  simp [widthGroups, FirstOf, ex] at h
  norm_num at h

/-! ### The hypotheses are met -/

/-- The family `f` has no upright face of the text's character, so the family `g` is taken. -/
example : findFace ⟨fun n => some n,
    fun n => if n = "f".toList then [ex "b" 100 0 400, ex "a" 100 100 400] else [ex "d" 100 0 700, ex "c" 100 0 700],
    fun f c => f.file = "a".toList || f.file = "c".toList || f.file = "d".toList⟩
    ⟨["f".toList, "f".toList, "g".toList], "normal".toList, "normal".toList, 700, 16⟩ (some "x y".toList) =
      some (ex "c" 100 0 700) := by decide +kernel

example : findFace (exLib [ex "a" 100 0 400]) { exBold with stretch := "75%".toList } none = none :=
  other_stretch_fallback _ _ _ (by simp [stretches])

example : ∃ f, findFace (exLib [ex "a" 100 0 400, ex "b" 100 0 300]) exBold none = some f ∧
    Best exBold [ex "a" 100 0 400, ex "b" 100 0 300] f :=
  family_without_text (exLib [ex "a" 100 0 400, ex "b" 100 0 300]) exBold [] "f".toList [] "f".toList
    100 true (by simp [stretches, exBold]) rfl rfl (by simp) (by simp [exLib])

/-- Widths and weights on one side. -/
example : OneSided 100 [75, 87] ∧ OneSided 700 [400, 500] ∧ OneSided 400 [500, 400, 300] := by
  refine ⟨Or.inr (Or.inl ?_), Or.inr (Or.inl ?_), Or.inl ?_⟩ <;> simp <;> norm_num

end SvgPy.FontMatch
