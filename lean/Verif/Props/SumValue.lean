import Verif.Model.SumValue
import Verif.Props.UnitValue
import Mathlib.Tactic.Ring
import Mathlib.Tactic.Linarith
import Mathlib.Tactic.NormNum
import Mathlib.Tactic.FieldSimp
import Mathlib.Algebra.Order.Field.Basic

/-! Properties C41 (sum values), C42 (structural equality) and C67 (conversion to units). -/

set_option linter.unusedSimpArgs false

namespace SvgPy.SumValue

open SvgPy.UnitValue (U UV canon ratio convert)

/-! ### Specification -/

/-- Sizes of the units: positive, 1 for numbers, and in the fixed ratios where there are such. -/
structure Sizes (σ : U → ℝ) : Prop where
  pos : ∀ u, 0 < σ u
  number : σ .number = 1
  canon : ∀ u c, canon u = some c → σ u = ratio u * σ c

/-- The largest (smallest) of several numbers. -/
def extremum (f : ℝ → ℝ → ℝ) : List ℝ → ℝ
  | [] => 0
  | [a] => a
  | a :: l => f a (extremum f l)

mutual
/-- The quantity an expression stands for.  (As in the code, 1/0 is 0.) -/
noncomputable def eval (σ : U → ℝ) : Expr → ℝ
  | .unit x => x.value * σ x.unit
  | .sum l => (evals σ l).sum
  | .prod l => (evals σ l).prod
  | .negate e => - eval σ e
  | .invert e => (eval σ e)⁻¹
  | .min l => extremum Min.min (evals σ l)
  | .max l => extremum Max.max (evals σ l)
  | .clamp a b c => Max.max (eval σ a) (Min.min (eval σ b) (eval σ c))

noncomputable def evals (σ : U → ℝ) : List Expr → List ℝ
  | [] => []
  | e :: l => eval σ e :: evals σ l
end

/-- The quantity a term stands for: the number, times the powers of the sizes. -/
noncomputable def evalMap (σ : U → ℝ) (m : UMap) : ℝ := (U.all.map fun u => σ u ^ (m u).getD 0).prod

noncomputable def evalTerm (σ : U → ℝ) (t : ℝ × UMap) : ℝ := t.1 * evalMap σ t.2

noncomputable def evalSum (σ : U → ℝ) (s : SumV) : ℝ := (s.map (evalTerm σ)).sum

/-- Two terms have the same units, whatever their powers. -/
def SameUnits (a b : UMap) : Prop := ∀ u, a u = none ↔ b u = none

mutual
/-- In every sum inside the expression, terms with the same units have them to the same powers. -/
def Consistent : Expr → Prop
  | .unit _ => True
  | .sum l => Consistents l ∧ ∀ ls, createSums l = some ls → ∀ t ∈ ls.flatten, ∀ t' ∈ ls.flatten, SameUnits t.2 t'.2 → t.2 = t'.2
  | .prod l => Consistents l
  | .negate e => Consistent e
  | .invert e => Consistent e
  | .min l => Consistents l
  | .max l => Consistents l
  | .clamp a b c => Consistent a ∧ Consistent b ∧ Consistent c

def Consistents : List Expr → Prop
  | [] => True
  | e :: l => Consistent e ∧ Consistents l
end

mutual
/-- Only plain numbers. -/
def Const : Expr → Prop
  | .unit x => x.unit = .number
  | .sum l => Consts l
  | .prod l => Consts l
  | .negate e => Const e
  | .invert e => Const e
  | .min l => Consts l
  | .max l => Consts l
  | .clamp a b c => Const a ∧ Const b ∧ Const c

def Consts : List Expr → Prop
  | [] => True
  | e :: l => Const e ∧ Consts l
end

mutual
/-- What `calc()` allows: in products all factors but one are plain numbers, and only plain
numbers are divided by. -/
def Linear : Expr → Prop
  | .unit _ => True
  | .sum l => Linears l
  | .prod l => OneLinear l
  | .negate e => Linear e
  | .invert e => Const e
  | .min l => Linears l
  | .max l => Linears l
  | .clamp a b c => Linear a ∧ Linear b ∧ Linear c

def Linears : List Expr → Prop
  | [] => True
  | e :: l => Linear e ∧ Linears l

def OneLinear : List Expr → Prop
  | [] => True
  | e :: l => (Const e ∧ OneLinear l) ∨ (Linear e ∧ Consts l)
end

/-! ### Lemmas -/

theorem mem_all (u : U) : u ∈ U.all := by cases u <;> decide

theorem all_nodup : U.all.Nodup := by decide

theorem sameKeys_iff (a b : UMap) : sameKeys a b = true ↔ SameUnits a b := by
  unfold sameKeys SameUnits
  rw [List.all_eq_true]
  constructor
  · intro h u
    have := h u (mem_all u)
    cases h1 : a u <;> cases h2 : b u <;> simp_all
  · intro h u _
    have := h u
    cases h1 : a u <;> cases h2 : b u <;> simp_all

theorem sameMap_iff (a b : UMap) : sameMap a b = true ↔ a = b := by
  unfold sameMap
  rw [List.all_eq_true]
  constructor
  · intro h; funext u; simpa using h u (mem_all u)
  · rintro rfl u _; simp

theorem prod_map_mul (l : List U) (f g : U → ℝ) : (l.map fun u => f u * g u).prod = (l.map f).prod * (l.map g).prod := by
  induction l with
  | nil => simp
  | cons a l ih => simp only [List.map_cons, List.prod_cons, ih]; ring

theorem prod_map_one (l : List U) (f : U → ℝ) (h : ∀ u ∈ l, f u = 1) : (l.map f).prod = 1 := by
  induction l with
  | nil => rfl
  | cons a l ih => simp only [List.map_cons, List.prod_cons, h a (by simp), ih (fun u hu => h u (by simp [hu])), one_mul]

theorem prod_map_single (l : List U) (hl : l.Nodup) (f : U → ℝ) (c : U) (hc : c ∈ l) (h : ∀ u, u ≠ c → f u = 1) :
    (l.map f).prod = f c := by
  induction l with
  | nil => simp at hc
  | cons a l ih =>
    simp only [List.nodup_cons] at hl
    rw [List.map_cons, List.prod_cons]
    rcases List.mem_cons.1 hc with rfl | hc
    · rw [prod_map_one l f (fun u hu => h u (fun e => hl.1 (e ▸ hu))), mul_one]
    · rw [h a (fun e => hl.1 (e ▸ hc)), ih hl.2 hc, one_mul]

theorem evalMap_empty (σ : U → ℝ) : evalMap σ .empty = 1 := prod_map_one _ _ fun _ _ => by simp [UMap.empty]

theorem evalMap_single (σ : U → ℝ) (m : UMap) (c : U) (h : ∀ u, u ≠ c → (m u).getD 0 = 0) : evalMap σ m = σ c ^ (m c).getD 0 := by
  unfold evalMap
  rw [prod_map_single U.all all_nodup _ c (mem_all c)]
  intro u hu
  rw [h u hu, zpow_zero]

theorem evalMap_one (σ : U → ℝ) (c : U) : evalMap σ (.one c) = σ c := by
  rw [evalMap_single σ _ c]
  · simp [UMap.one]
  · intro u hu; simp [UMap.one, hu]

theorem evalMap_congr (σ : U → ℝ) (a b : UMap) (h : ∀ u, (a u).getD 0 = (b u).getD 0) : evalMap σ a = evalMap σ b := by
  unfold evalMap
  congr 1
  apply List.map_congr_left
  intro u _
  rw [h u]

theorem evalMap_dropZero (σ : U → ℝ) (a : UMap) : evalMap σ (dropZero a) = evalMap σ a := by
  apply evalMap_congr
  intro u
  unfold dropZero
  by_cases h : a u = some 0
  · simp [h]
  · simp [h]

theorem evalMap_mul (σ : U → ℝ) (hσ : Sizes σ) (a b : UMap) : evalMap σ (mulMap a b) = evalMap σ a * evalMap σ b := by
  unfold evalMap
  rw [← prod_map_mul]
  congr 1
  apply List.map_congr_left
  intro u _
  rw [← zpow_add₀ (ne_of_gt (hσ.pos u))]
  congr 1
  unfold mulMap
  cases a u <;> cases b u <;> simp

theorem prod_pos (l : List U) (f : U → ℝ) (h : ∀ u, 0 < f u) : 0 < (l.map f).prod := by
  induction l with
  | nil => simp
  | cons a l ih => rw [List.map_cons, List.prod_cons]; exact mul_pos (h a) ih

theorem evalMap_pos (σ : U → ℝ) (hσ : Sizes σ) (a : UMap) : 0 < evalMap σ a :=
  prod_pos _ _ fun u => zpow_pos (hσ.pos u) _

theorem prod_map_inv (l : List U) (f : U → ℝ) : (l.map fun u => (f u)⁻¹).prod = ((l.map f).prod)⁻¹ := by
  induction l with
  | nil => simp
  | cons a l ih => simp only [List.map_cons, List.prod_cons, ih, mul_inv]

theorem evalTerm_inv (σ : U → ℝ) (t : ℝ × UMap) : evalTerm σ (invTerm t) = (evalTerm σ t)⁻¹ := by
  unfold evalTerm invTerm
  have hm : evalMap σ (fun u => (t.2 u).map (-1 * ·)) = (evalMap σ t.2)⁻¹ := by
    unfold evalMap
    rw [← prod_map_inv]
    congr 1
    apply List.map_congr_left
    intro u _
    rw [← zpow_neg]
    congr 1
    show ((t.2 u).map (-1 * ·)).getD 0 = -(t.2 u).getD 0
    generalize t.2 u = o
    cases o <;> simp
  simp only [hm, mul_inv]
  by_cases h : t.1 = 0
  · simp [h]
  · simp [h]

theorem evalTerm_unit (σ : U → ℝ) (hσ : Sizes σ) (x : UV) : evalTerm σ (unitTerm x) = x.value * σ x.unit := by
  unfold unitTerm evalTerm
  have hb : ∀ u : U, evalMap σ (if u = .number then UMap.empty else UMap.one u) = σ u := by
    intro u
    by_cases h : u = .number
    · subst h; rw [if_pos rfl, evalMap_empty, hσ.number]
    · rw [if_neg h, evalMap_one]
  cases hc : canon x.unit with
  | none => simp only; rw [evalMap_one]
  | some c =>
    simp only
    by_cases h : c = x.unit
    · rw [if_neg (by simpa using h)]
      simp only
      rw [hb]
    · rw [if_pos h]
      simp only
      rw [hb, hσ.canon x.unit c hc]
      ring

theorem evalSum_cons (σ : U → ℝ) (t : ℝ × UMap) (s : SumV) : evalSum σ (t :: s) = evalTerm σ t + evalSum σ s := by
  simp [evalSum]

theorem evalSum_append (σ : U → ℝ) (s s' : SumV) : evalSum σ (s ++ s') = evalSum σ s + evalSum σ s' := by
  simp [evalSum]

theorem evalSum_flatten (σ : U → ℝ) (ls : List SumV) : evalSum σ ls.flatten = (ls.map (evalSum σ)).sum := by
  induction ls with
  | nil => simp [evalSum]
  | cons s ls ih => rw [List.flatten_cons, evalSum_append, ih, List.map_cons, List.sum_cons]

theorem addTerm_maps (s : SumV) (t : ℝ × UMap) : ∀ x ∈ addTerm s t, x.2 = t.2 ∨ ∃ y ∈ s, x.2 = y.2 := by
  induction s with
  | nil => intro x hx; simp [addTerm] at hx; exact .inl (by rw [hx])
  | cons a s ih =>
    obtain ⟨v, m⟩ := a
    intro x hx
    rw [addTerm] at hx
    split at hx
    · rcases List.mem_cons.1 hx with rfl | hx
      · exact .inr ⟨(v, m), by simp, rfl⟩
      · exact .inr ⟨x, by simp [hx], rfl⟩
    · rcases List.mem_cons.1 hx with rfl | hx
      · exact .inr ⟨(v, m), by simp, rfl⟩
      · rcases ih x hx with h | ⟨y, hy, h⟩
        · exact .inl h
        · exact .inr ⟨y, by simp [hy], h⟩

theorem addTerm_eval (σ : U → ℝ) (s : SumV) (t : ℝ × UMap) (h : ∀ x ∈ s, SameUnits x.2 t.2 → x.2 = t.2) :
    evalSum σ (addTerm s t) = evalSum σ s + evalTerm σ t := by
  induction s with
  | nil => simp [addTerm, evalSum]
  | cons a s ih =>
    obtain ⟨v, m⟩ := a
    rw [addTerm]
    split
    · rename_i hk
      have hm : m = t.2 := h (v, m) (by simp) ((sameKeys_iff _ _).1 hk)
      rw [evalSum_cons, evalSum_cons]
      unfold evalTerm
      simp only
      rw [← hm]
      ring
    · rw [evalSum_cons, evalSum_cons, ih (fun x hx => h x (by simp [hx]))]
      ring

theorem addTerms_eval (σ : U → ℝ) (ts : SumV) (s : SumV)
    (h : ∀ x ∈ s ++ ts, ∀ y ∈ s ++ ts, SameUnits x.2 y.2 → x.2 = y.2) :
    evalSum σ (ts.foldl addTerm s) = evalSum σ s + evalSum σ ts := by
  induction ts generalizing s with
  | nil => simp [evalSum]
  | cons t ts ih =>
    have hmaps := addTerm_maps s t
    have key : ∀ x ∈ addTerm s t ++ ts, ∃ x' ∈ s ++ t :: ts, x.2 = x'.2 := by
      intro x hx
      rcases List.mem_append.1 hx with hx | hx
      · rcases hmaps x hx with h | ⟨y, hy, h⟩
        · exact ⟨t, by simp, h⟩
        · exact ⟨y, by simp [hy], h⟩
      · exact ⟨x, by simp [hx], rfl⟩
    rw [List.foldl_cons, ih (addTerm s t), addTerm_eval, evalSum_cons]
    · ring
    · intro x hx
      exact h x (by simp [hx]) t (by simp)
    · intro x hx y hy
      obtain ⟨x', hx', ex⟩ := key x hx
      obtain ⟨y', hy', ey⟩ := key y hy
      rw [ex, ey]
      exact h x' hx' y' hy'

theorem checkSum_some (s s' : SumV) (h : checkSum s = some s') : s' = s := by
  unfold checkSum at h
  split at h
  · cases h
  · cases h
  · split at h
    · cases h
    · cases h; rfl

theorem sum_map_mul (l : SumV) (f : ℝ × UMap → ℝ) (k : ℝ) : (l.map fun b => k * f b).sum = k * (l.map f).sum := by
  induction l with
  | nil => simp
  | cons a l ih => simp only [List.map_cons, List.sum_cons, ih]; ring

theorem prodStep_eval (σ : U → ℝ) (hσ : Sizes σ) (a b : SumV) : evalSum σ (prodStep a b) = evalSum σ a * evalSum σ b := by
  have ht : ∀ x y : ℝ × UMap, evalTerm σ (x.1 * y.1, dropZero (mulMap x.2 y.2)) = evalTerm σ x * evalTerm σ y := by
    intro x y
    unfold evalTerm
    simp only
    rw [evalMap_dropZero, evalMap_mul σ hσ]
    ring
  unfold prodStep
  induction a with
  | nil => simp [evalSum]
  | cons x a ih =>
    rw [List.flatMap_cons, evalSum_append, ih, evalSum_cons]
    have : evalSum σ (b.map fun y => (x.1 * y.1, dropZero (mulMap x.2 y.2))) = evalTerm σ x * evalSum σ b := by
      unfold evalSum
      rw [List.map_map]
      have e : (evalTerm σ ∘ fun y : ℝ × UMap => (x.1 * y.1, dropZero (mulMap x.2 y.2))) = fun y => evalTerm σ x * evalTerm σ y := by
        funext y; exact ht x y
      rw [e, sum_map_mul]
    rw [this]
    ring

theorem prod_eval (σ : U → ℝ) (hσ : Sizes σ) (ls : List SumV) (s : SumV) :
    evalSum σ (ls.foldl prodStep s) = evalSum σ s * (ls.map (evalSum σ)).prod := by
  induction ls generalizing s with
  | nil => simp
  | cons a ls ih => rw [List.foldl_cons, ih, prodStep_eval σ hσ, List.map_cons, List.prod_cons]; ring

theorem foldl_extremum (f : ℝ → ℝ → ℝ) (ha : ∀ a b c, f (f a b) c = f a (f b c)) (v : ℝ) (l : List ℝ) :
    l.foldl f v = extremum f (v :: l) := by
  induction l generalizing v with
  | nil => rfl
  | cons a l ih =>
    rw [List.foldl_cons, ih (f v a)]
    cases l with
    | nil => rfl
    | cons b l =>
      show f (f v a) (extremum f (b :: l)) = f v (f a (extremum f (b :: l)))
      rw [ha]

theorem extremum_mul (f : ℝ → ℝ → ℝ) (k : ℝ) (hk : ∀ a b, f (a * k) (b * k) = f a b * k) (v : ℝ) (l : List ℝ) :
    extremum f ((v :: l).map (· * k)) = extremum f (v :: l) * k := by
  induction l generalizing v with
  | nil => rfl
  | cons a l ih =>
    show f (v * k) (extremum f ((a :: l).map (· * k))) = f v (extremum f (a :: l)) * k
    rw [ih a, hk]

theorem extreme_eval (σ : U → ℝ) (hσ : Sizes σ) (f : ℝ → ℝ → ℝ) (ha : ∀ a b c, f (f a b) c = f a (f b c))
    (hk : ∀ k a b : ℝ, 0 < k → f (a * k) (b * k) = f a b * k) (ls : List SumV) (hne : ∀ s ∈ ls, s ≠ []) (s : SumV)
    (h : extreme f ls = some s) : evalSum σ s = extremum f (ls.map (evalSum σ)) := by
  unfold extreme at h
  split at h
  · cases h
  · rename_i hlen
    have hone : ∀ s ∈ ls, ∃ t, s = [t] := by
      intro s hs
      match s, hne s hs with
      | [t], _ => exact ⟨t, rfl⟩
      | a :: b :: s, _ => exact absurd (List.any_eq_true.2 ⟨_, hs, by simp⟩) hlen
    have hheads : ∃ ts : SumV, ls = ts.map fun t => [t] := by
      clear h hlen
      induction ls with
      | nil => exact ⟨[], rfl⟩
      | cons a ls ih =>
        obtain ⟨t, rfl⟩ := hone a (by simp)
        obtain ⟨ts, rfl⟩ := ih (fun s hs => hne s (by simp [hs])) (fun s hs => hone s (by simp [hs]))
        exact ⟨t :: ts, rfl⟩
    obtain ⟨ts, rfl⟩ := hheads
    have hts : (ts.map fun t => [t]).filterMap List.head? = ts := by
      clear h hlen hone hne
      induction ts with
      | nil => rfl
      | cons a ts ih => simp only [List.map_cons, List.filterMap_cons, List.head?_cons, ih]
    rw [hts] at h
    cases ts with
    | nil => cases h
    | cons t rest =>
      obtain ⟨v, m⟩ := t
      simp only at h
      split at h
      · rename_i hall
        cases h
        have hm : ∀ t ∈ rest, t.2 = m := fun t ht => ((sameMap_iff _ _).1 (List.all_eq_true.1 hall t ht)).symm
        have h1 : List.map (evalSum σ) (List.map (fun t => [t]) ((v, m) :: rest)) = (v :: rest.map (·.1)).map (· * evalMap σ m) := by
          rw [List.map_map, List.map_cons, List.map_cons, List.map_map]
          congr 1
          · simp [evalSum, evalTerm]
          · apply List.map_congr_left
            intro t ht
            simp [evalSum, evalTerm, hm t ht]
        rw [h1, extremum_mul f _ (fun a b => hk _ a b (evalMap_pos σ hσ m)), ← foldl_extremum f ha, List.foldl_map]
        simp [evalSum, evalTerm]
      · cases h

theorem addTerm_ne (s : SumV) (t : ℝ × UMap) : addTerm s t ≠ [] := by
  cases s with
  | nil => simp [addTerm]
  | cons a s => obtain ⟨v, m⟩ := a; rw [addTerm]; split <;> simp

theorem checkSum_ne (s s' : SumV) (h : checkSum s = some s') : s' ≠ [] := by
  have := checkSum_some s s' h
  subst this
  rintro rfl
  simp [checkSum, typesOf] at h

theorem prodStep_ne (a b : SumV) (ha : a ≠ []) (hb : b ≠ []) : prodStep a b ≠ [] := by
  cases a with
  | nil => exact absurd rfl ha
  | cons x a =>
    cases b with
    | nil => exact absurd rfl hb
    | cons y b => simp [prodStep]

theorem prods_ne (ls : List SumV) (hl : ∀ s ∈ ls, s ≠ []) (s : SumV) (hs : s ≠ []) : ls.foldl prodStep s ≠ [] := by
  induction ls generalizing s with
  | nil => exact hs
  | cons a ls ih => exact ih (fun s h => hl s (by simp [h])) _ (prodStep_ne _ _ hs (hl a (by simp)))

theorem extreme_ne (f : ℝ → ℝ → ℝ) (ls : List SumV) (s : SumV) (h : extreme f ls = some s) : s ≠ [] := by
  unfold extreme at h
  split at h
  · cases h
  · split at h
    · cases h
    · split at h
      · cases h; simp
      · cases h

mutual
theorem createSum_ne : ∀ (e : Expr) (s : SumV), createSum e = some s → s ≠ []
  | .unit x, s, h => by rw [createSum] at h; cases h; simp
  | .sum l, s, h => by
    rw [createSum] at h
    split at h
    · cases h
    · exact checkSum_ne _ _ h
  | .prod l, s, h => by
    rw [createSum] at h
    split at h
    · cases h
    · rename_i ls hl
      cases h
      exact prods_ne ls (createSums_ne l ls hl) _ (by simp)
  | .negate e, s, h => by
    rw [createSum] at h
    split at h
    · cases h
    · rename_i s' hs
      cases h
      have := createSum_ne e s' hs
      simpa using this
  | .invert e, s, h => by
    rw [createSum] at h
    split at h
    · cases h
    · rename_i s' hs
      split at h
      · cases h
      · cases h
        have := createSum_ne e s' hs
        simpa using this
  | .min l, s, h => by
    rw [createSum] at h
    split at h
    · cases h
    · exact extreme_ne _ _ _ h
  | .max l, s, h => by
    rw [createSum] at h
    split at h
    · cases h
    · exact extreme_ne _ _ _ h
  | .clamp _ _ _, s, h => by rw [createSum] at h; cases h

theorem createSums_ne : ∀ (l : List Expr) (ls : List SumV), createSums l = some ls → ∀ s ∈ ls, s ≠ []
  | [], ls, h => by rw [createSums] at h; cases h; simp
  | e :: l, ls, h => by
    rw [createSums] at h
    split at h
    · rename_i s ls' hs hl
      cases h
      intro x hx
      rcases List.mem_cons.1 hx with rfl | hx
      · exact createSum_ne e _ hs
      · exact createSums_ne l ls' hl x hx
    · cases h
end

theorem min_scale (k a b : ℝ) (h : 0 < k) : Min.min (a * k) (b * k) = Min.min a b * k := (min_mul_of_nonneg a b (le_of_lt h)).symm

theorem max_scale (k a b : ℝ) (h : 0 < k) : Max.max (a * k) (b * k) = Max.max a b * k := (max_mul_of_nonneg a b (le_of_lt h)).symm

/-! ### Sum values -/

mutual
/-- **C41** A sum value stands for the same quantity as the expression, whatever the sizes of the
units.  Missing: sums of terms with the same units to different powers, see
`sumValue_violated`. -/
theorem sumValue_partial (σ : U → ℝ) (hσ : Sizes σ) : ∀ (e : Expr) (s : SumV), Consistent e → createSum e = some s → evalSum σ s = eval σ e
  | .unit x, s, _, h => by
    rw [createSum] at h
    cases h
    rw [eval, ← evalTerm_unit σ hσ]
    simp [evalSum]
  | .sum l, s, hc, h => by
    rw [createSum] at h
    rw [Consistent] at hc
    split at h
    · cases h
    · rename_i ls hl
      rw [checkSum_some _ _ h, addTerms_eval σ _ _ (by simpa using hc.2 ls hl), evalSum_flatten, sumValues σ hσ l ls hc.1 hl, eval]
      simp [evalSum]
  | .prod l, s, hc, h => by
    rw [createSum] at h
    rw [Consistent] at hc
    split at h
    · cases h
    · rename_i ls hl
      cases h
      rw [prod_eval σ hσ, sumValues σ hσ l ls hc hl, eval]
      simp [evalSum, evalTerm, evalMap_empty]
  | .negate e, s, hc, h => by
    rw [createSum] at h
    rw [Consistent] at hc
    split at h
    · cases h
    · rename_i s' hs
      cases h
      rw [eval, ← sumValue_partial σ hσ e s' hc hs]
      unfold evalSum
      rw [List.map_map]
      have e1 : (evalTerm σ ∘ fun t : ℝ × UMap => (-t.1, t.2)) = fun t => -1 * evalTerm σ t := by
        funext t; simp [evalTerm]
      rw [e1, sum_map_mul]
      ring
  | .invert e, s, hc, h => by
    rw [createSum] at h
    rw [Consistent] at hc
    split at h
    · cases h
    · rename_i s' hs
      split at h
      · cases h
      · rename_i hlen
        cases h
        rw [eval, ← sumValue_partial σ hσ e s' hc hs]
        match s', createSum_ne e s' hs, hlen with
        | [t], _, _ => simp [evalSum, evalTerm_inv]
        | a :: b :: s, _, hlen => simp at hlen
  | .min l, s, hc, h => by
    rw [createSum] at h
    rw [Consistent] at hc
    split at h
    · cases h
    · rename_i ls hl
      rw [eval, ← sumValues σ hσ l ls hc hl]
      exact extreme_eval σ hσ _ min_assoc min_scale ls (createSums_ne l ls hl) s h
  | .max l, s, hc, h => by
    rw [createSum] at h
    rw [Consistent] at hc
    split at h
    · cases h
    · rename_i ls hl
      rw [eval, ← sumValues σ hσ l ls hc hl]
      exact extreme_eval σ hσ _ max_assoc max_scale ls (createSums_ne l ls hl) s h
  | .clamp _ _ _, s, _, h => by rw [createSum] at h; cases h

theorem sumValues (σ : U → ℝ) (hσ : Sizes σ) : ∀ (l : List Expr) (ls : List SumV), Consistents l → createSums l = some ls →
    ls.map (evalSum σ) = evals σ l
  | [], ls, _, h => by rw [createSums] at h; cases h; rfl
  | e :: l, ls, hc, h => by
    rw [createSums] at h
    rw [Consistents] at hc
    split at h
    · rename_i s ls' hs hl
      cases h
      rw [List.map_cons, sumValue_partial σ hσ e s hc.1 hs, sumValues σ hσ l ls' hc.2 hl, evals]
    · cases h
end

theorem constMap_foldl (ls : List SumV) (h : ∀ s ∈ ls, ∃ v, s = [(v, UMap.empty)]) (v : ℝ) :
    ∃ w, ls.foldl prodStep [(v, .empty)] = [(w, .empty)] := by
  induction ls generalizing v with
  | nil => exact ⟨v, rfl⟩
  | cons a ls ih =>
    obtain ⟨w, rfl⟩ := h a (by simp)
    have : prodStep [(v, UMap.empty)] [(w, UMap.empty)] = [(v * w, UMap.empty)] := by
      simp only [prodStep, List.flatMap_cons, List.flatMap_nil, List.map_cons, List.map_nil, List.append_nil]
      rfl
    rw [List.foldl_cons, this]
    exact ih (fun s hs => h s (by simp [hs])) _

theorem constMap_sum (ts : SumV) (h : ∀ t ∈ ts, t.2 = UMap.empty) (s : SumV) (hs : s = [] ∨ ∃ v, s = [(v, UMap.empty)]) :
    ts.foldl addTerm s = [] ∨ ∃ w, ts.foldl addTerm s = [(w, UMap.empty)] := by
  induction ts generalizing s with
  | nil => exact hs
  | cons t ts ih =>
    obtain ⟨x, m⟩ := t
    have hm : m = UMap.empty := h (x, m) (by simp)
    subst hm
    rw [List.foldl_cons]
    apply ih (fun t ht => h t (by simp [ht]))
    right
    rcases hs with rfl | ⟨v, rfl⟩
    · exact ⟨x, rfl⟩
    · refine ⟨v + x, ?_⟩
      rw [addTerm, if_pos ((sameKeys_iff _ _).2 fun _ => Iff.rfl)]

theorem extreme_maps (f : ℝ → ℝ → ℝ) (ls : List SumV) (s : SumV) (h : extreme f ls = some s) :
    ∃ w m, s = [(w, m)] ∧ ∃ s' ∈ ls, ∃ t ∈ s', t.2 = m := by
  unfold extreme at h
  split at h
  · cases h
  · split at h
    · cases h
    · rename_i v m rest heq
      split at h
      · cases h
        refine ⟨_, m, rfl, ?_⟩
        have : (v, m) ∈ ls.filterMap List.head? := by rw [heq]; simp
        obtain ⟨s', hs', hh⟩ := List.mem_filterMap.1 this
        exact ⟨s', hs', (v, m), List.mem_of_mem_head? hh, rfl⟩
      · cases h

mutual
theorem const_map : ∀ (e : Expr) (s : SumV), Const e → createSum e = some s → ∃ v, s = [(v, UMap.empty)]
  | .unit x, s, hc, h => by
    rw [createSum] at h
    rw [Const] at hc
    cases h
    refine ⟨x.value, ?_⟩
    unfold unitTerm
    rw [hc]
    rfl
  | .sum l, s, hc, h => by
    rw [createSum] at h
    rw [Const] at hc
    split at h
    · cases h
    · rename_i ls hl
      have hne := checkSum_ne _ _ h
      have := checkSum_some _ _ h
      subst this
      rcases constMap_sum ls.flatten (fun t ht => by
          obtain ⟨s, hs, ht⟩ := List.mem_flatten.1 ht
          obtain ⟨v, rfl⟩ := const_maps l ls hc hl s hs
          simp at ht
          rw [ht]) [] (.inl rfl) with h0 | h0
      · exact absurd h0 hne
      · exact h0
  | .prod l, s, hc, h => by
    rw [createSum] at h
    rw [Const] at hc
    split at h
    · cases h
    · rename_i ls hl
      cases h
      exact constMap_foldl ls (const_maps l ls hc hl) 1
  | .negate e, s, hc, h => by
    rw [createSum] at h
    rw [Const] at hc
    split at h
    · cases h
    · rename_i s' hs
      cases h
      obtain ⟨v, rfl⟩ := const_map e s' hc hs
      exact ⟨_, rfl⟩
  | .invert e, s, hc, h => by
    rw [createSum] at h
    rw [Const] at hc
    split at h
    · cases h
    · rename_i s' hs
      split at h
      · cases h
      · cases h
        obtain ⟨v, rfl⟩ := const_map e s' hc hs
        exact ⟨_, rfl⟩
  | .min l, s, hc, h => by
    rw [createSum] at h
    rw [Const] at hc
    split at h
    · cases h
    · rename_i ls hl
      obtain ⟨w, m, rfl, s', hs', t, ht, rfl⟩ := extreme_maps _ _ _ h
      obtain ⟨v, rfl⟩ := const_maps l ls hc hl s' hs'
      simp at ht
      subst ht
      exact ⟨w, rfl⟩
  | .max l, s, hc, h => by
    rw [createSum] at h
    rw [Const] at hc
    split at h
    · cases h
    · rename_i ls hl
      obtain ⟨w, m, rfl, s', hs', t, ht, rfl⟩ := extreme_maps _ _ _ h
      obtain ⟨v, rfl⟩ := const_maps l ls hc hl s' hs'
      simp at ht
      subst ht
      exact ⟨w, rfl⟩
  | .clamp _ _ _, s, _, h => by rw [createSum] at h; cases h

theorem const_maps : ∀ (l : List Expr) (ls : List SumV), Consts l → createSums l = some ls → ∀ s ∈ ls, ∃ v, s = [(v, UMap.empty)]
  | [], ls, _, h => by rw [createSums] at h; cases h; simp
  | e :: l, ls, hc, h => by
    rw [createSums] at h
    rw [Consts] at hc
    split at h
    · rename_i s ls' hs hl
      cases h
      intro x hx
      rcases List.mem_cons.1 hx with rfl | hx
      · exact const_map e _ hc.1 hs
      · exact const_maps l ls' hc.2 hl x hx
    · cases h
end

/-- A canonical unit, or one that has none. -/
def Own (u : U) : Prop := u ≠ .number ∧ ∀ c, canon u = some c → c = u

/-- At most one unit, to the first power. -/
def First (m : UMap) : Prop := m = .empty ∨ ∃ u, m = .one u ∧ Own u

theorem canon_canon (u c : U) (h : canon u = some c) : canon c = some c := by
  cases u <;> simp [canon] at h <;> subst h <;> rfl

theorem canon_number (u : U) (h : canon u = some .number) : u = .number := by
  cases u <;> simp [canon] at h ⊢

theorem first_same (a b : UMap) (ha : First a) (hb : First b) (h : SameUnits a b) : a = b := by
  rcases ha with rfl | ⟨u, rfl, -⟩ <;> rcases hb with rfl | ⟨w, rfl, -⟩
  · rfl
  · have := (h w).1 rfl; simp [UMap.one] at this
  · have := (h u).2 rfl; simp [UMap.one] at this
  · have : u = w := by
      by_contra hne
      have := (h u).2 (by simp [UMap.one, hne])
      simp [UMap.one] at this
    rw [this]

theorem mulMap_empty (m : UMap) (hm : First m) : dropZero (mulMap m .empty) = m ∧ dropZero (mulMap .empty m) = m := by
  rcases hm with rfl | ⟨u, rfl, -⟩
  · exact ⟨rfl, rfl⟩
  · constructor <;> funext x <;> by_cases h : x = u <;> simp [dropZero, mulMap, UMap.one, UMap.empty, h]

theorem unitTerm_first (x : UV) : First (unitTerm x).2 := by
  unfold unitTerm First
  cases hc : canon x.unit with
  | none =>
    refine .inr ⟨_, rfl, fun e => ?_, fun c h => ?_⟩
    · rw [e] at hc; cases hc
    · rw [hc] at h; cases h
  | some c =>
    have hb : ∀ u : U, canon u = some u → (if u = .number then UMap.empty else UMap.one u) = UMap.empty ∨
        ∃ c, (if u = .number then UMap.empty else UMap.one u) = UMap.one c ∧ Own c := by
      intro u hu
      by_cases h : u = .number
      · rw [if_pos h]; exact .inl rfl
      · rw [if_neg h]; exact .inr ⟨u, rfl, h, fun c hc => by rw [hu] at hc; cases hc; rfl⟩
    simp only
    split
    · exact hb _ (canon_canon _ _ hc)
    · rename_i hne
      have : c = x.unit := by simpa using hne
      rw [← this]
      exact hb _ (canon_canon _ _ hc)

theorem prod_first (ls : List SumV) (h : ∀ s ∈ ls, ∃ v, s = [(v, UMap.empty)]) (s : SumV) (hs : ∀ t ∈ s, First t.2) :
    ∀ t ∈ ls.foldl prodStep s, First t.2 := by
  induction ls generalizing s with
  | nil => exact hs
  | cons a ls ih =>
    obtain ⟨w, rfl⟩ := h a (by simp)
    rw [List.foldl_cons]
    apply ih (fun s hs => h s (by simp [hs]))
    intro t ht
    simp only [prodStep, List.mem_flatMap, List.map_cons, List.map_nil, List.mem_singleton] at ht
    obtain ⟨x, hx, rfl⟩ := ht
    rw [(mulMap_empty x.2 (hs x hx)).1]
    exact hs x hx

mutual
theorem linear_first : ∀ (e : Expr) (s : SumV), Linear e → createSum e = some s → ∀ t ∈ s, First t.2
  | .unit x, s, _, h => by
    rw [createSum] at h
    cases h
    intro t ht
    simp at ht
    subst ht
    exact unitTerm_first x
  | .sum l, s, hc, h => by
    rw [createSum] at h
    rw [Linear] at hc
    split at h
    · cases h
    · rename_i ls hl
      have := checkSum_some _ _ h
      subst this
      have hall := linears_first l ls hc hl
      have key : ∀ (ts s : SumV), (∀ t ∈ ts, First t.2) → (∀ t ∈ s, First t.2) → ∀ t ∈ ts.foldl addTerm s, First t.2 := by
        intro ts
        induction ts with
        | nil => intro s _ hs; exact hs
        | cons a ts ih =>
          intro s h1 h2
          rw [List.foldl_cons]
          apply ih _ (fun t ht => h1 t (by simp [ht]))
          intro t ht
          rcases addTerm_maps s a t ht with e | ⟨y, hy, e⟩
          · rw [e]; exact h1 a (by simp)
          · rw [e]; exact h2 y hy
      exact key ls.flatten [] (fun t ht => by
        obtain ⟨s, hs, ht⟩ := List.mem_flatten.1 ht
        exact hall s hs t ht) (by simp)
  | .prod l, s, hc, h => by
    rw [createSum] at h
    rw [Linear] at hc
    split at h
    · cases h
    · rename_i ls hl
      cases h
      exact oneLinear_first l ls hc hl 1
  | .negate e, s, hc, h => by
    rw [createSum] at h
    rw [Linear] at hc
    split at h
    · cases h
    · rename_i s' hs
      cases h
      intro t ht
      obtain ⟨x, hx, rfl⟩ := List.mem_map.1 ht
      exact linear_first e s' hc hs x hx
  | .invert e, s, hc, h => by
    rw [Linear] at hc
    obtain ⟨v, rfl⟩ := const_map (.invert e) s (by rw [Const]; exact hc) h
    intro t ht
    simp at ht
    subst ht
    exact .inl rfl
  | .min l, s, hc, h => by
    rw [createSum] at h
    rw [Linear] at hc
    split at h
    · cases h
    · rename_i ls hl
      obtain ⟨w, m, rfl, s', hs', t, ht, rfl⟩ := extreme_maps _ _ _ h
      intro x hx
      simp at hx
      subst hx
      exact linears_first l ls hc hl s' hs' t ht
  | .max l, s, hc, h => by
    rw [createSum] at h
    rw [Linear] at hc
    split at h
    · cases h
    · rename_i ls hl
      obtain ⟨w, m, rfl, s', hs', t, ht, rfl⟩ := extreme_maps _ _ _ h
      intro x hx
      simp at hx
      subst hx
      exact linears_first l ls hc hl s' hs' t ht
  | .clamp _ _ _, s, _, h => by rw [createSum] at h; cases h

theorem linears_first : ∀ (l : List Expr) (ls : List SumV), Linears l → createSums l = some ls → ∀ s ∈ ls, ∀ t ∈ s, First t.2
  | [], ls, _, h => by rw [createSums] at h; cases h; simp
  | e :: l, ls, hc, h => by
    rw [createSums] at h
    rw [Linears] at hc
    split at h
    · rename_i s ls' hs hl
      cases h
      intro x hx
      rcases List.mem_cons.1 hx with rfl | hx
      · exact linear_first e _ hc.1 hs
      · exact linears_first l ls' hc.2 hl x hx
    · cases h

theorem oneLinear_first : ∀ (l : List Expr) (ls : List SumV), OneLinear l → createSums l = some ls → ∀ v : ℝ,
    ∀ t ∈ ls.foldl prodStep [(v, UMap.empty)], First t.2
  | [], ls, _, h, v => by
    rw [createSums] at h
    cases h
    intro t ht
    simp at ht
    subst ht
    exact .inl rfl
  | e :: l, ls, hc, h, v => by
    rw [createSums] at h
    rw [OneLinear] at hc
    split at h
    · rename_i s ls' hs hl
      cases h
      rw [List.foldl_cons]
      rcases hc with ⟨h1, h2⟩ | ⟨h1, h2⟩
      · obtain ⟨w, rfl⟩ := const_map e s h1 hs
        have : prodStep [(v, UMap.empty)] [(w, UMap.empty)] = [(v * w, UMap.empty)] := by
          simp only [prodStep, List.flatMap_cons, List.flatMap_nil, List.map_cons, List.map_nil, List.append_nil]
          rfl
        rw [this]
        exact oneLinear_first l ls' h2 hl _
      · apply prod_first ls' (const_maps l ls' h2 hl)
        intro t ht
        simp only [prodStep, List.flatMap_cons, List.flatMap_nil, List.append_nil, List.mem_map] at ht
        obtain ⟨x, hx, rfl⟩ := ht
        have hf := linear_first e s h1 hs x hx
        simp only
        rw [(mulMap_empty x.2 hf).2]
        exact hf
    · cases h
end

mutual
theorem const_linear : ∀ e : Expr, Const e → Linear e
  | .unit _, _ => by rw [Linear]; trivial
  | .sum l, h => by rw [Const] at h; rw [Linear]; exact consts_linears l h
  | .prod l, h => by rw [Const] at h; rw [Linear]; exact consts_oneLinear l h
  | .negate e, h => by rw [Const] at h; rw [Linear]; exact const_linear e h
  | .invert e, h => by rw [Const] at h; rw [Linear]; exact h
  | .min l, h => by rw [Const] at h; rw [Linear]; exact consts_linears l h
  | .max l, h => by rw [Const] at h; rw [Linear]; exact consts_linears l h
  | .clamp a b c, h => by rw [Const] at h; rw [Linear]; exact ⟨const_linear a h.1, const_linear b h.2.1, const_linear c h.2.2⟩

theorem consts_linears : ∀ l : List Expr, Consts l → Linears l
  | [], _ => by rw [Linears]; trivial
  | e :: l, h => by rw [Consts] at h; rw [Linears]; exact ⟨const_linear e h.1, consts_linears l h.2⟩

theorem consts_oneLinear : ∀ l : List Expr, Consts l → OneLinear l
  | [], _ => by rw [OneLinear]; trivial
  | e :: l, h => by rw [Consts] at h; rw [OneLinear]; exact .inl ⟨h.1, consts_oneLinear l h.2⟩
end

mutual
theorem linear_consistent : ∀ e : Expr, Linear e → Consistent e
  | .unit _, _ => by rw [Consistent]; trivial
  | .sum l, h => by
    rw [Linear] at h
    rw [Consistent]
    refine ⟨linears_consistents l h, fun ls hl t ht t' ht' hs => ?_⟩
    obtain ⟨s, hs1, ht1⟩ := List.mem_flatten.1 ht
    obtain ⟨s', hs1', ht1'⟩ := List.mem_flatten.1 ht'
    exact first_same _ _ (linears_first l ls h hl s hs1 t ht1) (linears_first l ls h hl s' hs1' t' ht1') hs
  | .prod l, h => by rw [Linear] at h; rw [Consistent]; exact oneLinear_consistents l h
  | .negate e, h => by rw [Linear] at h; rw [Consistent]; exact linear_consistent e h
  | .invert e, h => by rw [Linear] at h; rw [Consistent]; exact const_consistent e h
  | .min l, h => by rw [Linear] at h; rw [Consistent]; exact linears_consistents l h
  | .max l, h => by rw [Linear] at h; rw [Consistent]; exact linears_consistents l h
  | .clamp a b c, h => by
    rw [Linear] at h; rw [Consistent]; exact ⟨linear_consistent a h.1, linear_consistent b h.2.1, linear_consistent c h.2.2⟩

theorem const_consistent : ∀ e : Expr, Const e → Consistent e
  | .unit _, _ => by rw [Consistent]; trivial
  | .sum l, h => by
    rw [Const] at h
    rw [Consistent]
    refine ⟨consts_consistents l h, fun ls hl t ht t' ht' hs => ?_⟩
    obtain ⟨s, hs1, ht1⟩ := List.mem_flatten.1 ht
    obtain ⟨s', hs1', ht1'⟩ := List.mem_flatten.1 ht'
    obtain ⟨v, rfl⟩ := const_maps l ls h hl s hs1
    obtain ⟨v', rfl⟩ := const_maps l ls h hl s' hs1'
    simp at ht1 ht1'
    rw [ht1, ht1']
  | .prod l, h => by rw [Const] at h; rw [Consistent]; exact consts_consistents l h
  | .negate e, h => by rw [Const] at h; rw [Consistent]; exact const_consistent e h
  | .invert e, h => by rw [Const] at h; rw [Consistent]; exact const_consistent e h
  | .min l, h => by rw [Const] at h; rw [Consistent]; exact consts_consistents l h
  | .max l, h => by rw [Const] at h; rw [Consistent]; exact consts_consistents l h
  | .clamp a b c, h => by
    rw [Const] at h; rw [Consistent]; exact ⟨const_consistent a h.1, const_consistent b h.2.1, const_consistent c h.2.2⟩

theorem consts_consistents : ∀ l : List Expr, Consts l → Consistents l
  | [], _ => by rw [Consistents]; trivial
  | e :: l, h => by rw [Consts] at h; rw [Consistents]; exact ⟨const_consistent e h.1, consts_consistents l h.2⟩

theorem linears_consistents : ∀ l : List Expr, Linears l → Consistents l
  | [], _ => by rw [Consistents]; trivial
  | e :: l, h => by rw [Linears] at h; rw [Consistents]; exact ⟨linear_consistent e h.1, linears_consistents l h.2⟩

theorem oneLinear_consistents : ∀ l : List Expr, OneLinear l → Consistents l
  | [], _ => by rw [Consistents]; trivial
  | e :: l, h => by
    rw [OneLinear] at h
    rw [Consistents]
    rcases h with h | h
    · exact ⟨const_consistent e h.1, oneLinear_consistents l h.2⟩
    · exact ⟨linear_consistent e h.1, consts_consistents l h.2⟩
end

/-- **C41** In particular for all expressions `calc()` allows. -/
theorem sumValue_linear (σ : U → ℝ) (hσ : Sizes σ) (e : Expr) (hl : Linear e) (s : SumV) (h : createSum e = some s) :
    evalSum σ s = eval σ e := sumValue_partial σ hσ e s (linear_consistent e hl) h

/-- **C41** Units that cancel in a product are left out. -/
theorem product_powers (l : List Expr) (s : SumV) (h : createSum (.prod l) = some s) (t : ℝ × UMap) (ht : t ∈ s) (u : U) : t.2 u ≠ some 0 := by
  rw [createSum] at h
  split at h
  · cases h
  · rename_i ls hl
    cases h
    have key : ∀ (ls : List SumV) (s : SumV), (∀ t ∈ s, ∀ u, t.2 u ≠ some 0) → ∀ t ∈ ls.foldl prodStep s, ∀ u, t.2 u ≠ some 0 := by
      intro ls
      induction ls with
      | nil => intro s hs; exact hs
      | cons a ls ih =>
        intro s hs
        apply ih
        intro t ht u
        simp only [prodStep, List.mem_flatMap, List.mem_map] at ht
        obtain ⟨x, -, y, -, rfl⟩ := ht
        simp only [dropZero]
        split
        · simp
        · assumption
    exact key ls _ (by simp [UMap.empty]) t ht u

/-! Sum values exist. -/

theorem mulTypes_none (a b : NumType.NType) (ha : a.hint = none) (hb : b.hint = none) :
    ∃ t, NumType.mulTypes a b = some t ∧ t.hint = none := by
  unfold NumType.mulTypes NumType.unifyHints
  simp only [ha, hb]
  exact ⟨_, rfl, rfl⟩

theorem mulAll_some (l : List NumType.NType) (hl : ∀ t ∈ l, t.hint = none) (t : NumType.NType) (ht : t.hint = none) :
    ∃ r, mulAll t l = some r ∧ r.hint = none := by
  induction l generalizing t with
  | nil => exact ⟨t, rfl, ht⟩
  | cons a l ih =>
    obtain ⟨r, hr, hh⟩ := mulTypes_none t a ht (hl a (by simp))
    rw [mulAll, hr]
    exact ih (fun t ht => hl t (by simp [ht])) r hh

theorem typeOfMap_some (m : UMap) : ∃ t, typeOfMap m = some t ∧ t.hint = none := by
  unfold typeOfMap
  generalize hg : U.all.filterMap (fun u => (m u).map fun p => (⟨fun k => ((NumType.createType u).pow k).map fun _ => p, none⟩ : NumType.NType)) = l
  have hl : ∀ t ∈ l, t.hint = none := by
    intro t ht
    rw [← hg] at ht
    obtain ⟨u, -, hu⟩ := List.mem_filterMap.1 ht
    cases hm : m u with
    | none => rw [hm] at hu; cases hu
    | some p => rw [hm] at hu; cases hu; rfl
  cases l with
  | nil => exact ⟨_, rfl, rfl⟩
  | cons t l => exact mulAll_some l (fun t ht => hl t (by simp [ht])) t (hl t (by simp))

theorem typesOf_some (s : SumV) : ∃ l, typesOf s = some l ∧ l.length = s.length ∧ ∀ t ∈ l, t.hint = none := by
  induction s with
  | nil => exact ⟨[], rfl, rfl, by simp⟩
  | cons a s ih =>
    obtain ⟨t, ht, hh⟩ := typeOfMap_some a.2
    obtain ⟨l, hl, hlen, hall⟩ := ih
    refine ⟨t :: l, by rw [typesOf, ht, hl], by simp [hlen], ?_⟩
    intro x hx
    rcases List.mem_cons.1 hx with rfl | hx
    · exact hh
    · exact hall x hx

theorem checkSum_ok (s : SumV) (hs : s ≠ []) : checkSum s = some s := by
  obtain ⟨l, hl, hlen, hall⟩ := typesOf_some s
  unfold checkSum
  rw [hl]
  match l, hlen with
  | [], hlen => simp at hlen; exact absurd (by simpa using hlen.symm) hs
  | t :: l, _ =>
    obtain ⟨r, hr, -⟩ := mulAll_some l (fun t ht => hall t (by simp [ht])) t (hall t (by simp))
    simp only [hr]

theorem addTerms_ne (ts s : SumV) (h : s ≠ [] ∨ ts ≠ []) : ts.foldl addTerm s ≠ [] := by
  induction ts generalizing s with
  | nil => exact h.resolve_right (by simp)
  | cons a ts ih => exact ih _ (.inl (addTerm_ne s a))

mutual
/-- Sums, products, negations, and inverses of numbers. -/
def Arithmetic : Expr → Prop
  | .unit _ => True
  | .sum l => l ≠ [] ∧ Arithmetics l
  | .prod l => Arithmetics l
  | .negate e => Arithmetic e
  | .invert e => Const e ∧ Arithmetic e
  | .min _ => False
  | .max _ => False
  | .clamp _ _ _ => False

def Arithmetics : List Expr → Prop
  | [] => True
  | e :: l => Arithmetic e ∧ Arithmetics l
end

mutual
/-- **C41** Arithmetic expressions do have sum values. -/
theorem sumValue_defined : ∀ e : Expr, Arithmetic e → ∃ s, createSum e = some s
  | .unit x, _ => ⟨_, by rw [createSum]⟩
  | .sum l, h => by
    rw [Arithmetic] at h
    obtain ⟨ls, hl⟩ := sumValues_defined l h.2
    have hfl : ls.flatten ≠ [] := by
      match l, h.1, ls, hl with
      | e :: l, _, ls, hl =>
        have hne := createSums_ne (e :: l) ls hl
        rw [createSums] at hl
        split at hl
        · rename_i s ls' hs hl'
          cases hl
          have := hne s (by simp)
          cases s with
          | nil => exact absurd rfl this
          | cons t s => simp
        · cases hl
    exact ⟨_, by rw [createSum, hl]; exact checkSum_ok _ (addTerms_ne _ _ (.inr hfl))⟩
  | .prod l, h => by
    rw [Arithmetic] at h
    obtain ⟨ls, hl⟩ := sumValues_defined l h
    exact ⟨_, by rw [createSum, hl]⟩
  | .negate e, h => by
    rw [Arithmetic] at h
    obtain ⟨s, hs⟩ := sumValue_defined e h
    exact ⟨_, by rw [createSum, hs]⟩
  | .invert e, h => by
    rw [Arithmetic] at h
    obtain ⟨s, hs⟩ := sumValue_defined e h.2
    obtain ⟨v, rfl⟩ := const_map e s h.1 hs
    exact ⟨[invTerm (v, .empty)], by rw [createSum, hs]; rfl⟩
  | .min _, h => by rw [Arithmetic] at h; exact h.elim
  | .max _, h => by rw [Arithmetic] at h; exact h.elim
  | .clamp _ _ _, h => by rw [Arithmetic] at h; exact h.elim

theorem sumValues_defined : ∀ l : List Expr, Arithmetics l → ∃ ls, createSums l = some ls
  | [], _ => ⟨[], by rw [createSums]⟩
  | e :: l, h => by
    rw [Arithmetics] at h
    obtain ⟨s, hs⟩ := sumValue_defined e h.1
    obtain ⟨ls, hl⟩ := sumValues_defined l h.2
    exact ⟨s :: ls, by rw [createSums, hs, hl]⟩
end

/-- There are such sizes, for any sizes of the units that are not in a fixed ratio to others. -/
noncomputable def sizesOf (ρ : U → ℝ) (u : U) : ℝ :=
  match canon u with
  | some .number => 1
  | some c => ratio u * ρ c
  | none => ρ u

theorem sizes_exist (ρ : U → ℝ) (h : ∀ u, 0 < ρ u) : Sizes (sizesOf ρ) ∧ ∀ u, canon u = none ∨ canon u = some u → u ≠ .number → sizesOf ρ u = ρ u := by
  refine ⟨⟨fun u => ?_, rfl, fun u c hc => ?_⟩, fun u hu hn => ?_⟩
  · have hp := Real.pi_pos
    cases u <;> simp only [sizesOf, canon, ratio] <;> first | exact h _ | (have := h .px; have := h .deg; have := h .ms; have := h .hz; have := h .dppx; positivity)
  · cases u <;> simp only [canon, Option.some.injEq, reduceCtorEq] at hc <;> subst hc <;> simp [sizesOf, canon, ratio]
  · cases u <;> simp only [canon, Option.some.injEq, reduceCtorEq, or_self, or_false, false_or] at hu <;> first | exact absurd rfl hn | simp [sizesOf, canon, ratio]

/-- A non-trivial instance of the hypotheses: calc((1px + 2em) * 3 - 1in / 2). -/
example : ∃ (σ : U → ℝ) (e : Expr), Sizes σ ∧ Linear e ∧ Arithmetic e ∧ eval σ e = -3 := by
  refine ⟨sizesOf fun u => if u = .em then 7 else 1,
    .sum [.prod [.sum [.unit ⟨1, .px⟩, .unit ⟨2, .em⟩], .unit ⟨3, .number⟩],
      .negate (.prod [.unit ⟨1, .inch⟩, .invert (.unit ⟨2, .number⟩)])], (sizes_exist _ fun u => ?_).1, ?_, ?_, ?_⟩
  · split <;> norm_num
  · simp [Linear, Linears, OneLinear, Const, Consts]
  · simp [Arithmetic, Arithmetics, Const, Consts]
  · simp [eval, evals, sizesOf, canon, ratio]; norm_num

/-- **C41** is violated: `px * px / em + em * em / px`, a length, is reduced to
`2 * px * px / em`. -/
theorem sumValue_violated : ∃ (σ : U → ℝ) (e : Expr) (s : SumV), Sizes σ ∧ createSum e = some s ∧ evalSum σ s = 1 ∧ eval σ e = 9 / 2 := by
  let σ := sizesOf fun u => if u = .em then 2 else 1
  let p := Expr.prod [.unit ⟨1, .px⟩, .unit ⟨1, .px⟩, .invert (.unit ⟨1, .em⟩)]
  let q := Expr.prod [.unit ⟨1, .em⟩, .unit ⟨1, .em⟩, .invert (.unit ⟨1, .px⟩)]
  have hσ : Sizes σ := (sizes_exist _ fun u => by split <;> norm_num).1
  have hpx : unitTerm ⟨1, .px⟩ = (1, .one .px) := rfl
  have hem : unitTerm ⟨1, .em⟩ = (1, .one .em) := rfl
  have hp : createSum p = some [(1, fun u => if u = .px then some 2 else if u = .em then some (-1) else none)] := by
    simp only [p, createSum, createSums, hpx, hem, List.length_singleton, Nat.lt_irrefl, if_false, List.map_cons, List.map_nil, List.foldl_cons,
      List.foldl_nil, prodStep, List.flatMap_cons, List.flatMap_nil, List.append_nil, invTerm]
    congr 2
    refine Prod.ext (by norm_num) ?_
    funext u
    cases u <;> rfl
  have hq : createSum q = some [(1, fun u => if u = .px then some (-1) else if u = .em then some 2 else none)] := by
    simp only [q, createSum, createSums, hpx, hem, List.length_singleton, Nat.lt_irrefl, if_false, List.map_cons, List.map_nil, List.foldl_cons,
      List.foldl_nil, prodStep, List.flatMap_cons, List.flatMap_nil, List.append_nil, invTerm]
    congr 2
    refine Prod.ext (by norm_num) ?_
    funext u
    cases u <;> rfl
  refine ⟨σ, .sum [p, q], [(1 + 1, fun u => if u = .px then some 2 else if u = .em then some (-1) else none)], hσ, ?_, ?_, ?_⟩
  · have : ∀ s : SumV, s ≠ [] → checkSum s = some s := checkSum_ok
    simp only [createSum, createSums, hp, hq, List.flatten_cons, List.flatten_nil, List.append_nil, List.cons_append, List.nil_append,
      List.foldl_cons, List.foldl_nil, addTerm]
    rw [if_pos (by decide)]
    exact this _ (by simp)
  · simp [evalSum, evalTerm, evalMap, U.all, σ, sizesOf, canon, ratio]
    norm_num
  · simp only [p, q, eval, evals, List.sum_cons, List.sum_nil, List.prod_cons, List.prod_nil, σ, sizesOf, canon, ratio,
      if_neg (show ¬ U.px = U.em by decide), if_true]
    norm_num

/-! ### Conversion to units -/

theorem convert_size (σ : U → ℝ) (hσ : Sizes σ) (x y : UV) (u : U) (h : convert x (some u) = .ok y) :
    y.unit = u ∧ y.value * σ u = x.value * σ x.unit := by
  unfold convert at h
  simp only at h
  split at h
  · rename_i hu
    cases h
    exact ⟨hu, by rw [← hu]⟩
  · split at h
    · rename_i c1 c2 h1 h2
      split at h
      · cases h
      · rename_i hc
        have hc : c1 = c2 := by simpa using hc
        subst hc
        cases h
        refine ⟨rfl, ?_⟩
        have e1 := hσ.canon x.unit c1 h1
        have e2 := hσ.canon u c1 h2
        have hr : ratio u ≠ 0 := by
          intro e
          rw [e, zero_mul] at e2
          exact absurd e2 (ne_of_gt (hσ.pos u))
        simp only
        rw [e1, e2]
        field_simp
    · cases h

theorem filter_one (u : U) (f : UMap → U → Bool) (h1 : ∀ x, x ≠ u → f (.one u) x = false) (h2 : f (.one u) u = true) :
    U.all.filter (f (.one u)) = [u] := by
  have : ∀ l : List U, l.Nodup → u ∈ l → l.filter (f (.one u)) = [u] := by
    intro l hl hu
    induction l with
    | nil => simp at hu
    | cons a l ih =>
      simp only [List.nodup_cons] at hl
      rcases List.mem_cons.1 hu with rfl | hu
      · rw [List.filter_cons_of_pos h2]
        congr 1
        rw [List.filter_eq_nil_iff]
        intro x hx
        rw [h1 x (fun e => hl.1 (e ▸ hx))]
        simp
      · have hne : a ≠ u := fun e => hl.1 (e ▸ hu)
        rw [List.filter_cons_of_neg (by rw [h1 a hne]; simp), ih hl.2 hu]
  exact this _ all_nodup (mem_all u)

/-- **C67** If an expression is converted to a unit, the result has that unit and stands for the
same quantity.  Missing: products of units, see `to_power_violated`. -/
theorem to_partial (σ : U → ℝ) (hσ : Sizes σ) (e : Expr) (hl : Linear e) (u : U) (y : UV) (h : to' e (some u) = .ok y) :
    y.unit = u ∧ y.value * σ u = eval σ e := by
  unfold to' at h
  simp only at h
  split at h
  · rename_i v m hs
    have hf := linear_first e _ hl hs (v, m) (by simp)
    have hv := sumValue_linear σ hσ e hl _ hs
    rw [← hv]
    simp only [evalSum, List.map_cons, List.map_nil, List.sum_cons, List.sum_nil, add_zero, evalTerm]
    rcases hf with hm | ⟨x, hm, -⟩
    · simp only at hm
      subst hm
      have hfil : U.all.filter (fun x => (UMap.empty x).getD 0 != 0) = [] := rfl
      rw [hfil] at h
      simp only at h
      rw [evalMap_empty, mul_one]
      split at h
      · rename_i hu
        cases h
        exact ⟨hu, by rw [← hu, hσ.number, mul_one]⟩
      · have := convert_size σ hσ _ _ _ h
        rw [hσ.number, mul_one] at this
        exact this
    · simp only at hm
      subst hm
      have hfil : U.all.filter (fun w => ((UMap.one x) w).getD 0 != 0) = [x] :=
        filter_one x (fun m w => (m w).getD 0 != 0) (fun w hw => by simp [UMap.one, hw]) (by simp [UMap.one])
      rw [hfil] at h
      simp only at h
      rw [evalMap_one]
      split at h
      · rename_i hu
        cases h
        exact ⟨hu, by rw [← hu]⟩
      · exact convert_size σ hσ _ _ _ h
  · cases h

theorem unitTerm_kind (x y : UV) (h : UnitValue.kind x.unit = UnitValue.kind y.unit) : (unitTerm x).2 = (unitTerm y).2 := by
  have key : ∀ z : UV, (unitTerm z).2 = match canon z.unit with | some c => (if c = .number then UMap.empty else .one c) | none => .one z.unit := by
    intro z
    unfold unitTerm
    cases hc : canon z.unit with
    | none => rfl
    | some c =>
      simp only
      split
      · rfl
      · rename_i hne
        have : c = z.unit := by simpa using hne
        rw [this]
  rw [key, key]
  by_cases hu : x.unit = y.unit
  · rw [hu]
  · obtain ⟨c, h1, h2⟩ := (UnitValue.canon_eq_iff _ _ hu).2 h
    rw [h1, h2]

theorem createSums_units (l : List UV) : createSums (l.map .unit) = some (l.map fun x => [unitTerm x]) := by
  induction l with
  | nil => rw [List.map_nil, createSums]; rfl
  | cons a l ih => rw [List.map_cons, createSums, createSum, ih]; rfl

theorem flatten_units (l : List UV) : (l.map fun x => [unitTerm x]).flatten = l.map unitTerm := by
  induction l with
  | nil => rfl
  | cons a l ih => rw [List.map_cons, List.flatten_cons, ih]; rfl

theorem merge_same (ts : SumV) (m : UMap) (h : ∀ t ∈ ts, t.2 = m) (v : ℝ) : ∃ w, ts.foldl addTerm [(v, m)] = [(w, m)] := by
  induction ts generalizing v with
  | nil => exact ⟨v, rfl⟩
  | cons t ts ih =>
    rw [List.foldl_cons, addTerm, if_pos ((sameKeys_iff _ _).2 (by rw [h t (by simp)]; exact fun _ => Iff.rfl))]
    exact ih (fun t ht => h t (by simp [ht])) _

/-- **C67** A sum of unit values of one kind can be converted to each unit of this kind. -/
theorem to_defined (x : UV) (l : List UV) (u : U) (h : ∀ y ∈ x :: l, UnitValue.kind y.unit = UnitValue.kind u) :
    ∃ y, to' (.sum ((x :: l).map .unit)) (some u) = .ok y := by
  have hx : UnitValue.kind x.unit = UnitValue.kind u := h x (by simp)
  obtain ⟨w, hw⟩ := merge_same (l.map unitTerm) (unitTerm x).2 (by
    intro t ht
    obtain ⟨y, hy, rfl⟩ := List.mem_map.1 ht
    exact unitTerm_kind y x (by rw [h y (by simp [hy]), hx])) (unitTerm x).1
  have hs : createSum (.sum ((x :: l).map .unit)) = some [(w, (unitTerm x).2)] := by
    rw [createSum, createSums_units]
    simp only
    rw [flatten_units, List.map_cons, List.foldl_cons]
    have : addTerm [] (unitTerm x) = [((unitTerm x).1, (unitTerm x).2)] := rfl
    rw [this, hw]
    exact checkSum_ok _ (by simp)
  unfold to'
  rw [hs]
  simp only
  have hfin : ∀ c : U, UnitValue.kind c = UnitValue.kind u → ∃ y, (if c = u then Except.ok (⟨w, c⟩ : UV) else convert ⟨w, c⟩ (some u)) = .ok y := by
    intro c hc
    by_cases hcu : c = u
    · rw [if_pos hcu]; exact ⟨_, rfl⟩
    · rw [if_neg hcu]; exact (UnitValue.to_defined_iff _ _).2 hc
  rcases unitTerm_first x with hm | ⟨c, hm, hown⟩
  · rw [hm]
    have hfil : U.all.filter (fun x => (UMap.empty x).getD 0 != 0) = [] := rfl
    rw [hfil]
    apply hfin
    rw [← hx]
    -- the unit of `x` is the number
    unfold unitTerm at hm
    have hone : ∀ c : U, UMap.one c ≠ UMap.empty := by
      intro c e
      have := congrFun e c
      simp [UMap.one, UMap.empty] at this
    cases hc : canon x.unit with
    | none => rw [hc] at hm; exact absurd hm (hone _)
    | some c =>
      rw [hc] at hm
      simp only at hm
      split at hm
      · simp only at hm
        split at hm
        · rename_i hcn
          rw [hcn] at hc
          rw [canon_number _ hc]
        · exact absurd hm (hone _)
      · simp only at hm
        split at hm
        · rename_i hcn
          rw [hcn]
        · exact absurd hm (hone _)
  · rw [hm]
    have hfil : U.all.filter (fun w => ((UMap.one c) w).getD 0 != 0) = [c] :=
      filter_one c (fun m w => (m w).getD 0 != 0) (fun w hw => by simp [UMap.one, hw]) (by simp [UMap.one])
    rw [hfil]
    apply hfin
    rw [← hx]
    have hk := unitTerm_kind
    unfold unitTerm at hm
    have hone : ∀ a b : U, UMap.one a = UMap.one b → a = b := by
      intro a b e
      have := congrFun e a
      by_contra hne
      simp [UMap.one, hne] at this
    have hcan : ∀ c', canon x.unit = some c' → UnitValue.kind c' = UnitValue.kind x.unit := by
      intro c' hc'
      by_cases hne : c' = x.unit
      · rw [hne]
      · exact (UnitValue.canon_eq_iff _ _ hne).1 ⟨c', canon_canon _ _ hc', hc'⟩
    have hemp : UMap.empty ≠ UMap.one c := by
      intro e
      have := congrFun e c
      simp [UMap.one, UMap.empty] at this
    cases hc : canon x.unit with
    | none =>
      rw [hc] at hm
      rw [hone _ _ hm]
    | some c' =>
      rw [hc] at hm
      simp only at hm
      split at hm
      · simp only at hm
        split at hm
        · exact absurd hm hemp
        · rw [← hone _ _ hm]; exact hcan _ hc
      · simp only at hm
        split at hm
        · exact absurd hm hemp
        · rw [← hone _ _ hm]

/-- A non-trivial instance of the hypotheses: `1in + 2cm` in points. -/
example : ∀ y ∈ [(⟨1, .inch⟩ : UV), ⟨2, .cm⟩], UnitValue.kind y.unit = UnitValue.kind .pt := by simp [UnitValue.kind]

/-- **C67** is violated: `2px * 3px`, an area, is converted to `6px`. -/
theorem to_power_violated : to' (.prod [.unit ⟨2, .px⟩, .unit ⟨3, .px⟩]) (some .px) = .ok ⟨1 * 2 * 3, .px⟩ := by
  have h1 : ∀ v, unitTerm ⟨v, .px⟩ = (v, .one .px) := fun _ => rfl
  have hs : createSum (.prod [.unit ⟨2, .px⟩, .unit ⟨3, .px⟩]) = some [(1 * 2 * 3, fun u => if u = .px then some 2 else none)] := by
    simp only [createSum, createSums, h1, List.foldl_cons,
      List.foldl_nil, prodStep, List.flatMap_cons, List.flatMap_nil, List.append_nil, List.map_cons, List.map_nil]
    congr 2
    refine Prod.ext rfl ?_
    funext u
    cases u <;> rfl
  unfold to'
  rw [hs]
  simp only
  have : U.all.filter (fun x => ((if x = U.px then some (2 : Int) else none)).getD 0 != 0) = [.px] := by decide
  rw [this]
  rfl

/-! Sums of units. -/

/-- The maps of the terms have different units. -/
def Distinct (ms : List UMap) : Prop := ms.Pairwise fun a b => ¬ SameUnits a b

theorem addTerm_distinct (s : SumV) (t : ℝ × UMap) (h : Distinct (s.map Prod.snd)) :
    Distinct ((addTerm s t).map Prod.snd) ∧ (∀ m ∈ (addTerm s t).map Prod.snd, m ∈ s.map Prod.snd ∨ (m = t.2 ∧ ∀ m' ∈ s.map Prod.snd, ¬ SameUnits m' t.2)) := by
  induction s with
  | nil => simp [addTerm, Distinct]
  | cons a s ih =>
    obtain ⟨v, m⟩ := a
    rw [addTerm]
    split
    · exact ⟨h, fun x hx => .inl hx⟩
    · rename_i hk
      rw [sameKeys_iff] at hk
      rw [Distinct, List.map_cons, List.pairwise_cons] at h
      obtain ⟨h1, h2⟩ := ih h.2
      constructor
      · rw [Distinct, List.map_cons, List.pairwise_cons]
        refine ⟨fun x hx => ?_, h1⟩
        rcases h2 x hx with hx | ⟨rfl, -⟩
        · exact h.1 x hx
        · exact hk
      · intro x hx
        rw [List.map_cons] at hx
        rcases List.mem_cons.1 hx with rfl | hx
        · exact .inl (by simp)
        · rcases h2 x hx with hx | ⟨rfl, h3⟩
          · exact .inl (by rw [List.map_cons]; exact List.mem_cons_of_mem _ hx)
          · refine .inr ⟨rfl, fun m' hm' => ?_⟩
            rw [List.map_cons] at hm'
            rcases List.mem_cons.1 hm' with rfl | hm'
            · exact hk
            · exact h3 m' hm'

theorem addTerms_distinct (ts s : SumV) (h : Distinct (s.map Prod.snd)) : Distinct ((ts.foldl addTerm s).map Prod.snd) := by
  induction ts generalizing s with
  | nil => exact h
  | cons t ts ih => exact ih _ (addTerm_distinct s t h).1

theorem prodStep_const (s : SumV) (hs : ∀ t ∈ s, First t.2) (w : ℝ) :
    (prodStep s [(w, UMap.empty)]).map Prod.snd = s.map Prod.snd ∧ (prodStep [(w, UMap.empty)] s).map Prod.snd = s.map Prod.snd := by
  constructor
  · induction s with
    | nil => rfl
    | cons a s ih =>
      have := ih (fun t ht => hs t (by simp [ht]))
      simp only [prodStep, List.flatMap_cons, List.map_cons, List.map_nil, List.map_append, List.cons_append, List.nil_append] at this ⊢
      rw [(mulMap_empty a.2 (hs a (by simp))).1, this]
  · simp only [prodStep, List.flatMap_cons, List.flatMap_nil, List.append_nil, List.map_map]
    apply List.map_congr_left
    intro t ht
    exact (mulMap_empty t.2 (hs t ht)).2

theorem prods_const (ls : List SumV) (h : ∀ s ∈ ls, ∃ v, s = [(v, UMap.empty)]) (s : SumV) (hs : ∀ t ∈ s, First t.2) :
    (ls.foldl prodStep s).map Prod.snd = s.map Prod.snd := by
  induction ls generalizing s with
  | nil => rfl
  | cons a ls ih =>
    obtain ⟨w, rfl⟩ := h a (by simp)
    rw [List.foldl_cons, ih (fun s hs => h s (by simp [hs])), (prodStep_const s hs w).1]
    have := prod_first [[(w, UMap.empty)]] (by simp) s hs
    exact this

mutual
theorem linear_distinct : ∀ (e : Expr) (s : SumV), Linear e → createSum e = some s → Distinct (s.map Prod.snd)
  | .unit x, s, _, h => by
    rw [createSum] at h
    cases h
    simp [Distinct]
  | .sum l, s, _, h => by
    rw [createSum] at h
    split at h
    · cases h
    · rw [checkSum_some _ _ h]
      exact addTerms_distinct _ _ (by simp [Distinct])
  | .prod l, s, hc, h => by
    rw [createSum] at h
    rw [Linear] at hc
    split at h
    · cases h
    · rename_i ls hl
      cases h
      exact oneLinear_distinct l ls hc hl 1
  | .negate e, s, hc, h => by
    rw [createSum] at h
    rw [Linear] at hc
    split at h
    · cases h
    · rename_i s' hs
      cases h
      have := linear_distinct e s' hc hs
      rw [List.map_map]
      exact this
  | .invert e, s, hc, h => by
    rw [createSum] at h
    rw [Linear] at hc
    split at h
    · cases h
    · rename_i s' hs
      split at h
      · cases h
      · cases h
        obtain ⟨v, rfl⟩ := const_map e s' hc hs
        simp [Distinct]
  | .min l, s, hc, h => by
    rw [createSum] at h
    split at h
    · cases h
    · obtain ⟨w, m, rfl, -⟩ := extreme_maps _ _ _ h
      simp [Distinct]
  | .max l, s, hc, h => by
    rw [createSum] at h
    split at h
    · cases h
    · obtain ⟨w, m, rfl, -⟩ := extreme_maps _ _ _ h
      simp [Distinct]
  | .clamp _ _ _, s, _, h => by rw [createSum] at h; cases h

theorem oneLinear_distinct : ∀ (l : List Expr) (ls : List SumV), OneLinear l → createSums l = some ls → ∀ v : ℝ,
    Distinct ((ls.foldl prodStep [(v, UMap.empty)]).map Prod.snd)
  | [], ls, _, h, v => by
    rw [createSums] at h
    cases h
    simp [Distinct]
  | e :: l, ls, hc, h, v => by
    rw [createSums] at h
    rw [OneLinear] at hc
    split at h
    · rename_i s ls' hs hl
      cases h
      rw [List.foldl_cons]
      rcases hc with ⟨h1, h2⟩ | ⟨h1, h2⟩
      · obtain ⟨w, rfl⟩ := const_map e s h1 hs
        have : prodStep [(v, UMap.empty)] [(w, UMap.empty)] = [(v * w, UMap.empty)] := by
          simp only [prodStep, List.flatMap_cons, List.flatMap_nil, List.map_cons, List.map_nil, List.append_nil]
          rfl
        rw [this]
        exact oneLinear_distinct l ls' h2 hl _
      · have hf := linear_first e s h1 hs
        have e1 := (prodStep_const s hf v).2
        rw [prods_const ls' (const_maps l ls' h2 hl), e1]
        · exact linear_distinct e s h1 hs
        · intro t ht
          have hm : t.2 ∈ (prodStep [(v, UMap.empty)] s).map Prod.snd := List.mem_map_of_mem ht
          rw [e1] at hm
          obtain ⟨t', ht', e2⟩ := List.mem_map.1 hm
          rw [← e2]
          exact hf t' ht'
    · cases h
end

/-- The quantity a list of unit values stands for. -/
noncomputable def total (σ : U → ℝ) (l : List UV) : ℝ := (l.map fun x => x.value * σ x.unit).sum

/-- Units that stand for their kind. -/
def Rep (u : U) : Prop := canon u = none ∨ canon u = some u

theorem ofTerm_first (σ : U → ℝ) (hσ : Sizes σ) (t : ℝ × UMap) (h : First t.2) :
    ∃ x, ofTerm t = .ok x ∧ x.value * σ x.unit = evalTerm σ t ∧ Rep x.unit ∧ t.2 = (if x.unit = .number then .empty else .one x.unit) := by
  obtain ⟨v, m⟩ := t
  simp only at h
  rcases h with rfl | ⟨u, rfl, hu⟩
  · refine ⟨⟨v, .number⟩, rfl, ?_, .inr rfl, rfl⟩
    simp [evalTerm, evalMap_empty, hσ.number]
  · refine ⟨⟨v, u⟩, ?_, ?_, ?_, ?_⟩
    · unfold ofTerm
      simp only
      have hfil : U.all.filter (fun x => (UMap.one u x).isSome) = [u] :=
        filter_one u (fun m w => (m w).isSome) (fun w hw => by simp [UMap.one, hw]) (by simp [UMap.one])
      rw [hfil]
      simp [UMap.one]
    · simp [evalTerm, evalMap_one]
    · unfold Rep
      cases hc : canon u with
      | none => exact .inl rfl
      | some c => rw [hu.2 c hc]; exact .inr rfl
    · simp only
      rw [if_neg hu.1]

theorem ofTerms_first (σ : U → ℝ) (hσ : Sizes σ) (s : SumV) (h : ∀ t ∈ s, First t.2) (hd : Distinct (s.map Prod.snd)) :
    ∃ xs, ofTerms s = .ok xs ∧ total σ xs = evalSum σ s ∧ (∀ x ∈ xs, Rep x.unit) ∧ xs.Pairwise (fun a b => a.unit ≠ b.unit) ∧
      ∀ x ∈ xs, (if x.unit = .number then UMap.empty else .one x.unit) ∈ s.map Prod.snd := by
  induction s with
  | nil => exact ⟨[], rfl, by simp [total, evalSum], by simp, by simp, by simp⟩
  | cons t s ih =>
    rw [Distinct, List.map_cons, List.pairwise_cons] at hd
    obtain ⟨x, h1, h2, h3, h4⟩ := ofTerm_first σ hσ t (h t (by simp))
    obtain ⟨xs, g1, g2, g3, g4, g5⟩ := ih (fun t ht => h t (by simp [ht])) hd.2
    refine ⟨x :: xs, by rw [ofTerms, h1, g1], ?_, ?_, ?_, ?_⟩
    · rw [evalSum_cons, ← g2, ← h2]; simp [total]
    · intro y hy
      rcases List.mem_cons.1 hy with rfl | hy
      · exact h3
      · exact g3 y hy
    · rw [List.pairwise_cons]
      refine ⟨fun y hy e => ?_, g4⟩
      have := g5 y hy
      rw [← e, ← h4] at this
      exact hd.1 _ this fun _ => Iff.rfl
    · intro y hy
      rw [List.map_cons]
      rcases List.mem_cons.1 hy with rfl | hy
      · rw [h4]; simp
      · exact List.mem_cons_of_mem _ (g5 y hy)

theorem rep_error (x v : UV) (h1 : Rep x.unit) (h2 : Rep v.unit) (hne : x.unit ≠ v.unit) : UnitValue.eq x v = .error .valueError := by
  unfold UnitValue.eq UnitValue.compare UnitValue.normalize
  rw [if_pos hne]
  have : convert v (some x.unit) = .error .valueError := by
    unfold convert
    simp only
    rw [if_neg (Ne.symm hne)]
    rcases h1 with h1 | h1 <;> rcases h2 with h2 | h2 <;> rw [h1, h2]
    simp only
    rw [if_pos (Ne.symm hne)]
  rw [this]

theorem takeUnit_spec (σ : U → ℝ) (hσ : Sizes σ) (values : List UV) (hr : ∀ x ∈ values, Rep x.unit) (hp : values.Pairwise fun a b => a.unit ≠ b.unit)
    (u : U) (r : UV) (rest : List UV) (h : takeUnit values u = .ok (r, rest)) :
    r.unit = u ∧ r.value * σ u + total σ rest = total σ values ∧ (∃ k, rest = values.drop k) := by
  unfold takeUnit at h
  cases hi : values.findIdx? (fun v => compatible v.unit u) with
  | none =>
    rw [hi] at h
    cases h
    exact ⟨rfl, by simp, ⟨0, rfl⟩⟩
  | some i =>
    rw [hi] at h
    simp only at h
    split at h
    · cases h
    · rename_i v hv
      split at h
      · cases h
      · rename_i y hy
        obtain ⟨e1, e2⟩ := convert_size σ hσ v y u hy
        split at h
        · cases h
        · rename_i values' hrem
          cases h
          match values, i, hv, hrem, hr, hp with
          | [], i, hv, _, _, _ => simp at hv
          | x :: l, 0, hv, hrem, _, _ =>
            simp at hv
            subst hv
            rw [remove] at hrem
            cases hrem
            refine ⟨rfl, ?_, ⟨1, rfl⟩⟩
            simp only [zero_add]
            rw [e2]
            simp [total]
          | x :: l, i + 1, hv, hrem, hr, hp =>
            simp only [List.getElem?_cons_succ] at hv
            rw [remove, hv] at hrem
            simp only at hrem
            have hmem : v ∈ l := List.mem_of_getElem? hv
            rw [List.pairwise_cons] at hp
            rw [rep_error x v (hr x (by simp)) (hr v (by simp [hmem])) (hp.1 v hmem)] at hrem
            cases hrem

theorem takeUnits_spec (σ : U → ℝ) (hσ : Sizes σ) (us : List U) (values : List UV) (hr : ∀ x ∈ values, Rep x.unit)
    (hp : values.Pairwise fun a b => a.unit ≠ b.unit) (rs rest : List UV) (h : takeUnits values us = .ok (rs, rest)) :
    rs.map (·.unit) = us ∧ total σ rs + total σ rest = total σ values := by
  induction us generalizing values rs rest with
  | nil => rw [takeUnits] at h; cases h; exact ⟨rfl, by simp [total]⟩
  | cons u us ih =>
    rw [takeUnits] at h
    split at h
    · cases h
    · rename_i r values' hu
      split at h
      · cases h
      · rename_i rs' rest' hus
        cases h
        obtain ⟨h1, h2, k, rfl⟩ := takeUnit_spec σ hσ values hr hp u r values' hu
        obtain ⟨h3, h4⟩ := ih (values.drop k) (fun x hx => hr x (List.mem_of_mem_drop hx)) (hp.sublist (List.drop_sublist k values)) rs' rest hus
        refine ⟨by rw [List.map_cons, h1, h3], ?_⟩
        rw [← h2, ← h4, ← h1]
        simp [total]
        ring

theorem mkSum_ok (l r : List UV) (h : mkSum l = .ok r) : r = l := by
  unfold mkSum at h
  split at h
  · cases h
  · split at h
    · cases h
    · cases h; rfl

/-- **C67** If an expression is converted to a sum of units, the result has these units in order
and stands for the same quantity.  Missing: products of units, and that it always succeeds, see
`toSum_order_violated`. -/
theorem toSum_partial (σ : U → ℝ) (hσ : Sizes σ) (e : Expr) (hl : Linear e) (us : List U) (r : List UV) (h : toSum e us = .ok r) :
    r.map (·.unit) = us ∧ total σ r = eval σ e := by
  unfold toSum at h
  split at h
  · cases h
  · rename_i s hs
    obtain ⟨xs, g1, g2, g3, g4, -⟩ := ofTerms_first σ hσ s (linear_first e s hl hs) (linear_distinct e s hl hs)
    rw [g1] at h
    simp only at h
    split at h
    · cases h
    · rename_i rs hu
      have := mkSum_ok _ _ h
      subst this
      obtain ⟨h1, h2⟩ := takeUnits_spec σ hσ us xs g3 g4 _ _ hu
      refine ⟨h1, ?_⟩
      rw [← sumValue_linear σ hσ e hl s hs, ← g2, ← h2]
      simp [total]
    · cases h

/-- **C67** is violated: `1em + 1px` can be converted to a sum of em and px, but not to a sum of
px and em. -/
theorem toSum_order_violated :
    let e : Expr := .sum [.unit ⟨1, .em⟩, .unit ⟨1, .px⟩]
    toSum e [.em, .px] = .ok [⟨0 + 1, .em⟩, ⟨0 + 1, .px⟩] ∧ toSum e [.px, .em] = .error .valueError := by
  intro e
  have hs : createSum e = some [(1, .one .em), (1, .one .px)] := by
    have h1 : unitTerm ⟨1, .px⟩ = (1, .one .px) := rfl
    have h2 : unitTerm ⟨1, .em⟩ = (1, .one .em) := rfl
    simp only [e, createSum, createSums, h1, h2, List.flatten_cons, List.flatten_nil, List.append_nil, List.cons_append, List.nil_append,
      List.foldl_cons, List.foldl_nil, addTerm]
    rw [if_neg (by decide)]
    exact checkSum_ok _ (by simp)
  have ht : ofTerms [(1, .one .em), (1, .one .px)] = .ok [⟨1, .em⟩, ⟨1, .px⟩] := rfl
  constructor
  · unfold toSum
    rw [hs]
    simp only
    rw [ht]
    rfl
  · unfold toSum
    rw [hs]
    simp only
    rw [ht]
    have he : UnitValue.eq ⟨1, .em⟩ ⟨1, .px⟩ = .error .valueError := rep_error _ _ (.inl rfl) (.inr rfl) (by decide)
    have hc : convert ⟨1, .px⟩ (some .px) = .ok ⟨1, .px⟩ := rfl
    have hf : List.findIdx? (fun v => compatible v.unit U.px) [(⟨1, .em⟩ : UV), ⟨1, .px⟩] = some 1 := rfl
    have hr : remove [(⟨1, .em⟩ : UV), ⟨1, .px⟩] 1 = .error .valueError := by
      rw [remove]
      simp only [List.getElem?_cons_zero]
      rw [he]
    have hu : takeUnit [(⟨1, .em⟩ : UV), ⟨1, .px⟩] .px = .error .valueError := by
      unfold takeUnit
      rw [hf]
      simp only [List.getElem?_cons_succ, List.getElem?_cons_zero]
      rw [hc]
      simp only
      rw [hr]
    simp only
    rw [takeUnits, hu]

/-- **C67** `add` gives the sum of its operands, whatever the sizes of the units. -/
theorem add_value (σ : U → ℝ) (e : Expr) (l : List Expr) : eval σ (add e l) = eval σ e + (evals σ l).sum := by
  have evals_append : ∀ l l', evals σ (l ++ l') = evals σ l ++ evals σ l' := by
    intro l l'
    induction l with
    | nil => simp [evals]
    | cons a l ih => simp [evals, ih]
  have evals_map : ∀ xs : List UV, evals σ (xs.map .unit) = xs.map fun x => x.value * σ x.unit := by
    intro xs
    induction xs with
    | nil => simp [evals]
    | cons a l ih => simp [evals, eval, ih]
  have hm : ∀ (values : List Expr) (xs : List UV), asUnits values = some xs → values = xs.map .unit := by
    intro values
    induction values with
    | nil => intro xs h; rw [asUnits] at h; cases h; rfl
    | cons a values ih =>
      intro xs h
      rw [asUnits] at h
      split at h
      · rename_i x xs' h1 h2
        cases h
        rw [ih xs' h2]
        cases a with
        | unit y => cases h1; rfl
        | _ => cases h1
      · cases h
  have key : ∀ values : List Expr, eval σ (sumUp values) = (evals σ values).sum := by
    intro values
    unfold sumUp
    split
    · rename_i x xs hx
      split
      · rename_i hall
        rw [hm _ _ hx, evals_map, eval]
        have hu : ∀ y ∈ xs, y.unit = x.unit := fun y hy => (by simpa using List.all_eq_true.1 hall y hy : x.unit = y.unit).symm
        have : ∀ ys : List UV, (∀ y ∈ ys, y.unit = x.unit) → (ys.map fun y => y.value * σ y.unit).sum = (ys.map (·.value)).sum * σ x.unit := by
          intro ys hys
          induction ys with
          | nil => simp
          | cons a ys ih =>
            simp only [List.map_cons, List.sum_cons]
            rw [ih (fun y hy => hys y (by simp [hy])), hys a (by simp)]
            ring
        rw [this (x :: xs) (by
          intro y hy
          rcases List.mem_cons.1 hy with rfl | hy
          · rfl
          · exact hu y hy)]
      · rw [eval]
    · rw [eval]
  cases e with
  | sum l' => rw [add, key, evals_append, List.sum_append, eval]
  | _ => rw [add, key, evals, List.sum_cons]; intro l' h; cases h

/-! ### Structural equality -/

mutual
/-- No negation, inversion or clamp inside. -/
def Plain : Expr → Prop
  | .unit _ => True
  | .sum l => Plains l
  | .prod l => Plains l
  | .min l => Plains l
  | .max l => Plains l
  | _ => False

def Plains : List Expr → Prop
  | [] => True
  | e :: l => Plain e ∧ Plains l
end

mutual
/-- **C42** `equals` holds exactly for identical values without negations, inversions and
clamps. -/
theorem equals_iff : ∀ a b : Expr, equals a b = true ↔ a = b ∧ Plain a
  | .unit x, b => by
    cases b <;> simp [equals, Plain]
    rename_i y
    cases x; cases y
    simp [and_comm]
  | .sum l, b => by
    cases b <;> simp [equals, Plain]
    rename_i l'
    exact equalsZip_iff l l'
  | .prod l, b => by
    cases b <;> simp [equals, Plain]
    rename_i l'
    exact equalsZip_iff l l'
  | .min l, b => by
    cases b <;> simp [equals, Plain]
    rename_i l'
    exact equalsZip_iff l l'
  | .max l, b => by
    cases b <;> simp [equals, Plain]
    rename_i l'
    exact equalsZip_iff l l'
  | .negate e, b => by cases b <;> simp [equals, Plain]
  | .invert e, b => by cases b <;> simp [equals, Plain]
  | .clamp a b c, d => by cases d <;> simp [equals, Plain]

theorem equalsZip_iff : ∀ l l' : List Expr, (l.length = l'.length ∧ equalsZip l l' = true) ↔ l = l' ∧ Plains l
  | [], [] => by simp [equalsZip, Plains]
  | [], _ :: _ => by simp
  | _ :: _, [] => by simp
  | a :: l, b :: l' => by
    have h1 := equals_iff a b
    have h2 := equalsZip_iff l l'
    rw [equalsZip, Plains, Bool.and_eq_true, h1]
    simp only [List.length_cons, Nat.add_right_cancel_iff, List.cons.injEq]
    constructor
    · rintro ⟨h3, ⟨rfl, hp⟩, h4⟩
      obtain ⟨rfl, hq⟩ := h2.1 ⟨h3, h4⟩
      exact ⟨⟨rfl, rfl⟩, hp, hq⟩
    · rintro ⟨⟨rfl, rfl⟩, hp, hq⟩
      obtain ⟨h3, h4⟩ := h2.2 ⟨rfl, hq⟩
      exact ⟨h3, ⟨rfl, hp⟩, h4⟩
end

/-- **C42** The answer does not depend on the order, and equality is transitive. -/
theorem equals_symm (a b c : Expr) : equals a b = equals b a ∧ (equals a b = true → equals b c = true → equals a c = true) := by
  constructor
  · rw [Bool.eq_iff_iff, equals_iff, equals_iff]
    constructor
    · rintro ⟨rfl, h⟩; exact ⟨rfl, h⟩
    · rintro ⟨rfl, h⟩; exact ⟨rfl, h⟩
  · rw [equals_iff, equals_iff, equals_iff]
    rintro ⟨rfl, h⟩ ⟨rfl, -⟩
    exact ⟨rfl, h⟩

/-- **C42** Every value equals itself.  Missing: values with negations, inversions and clamps. -/
theorem equals_refl_partial (a : Expr) (h : Plain a) : equals a a = true := (equals_iff a a).2 ⟨rfl, h⟩

example : Plain (.max [.sum [.unit ⟨1, .px⟩, .unit ⟨2, .percent⟩], .prod [.unit ⟨2, .number⟩, .unit ⟨3, .em⟩]]) := by
  simp [Plain, Plains]

/-- **C42** is violated: `-x`, `1/x` and `clamp(x, x, x)` do not equal themselves. -/
theorem equals_violated (x : Expr) : equals (.negate x) (.negate x) = false ∧ equals (.invert x) (.invert x) = false ∧
    equals (.clamp x x x) (.clamp x x x) = false := by
  refine ⟨?_, ?_, ?_⟩ <;> simp [equals]

end SvgPy.SumValue
