import Verif.Model.Ligature
import Verif.Props.GlyphRun

/-! Property C119: ligatures take the position of their first character. -/

set_option linter.unusedSimpArgs false
set_option linter.unusedVariables false
set_option linter.unusedSectionVars false

namespace SvgPy.Ligature

open SvgPy.GlyphRun

variable {K : Type} [Field K] [LinearOrder K]

/-! ### Specification -/

namespace Spec

/-- The number of the first character of glyph `k`, if the glyphs show `gs` characters each. -/
def first (gs : List Nat) (k : Nat) : Nat := (gs.take k).sum

/-- The clusters that the shaper reports for ASCII characters: the numbers of the first characters. -/
def clusters (gs : List Nat) : List Nat := (List.range gs.length).map (first gs)

/-- The shift of the character before glyph `k`, if this is the second one of a ligature. -/
def carried (l : List K) (gs : List Nat) (k : Nat) : K :=
  if k ≠ 0 ∧ gs[k - 1]? = some 2 then l.getD (first gs k - 1) 0 else 0

/-- Glyphs for one character or two, the last one for one. -/
def Plain (gs : List Nat) : Prop := (∀ g ∈ gs, g = 1 ∨ g = 2) ∧ gs.getLast? = some 1

end Spec

open Spec

/-! ### Lemmas -/

def startsFrom (s : Nat) : List Nat → List Nat
  | [] => []
  | g :: gs => s :: startsFrom (s + g) gs

theorem clusters_eq (gs : List Nat) : clusters gs = startsFrom 0 gs := by
  have h : ∀ (gs : List Nat) (s : Nat), (List.range gs.length).map (fun k => s + first gs k) = startsFrom s gs := by
    intro gs
    induction gs with
    | nil => intro s; rfl
    | cons g gs ih =>
      intro s
      rw [List.length_cons, List.range_succ_eq_map, List.map_cons, List.map_map, startsFrom, ← ih (s + g)]
      congr 1
      apply List.map_congr_left
      intro k hk
      simp [first]
      omega
  have := h gs 0
  simpa [clusters] using this

theorem startsFrom_length (s : Nat) (gs : List Nat) : (startsFrom s gs).length = gs.length := by
  induction gs generalizing s with
  | nil => rfl
  | cons g gs ih => simp [startsFrom, ih]

theorem ligs_ge (inc : Nat) (o : Option Nat) (off : Nat) (cs : List Nat) : ∀ i ∈ ligatures inc o off cs, off ≤ i := by
  induction cs generalizing o off with
  | nil => intro i hi; cases o <;> simp [ligatures] at hi
  | cons c cs ih =>
    intro i hi
    cases o with
    | none =>
      simp only [ligatures] at hi
      have := ih _ _ _ hi
      omega
    | some l =>
      simp only [ligatures] at hi
      split at hi
      · have := ih _ _ _ hi
        omega
      · rcases List.mem_cons.1 hi with rfl | hi
        · omega
        · have := ih _ _ _ hi
          omega

/-- The ligatures that are found: those before another glyph. -/
def ligsOf (off : Nat) : Nat → List Nat → List Nat
  | _, [] => []
  | g, g' :: gs => (if g = 2 then [off] else []) ++ ligsOf (off + 1) g' gs

theorem ligs_eq (s off g : Nat) (gs : List Nat) (hg : g = 1 ∨ g = 2) (h : ∀ g ∈ gs, g = 1 ∨ g = 2) :
    ligatures 1 (some s) off (startsFrom (s + g) gs) = ligsOf off g gs := by
  induction gs generalizing s off g with
  | nil => rfl
  | cons a gs ih =>
    have := ih (s + g) (off + 1) a (h a (by simp)) (fun x hx => h x (by simp [hx]))
    simp only [startsFrom, ligatures, ligsOf]
    rw [this]
    rcases hg with rfl | rfl
    · simp
    · rw [if_neg (by omega)]
      simp

theorem ligsOf_length (off g : Nat) (gs : List Nat) (hg : g = 1 ∨ g = 2) (h : ∀ g ∈ gs, g = 1 ∨ g = 2) :
    (ligsOf off g gs).length + (gs.length + 1) ≤ g + gs.sum := by
  induction gs generalizing off g with
  | nil => simp [ligsOf]; omega
  | cons a gs ih =>
    have := ih (off + 1) a (h a (by simp)) (fun x hx => h x (by simp [hx]))
    simp only [ligsOf, List.length_append, List.length_cons, List.sum_cons]
    rcases hg with rfl | rfl <;> simp <;> omega

theorem foldl_max_le (l : List Nat) (a m : Nat) (ha : a ≤ m) (h : ∀ x ∈ l, x ≤ m) : l.foldl max a ≤ m := by
  induction l generalizing a with
  | nil => exact ha
  | cons x l ih =>
    simp only [List.foldl_cons]
    exact ih _ (by have := h x (by simp); omega) (fun y hy => h y (by simp [hy]))

theorem startsFrom_le (s : Nat) (gs : List Nat) (h : ∀ g ∈ gs, g = 1 ∨ g = 2) : ∀ x ∈ startsFrom s gs, x + 2 ≤ s + 2 * gs.length := by
  induction gs generalizing s with
  | nil => intro x hx; simp [startsFrom] at hx
  | cons g gs ih =>
    intro x hx
    simp only [startsFrom, List.mem_cons] at hx
    have hg := h g (by simp)
    rcases hx with rfl | hx
    · simp
    · have := ih (s + g) (fun x hx => h x (by simp [hx])) x hx
      simp only [List.length_cons]
      omega

theorem inc_one (gs : List Nat) (h : ∀ g ∈ gs, g = 1 ∨ g = 2) : clusterInc (startsFrom 0 gs) = 1 := by
  unfold clusterInc
  rw [startsFrom_length]
  have hm : (startsFrom 0 gs).foldl max 0 ≤ 2 * gs.length - 2 := by
    apply foldl_max_le _ _ _ (by omega)
    intro x hx
    have := startsFrom_le 0 gs h x hx
    omega
  rcases Nat.eq_zero_or_pos gs.length with h0 | h0
  · simp [h0]
  · have : ((startsFrom 0 gs).foldl max 0 - (startsFrom 0 gs).foldl min ((startsFrom 0 gs).headD 0)) / gs.length < 2 := by
      rw [Nat.div_lt_iff_lt_mul h0]
      omega
    omega

/-! #### One list -/

/-- What the removal of the value `i` does to the values behind. -/
structure Removal (op : List K → Nat → List K) (f : List K → List K) : Prop where
  at_ : ∀ d r : List K, op (d ++ r) d.length = d ++ f r
  past : ∀ (l : List K) (i : Nat), l.length ≤ i → op l i = l
  nil : f [] = []

def pickF (f : List K → List K) : Nat → List Nat → List K → List K
  | _, [], r => r
  | g, g' :: gs, r => (if g = 2 then f r else r).take 1 ++ pickF f g' gs ((if g = 2 then f r else r).drop 1)

theorem fold_past (op : List K → Nat → List K) (f : List K → List K) (ho : Removal op f) (is : List Nat) (l : List K)
    (h : ∀ i ∈ is, l.length ≤ i) : is.foldl op l = l := by
  induction is with
  | nil => rfl
  | cons i is ih =>
    simp only [List.foldl_cons]
    rw [ho.past l i (h i (by simp)), ih (fun j hj => h j (by simp [hj]))]

theorem ligsOf_ge (off g : Nat) (gs : List Nat) : ∀ i ∈ ligsOf off g gs, off ≤ i := by
  induction gs generalizing off g with
  | nil => intro i hi; simp [ligsOf] at hi
  | cons a gs ih =>
    intro i hi
    simp only [ligsOf, List.mem_append] at hi
    rcases hi with hi | hi
    · split at hi <;> simp at hi; omega
    · have := ih (off + 1) a i hi
      omega

theorem pickF_nil (f : List K → List K) (hf : f [] = []) (g : Nat) (gs : List Nat) : pickF f g gs [] = [] := by
  induction gs generalizing g with
  | nil => rfl
  | cons a gs ih =>
    simp only [pickF]
    split <;> simp [hf, ih]

theorem fold_pick (op : List K → Nat → List K) (f : List K → List K) (ho : Removal op f) (g : Nat) (gs : List Nat) (d r : List K) :
    (ligsOf d.length g gs).foldl op (d ++ r) = d ++ pickF f g gs r := by
  induction gs generalizing g d r with
  | nil => rfl
  | cons a gs ih =>
    have key : ∀ r' : List K, (ligsOf (d.length + 1) a gs).foldl op (d ++ r') = d ++ (r'.take 1 ++ pickF f a gs (r'.drop 1)) := by
      intro r'
      cases r' with
      | nil =>
        rw [fold_past op f ho]
        · simp [pickF_nil f ho.nil]
        · intro i hi
          have := ligsOf_ge _ _ _ i hi
          simp
          omega
      | cons x r' =>
        have := ih a (d ++ [x]) r'
        simp only [List.length_append, List.length_singleton, List.append_assoc, List.singleton_append] at this
        rw [this]
        simp
    simp only [ligsOf, List.foldl_append, pickF]
    by_cases hg : g = 2
    · simp only [hg, if_true, List.foldl_cons, List.foldl_nil, ho.at_]
      exact key (f r)
    · simp only [hg, if_false, List.foldl_nil]
      exact key r

theorem erase_removal : Removal (K := K) popAt (List.drop 1) where
  at_ d r := by
    unfold popAt
    rw [List.eraseIdx_append_of_length_le (Nat.le_refl _)]
    cases r <;> simp
  past l i h := List.eraseIdx_of_length_le h
  nil := rfl

/-- The first value is added to the second. -/
def addNext : List K → List K
  | [] => []
  | [_] => []
  | a :: b :: r => (b + a) :: r

theorem modify_at (d r : List K) (b : K) (f : K → K) : (d ++ b :: r).modify d.length f = d ++ f b :: r := by
  induction d with
  | nil => simp
  | cons x d ih => simpa using ih

theorem pickAdd_nil (g : Nat) (gs : List Nat) : pickF (K := K) addNext g gs [] = [] := pickF_nil addNext rfl g gs

theorem add_removal : Removal (K := K) popAdd addNext where
  at_ d r := by
    unfold popAdd
    cases r with
    | nil => simp [addNext]
    | cons a r =>
      have e : (d ++ a :: r)[d.length]? = some a := by simp
      rw [e]
      simp only
      have e2 : (d ++ a :: r).eraseIdx d.length = d ++ r := by
        rw [List.eraseIdx_append_of_length_le (Nat.le_refl _)]
        simp
      rw [e2]
      cases r with
      | nil => simp [addNext]
      | cons b r =>
        rw [if_pos (by simp), modify_at]
        simp [addNext]
  past l i h := by
    unfold popAdd
    rw [List.getElem?_eq_none h]
  nil := rfl

theorem pick_get (g : Nat) (gs : List Nat) (r : List K) (hg : g = 1 ∨ g = 2) (h : ∀ g ∈ gs, g = 1 ∨ g = 2) (k : Nat) (hk : k < gs.length) :
    (pickF (List.drop 1) g gs r)[k]? = r[g + first gs k - 1]? := by
  induction gs generalizing g r k with
  | nil => simp at hk
  | cons a gs ih =>
    have e : (if g = 2 then List.drop 1 r else r) = r.drop (g - 1) := by rcases hg with rfl | rfl <;> simp
    simp only [pickF, e]
    cases k with
    | zero =>
      have : first (a :: gs) 0 = 0 := rfl
      rw [this]
      rcases hg with rfl | rfl
      · cases r <;> simp [pickF_nil]
      · cases r with
        | nil => simp [pickF_nil]
        | cons x r => cases r <;> simp [pickF_nil]
    | succ k =>
      have ha := h a (by simp)
      have hf : first (a :: gs) (k + 1) = a + first gs k := by simp [first]
      have := ih a ((r.drop (g - 1)).drop 1) ha (fun x hx => h x (by simp [hx])) k (by simpa using hk)
      rw [hf]
      have e2 : (List.take 1 (r.drop (g - 1)) ++ pickF (List.drop 1) a gs ((r.drop (g - 1)).drop 1))[k + 1]? =
          (pickF (List.drop 1) a gs ((r.drop (g - 1)).drop 1))[k]? := by
        cases hr : r.drop (g - 1) with
        | nil => simp [pickF_nil]
        | cons x t => simp
      rw [e2, this, List.drop_drop, List.getElem?_drop]
      congr 1
      omega

theorem pick_drop (f : List K → List K) (hf : f [] = []) (hf' : ∀ r : List K, (f r).drop 1 = r.drop 2) (g : Nat) (gs : List Nat) (r : List K)
    (hg : g = 1 ∨ g = 2) (h : ∀ g ∈ gs, g = 1 ∨ g = 2) (hl : (g :: gs).getLast? = some 1) :
    (pickF f g gs r).drop gs.length = r.drop (g + gs.sum - 1) := by
  induction gs generalizing g r with
  | nil =>
    simp at hl
    subst hl
    simp [pickF]
  | cons a gs ih =>
    have ha := h a (by simp)
    have hl' : (a :: gs).getLast? = some 1 := by simpa [List.getLast?_cons_cons] using hl
    have key : ∀ r' : List K, (r'.take 1 ++ pickF f a gs (r'.drop 1)).drop (gs.length + 1) = (r'.drop 1).drop (a + gs.sum - 1) := by
      intro r'
      rw [← ih a (r'.drop 1) ha (fun x hx => h x (by simp [hx])) hl']
      cases r' with
      | nil => simp [pickF_nil f hf]
      | cons x t => simp
    simp only [pickF, List.length_cons, List.sum_cons]
    rw [key]
    rcases hg with rfl | rfl
    · simp only [show ¬ (1 = 2) by omega, if_false, List.drop_drop]
      congr 1
      omega
    · simp only [if_true, hf', List.drop_drop]
      congr 1
      omega

theorem addNext_drop (r : List K) : (addNext r).drop 1 = r.drop 2 := by
  match r with
  | [] => rfl
  | [_] => rfl
  | _ :: _ :: _ => rfl

theorem pickAdd_get (g : Nat) (gs : List Nat) (r : List K) (hg : g = 1 ∨ g = 2) (h : ∀ g ∈ gs, g = 1 ∨ g = 2) (k : Nat) (hk : k < gs.length) :
    (pickF addNext g gs r)[k]? = (r[g + first gs k - 1]?).map (· + if (g :: gs)[k]? = some 2 then r.getD (g + first gs k - 2) 0 else 0) := by
  induction gs generalizing g r k with
  | nil => simp at hk
  | cons a gs ih =>
    simp only [pickF]
    cases k with
    | zero =>
      have : first (a :: gs) 0 = 0 := rfl
      rw [this]
      rcases hg with rfl | rfl
      · cases r <;> simp [pickAdd_nil, addNext]
      · match r with
        | [] => simp [pickAdd_nil, addNext]
        | [_] => simp [pickAdd_nil, addNext]
        | x :: y :: r => simp [addNext]
    | succ k =>
      have ha := h a (by simp)
      have hf : first (a :: gs) (k + 1) = a + first gs k := by simp [first]
      have hi := ih a (r.drop g) ha (fun x hx => h x (by simp [hx])) k (by simpa using hk)
      have ed : (if g = 2 then addNext r else r).drop 1 = r.drop g := by
        rcases hg with rfl | rfl
        · simp
        · simp only [if_true]; exact addNext_drop r
      have e2 : ∀ r' : List K, (List.take 1 r' ++ pickF addNext a gs (r'.drop 1))[k + 1]? = (pickF addNext a gs (r'.drop 1))[k]? := by
        intro r'
        cases r' with
        | nil => simp [pickAdd_nil, addNext]
        | cons x t => simp
      rw [e2, ed, hi, hf, List.getElem?_drop]
      have e3 : g + (a + first gs k - 1) = g + (a + first gs k) - 1 := by omega
      rw [e3]
      congr 1
      funext v
      rw [List.getElem?_cons_succ]
      by_cases h2 : (a :: gs)[k]? = some 2
      · rw [if_pos h2, if_pos h2, List.getD_eq_getElem?_getD, List.getD_eq_getElem?_getD, List.getElem?_drop]
        have : g + (a + first gs k - 2) = g + (a + first gs k) - 2 := by
          have : 2 ≤ a + first gs k := by
            cases k with
            | zero => simp at h2; omega
            | succ k =>
              rw [List.getElem?_cons_succ] at h2
              have hm : 2 ∈ gs := List.mem_of_getElem? h2
              cases gs with
              | nil => simp at hm
              | cons b gs =>
                have hb := h b (by simp)
                simp [first]
                omega
          omega
        rw [this]
      · rw [if_neg h2, if_neg h2]

theorem rotate_eq (is : List Nat) (l : List K) (h : is.length + 1 < l.length) : is.foldl popRotate l = is.foldl popAt l := by
  induction is generalizing l with
  | nil => rfl
  | cons i is ih =>
    simp only [List.length_cons] at h
    simp only [List.foldl_cons]
    have : popRotate l i = popAt l i := by
      unfold popRotate popAt
      rw [if_pos (by omega)]
    rw [this]
    apply ih
    unfold popAt
    have := List.length_eraseIdx_le l i
    rw [List.length_eraseIdx]
    split <;> omega

/-! #### All lists -/

theorem dropAt_fold (is : List Nat) (p : Pen K) : is.foldl dropAt p =
    { p with xs := is.foldl popAt p.xs, ys := is.foldl popAt p.ys, dxs := is.foldl popAdd p.dxs, dys := is.foldl popAdd p.dys,
             rots := is.foldl popRotate p.rots } := by
  induction is generalizing p with
  | nil => rfl
  | cons i is ih => simp only [List.foldl_cons]; rw [ih]; rfl

theorem repos_eq (g : Nat) (gs : List Nat) (hg : g = 1 ∨ g = 2) (h : ∀ g ∈ gs, g = 1 ∨ g = 2) (p : Pen K) :
    reposition (g :: gs).sum 0 (clusters (g :: gs)) p = (ligsOf 1 g gs).foldl dropAt p := by
  have e : ligatures (clusterInc (startsFrom 0 (g :: gs))) none 0 (startsFrom 0 (g :: gs)) = ligsOf 1 g gs := by
    rw [inc_one _ (by simpa using ⟨hg, h⟩)]
    exact ligs_eq 0 1 g gs hg h
  unfold reposition
  rw [clusters_eq, e]
  simp only [startsFrom_length, Nat.zero_add, List.map_id']
  split
  · rename_i hc
    have := ligsOf_length 1 g gs hg h
    simp only [List.length_cons, List.sum_cons] at hc
    have : (ligsOf 1 g gs).length = 0 := by omega
    rw [List.length_eq_zero_iff.1 this]
    rfl
  · rfl

theorem fold_one (op : List K → Nat → List K) (f : List K → List K) (ho : Removal op f) (g : Nat) (gs : List Nat) (l : List K) :
    (ligsOf 1 g gs).foldl op l = l.take 1 ++ pickF f g gs (l.drop 1) := by
  cases l with
  | nil =>
    rw [fold_past op f ho]
    · simp [pickF_nil f ho.nil]
    · intro i hi; simp
  | cons x l => exact fold_pick op f ho g gs [x] l

theorem one_get (g : Nat) (gs : List Nat) (l : List K) (hg : g = 1 ∨ g = 2) (h : ∀ g ∈ gs, g = 1 ∨ g = 2) (k : Nat) (hk : k < gs.length + 1) :
    ((ligsOf 1 g gs).foldl popAt l)[k]? = l[first (g :: gs) k]? := by
  rw [fold_one popAt _ erase_removal]
  cases k with
  | zero => cases l <;> simp [first, pickF_nil]
  | succ k =>
    have := pick_get g gs (l.drop 1) hg h k (by omega)
    have e : first (g :: gs) (k + 1) = g + first gs k := by simp [first]
    rw [e]
    cases l with
    | nil => simp [pickF_nil]
    | cons x l =>
      simp only [List.drop_succ_cons, List.drop_zero] at this
      simp only [List.take_succ_cons, List.take_zero, List.cons_append, List.nil_append, List.getElem?_cons_succ, List.drop_succ_cons, List.drop_zero]
      rw [this]
      have : g + first gs k = (g + first gs k - 1) + 1 := by omega
      conv => rhs; rw [this]
      simp

theorem one_add (g : Nat) (gs : List Nat) (l : List K) (hg : g = 1 ∨ g = 2) (h : ∀ g ∈ gs, g = 1 ∨ g = 2) (k : Nat) (hk : k < gs.length + 1) :
    ((ligsOf 1 g gs).foldl popAdd l)[k]? = (l[first (g :: gs) k]?).map (· + carried l (g :: gs) k) := by
  rw [fold_one popAdd _ add_removal]
  cases k with
  | zero => cases l <;> simp [first, pickAdd_nil, addNext, carried]
  | succ k =>
    have := pickAdd_get g gs (l.drop 1) hg h k (by omega)
    have e : first (g :: gs) (k + 1) = g + first gs k := by simp [first]
    unfold carried
    rw [e]
    simp only [ne_eq, Nat.add_eq_zero_iff, Nat.one_ne_zero, and_false, not_false_eq_true, true_and, Nat.add_sub_cancel]
    cases l with
    | nil => simp [pickAdd_nil, addNext]
    | cons x l =>
      simp only [List.drop_succ_cons, List.drop_zero] at this
      simp only [List.take_succ_cons, List.take_zero, List.cons_append, List.nil_append, List.getElem?_cons_succ, List.drop_succ_cons, List.drop_zero]
      rw [this]
      have e1 : g + first gs k = (g + first gs k - 1) + 1 := by omega
      have e4 : (x :: l)[g + first gs k]? = l[g + first gs k - 1]? := by
        conv => lhs; rw [e1]
        simp
      rw [e4]
      congr 1
      funext v
      by_cases h2 : (g :: gs)[k]? = some 2
      · rw [if_pos h2, if_pos h2]
        have : g + first gs k - 1 = (g + first gs k - 2) + 1 := by
          have : 2 ≤ g + first gs k := by
            cases k with
            | zero => simp at h2; omega
            | succ k =>
              rw [List.getElem?_cons_succ] at h2
              cases gs with
              | nil => simp at h2
              | cons b gs =>
                have hb := h b (by simp)
                simp [first]
                omega
          omega
        rw [this, List.getD_cons_succ]
      · rw [if_neg h2, if_neg h2]

theorem one_drop (op : List K → Nat → List K) (f : List K → List K) (ho : Removal op f) (hf' : ∀ r : List K, (f r).drop 1 = r.drop 2)
    (g : Nat) (gs : List Nat) (l : List K) (hg : g = 1 ∨ g = 2) (h : ∀ g ∈ gs, g = 1 ∨ g = 2) (hl : (g :: gs).getLast? = some 1) :
    ((ligsOf 1 g gs).foldl op l).drop (gs.length + 1) = l.drop (g :: gs).sum := by
  rw [fold_one op f ho]
  cases l with
  | nil => simp [pickF_nil f ho.nil]
  | cons x l =>
    have := pick_drop f ho.nil hf' g gs l hg h hl
    simp only [List.take_succ_cons, List.take_zero, List.cons_append, List.nil_append, List.drop_succ_cons, List.drop_zero, this, List.sum_cons]
    have e : g + gs.sum = (g + gs.sum - 1) + 1 := by omega
    conv => rhs; rw [e]
    simp

/-! ### The theorems -/

/-- **C119** Before the first line of a text is drawn, the lists are changed so that each glyph takes the values
of its first character, shifts with that of the second character of a ligature before it, and the next line
the values of its own characters. -/
theorem lists_follow_partial (gs : List Nat) (h : Plain gs) (p : Pen K) (k : Nat) (hk : k < gs.length) :
    let q := reposition gs.sum 0 (clusters gs) p
    (q.xs[k]? = p.xs[first gs k]? ∧ q.ys[k]? = p.ys[first gs k]? ∧
      q.dxs[k]? = (p.dxs[first gs k]?).map (· + carried p.dxs gs k) ∧ q.dys[k]? = (p.dys[first gs k]?).map (· + carried p.dys gs k) ∧
      (gs.sum < p.rots.length → q.rots[k]? = p.rots[first gs k]?)) ∧
    (q.xs.drop gs.length = p.xs.drop gs.sum ∧ q.ys.drop gs.length = p.ys.drop gs.sum ∧ q.dxs.drop gs.length = p.dxs.drop gs.sum ∧
      q.dys.drop gs.length = p.dys.drop gs.sum ∧ (gs.sum < p.rots.length → q.rots.drop gs.length = p.rots.drop gs.sum)) ∧
    (q.cx = p.cx ∧ q.cy = p.cy) := by
  cases gs with
  | nil => simp at hk
  | cons g gs =>
    have hg := h.1 g (by simp)
    have h' : ∀ g ∈ gs, g = 1 ∨ g = 2 := fun x hx => h.1 x (by simp [hx])
    have d1 : ∀ r : List K, (List.drop 1 r).drop 1 = r.drop 2 := fun r => by rw [List.drop_drop]
    have hr : (g :: gs).sum < p.rots.length → (ligsOf 1 g gs).foldl popRotate p.rots = (ligsOf 1 g gs).foldl popAt p.rots := by
      intro hs
      apply rotate_eq
      have := ligsOf_length 1 g gs hg h'
      simp only [List.sum_cons] at hs
      omega
    simp only
    rw [repos_eq g gs hg h', dropAt_fold]
    simp only [List.length_cons] at hk ⊢
    refine ⟨⟨one_get g gs _ hg h' k hk, one_get g gs _ hg h' k hk, one_add g gs _ hg h' k hk, one_add g gs _ hg h' k hk, fun hs => ?_⟩,
      ⟨one_drop _ _ erase_removal d1 g gs _ hg h' h.2, one_drop _ _ erase_removal d1 g gs _ hg h' h.2,
        one_drop _ _ add_removal addNext_drop g gs _ hg h' h.2, one_drop _ _ add_removal addNext_drop g gs _ hg h' h.2, fun hs => ?_⟩, trivial, trivial⟩
    · rw [hr hs]
      exact one_get g gs _ hg h' k hk
    · rw [hr hs]
      exact one_drop _ _ erase_removal d1 g gs _ hg h' h.2

/-- **C119** If all characters of the line have positions, each glyph is drawn at the position of its first
character, and turned as this one. -/
theorem ligature_places_partial (gs : List Nat) (h : Plain gs) (p : Pen K) (glyphs : List (Glyph K)) (hn : glyphs.length = gs.length)
    (hx : gs.sum ≤ p.xs.length) (hy : gs.sum ≤ p.ys.length) (hdx : p.dxs = []) (hdy : p.dys = []) (k : Nat) (g : Glyph K)
    (hg : glyphs[k]? = some g) :
    ∃ x y r, p.xs[first gs k]? = some x ∧ p.ys[first gs k]? = some y ∧ (gs.sum < p.rots.length → p.rots[first gs k]? = some r) ∧
      (line gs.sum 0 (clusters gs) p glyphs).2[k]? = some ⟨x + g.xo, y - g.yo, r⟩ := by
  have hk : k < gs.length := by
    rw [← hn]
    exact (List.getElem?_eq_some_iff.1 hg).1
  obtain ⟨⟨h1, h2, h3, h4, h5⟩, _⟩ := lists_follow_partial gs h p k hk
  have hs : first gs k < gs.sum := by
    have hp : ∀ g ∈ gs, 1 ≤ g := fun g hg => by have := h.1 g hg; omega
    clear h1 h2 h3 h4 h5 h hn hx hy
    unfold first
    induction gs generalizing k with
    | nil => simp at hk
    | cons a gs ih =>
      have ha := hp a (by simp)
      cases k with
      | zero => simp; omega
      | succ k =>
        simp only [List.length_cons] at hk
        have : ∀ gs : List Nat, (∀ g ∈ gs, 1 ≤ g) → ∀ k, k < gs.length → (gs.take k).sum < gs.sum := by
          intro gs
          induction gs with
          | nil => intro _ k hk; simp at hk
          | cons b gs ih =>
            intro hp k hk
            have hb := hp b (by simp)
            cases k with
            | zero => simp; omega
            | succ k =>
              have := ih (fun g hg => hp g (by simp [hg])) k (by simpa using hk)
              simp
              omega
        have := this gs (fun g hg => hp g (by simp [hg])) k (by omega)
        simp
        omega
  have hx' : first gs k < p.xs.length := by omega
  have hy' : first gs k < p.ys.length := by omega
  refine ⟨p.xs[first gs k], p.ys[first gs k], GlyphRun.Spec.rotation (reposition gs.sum 0 (clusters gs) p).rots k, List.getElem?_eq_getElem hx', List.getElem?_eq_getElem hy', fun hr => ?_, ?_⟩
  · have hr' : first gs k < p.rots.length := by omega
    have h5 := h5 hr
    rw [← h5]
    have hl : k < (reposition gs.sum 0 (clusters gs) p).rots.length := by
      by_contra hc
      rw [List.getElem?_eq_none (by omega), List.getElem?_eq_getElem hr'] at h5
      cases h5
    unfold GlyphRun.Spec.rotation
    rw [Nat.min_eq_left (by omega), List.getD_eq_getElem?_getD, List.getElem?_eq_getElem hl]
    rfl
  unfold line
  rw [run_get _ glyphs k g hg]
  simp only [List.getD_eq_getElem?_getD]
  simp only [hdx, hdy, List.getElem?_nil, Option.map_none] at h3 h4
  rw [h1, h2, h3, h4, List.getElem?_eq_getElem hx', List.getElem?_eq_getElem hy']
  simp

/-- An instance: `fiab`. -/
example : Plain [2, 1, 1] ∧ clusters [2, 1, 1] = [0, 2, 3] ∧
    (reposition 4 0 (clusters [2, 1, 1]) ⟨0, 0, [0, 1, 2, 3, 4], [], [0, 5, 7, 1, 1], [], [10, 20, 30, 40, 50]⟩ : Pen ℚ).xs = [0, 2, 3, 4] ∧
    (reposition 4 0 (clusters [2, 1, 1]) ⟨0, 0, [0, 1, 2, 3, 4], [], [0, 5, 7, 1, 1], [], [10, 20, 30, 40, 50]⟩ : Pen ℚ).dxs = [0, 12, 1, 1] ∧
    (reposition 4 0 (clusters [2, 1, 1]) ⟨0, 0, [0, 1, 2, 3, 4], [], [0, 5, 7, 1, 1], [], [10, 20, 30, 40, 50]⟩ : Pen ℚ).rots = [10, 30, 40, 50] := by
  refine ⟨⟨by decide, by decide⟩, by decide, ?_, ?_, ?_⟩ <;> decide +kernel

/-- **C119** is violated for ligatures of three characters: only one value is dropped, so that the next glyph takes
the position of the third one (`ffia`). -/
theorem three_violated (a b c d : K) : (reposition 4 0 (clusters [3, 1]) ⟨0, 0, [a, b, c, d], [], [], [], []⟩ : Pen K).xs = [a, c, d] ∧
    first [3, 1] 1 = 3 := ⟨rfl, rfl⟩

/-- **C119** is violated for ligatures at the end of a line: the next line begins with the position of the second
character of the ligature (`afi`). -/
theorem last_violated (a b c d : K) : ((reposition 3 0 (clusters [1, 2]) ⟨0, 0, [a, b, c, d], [], [], [], []⟩ : Pen K).xs).drop 2 = [c, d] :=
  rfl

/-- **C119** is violated in runs after the first one: the values of the characters before are gone from the lists
already, but the index still counts them (`fia` as the characters 2, 3, 4 of the text). -/
theorem later_violated (a b c d e : K) : (reposition 3 2 (clusters [2, 1]) ⟨0, 0, [a, b, c, d, e], [], [], [], []⟩ : Pen K).xs = [a, b, c, e] ∧
    first [2, 1] 1 = 2 := ⟨rfl, rfl⟩

/-- **C119** is violated for characters with several glyphs: the second glyph takes the position of the next
character, and this one none. -/
theorem decomposed_violated (a b : K) : (reposition 2 0 [0, 0, 1] ⟨0, 0, [a, b], [], [], [], []⟩ : Pen K).xs = [a, b] := rfl

/-- **C119** is violated for shifts at the end of the list: the shift of the second character of a ligature is lost
if the next one has none, and all glyphs after it are misplaced. -/
theorem shift_lost_violated (a b : K) : (reposition 3 0 (clusters [2, 1]) ⟨0, 0, [], [], [a, b], [], []⟩ : Pen K).dxs = [a] := rfl

/-- **C119** is violated for rotations at the end of the list: the last angle holds for the rest of the text, but it
is dropped if it belongs to the second character of a ligature. -/
theorem rotation_lost_violated (a b : K) : (reposition 3 0 (clusters [2, 1]) ⟨0, 0, [], [], [], [], [a, b]⟩ : Pen K).rots = [a] ∧
    GlyphRun.Spec.rotation [a, b] (first [2, 1] 1) = b := ⟨rfl, rfl⟩

end SvgPy.Ligature
