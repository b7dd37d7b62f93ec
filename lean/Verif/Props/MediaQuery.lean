import Verif.Model.MediaQuery
import Mathlib.Order.Basic
import Mathlib.Data.Rat.Defs
import Mathlib.Algebra.Order.Ring.Rat
import Mathlib.Tactic.NormNum

/-! Properties C26 and C27: media queries. -/

set_option linter.unusedSectionVars false
set_option linter.unusedSimpArgs false

namespace SvgPy.MediaQuery

variable {α : Type}

/-! ### C26: specification -/

mutual
/-- The truth of a query tree under a truth assignment: `not` negates, `and` is
conjunction, `or` is disjunction; a condition with a single term and no operator
is that term. -/
def Holds (ev : α → Bool) : Node α → Prop
  | .leaf a => ev a = true
  | .unary n => ¬ Holds ev n
  | .boolOp op _ children =>
    match op with
    | some .and => AllHold ev children
    | _ => AnyHolds ev children
/-- Every one holds. -/
def AllHold (ev : α → Bool) : List (Node α) → Prop
  | [] => True
  | n :: ns => Holds ev n ∧ AllHold ev ns
/-- At least one holds. -/
def AnyHolds (ev : α → Bool) : List (Node α) → Prop
  | [] => False
  | n :: ns => Holds ev n ∨ AnyHolds ev ns
end

mutual
/-- Trees for valid queries: conditions have at least one term, several terms are
joined by one and the same operator, `not` applies to a condition, terms are
features or negated conditions. -/
def Valid : Node α → Prop
  | .leaf _ => False
  | .unary n => Valid n
  | .boolOp op ops children =>
    children ≠ [] ∧ (∀ o ∈ ops, op = some o) ∧ (op = none → children.length = 1) ∧ ValidTerms children
/-- The terms of a condition. -/
def ValidTerms : List (Node α) → Prop
  | [] => True
  | .leaf _ :: ns => ValidTerms ns
  | .unary n :: ns => Valid n ∧ ValidTerms ns
  | .boolOp _ _ _ :: _ => False
end

mutual
/-- Every negated condition has a single term (the case the code gets right). -/
def NotOfSingle : Node α → Prop
  | .leaf _ => True
  | .unary n => (match n with
    | .boolOp _ _ children => children.length = 1
    | _ => True) ∧ NotOfSingle n
  | .boolOp _ _ children => NotOfSingleTerms children
/-- The same for terms. -/
def NotOfSingleTerms : List (Node α) → Prop
  | [] => True
  | n :: ns => NotOfSingle n ∧ NotOfSingleTerms ns
end

/-! ### C26: proofs -/

private theorem not_mixed (op : Option BoolOp) (ops : List BoolOp) (h : ∀ o ∈ ops, op = some o) :
    ¬ (ops ≠ [] ∧ BoolOp.and ∈ ops ∧ BoolOp.or ∈ ops) := by
  rintro ⟨_, h1, h2⟩
  have a := h _ h1
  have b := h _ h2
  rw [a] at b
  simp at b

/-- The value the loop leaves behind, without early exit. -/
private theorem children_plain (ev : α → Bool) (children : List (Node α))
    (ih : ∀ n, Node.unary n ∈ children → ∀ b, ∃ v, matchNode ev b n = .ok v ∧ (v = true ↔ Holds ev n))
    (hv : ValidTerms children) (r : Bool) :
    (∃ v, matchChildren ev .and false r children = .ok v ∧
      (v = true ↔ ((children = [] → r = true) ∧ AllHold ev children))) ∧
    (∃ v, matchChildren ev .or false r children = .ok v ∧
      (v = true ↔ ((children = [] ∧ r = true) ∨ AnyHolds ev children))) := by
  induction children generalizing r with
  | nil => simp [matchChildren, AllHold, AnyHolds]
  | cons c cs ihc =>
    cases c with
    | boolOp _ _ _ => simp [ValidTerms] at hv
    | leaf a =>
      simp only [ValidTerms] at hv
      have hc := ihc (fun n hn => ih n (by simp [hn])) hv (ev a)
      simp only [matchChildren, stops, AllHold, AnyHolds, Holds]
      cases he : ev a
      · rw [he] at hc
        obtain ⟨_, v, h1, h2⟩ := hc
        refine ⟨⟨false, by simp, by simp⟩, v, by simpa using h1, by simpa using h2⟩
      · rw [he] at hc
        obtain ⟨⟨v, h1, h2⟩, _⟩ := hc
        refine ⟨⟨v, by simpa using h1, by simpa using h2⟩, true, by simp, by simp⟩
    | unary n =>
      simp only [ValidTerms] at hv
      obtain ⟨w, hw1, hw2⟩ := ih n (by simp) true
      have hc := ihc (fun n hn => ih n (by simp [hn])) hv.2 (!w)
      simp only [matchChildren, stops, negate, hw1, AllHold, AnyHolds, Holds]
      cases w
      · have hn : ¬ Holds ev n := fun h => Bool.noConfusion (hw2.mpr h)
        obtain ⟨⟨v, h1, h2⟩, _⟩ := hc
        refine ⟨⟨v, by simpa using h1, by simp [hn, h2]⟩, true, by simp, by simp [hn]⟩
      · have hn : Holds ev n := hw2.mp rfl
        obtain ⟨_, v, h1, h2⟩ := hc
        refine ⟨⟨false, by simp, by simp [hn]⟩, v, by simpa using h1, by simp [hn, h2]⟩

/-- With `not_op` the loop short-circuits the other way round. -/
private theorem children_single (ev : α → Bool) (c : Node α) (op : BoolOp) (r : Bool)
    (ih : ∀ n, c = Node.unary n → ∃ v, matchNode ev true n = .ok v ∧ (v = true ↔ Holds ev n))
    (hv : ValidTerms [c]) :
    ∃ v, matchChildren ev op true r [c] = .ok v ∧ (v = true ↔ Holds ev c) := by
  cases c with
  | boolOp _ _ _ => simp [ValidTerms] at hv
  | leaf a => cases op <;> simp [matchChildren, stops, Holds]
  | unary n =>
    obtain ⟨w, hw1, hw2⟩ := ih n rfl
    have : ((!w) = true ↔ ¬ Holds ev n) := by cases w <;> simp_all
    cases op <;> simp [matchChildren, stops, negate, hw1, Holds, ← hw2]

mutual
private theorem matchNode_spec (ev : α → Bool) : ∀ (n : Node α) (notOp : Bool), Valid n → NotOfSingle n →
    (notOp = true → ∀ op ops cs, n = .boolOp op ops cs → cs.length = 1) →
    ∃ v, matchNode ev notOp n = .ok v ∧ (v = true ↔ Holds ev n)
  | .leaf _, _, hv, _, _ => by simp [Valid] at hv
  | .unary n, notOp, hv, hs, _ => by
    simp only [Valid] at hv
    simp only [NotOfSingle] at hs
    obtain ⟨w, h1, h2⟩ := matchNode_spec ev n true hv hs.2 (by
      rintro _ op ops cs rfl
      exact hs.1)
    refine ⟨!w, by simp [matchNode, negate, h1], ?_⟩
    simp only [Holds, ← h2]
    cases w <;> simp
  | .boolOp op ops cs, notOp, hv, hs, hsing => by
    simp only [Valid] at hv
    simp only [NotOfSingle] at hs
    obtain ⟨h1, h2, h3, h4⟩ := hv
    have ih := terms_spec ev cs h4 hs
    simp only [matchNode, not_mixed op ops h2, if_false]
    cases notOp with
    | false =>
      have hp := children_plain ev cs (fun n hn b => ih n hn b) h4 true
      cases op with
      | none =>
        obtain ⟨_, v, e1, e2⟩ := hp
        exact ⟨v, by simpa using e1, by simpa [Holds, h1] using e2⟩
      | some o =>
        cases o with
        | and =>
          obtain ⟨⟨v, e1, e2⟩, _⟩ := hp
          exact ⟨v, by simpa using e1, by simpa [Holds, h1] using e2⟩
        | or =>
          obtain ⟨_, v, e1, e2⟩ := hp
          exact ⟨v, by simpa using e1, by simpa [Holds, h1] using e2⟩
    | true =>
      have hl := hsing rfl op ops cs rfl
      match cs, hl with
      | [c], _ =>
        obtain ⟨v, e1, e2⟩ := children_single ev c (op.getD .or) true
          (fun n hn => ih n (by simp [hn]) true) h4
        refine ⟨v, e1, ?_⟩
        rw [e2]
        cases op with
        | none => simp [Holds, AnyHolds]
        | some o => cases o <;> simp [Holds, AnyHolds, AllHold]
private theorem terms_spec (ev : α → Bool) : ∀ (cs : List (Node α)), ValidTerms cs → NotOfSingleTerms cs →
    ∀ n, Node.unary n ∈ cs → ∀ b : Bool, ∃ v, matchNode ev b n = .ok v ∧ (v = true ↔ Holds ev n)
  | [], _, _, n, hn, _ => by simp at hn
  | .leaf a :: cs, hv, hs, n, hn, b => by
    simp only [ValidTerms] at hv
    simp only [NotOfSingleTerms] at hs
    exact terms_spec ev cs hv hs.2 n (by simpa using hn) b
  | .boolOp _ _ _ :: cs, hv, _, _, _, _ => by simp [ValidTerms] at hv
  | .unary m :: cs, hv, hs, n, hn, b => by
    simp only [ValidTerms] at hv
    simp only [NotOfSingleTerms, NotOfSingle] at hs
    simp only [List.mem_cons, Node.unary.injEq] at hn
    by_cases e : n = m
    · have h := matchNode_spec ev m b hv.1 hs.1.2 (by
        rintro _ op ops cs' rfl
        exact hs.1.1)
      rw [e]; exact h
    · exact terms_spec ev cs hv.2 hs.2 n (by tauto) b
end

/-- **C26**.  For every list of valid query trees in which each `not` applies to a
condition with a single term, and every truth assignment, the query list matches
exactly when one of the queries is true.  Missing from the full statement:
`not (A and B)` and `not (A or B)`, where the code is wrong: see
`match_not_violated` and `match_not_swaps`. -/
theorem matchList_iff_partial (ev : α → Bool) (ns : List (Node α))
    (hv : ∀ n ∈ ns, Valid n) (hs : ∀ n ∈ ns, NotOfSingle n) :
    ∃ v, matchList ev ns = .ok v ∧ (v = true ↔ ∃ n ∈ ns, Holds ev n) := by
  induction ns with
  | nil => exact ⟨false, rfl, by simp⟩
  | cons n ns ih =>
    obtain ⟨v, h1, h2⟩ := matchNode_spec ev n false (hv n (by simp)) (hs n (by simp)) (by simp)
    obtain ⟨w, h3, h4⟩ := ih (fun m hm => hv m (by simp [hm])) (fun m hm => hs m (by simp [hm]))
    cases v with
    | true =>
      refine ⟨true, by simp [matchList, h1], ?_⟩
      simp only [true_iff]
      exact ⟨n, by simp, h2.mp rfl⟩
    | false =>
      refine ⟨w, by simp [matchList, h1, h3], ?_⟩
      rw [h4]
      have hn : ¬ Holds ev n := fun h => by simpa using h2.mpr h
      simp [hn]

/-- Non-trivial instance: `screen and (color), not (hover)`. -/
example : ∀ n ∈ [Node.boolOp (some .and) [.and] [.leaf "screen", .leaf "color"],
      Node.unary (.boolOp none [] [.leaf "hover"])], Valid n ∧ NotOfSingle n := by
  simp [Valid, ValidTerms, NotOfSingle, NotOfSingleTerms]

/-- What the code computes under `not`: with `and` it negates the disjunction,
with `or` it negates the conjunction. -/
theorem match_not_swaps (ev : α → Bool) (op : BoolOp) (as : List α) (hne : as ≠ []) :
    matchNode ev false (.unary (.boolOp (some op) [op] (as.map .leaf))) =
      .ok (match op with
        | .and => !(as.any ev)
        | .or => !(as.all ev)) := by
  have hm : ¬ ([op] ≠ [] ∧ BoolOp.and ∈ [op] ∧ BoolOp.or ∈ [op]) := by cases op <;> simp
  have key : ∀ (as : List α) (r : Bool), matchChildren ev op true r (as.map .leaf) =
      .ok (match op with
        | .and => if as = [] then r else as.any ev
        | .or => if as = [] then r else as.all ev) := by
    intro as
    induction as with
    | nil => intro r; cases op <;> simp [matchChildren]
    | cons a as ih =>
      intro r
      cases op with
      | and =>
        simp only [List.map_cons, matchChildren, stops, ih]
        cases he : ev a <;> simp [he]
        cases as <;> simp
      | or =>
        simp only [List.map_cons, matchChildren, stops, ih]
        cases he : ev a <;> simp [he]
        cases as <;> simp
  simp only [matchNode, negate, hm, if_false, Option.getD_some, key]
  cases op <;> simp [hne]

/-- **C26** is violated under `not`: `not (A and B)` with `A` true and `B` false
should match but does not. -/
theorem match_not_violated :
    ¬ ∀ (ev : Bool → Bool) (n : Node Bool), Valid n →
      ∃ v, matchNode ev false n = .ok v ∧ (v = true ↔ Holds ev n) := by
  intro H
  obtain ⟨v, h1, h2⟩ := H id (.unary (.boolOp (some .and) [.and] [.leaf true, .leaf false]))
    (by simp [Valid, ValidTerms])
  have : v = false := by
    have e : matchNode id false (.unary (.boolOp (some .and) [.and] [.leaf true, .leaf false])) = .ok false := by
      exact match_not_swaps id .and [true, false] (by simp)
    rw [e] at h1
    injection h1 with h1
    exact h1.symm
  subst this
  simp [Holds, AllHold] at h2

/-- Likewise `not (A or B)` with `A` true and `B` false should not match but does. -/
theorem match_not_or_violated :
    ∃ ev : Bool → Bool, matchNode ev false (.unary (.boolOp (some .or) [.or] [.leaf true, .leaf false])) = .ok true
      ∧ ¬ Holds ev (.unary (.boolOp (some .or) [.or] [.leaf true, .leaf false])) := by
  refine ⟨id, ?_, ?_⟩
  · exact match_not_swaps id .or [true, false] (by simp)
  · simp [Holds, AnyHolds]

/-! ### C27: specification -/

variable {V K : Type} [DecidableEq V] [LinearOrder K]

/-- The meaning of a comparison operator. -/
def Cmp.rel : Cmp → K → K → Prop
  | .lt, a, b => a < b
  | .le, a, b => a ≤ b
  | .gt, a, b => a > b
  | .ge, a, b => a ≥ b
  | .eq, a, b => a = b

/-- The chain `a op₁ b op₂ c …` holds: each adjacent pair is in the relation; a
feature without a value makes it false. -/
def ChainHolds (num : V → K) (cond : String → Option V) : Operand V → List (Cmp × Operand V) → Prop
  | a, [] => ∃ v, a.value cond = some v
  | a, (op, b) :: rest =>
    (∃ v w, a.value cond = some v ∧ b.value cond = some w ∧ op.rel (num v) (num w)) ∧
      ChainHolds num cond b rest

/-- `compare_func` orders values by `num` (the three-way comparison that
`MediaQueryList.matches` passes, `/repo/svgpy/window.py` 690-696, without the
tolerance of its equality test). -/
def Compares (E : Values V K) (num : V → K) : Prop :=
  ∀ a b, E.cmp a b = some (if num a = num b then 0 else if num a > num b then 1 else -1)

/-- The name is neither a discrete feature nor the aspect ratio. -/
def Numeric (n : String) : Prop := n = "grid" ∨ (n ∉ discreteFeatures ∧ n ≠ "aspect-ratio")

/-- The operand, if a name, satisfies `p`. -/
def Operand.NameIs (p : String → Prop) : Operand V → Prop
  | .num _ => True
  | .name n => p n

/-! ### C27: proofs -/

open Classical in
private theorem step_numeric (E : Values V K) (num : V → K) (hE : Compares E num) (anyName : Bool)
    (name : Option String) (hn : ∀ n, name = some n → Numeric n) (l r : V) (op : Cmp) :
    compareStep E anyName name l r op = if op.rel (num l) (num r) then some r else none := by
  have h1 : ¬ (anyName = true ∧ name ≠ some "grid" ∧ (∃ n ∈ discreteFeatures, name = some n)) := by
    rintro ⟨_, hg, n, hd, rfl⟩
    rcases hn n rfl with rfl | ⟨h, _⟩
    · exact hg rfl
    · exact h hd
  have h2 : ¬ (anyName = true ∧ name = some "aspect-ratio") := by
    rintro ⟨_, rfl⟩
    rcases hn _ rfl with h | ⟨_, h⟩
    · exact absurd h (by decide)
    · exact h rfl
  simp only [compareStep, h1, h2, if_false, hE l r]
  rcases lt_trichotomy (num l) (num r) with h | h | h
  · have a : ¬ num l = num r := ne_of_lt h
    have b : ¬ num l > num r := not_lt.mpr h.le
    cases op <;> simp [Cmp.rel, Cmp.first, Cmp.last, a, b, h, h.le, not_le.mpr h]
  · cases op <;> simp [Cmp.rel, Cmp.first, Cmp.last, h]
  · have a : ¬ num l = num r := ne_of_gt h
    cases op <;> simp [Cmp.rel, Cmp.first, Cmp.last, a, h, h.le, not_le.mpr h, not_lt.mpr h.le]

private theorem loop_numeric (E : Values V K) (num : V → K) (hE : Compares E num)
    (cond : String → Option V) (rest : List (Cmp × Operand V)) (left : Operand V) (l : V)
    (hl : left.value cond = some l) (name : Option String) (isN : Bool)
    (hn : ∀ n, name = some n → Numeric n)
    (hr : ∀ p ∈ rest, Operand.NameIs Numeric p.2) :
    compareLoop E cond isN name l rest = true ↔ ChainHolds num cond left rest := by
  induction rest generalizing left l name isN with
  | nil => simp [compareLoop, ChainHolds, hl]
  | cons p rest ih =>
    obtain ⟨op, right⟩ := p
    have hrn := hr (op, right) (by simp)
    simp only [compareLoop, ChainHolds]
    cases hv : right.value cond with
    | none => simp
    | some r =>
      have hname : ∀ n, right.nameOr name = some n → Numeric n := by
        cases right with
        | name m => intro n e; simp only [Operand.nameOr, Option.some.injEq] at e; subst e; exact hrn
        | num v => exact hn
      dsimp only
      rw [step_numeric E num hE _ _ hname]
      by_cases hrel : op.rel (num l) (num r)
      · rw [if_pos hrel]; dsimp only
        have := ih right r hv _ right.isName hname (fun q hq => hr q (by simp [hq]))
        rw [this]
        simp [hl, hrel]
      · rw [if_neg hrel]; simp [hrel, hl]

/-- **C27** (numeric features).  A comparison or chain of comparisons over numeric
features holds exactly when all adjacent comparisons hold, for any length. -/
theorem evalCompare_numeric_iff (E : Values V K) (num : V → K) (hE : Compares E num)
    (cond : String → Option V) (left : Operand V) (rest : List (Cmp × Operand V))
    (hl : Operand.NameIs Numeric left) (hr : ∀ p ∈ rest, Operand.NameIs Numeric p.2) :
    evalCompare E cond left rest = true ↔ ChainHolds num cond left rest := by
  unfold evalCompare
  cases hv : left.value cond with
  | none => cases rest <;> simp [ChainHolds, hv]
  | some l =>
    refine loop_numeric E num hE cond rest left l hv _ _ ?_ hr
    cases left with
    | name m => intro n e; simp only [Operand.nameOr, Option.some.injEq] at e; subst e; exact hl
    | num v => simp [Operand.nameOr]

/-- A concrete environment for the examples: values are rationals. -/
private def ratE : Values ℚ ℚ :=
  ⟨fun a b => some (if a = b then 0 else if a > b then 1 else -1), id, fun _ => false, id⟩

/-- Non-trivial instance: `400 <= width < 700` at width 500. -/
example : Compares ratE id ∧ Operand.NameIs (V := ℚ) Numeric (.name "width") ∧
    evalCompare ratE (fun n => if n = "width" then some 500 else none) (.num 400)
      [(.le, .name "width"), (.lt, .num 700)] = true := by
  refine ⟨fun _ _ => rfl, Or.inr ⟨by decide, by decide⟩, by decide +kernel⟩

/-- **C27** (aspect ratio).  For the aspect ratio the claim holds when only `<=`,
`>=` and `>` are used, or `<` between different ratios.  Missing: `==` (also
written `:`) and `<` between equal ratios, see the next two theorems. -/
theorem evalCompare_aspect_iff_partial (E : Values V K) (cond : String → Option V) (v w : V)
    (op : Cmp) (hc : cond "aspect-ratio" = some v) (hop : op ≠ .eq)
    (hlt : op = .lt → E.ratio v ≠ E.ratio w) :
    evalCompare E cond (.name "aspect-ratio") [(op, .num w)] = true ↔
      ChainHolds E.ratio cond (.name "aspect-ratio") [(op, .num w)] := by
  have hd : ¬ ∃ n ∈ discreteFeatures, some "aspect-ratio" = some n := by decide
  simp only [evalCompare, Operand.value, hc, compareLoop, compareStep, Operand.isName, Operand.nameOr, Bool.or_false,
    hd, and_false, if_false, and_self, if_true, ChainHolds]
  rcases lt_trichotomy (E.ratio v) (E.ratio w) with h | h | h
  · have a : ¬ E.ratio v = E.ratio w := ne_of_lt h
    have b : ¬ E.ratio v > E.ratio w := not_lt.mpr h.le
    cases op <;> simp [Cmp.rel, Cmp.first, Cmp.last, a, b, h, h.le, not_le.mpr h] at hop ⊢
  · cases op <;> simp [Cmp.rel, Cmp.first, Cmp.last, h] at hop hlt ⊢
  · have a : ¬ E.ratio v = E.ratio w := ne_of_gt h
    cases op <;> simp [Cmp.rel, Cmp.first, Cmp.last, a, h, h.le, not_le.mpr h, not_lt.mpr h.le] at hop ⊢

/-- **C27** is violated for equality of aspect ratios: `(aspect-ratio: r)` matches
whatever the ratio is. -/
theorem evalCompare_aspect_eq_violated (E : Values V K) (cond : String → Option V) (v w : V)
    (hc : cond "aspect-ratio" = some v) :
    evalCompare E cond (.name "aspect-ratio") [(.eq, .num w)] = true := by
  have hd : ¬ ∃ n ∈ discreteFeatures, some "aspect-ratio" = some n := by decide
  simp only [evalCompare, Operand.value, hc, compareLoop, compareStep, Operand.isName, Operand.nameOr, Bool.or_false,
    hd, and_false, if_false, and_self, if_true]
  by_cases h : E.ratio v = E.ratio w <;> simp [Cmp.first, Cmp.last, h]

/-- **C27** is violated for `<`: equal aspect ratios count as smaller. -/
theorem evalCompare_aspect_lt_violated (E : Values V K) (cond : String → Option V) (v : V)
    (hc : cond "aspect-ratio" = some v) :
    evalCompare E cond (.name "aspect-ratio") [(.lt, .num v)] = true ∧
    ¬ ChainHolds E.ratio cond (.name "aspect-ratio") [(.lt, .num v)] := by
  have hd : ¬ ∃ n ∈ discreteFeatures, some "aspect-ratio" = some n := by decide
  constructor
  · simp only [evalCompare, Operand.value, hc, compareLoop, compareStep, Operand.isName, Operand.nameOr, Bool.or_false,
      hd, and_false, if_false, and_self, if_true]
    simp [Cmp.first, Cmp.last]
  · simp [ChainHolds, Operand.value, hc, Cmp.rel]

/-- The features whose values are words or flags (Media Queries Level 4, "discrete"). -/
def wordFeatures : List String :=
  ["any-hover", "any-pointer", "color-gamut", "grid", "hover", "orientation", "overflow-block", "overflow-inline",
   "pointer", "scan", "update"]

private theorem discrete_iff (n : String) : n ∈ discreteFeatures ↔ n ∈ wordFeatures := by
  constructor
  · exact (by decide : ∀ n ∈ discreteFeatures, n ∈ wordFeatures) n
  · exact (by decide : ∀ n ∈ wordFeatures, n ∈ discreteFeatures) n

/-- **C27** (prefixes).  `min-`/`max-` of a range feature become `>=`/`<=`. -/
theorem plainOp_prefix (n : Str) (h : String.ofList n ∉ wordFeatures) :
    plainOp ("min-".toList ++ n) = (.ge, n) ∧ plainOp ("max-".toList ++ n) = (.le, n) := by
  have e1 : ("min-".toList ++ n).take 4 = "min-".toList := by simp
  have e2 : ("min-".toList ++ n).drop 4 = n := by simp
  have e3 : ("max-".toList ++ n).take 4 = "max-".toList := by simp
  have e4 : ("max-".toList ++ n).drop 4 = n := by simp
  have ne : ¬ ("min-".toList = "max-".toList) := by decide
  rw [← discrete_iff] at h
  constructor
  · simp only [plainOp, e1, e2, h, and_false, if_false, ne, if_true]
  · simp only [plainOp, e3, e4, h, and_false, if_false, if_true]

example : String.ofList "width".toList ∉ wordFeatures := by decide

/-- **C27** (no prefixes).  A feature whose values are words takes no prefix: the name stays as it is written, and so
is no feature; without a prefix every feature is compared for equality. -/
theorem plainOp_plain (n : Str) :
    (String.ofList n ∈ wordFeatures → plainOp ("min-".toList ++ n) = (.eq, "min-".toList ++ n) ∧
      plainOp ("max-".toList ++ n) = (.eq, "max-".toList ++ n)) ∧
    (¬ "min-".toList.isPrefixOf n → ¬ "max-".toList.isPrefixOf n → plainOp n = (.eq, n)) := by
  have e1 : ("min-".toList ++ n).take 4 = "min-".toList := by simp
  have e2 : ("min-".toList ++ n).drop 4 = n := by simp
  have e3 : ("max-".toList ++ n).take 4 = "max-".toList := by simp
  have e4 : ("max-".toList ++ n).drop 4 = n := by simp
  have ne : ¬ ("min-".toList = "max-".toList) := by decide
  refine ⟨fun h => ?_, fun h1 h2 => ?_⟩
  · rw [← discrete_iff] at h
    constructor
    · simp only [plainOp, e1, e2, h, and_true, or_true, if_true]
    · simp only [plainOp, e3, e4, h, and_true, true_or, if_true]
  · have p (a : Str) (ha : a.length = 4) (h : ¬ a.isPrefixOf n) : ¬ n.take 4 = a := by
      intro e
      apply h
      rw [List.isPrefixOf_iff_prefix, ← e]
      exact List.take_prefix 4 n
    have q1 := p "min-".toList rfl h1
    have q2 := p "max-".toList rfl h2
    simp only [plainOp, q1, q2, false_or, false_and, if_false]

end SvgPy.MediaQuery
