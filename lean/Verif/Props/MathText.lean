import Verif.Model.MathText
import Verif.Props.SumValue
import Mathlib.Tactic.Ring
import Mathlib.Tactic.Linarith
import Mathlib.Algebra.BigOperators.Group.List.Basic

set_option linter.unusedSimpArgs false

/-! Reading of math functions: the value that is read from `calc(...)`. -/

namespace SvgPy.MathText

open SvgPy.UnitValue (U UV)
open SvgPy.SumValue (Expr eval evals extremum)

/-! ### Specification: texts and their quantities -/

/-- The functions with commas. -/
inductive Fn
  | min | max
deriving DecidableEq

def Fn.name : Fn → Str
  | .min => "min".toList
  | .max => "max".toList

mutual
/-- Operands: numbers with units; `calc(…)` with operators of one level only; functions of
operands. -/
inductive Arg
  | num (x : UV)
  | sums (a : Arg) (r : Rest)
  | prods (a : Arg) (r : Rest)
  | fn (f : Fn) (a : Arg) (r : Rest)
  | clamp (a b c : Arg)

/-- More operands, each after one of two operators. -/
inductive Rest
  | nil
  | cons (second : Bool) (a : Arg) (r : Rest)
end

/-- The token of an operator, `c` or `d`. -/
def sign (c d : Char) (b : Bool) : Tok := .lit (if b then d else c)

mutual
/-- The token of an operand. -/
def Arg.tok : Arg → Tok
  | .num x => .num x
  | .sums a r => .func "calc".toList (a.tok :: r.toks '+' '-')
  | .prods a r => .func "calc".toList (a.tok :: r.toks '*' '/')
  | .fn f a r => .func f.name (a.tok :: r.toks ',' ',')
  | .clamp a b c => .func "clamp".toList [a.tok, .lit ',', b.tok, .lit ',', c.tok]

def Rest.toks (c d : Char) : Rest → List Tok
  | .nil => []
  | .cons b a r => sign c d b :: a.tok :: r.toks c d
end

mutual
/-- The quantity of an operand, for sizes `σ` of the units. -/
noncomputable def Arg.value (σ : U → ℝ) : Arg → ℝ
  | .num x => x.value * σ x.unit
  | .sums a r => r.total σ (a.value σ)
  | .prods a r => r.times σ (a.value σ)
  | .fn .min a r => r.least σ (a.value σ)
  | .fn .max a r => r.greatest σ (a.value σ)
  | .clamp a b c => Max.max (a.value σ) (Min.min (b.value σ) (c.value σ))

/-- Additions and subtractions, from left to right. -/
noncomputable def Rest.total (σ : U → ℝ) (acc : ℝ) : Rest → ℝ
  | .nil => acc
  | .cons b a r => r.total σ (if b then acc - a.value σ else acc + a.value σ)

/-- Multiplications and divisions, from left to right. -/
noncomputable def Rest.times (σ : U → ℝ) (acc : ℝ) : Rest → ℝ
  | .nil => acc
  | .cons b a r => r.times σ (if b then acc / a.value σ else acc * a.value σ)

noncomputable def Rest.least (σ : U → ℝ) (acc : ℝ) : Rest → ℝ
  | .nil => acc
  | .cons _ a r => r.least σ (Min.min acc (a.value σ))

noncomputable def Rest.greatest (σ : U → ℝ) (acc : ℝ) : Rest → ℝ
  | .nil => acc
  | .cons _ a r => r.greatest σ (Max.max acc (a.value σ))
end

/-- A product: operands with `*` and `/` between them. -/
structure Term where
  first : Arg
  rest : Rest

def Term.toks (t : Term) : List Tok := t.first.tok :: t.rest.toks '*' '/'

noncomputable def Term.value (σ : U → ℝ) (t : Term) : ℝ := t.rest.times σ (t.first.value σ)

/-- Products with `+` and `-` between them. -/
def sumToks : List (Bool × Term) → List Tok
  | [] => []
  | (b, t) :: l => sign '+' '-' b :: (t.toks ++ sumToks l)

noncomputable def sumValue (σ : U → ℝ) (acc : ℝ) : List (Bool × Term) → ℝ
  | [] => acc
  | (b, t) :: l => sumValue σ (if b then acc - t.value σ else acc + t.value σ) l

/-- Some operand is multiplied. -/
def Rest.hasStar : Rest → Bool
  | .nil => false
  | .cons b _ r => !b || r.hasStar

/-- No subtracted product after a product with `*`, up to the next `+` (the first product does
not count). -/
def Safe (afterStar : Bool) : List (Bool × Term) → Prop
  | [] => True
  | (b, t) :: l =>
    if afterStar = true ∧ b = true then t.rest = .nil ∧ Safe true l else Safe t.rest.hasStar l

/-! ### Heaps -/

theorem nodeAt_append (h g : Heap) (i : Nat) (hi : i < h.length) : nodeAt (h ++ g) i = nodeAt h i := by
  simp [nodeAt, List.getD_eq_getElem?_getD, List.getElem?_append_left hi]

theorem nodeAt_end (h : Heap) (n : Node) : nodeAt (h ++ [n]) h.length = n := by
  simp [nodeAt]

theorem nodeAt_set_self (h : Heap) (n : Node) (i : Nat) (hi : i < h.length) : nodeAt (h.set i n) i = n := by
  simp [nodeAt, List.getD_eq_getElem?_getD, hi]

theorem nodeAt_set_ne (h : Heap) (n : Node) (i j : Nat) (hi : i ≠ j) : nodeAt (h.set i n) j = nodeAt h j := by
  simp [nodeAt, List.getD_eq_getElem?_getD, List.getElem?_set_ne hi]

/-- Objects are as before but for their parents, and for those not in `ok`. -/
def Keeps (ok : Nat → Prop) (h h' : Heap) : Prop :=
  ∀ i, ok i → i < h.length → i < h'.length ∧ (nodeAt h' i).op = (nodeAt h i).op ∧ (nodeAt h' i).vals = (nodeAt h i).vals

mutual
/-- The value stands for the expression; only objects in `ok` are used. -/
inductive Reads (h : Heap) (ok : Nat → Prop) : Val → Expr → Prop
  | unit (x : UV) : Reads h ok (.unit x) (.unit x)
  | node (i : Nat) (es : List Expr) (e : Expr) (hi : i < h.length) (hok : ok i)
      (hv : ReadsAll h ok (nodeAt h i).vals es) (hb : build (nodeAt h i).op es = .ok e) : Reads h ok (.node i) e

inductive ReadsAll (h : Heap) (ok : Nat → Prop) : List Val → List Expr → Prop
  | nil : ReadsAll h ok [] []
  | cons (v : Val) (e : Expr) (vs : List Val) (es : List Expr) (hv : Reads h ok v e) (hs : ReadsAll h ok vs es) :
      ReadsAll h ok (v :: vs) (e :: es)
end

mutual
theorem Reads.frame {h h' : Heap} {ok ok' : Nat → Prop} (hk : Keeps ok h h') (ho : ∀ i, ok i → i < h.length → ok' i) {v : Val} {e : Expr} :
    Reads h ok v e → Reads h' ok' v e
  | .unit x => .unit x
  | .node i es e hi hok hv hb => by
    obtain ⟨h1, h2, h3⟩ := hk i hok hi
    refine .node i es e h1 (ho i hok hi) ?_ ?_
    · rw [h3]; exact hv.frame hk ho
    · rw [h2]; exact hb

theorem ReadsAll.frame {h h' : Heap} {ok ok' : Nat → Prop} (hk : Keeps ok h h') (ho : ∀ i, ok i → i < h.length → ok' i) {vs : List Val} {es : List Expr} :
    ReadsAll h ok vs es → ReadsAll h' ok' vs es
  | .nil => .nil
  | .cons v e vs es hv hs => .cons v e vs es (hv.frame hk ho) (hs.frame hk ho)
end

theorem each_ok {α β : Type} (f : α → Py β) (a : α) (b : β) (l : List α) (r : List β) (h : f a = .ok b) (hr : each f l = .ok r) :
    each f (a :: l) = .ok (b :: r) := by
  rw [each, h]
  show (each f l).map _ = _
  rw [hr]; rfl

mutual
theorem Reads.reify {h : Heap} {ok : Nat → Prop} {v : Val} {e : Expr} :
    Reads h ok v e → ∃ n, ∀ m, n ≤ m → reify m h v = .ok e
  | .unit x => ⟨1, fun m hm => by obtain ⟨k, rfl⟩ := Nat.exists_eq_add_of_le hm; rw [Nat.add_comm]; rfl⟩
  | .node i es e hi hok hv hb => by
    obtain ⟨n, hn⟩ := hv.reify
    refine ⟨n + 1, fun m hm => ?_⟩
    obtain ⟨k, rfl⟩ := Nat.exists_eq_add_of_le hm
    rw [show n + 1 + k = (n + k) + 1 by omega, MathText.reify, hn (n + k) (by omega)]
    exact hb

theorem ReadsAll.reify {h : Heap} {ok : Nat → Prop} {vs : List Val} {es : List Expr} :
    ReadsAll h ok vs es → ∃ n, ∀ m, n ≤ m → each (MathText.reify m h) vs = .ok es
  | .nil => ⟨0, fun _ _ => rfl⟩
  | .cons v e vs es hv hs => by
    obtain ⟨n, hn⟩ := hv.reify
    obtain ⟨n', hn'⟩ := hs.reify
    exact ⟨max n n', fun m hm => each_ok _ _ _ _ _ (hn m (by omega)) (hn' m (by omega))⟩
end

/-- The value stands for a quantity. -/
def Means (h : Heap) (ok : Nat → Prop) (v : Val) (x : (U → ℝ) → ℝ) : Prop :=
  ∃ e, Reads h ok v e ∧ ∀ σ, eval σ e = x σ

abbrev MeansAll (h : Heap) (ok : Nat → Prop) : List Val → List ((U → ℝ) → ℝ) → Prop := List.Forall₂ (Means h ok)

theorem Means.frame {h h' : Heap} {ok ok' : Nat → Prop} {v : Val} {x : (U → ℝ) → ℝ} (m : Means h ok v x) (hk : Keeps ok h h')
    (ho : ∀ i, ok i → i < h.length → ok' i) : Means h' ok' v x := by
  obtain ⟨e, he, hx⟩ := m
  exact ⟨e, he.frame hk ho, hx⟩

theorem MeansAll.frame {h h' : Heap} {ok ok' : Nat → Prop} {vs : List Val} {xs : List ((U → ℝ) → ℝ)} (m : MeansAll h ok vs xs)
    (hk : Keeps ok h h') (ho : ∀ i, ok i → i < h.length → ok' i) : MeansAll h' ok' vs xs :=
  m.imp fun _ _ hm => hm.frame hk ho

theorem MeansAll.reads {h : Heap} {ok : Nat → Prop} {vs : List Val} {xs : List ((U → ℝ) → ℝ)} (m : MeansAll h ok vs xs) :
    ∃ es, ReadsAll h ok vs es ∧ ∀ σ, evals σ es = xs.map (· σ) := by
  induction m with
  | nil => exact ⟨[], .nil, fun _ => rfl⟩
  | cons hv _ ih =>
    obtain ⟨e, he, hx⟩ := hv
    obtain ⟨es, hes, hxs⟩ := ih
    exact ⟨e :: es, .cons _ _ _ _ he hes, fun σ => by rw [evals, hx, hxs]; rfl⟩

theorem means_node {h : Heap} {ok : Nat → Prop} {i : Nat} {xs : List ((U → ℝ) → ℝ)} (hi : i < h.length) (hok : ok i)
    (m : MeansAll h ok (nodeAt h i).vals xs) (x : (U → ℝ) → ℝ)
    (hb : ∀ es, (∀ σ, evals σ es = xs.map (· σ)) → ∃ e, build (nodeAt h i).op es = .ok e ∧ ∀ σ, eval σ e = x σ) :
    Means h ok (.node i) x := by
  obtain ⟨es, hes, hxs⟩ := m.reads
  obtain ⟨e, he, hx⟩ := hb es hxs
  exact ⟨e, .node i es e hi hok hes he, hx⟩

theorem evals_ne {es : List Expr} {xs : List ((U → ℝ) → ℝ)} (hne : xs ≠ []) (h : ∀ σ, evals σ es = xs.map (· σ)) : es.isEmpty = false := by
  cases es with
  | cons => rfl
  | nil =>
    have := h fun _ => 0
    rw [evals] at this
    cases xs with
    | nil => exact absurd rfl hne
    | cons => cases this

/-- The sum of some quantities. -/
noncomputable def total (xs : List ((U → ℝ) → ℝ)) (σ : U → ℝ) : ℝ := (xs.map (· σ)).sum

noncomputable def product (xs : List ((U → ℝ) → ℝ)) (σ : U → ℝ) : ℝ := (xs.map (· σ)).prod

theorem means_sum {h : Heap} {ok : Nat → Prop} {i : Nat} {xs : List ((U → ℝ) → ℝ)} (hi : i < h.length) (hok : ok i)
    (m : MeansAll h ok (nodeAt h i).vals xs) (hne : xs ≠ []) (hop : (nodeAt h i).op = none ∨ (nodeAt h i).op = some .sum) :
    Means h ok (.node i) (total xs) := by
  refine means_node hi hok m _ fun es hes => ⟨.sum es, ?_, fun σ => ?_⟩
  · rcases hop with hop | hop <;> rw [hop, build, evals_ne hne hes] <;> rfl
  · rw [eval, hes]; rfl

theorem means_product {h : Heap} {ok : Nat → Prop} {i : Nat} {xs : List ((U → ℝ) → ℝ)} (hi : i < h.length) (hok : ok i)
    (m : MeansAll h ok (nodeAt h i).vals xs) (hne : xs ≠ []) (hop : (nodeAt h i).op = some .product) :
    Means h ok (.node i) (product xs) := by
  refine means_node hi hok m _ fun es hes => ⟨.prod es, ?_, fun σ => ?_⟩
  · rw [hop, build, evals_ne hne hes]; rfl
  · rw [eval, hes]; rfl

theorem evals_one {es : List Expr} {x : (U → ℝ) → ℝ} (h : ∀ σ, evals σ es = [x].map (· σ)) : ∃ e, es = [e] ∧ ∀ σ, eval σ e = x σ := by
  match es with
  | [] => exact absurd (h fun _ => 0) (by simp [evals])
  | [e] => exact ⟨e, rfl, fun σ => by have := h σ; simpa [evals] using this⟩
  | e :: e' :: es => exact absurd (h fun _ => 0) (by simp [evals])

theorem means_negate {h : Heap} {ok : Nat → Prop} {i : Nat} {x : (U → ℝ) → ℝ} (hi : i < h.length) (hok : ok i)
    (m : MeansAll h ok (nodeAt h i).vals [x]) (hop : (nodeAt h i).op = some .negate) : Means h ok (.node i) fun σ => - x σ := by
  refine means_node hi hok m _ fun es hes => ?_
  obtain ⟨e, rfl, he⟩ := evals_one hes
  exact ⟨.negate e, by rw [hop]; rfl, fun σ => by rw [eval, he]⟩

theorem means_invert {h : Heap} {ok : Nat → Prop} {i : Nat} {x : (U → ℝ) → ℝ} (hi : i < h.length) (hok : ok i)
    (m : MeansAll h ok (nodeAt h i).vals [x]) (hop : (nodeAt h i).op = some .invert) : Means h ok (.node i) fun σ => (x σ)⁻¹ := by
  refine means_node hi hok m _ fun es hes => ?_
  obtain ⟨e, rfl, he⟩ := evals_one hes
  exact ⟨.invert e, by rw [hop]; rfl, fun σ => by rw [eval, he]⟩

/-! ### Operands -/

theorem ok_bind {α β : Type} (a : α) (f : α → Py β) : Except.bind (.ok a) f = f a := rfl

theorem ok_map {α β : Type} (a : α) (f : α → β) : Except.map f (.ok a : Py α) = .ok (f a) := rfl

theorem nodeAt_mid (h : Heap) (n : Node) (g : Heap) : nodeAt (h ++ n :: g) h.length = n := by
  simp [nodeAt]

theorem set_mid (h : Heap) (n n' : Node) (g : Heap) : (h ++ n :: g).set h.length n' = h ++ n' :: g := by
  simp

theorem keeps_tail (h : Heap) (n n' : Node) (g g' : Heap) : Keeps (h.length < ·) (h ++ n :: g) (h ++ n' :: (g ++ g')) := by
  intro i hi hl
  simp only [List.length_append, List.length_cons] at hl
  have : nodeAt (h ++ n' :: (g ++ g')) i = nodeAt (h ++ n :: g) i := by
    obtain ⟨k, rfl⟩ := Nat.exists_eq_add_of_lt hi
    simp only [nodeAt, List.getD_eq_getElem?_getD]
    rw [List.getElem?_append_right (by omega), List.getElem?_append_right (by omega),
      show h.length + k + 1 - h.length = k + 1 by omega, List.getElem?_cons_succ, List.getElem?_cons_succ,
      List.getElem?_append_left (by omega)]
  exact ⟨by simp only [List.length_append, List.length_cons]; omega, by rw [this], by rw [this]⟩

theorem keeps_append (ok : Nat → Prop) (h g : Heap) : Keeps ok h (h ++ g) := by
  intro i _ hi
  rw [nodeAt_append _ _ _ hi]
  exact ⟨by simp; omega, rfl, rfl⟩

/-- An operand is read as a value with its quantity; nothing else is changed. -/
def Good (a : Arg) : Prop := ∀ (h : Heap) (root : Option Nat), ∃ g v,
  parseVal h root a.tok = .ok (h ++ g, v) ∧ Means (h ++ g) (h.length ≤ ·) v fun σ => a.value σ

def Rest.Good : Rest → Prop
  | .nil => True
  | .cons _ a r => MathText.Good a ∧ r.Good

theorem loop_arg (h : Heap) (cur : Nat) (a : Arg) (l : List Tok) :
    loop h cur (a.tok :: l) = (parseVal h (some cur) a.tok).bind fun r => loop (push r.1 cur r.2) cur l := by
  cases a <;> simp only [Arg.tok, loop]

theorem loop_plus (h : Heap) (cur : Nat) (l : List Tok) :
    loop h cur (.lit '+' :: l) = (plus h cur).bind fun r => loop r.1 r.2 l := by
  cases l <;> simp [loop]

theorem loop_star (h : Heap) (cur : Nat) (l : List Tok) :
    loop h cur (.lit '*' :: l) = (star h cur).bind fun r => loop r.1 r.2 l := by
  cases l <;> simp [loop]

theorem loop_slash (h : Heap) (cur : Nat) (t : Tok) (l : List Tok) :
    loop h cur (.lit '/' :: t :: l) = (parseVal h (some cur) t).bind fun r =>
      (slash r.1 cur (nodeAt h cur).op r.2).bind fun r => loop r.1 r.2 l := by
  rw [loop]; simp

theorem loop_minus (h : Heap) (cur : Nat) (t : Tok) (l : List Tok) :
    loop h cur (.lit '-' :: t :: l) = (parseVal h (some cur) t).bind fun r =>
      (minus r.1 cur (nodeAt h cur).op r.2).bind fun r => loop r.1 r.2 l := by
  rw [loop]; simp

theorem loop_comma (h : Heap) (cur : Nat) (l : List Tok) (hl : isList (nodeAt h cur).op = true) :
    loop h cur (.lit ',' :: l) = loop h cur l := by
  cases l <;> simp [loop, hl]

theorem push_mid (h : Heap) (n : Node) (g : Heap) (v : Val) :
    push (h ++ n :: g) h.length v = h ++ { n with vals := n.vals ++ [v] } :: g := by
  rw [push, nodeAt_mid, set_mid]

theorem setOp_mid (h : Heap) (n : Node) (g : Heap) (o : Op) :
    setOp (h ++ n :: g) h.length o = h ++ { n with op := some o } :: g := by
  rw [setOp, nodeAt_mid, set_mid]

/-- Reading an operand at the end of a list of values. -/
theorem operand_mid {a : Arg} (ha : Good a) (h : Heap) (n : Node) (g : Heap) (xs : List ((U → ℝ) → ℝ))
    (m : MeansAll (h ++ n :: g) (h.length < ·) n.vals xs) (l : List Tok) :
    ∃ g' v, loop (h ++ n :: g) h.length (a.tok :: l) = loop (h ++ { n with vals := n.vals ++ [v] } :: (g ++ g')) h.length l ∧
      MeansAll (h ++ { n with vals := n.vals ++ [v] } :: (g ++ g')) (h.length < ·) (n.vals ++ [v]) (xs ++ [fun σ => a.value σ]) := by
  obtain ⟨g', v, hp, hm⟩ := ha (h ++ n :: g) (some h.length)
  have e1 : h ++ n :: g ++ g' = h ++ n :: (g ++ g') := by simp
  rw [e1] at hp hm
  refine ⟨g', v, ?_, ?_⟩
  · rw [loop_arg, hp, ok_bind, push_mid]
  · refine List.rel_append (m.frame (keeps_tail _ _ _ _ _) fun _ hi _ => hi) (.cons ?_ .nil)
    have hm' : Means (h ++ n :: (g ++ g')) (h.length < ·) v fun σ => a.value σ :=
      hm.frame (fun i _ hi => ⟨hi, rfl, rfl⟩) fun i hi _ => by
        simp only [List.length_append, List.length_cons] at hi; omega
    have := hm'.frame (keeps_tail h n { n with vals := n.vals ++ [v] } (g ++ g') []) fun _ hi _ => hi
    rwa [List.append_nil] at this

/-- Reading an operand that becomes the only value of a new object. -/
theorem operand_new {a : Arg} (ha : Good a) (h : Heap) (n : Node) (g : Heap) (xs : List ((U → ℝ) → ℝ))
    (m : MeansAll (h ++ n :: g) (h.length < ·) n.vals xs) :
    ∃ g' v, parseVal (h ++ n :: g) (some h.length) a.tok = .ok (h ++ n :: (g ++ g'), v) ∧ ∀ n' p op x,
      (∀ (H : Heap) i, i < H.length → h.length < i → nodeAt H i = ⟨p, some op, [v]⟩ →
        MeansAll H (h.length < ·) [v] [fun σ => a.value σ] → Means H (h.length < ·) (.node i) x) →
      MeansAll (h ++ n' :: ((g ++ g') ++ [⟨p, some op, [v]⟩])) (h.length < ·)
        (n.vals ++ [.node (h ++ n :: (g ++ g')).length]) (xs ++ [x]) := by
  obtain ⟨g', v, hp, hm⟩ := ha (h ++ n :: g) (some h.length)
  have e1 : h ++ n :: g ++ g' = h ++ n :: (g ++ g') := by simp
  rw [e1] at hp hm
  refine ⟨g', v, hp, fun n' p op x hx => ?_⟩
  refine List.rel_append ?_ (.cons ?_ .nil)
  · rw [List.append_assoc]
    exact m.frame (keeps_tail _ _ _ _ _) fun _ hi _ => hi
  · have hm' : Means (h ++ n :: (g ++ g')) (h.length < ·) v fun σ => a.value σ :=
      hm.frame (fun i _ hi => ⟨hi, rfl, rfl⟩) fun i hi _ => by
        simp only [List.length_append, List.length_cons] at hi; omega
    have := hm'.frame (keeps_tail h n n' (g ++ g') [⟨p, some op, [v]⟩]) fun _ hi _ => hi
    refine hx _ _ (by simp) (by simp) ?_ (.cons this .nil)
    have e : h ++ n' :: (g ++ g' ++ [⟨p, some op, [v]⟩]) = (h ++ n' :: (g ++ g')) ++ [⟨p, some op, [v]⟩] := by simp
    rw [e, show (h ++ n :: (g ++ g')).length = (h ++ n' :: (g ++ g')).length by simp, nodeAt_end]

theorem total_append (xs : List ((U → ℝ) → ℝ)) (x : (U → ℝ) → ℝ) (σ : U → ℝ) : total (xs ++ [x]) σ = total xs σ + x σ := by
  simp [total]

theorem product_append (xs : List ((U → ℝ) → ℝ)) (x : (U → ℝ) → ℝ) (σ : U → ℝ) : product (xs ++ [x]) σ = product xs σ * x σ := by
  simp [product]

theorem minus_mid (h : Heap) (par : Option Nat) (op : Option Op) (vs : List Val) (g : Heap) (v : Val)
    (hop : op = none ∧ vs.length = 1 ∨ op = some .sum) :
    minus (h ++ ⟨par, op, vs⟩ :: g) h.length op v = .ok (h ++ ⟨par, some .sum, vs ++ [.node (h ++ ⟨par, op, vs⟩ :: g).length]⟩ ::
      (g ++ [⟨some h.length, some .negate, [v]⟩]), h.length) := by
  have e : ∀ n, h ++ ⟨par, op, vs⟩ :: g ++ [n] = h ++ ⟨par, op, vs⟩ :: (g ++ [n]) := by simp
  rw [minus]
  simp only [e, nodeAt_mid, push_mid, setOp_mid]
  rcases hop with ⟨rfl, h1⟩ | rfl
  · simp [h1]
  · simp

theorem slash_mid (h : Heap) (par : Option Nat) (op : Option Op) (vs : List Val) (g : Heap) (v : Val)
    (hop : op = none ∧ vs.length = 1 ∨ op = some .product) :
    slash (h ++ ⟨par, op, vs⟩ :: g) h.length op v = .ok (h ++ ⟨par, some .product, vs ++ [.node (h ++ ⟨par, op, vs⟩ :: g).length]⟩ ::
      (g ++ [⟨some h.length, some .invert, [v]⟩]), h.length) := by
  have e : ∀ n, h ++ ⟨par, op, vs⟩ :: g ++ [n] = h ++ ⟨par, op, vs⟩ :: (g ++ [n]) := by simp
  rw [slash]
  simp only [e, nodeAt_mid, push_mid, setOp_mid]
  rcases hop with ⟨rfl, h1⟩ | rfl
  · simp [h1]
  · simp

theorem extremum_append (f : ℝ → ℝ → ℝ) (ha : ∀ a b c, f (f a b) c = f a (f b c)) (l : List ℝ) (x : ℝ) (hl : l ≠ []) :
    extremum f (l ++ [x]) = f (extremum f l) x := by
  cases l with
  | nil => exact absurd rfl hl
  | cons a l => rw [List.cons_append, ← SumValue.foldl_extremum f ha, ← SumValue.foldl_extremum f ha, List.foldl_append]; rfl

/-- `+` and `-` between operands. -/
theorem sums_loop : (r : Rest) → r.Good → ∀ (h : Heap) (par : Option Nat) (op : Option Op) (vs : List Val) (g : Heap)
    (xs : List ((U → ℝ) → ℝ)), (op = none ∧ vs.length = 1 ∨ op = some .sum) → MeansAll (h ++ ⟨par, op, vs⟩ :: g) (h.length < ·) vs xs →
    ∃ op' vs' g' xs', loop (h ++ ⟨par, op, vs⟩ :: g) h.length (r.toks '+' '-') = .ok (h ++ ⟨par, op', vs'⟩ :: g', h.length) ∧
      (op' = none ∨ op' = some .sum) ∧ MeansAll (h ++ ⟨par, op', vs'⟩ :: g') (h.length < ·) vs' xs' ∧ (xs ≠ [] → xs' ≠ []) ∧
      ∀ σ, total xs' σ = r.total σ (total xs σ)
  | .nil, _, h, par, op, vs, g, xs, hop, m =>
    ⟨op, vs, g, xs, by rw [Rest.toks, loop], hop.imp (·.1) id, m, id, fun _ => rfl⟩
  | .cons false a r, ⟨ha, hr⟩, h, par, op, vs, g, xs, hop, m => by
    have hp : plus (h ++ ⟨par, op, vs⟩ :: g) h.length = .ok (h ++ ⟨par, some .sum, vs⟩ :: g, h.length) := by
      rw [plus, nodeAt_mid]
      rcases hop with ⟨rfl, _⟩ | rfl
      · simp only [setOp_mid]
      · rfl
    obtain ⟨g', v, hl, hm⟩ := operand_mid ha h ⟨par, some .sum, vs⟩ g xs (by
      have := m.frame (keeps_tail h _ ⟨par, some .sum, vs⟩ g []) fun _ hi _ => hi
      rwa [List.append_nil] at this) (r.toks '+' '-')
    obtain ⟨op', vs', g'', xs', h1, h2, h3, h4, h5⟩ := sums_loop r hr h par (some .sum) (vs ++ [v]) (g ++ g') _ (.inr rfl) hm
    refine ⟨op', vs', g'', xs', ?_, h2, h3, fun _ => h4 (by simp), fun σ => ?_⟩
    · rw [Rest.toks, sign, if_neg (by simp), loop_plus, hp, ok_bind, hl, h1]
    · rw [h5, total_append, Rest.total]; simp
  | .cons true a r, ⟨ha, hr⟩, h, par, op, vs, g, xs, hop, m => by
    obtain ⟨g', v, hp, hm⟩ := operand_new ha h ⟨par, op, vs⟩ g xs m
    obtain ⟨op', vs', g'', xs', h1, h2, h3, h4, h5⟩ := sums_loop r hr h par (some .sum) _ _ _ (.inr rfl)
      (hm ⟨par, some .sum, vs ++ [.node (h ++ ⟨par, op, vs⟩ :: (g ++ g')).length]⟩ (some h.length) .negate _ fun H i hi hl hn hv =>
        means_negate hi hl (by rw [hn]; exact hv) (by rw [hn]))
    refine ⟨op', vs', g'', xs', ?_, h2, h3, fun _ => h4 (by simp), fun σ => ?_⟩
    · rw [Rest.toks, sign, if_pos rfl, loop_minus, hp, ok_bind, nodeAt_mid, minus_mid _ _ _ _ _ _ hop, ok_bind, h1]
    · rw [h5, total_append, Rest.total, if_pos rfl, sub_eq_add_neg]

/-- `*` and `/` between operands. -/
theorem prods_loop (l : List Tok) : (r : Rest) → r.Good → ∀ (h : Heap) (par : Option Nat) (op : Option Op) (vs : List Val) (g : Heap)
    (xs : List ((U → ℝ) → ℝ)), (op = none ∧ vs.length = 1 ∨ op = some .product ∧ 2 ≤ vs.length) →
    MeansAll (h ++ ⟨par, op, vs⟩ :: g) (h.length < ·) vs xs →
    ∃ op' vs' g' xs', loop (h ++ ⟨par, op, vs⟩ :: g) h.length (r.toks '*' '/' ++ l) = loop (h ++ ⟨par, op', vs'⟩ :: g') h.length l ∧
      (op' = none ∧ vs'.length = 1 ∨ op' = some .product ∧ 2 ≤ vs'.length) ∧
      MeansAll (h ++ ⟨par, op', vs'⟩ :: g') (h.length < ·) vs' xs' ∧ (xs ≠ [] → xs' ≠ []) ∧
      ∀ σ, product xs' σ = r.times σ (product xs σ)
  | .nil, _, h, par, op, vs, g, xs, hop, m =>
    ⟨op, vs, g, xs, by rw [Rest.toks, List.nil_append], hop, m, id, fun _ => rfl⟩
  | .cons false a r, ⟨ha, hr⟩, h, par, op, vs, g, xs, hop, m => by
    have hp : star (h ++ ⟨par, op, vs⟩ :: g) h.length = .ok (h ++ ⟨par, some .product, vs⟩ :: g, h.length) := by
      rw [star, nodeAt_mid]
      rcases hop with ⟨rfl, _⟩ | ⟨rfl, _⟩
      · simp only [setOp_mid]
      · rfl
    obtain ⟨g', v, hl, hm⟩ := operand_mid ha h ⟨par, some .product, vs⟩ g xs (by
      have := m.frame (keeps_tail h _ ⟨par, some .product, vs⟩ g []) fun _ hi _ => hi
      rwa [List.append_nil] at this) (r.toks '*' '/' ++ l)
    obtain ⟨op', vs', g'', xs', h1, h2, h3, h4, h5⟩ := prods_loop l r hr h par (some .product) (vs ++ [v]) (g ++ g') _
      (.inr ⟨rfl, by rw [List.length_append, List.length_singleton]; omega⟩) hm
    refine ⟨op', vs', g'', xs', ?_, h2, h3, fun _ => h4 (by simp), fun σ => ?_⟩
    · rw [Rest.toks, sign, if_neg (by simp), List.cons_append, List.cons_append, loop_star, hp, ok_bind, hl, h1]
    · rw [h5, product_append, Rest.times]; simp
  | .cons true a r, ⟨ha, hr⟩, h, par, op, vs, g, xs, hop, m => by
    obtain ⟨g', v, hp, hm⟩ := operand_new ha h ⟨par, op, vs⟩ g xs m
    obtain ⟨op', vs', g'', xs', h1, h2, h3, h4, h5⟩ := prods_loop l r hr h par (some .product) _ _ _
      (.inr ⟨rfl, by rw [List.length_append, List.length_singleton]; show 2 ≤ vs.length + 1; omega⟩)
      (hm ⟨par, some .product, vs ++ [.node (h ++ ⟨par, op, vs⟩ :: (g ++ g')).length]⟩ (some h.length) .invert _ fun H i hi hl hn hv =>
        means_invert hi hl (by rw [hn]; exact hv) (by rw [hn]))
    refine ⟨op', vs', g'', xs', ?_, h2, h3, fun _ => h4 (by simp), fun σ => ?_⟩
    · rw [Rest.toks, sign, if_pos rfl, List.cons_append, List.cons_append, loop_slash, hp, ok_bind, nodeAt_mid,
        slash_mid _ _ _ _ _ _ (hop.imp_right (·.1)), ok_bind, h1]
    · rw [h5, product_append, Rest.times, if_pos rfl, div_eq_mul_inv]

/-- Commas between operands. -/
theorem commas_loop : (r : Rest) → r.Good → ∀ (h : Heap) (par : Option Nat) (op : Option Op) (vs : List Val) (g : Heap)
    (xs : List ((U → ℝ) → ℝ)), isList op = true → MeansAll (h ++ ⟨par, op, vs⟩ :: g) (h.length < ·) vs xs →
    ∃ vs' g' xs', loop (h ++ ⟨par, op, vs⟩ :: g) h.length (r.toks ',' ',') = .ok (h ++ ⟨par, op, vs'⟩ :: g', h.length) ∧
      MeansAll (h ++ ⟨par, op, vs'⟩ :: g') (h.length < ·) vs' xs' ∧ (xs ≠ [] → xs' ≠ []) ∧
      (xs ≠ [] → ∀ σ, extremum Min.min (xs'.map (· σ)) = r.least σ (extremum Min.min (xs.map (· σ)))) ∧
      (xs ≠ [] → ∀ σ, extremum Max.max (xs'.map (· σ)) = r.greatest σ (extremum Max.max (xs.map (· σ))))
  | .nil, _, h, par, op, vs, g, xs, hop, m =>
    ⟨vs, g, xs, by rw [Rest.toks, loop], m, id, fun _ _ => rfl, fun _ _ => rfl⟩
  | .cons b a r, ⟨ha, hr⟩, h, par, op, vs, g, xs, hop, m => by
    obtain ⟨g', v, hl, hm⟩ := operand_mid ha h ⟨par, op, vs⟩ g xs m (r.toks ',' ',')
    obtain ⟨vs', g'', xs', h1, h3, h4, h5, h6⟩ := commas_loop r hr h par op (vs ++ [v]) (g ++ g') _ hop hm
    refine ⟨vs', g'', xs', ?_, h3, fun _ => h4 (by simp), fun hne σ => ?_, fun hne σ => ?_⟩
    · rw [Rest.toks, sign, ite_self, loop_comma _ _ _ (by rw [nodeAt_mid]; exact hop), hl, h1]
    · rw [h5 (by simp), List.map_append, List.map_singleton, extremum_append _ min_assoc _ _ (by simpa using hne), Rest.least]
    · rw [h6 (by simp), List.map_append, List.map_singleton, extremum_append _ max_assoc _ _ (by simpa using hne), Rest.greatest]

theorem climbTo_root (h : Heap) (n : Node) (g : Heap) : climbTo n.parent (h ++ n :: g).length (h ++ n :: g) h.length = h.length := by
  rw [show (h ++ n :: g).length = h.length + g.length + 1 by simp; omega, climbTo, nodeAt_mid]
  cases n.parent <;> simp

/-- A function is read by the loop over its arguments. -/
theorem func_ok (h : Heap) (root : Option Nat) (name : Str) (op : Option Op) (l : List Tok) (hn : operatorOf name = some op) (hl : l ≠ [])
    (op' : Option Op) (vs : List Val) (g : Heap)
    (hloop : loop (h ++ [⟨root, op, []⟩]) h.length l = .ok (h ++ ⟨root, op', vs⟩ :: g, h.length)) :
    parseVal h root (.func name l) = .ok (h ++ (⟨root, op', vs⟩ :: g), .node h.length) := by
  cases l with
  | nil => exact absurd rfl hl
  | cons t l =>
    simp only [parseVal, hn, List.isEmpty_cons, Bool.false_eq_true, ↓reduceIte, hloop, ok_map]
    rw [climbTo_root h ⟨root, op', vs⟩ g]

theorem first_ok {a : Arg} (ha : Good a) (h : Heap) (root : Option Nat) (op : Option Op) (l : List Tok) :
    ∃ g v, loop (h ++ [⟨root, op, []⟩]) h.length (a.tok :: l) = loop (h ++ ⟨root, op, [v]⟩ :: g) h.length l ∧
      MeansAll (h ++ ⟨root, op, [v]⟩ :: g) (h.length < ·) [v] [fun σ => a.value σ] := by
  obtain ⟨g', v, hl, hm⟩ := operand_mid ha h ⟨root, op, []⟩ [] [] .nil l
  exact ⟨g', v, hl, hm⟩

theorem top_means {h : Heap} {n : Node} {g : Heap} {x : (U → ℝ) → ℝ} {xs : List ((U → ℝ) → ℝ)}
    (m : MeansAll (h ++ n :: g) (h.length < ·) n.vals xs)
    (hb : ∀ (H : Heap) (ok : Nat → Prop) i, i < H.length → ok i → nodeAt H i = n → MeansAll H ok n.vals xs → Means H ok (.node i) x) :
    Means (h ++ n :: g) (h.length ≤ ·) (.node h.length) x :=
  hb _ _ _ (by simp) (le_refl _) (nodeAt_mid ..) (m.frame (fun i _ hi => ⟨hi, rfl, rfl⟩) fun _ hi _ => le_of_lt hi)

mutual
theorem arg_good : (a : Arg) → Good a
  | .num x => fun h root => ⟨[], .unit x, by rw [Arg.tok, parseVal, List.append_nil], .unit x, .unit x, fun σ => by simp only [eval, Arg.value]⟩
  | .sums a r => fun h root => by
    obtain ⟨g, v, hl, hm⟩ := first_ok (arg_good a) h root none (r.toks '+' '-')
    obtain ⟨op', vs', g', xs', h1, h2, h3, h4, h5⟩ := sums_loop r (rest_good r) h root none [v] g _ (.inl ⟨rfl, rfl⟩) hm
    refine ⟨_, _, func_ok h root _ none _ rfl (by simp) op' vs' g' (hl.trans h1), top_means h3 fun H ok i hi hok hn hv => ?_⟩
    have := means_sum hi hok (xs := xs') (by rw [hn]; exact hv) (h4 (by simp)) (by rw [hn]; exact h2)
    have e : (fun σ => (Arg.sums a r).value σ) = total xs' := by
      funext σ; rw [h5, Arg.value]; simp [total]
    rwa [e]
  | .prods a r => fun h root => by
    obtain ⟨g, v, hl, hm⟩ := first_ok (arg_good a) h root none (r.toks '*' '/')
    obtain ⟨op', vs', g', xs', h1, h2, h3, h4, h5⟩ := prods_loop [] r (rest_good r) h root none [v] g _ (.inl ⟨rfl, rfl⟩) hm
    rw [List.append_nil, loop] at h1
    refine ⟨_, _, func_ok h root _ none _ rfl (by simp) op' vs' g' (hl.trans h1), top_means h3 fun H ok i hi hok hn hv => ?_⟩
    have e : (fun σ => (Arg.prods a r).value σ) = product xs' := by
      funext σ; rw [h5, Arg.value]; simp [product]
    rw [e]
    rcases h2 with ⟨rfl, h2⟩ | h2
    · have := means_sum hi hok (xs := xs') (by rw [hn]; exact hv) (h4 (by simp)) (.inl (by rw [hn]))
      have hlen : xs'.length = 1 := by rw [← hv.length_eq]; exact h2
      obtain ⟨x, rfl⟩ := List.length_eq_one_iff.1 hlen
      have e : product [x] = total [x] := by funext σ; simp [product, total]
      rwa [e]
    · exact means_product hi hok (xs := xs') (by rw [hn]; exact hv) (h4 (by simp)) (by rw [hn]; exact h2.1)
  | .fn f a r => fun h root => by
    have hf : ∃ op, operatorOf f.name = some (some op) ∧ isList (some op) = true ∧ op = (match f with | .min => Op.min | .max => Op.max) := by
      cases f
      · exact ⟨.min, by decide, rfl, rfl⟩
      · exact ⟨.max, by decide, rfl, rfl⟩
    obtain ⟨op, hop, hlist, hopf⟩ := hf
    obtain ⟨g, v, hl, hm⟩ := first_ok (arg_good a) h root (some op) (r.toks ',' ',')
    obtain ⟨vs', g', xs', h1, h3, h4, h5, h6⟩ := commas_loop r (rest_good r) h root (some op) [v] g _ hlist hm
    refine ⟨_, _, func_ok h root _ (some op) _ hop (by simp) (some op) vs' g' (hl.trans h1), top_means h3 fun H ok i hi hok hn hv => ?_⟩
    have hne := h4 (by simp)
    refine means_node hi hok (xs := xs') (by rw [hn]; exact hv) _ fun es hes => ?_
    rw [hn]
    subst hopf
    cases f with
    | min => exact ⟨.min es, by simp only [build, evals_ne hne hes]; rfl, fun σ => by rw [eval, hes, h5 (by simp), Arg.value]; rfl⟩
    | max => exact ⟨.max es, by simp only [build, evals_ne hne hes]; rfl, fun σ => by rw [eval, hes, h6 (by simp), Arg.value]; rfl⟩
  | .clamp a b c => fun h root => by
    obtain ⟨g, v, hl, hm⟩ := first_ok (arg_good a) h root (some .clamp) [.lit ',', b.tok, .lit ',', c.tok]
    obtain ⟨g1, v1, hl1, hm1⟩ := operand_mid (arg_good b) h _ _ _ hm [.lit ',', c.tok]
    obtain ⟨g2, v2, hl2, hm2⟩ := operand_mid (arg_good c) h _ _ _ hm1 []
    have hloop := hl.trans ((loop_comma _ _ _ (by rw [nodeAt_mid]; rfl)).trans (hl1.trans ((loop_comma _ _ _ (by rw [nodeAt_mid]; rfl)).trans hl2)))
    rw [loop] at hloop
    refine ⟨_, _, func_ok h root _ (some .clamp) _ rfl (by simp) (some .clamp) _ _ hloop, top_means hm2 fun H ok i hi hok hn hv => ?_⟩
    refine means_node hi hok (by rw [hn]; exact hv) _ fun es hes => ?_
    rw [hn]
    match es, hes with
    | [x, y, z], hes =>
      refine ⟨.clamp x y z, rfl, fun σ => ?_⟩
      have := hes σ
      simp only [evals, List.map_cons, List.map_nil, List.cons_append, List.nil_append, List.cons.injEq, and_true] at this
      rw [eval, this.1, this.2.1, this.2.2, Arg.value]
    | [], hes => exact absurd (hes fun _ => 0) (by simp [evals])
    | [x], hes => exact absurd (hes fun _ => 0) (by simp [evals])
    | [x, y], hes => exact absurd (hes fun _ => 0) (by simp [evals])
    | x :: y :: z :: w :: es, hes => exact absurd (hes fun _ => 0) (by simp [evals])

theorem rest_good : (r : Rest) → r.Good
  | .nil => trivial
  | .cons _ a r => ⟨arg_good a, rest_good r⟩
end

/-! ### Sums of products -/

@[simp] theorem length_push (h : Heap) (i : Nat) (v : Val) : (push h i v).length = h.length := by simp [push]

@[simp] theorem length_drop (h : Heap) (i : Nat) : (drop h i).length = h.length := by simp [drop]

@[simp] theorem length_setOp (h : Heap) (i : Nat) (o : Op) : (setOp h i o).length = h.length := by simp [setOp]

@[simp] theorem length_setParent (h : Heap) (i p : Nat) : (setParent h i p).length = h.length := by simp [setParent]

@[simp] theorem length_wrapLast (h : Heap) (i p : Nat) : (wrapLast h i p).length = h.length := by simp [wrapLast]

theorem push_self (h : Heap) (i : Nat) (v : Val) (hi : i < h.length) :
    nodeAt (push h i v) i = { nodeAt h i with vals := (nodeAt h i).vals ++ [v] } := nodeAt_set_self _ _ _ hi

theorem push_ne (h : Heap) (i j : Nat) (v : Val) (hi : i ≠ j) : nodeAt (push h i v) j = nodeAt h j := nodeAt_set_ne _ _ _ _ hi

theorem setOp_self (h : Heap) (i : Nat) (o : Op) (hi : i < h.length) :
    nodeAt (setOp h i o) i = { nodeAt h i with op := some o } := nodeAt_set_self _ _ _ hi

theorem setOp_ne (h : Heap) (i j : Nat) (o : Op) (hi : i ≠ j) : nodeAt (setOp h i o) j = nodeAt h j := nodeAt_set_ne _ _ _ _ hi

theorem setParent_self (h : Heap) (i p : Nat) (hi : i < h.length) :
    nodeAt (setParent h i p) i = { nodeAt h i with parent := some p } := nodeAt_set_self _ _ _ hi

theorem setParent_ne (h : Heap) (i j p : Nat) (hi : i ≠ j) : nodeAt (setParent h i p) j = nodeAt h j := nodeAt_set_ne _ _ _ _ hi

theorem wrapLast_self (h : Heap) (i k : Nat) (hi : i < h.length) :
    nodeAt (wrapLast h i k) i = { nodeAt h i with vals := (nodeAt h i).vals.dropLast ++ [.node k] } := by
  rw [wrapLast, push_self _ _ _ (by simpa using hi), drop, nodeAt_set_self _ _ _ hi]

theorem wrapLast_ne (h : Heap) (i j k : Nat) (hi : i ≠ j) : nodeAt (wrapLast h i k) j = nodeAt h j := by
  rw [wrapLast, push_ne _ _ _ _ hi, drop, nodeAt_set_ne _ _ _ _ hi]

/-- Whatever the parents. -/
theorem keeps_parent (ok : Nat → Prop) (h : Heap) (i p : Nat) (hi : i < h.length) : Keeps ok h (setParent h i p) := by
  intro j _ hj
  by_cases e : i = j
  · subst e; rw [setParent_self _ _ _ hi]; exact ⟨by simpa using hj, rfl, rfl⟩
  · rw [setParent_ne _ _ _ _ e]; exact ⟨by simpa using hj, rfl, rfl⟩

theorem Keeps.trans {ok : Nat → Prop} {a b c : Heap} (h : Keeps ok a b) (h' : Keeps ok b c) : Keeps ok a c := by
  intro i hi hl
  obtain ⟨h1, h2, h3⟩ := h i hi hl
  obtain ⟨h4, h5, h6⟩ := h' i hi h1
  exact ⟨h4, h5.trans h2, h6.trans h3⟩

theorem keeps_push {ok : Nat → Prop} {h : Heap} {i : Nat} (v : Val) (hi : ¬ ok i) : Keeps ok h (push h i v) := by
  intro j hj hl
  rw [push_ne _ _ _ _ (by rintro rfl; exact hi hj)]
  exact ⟨by simpa using hl, rfl, rfl⟩

theorem keeps_setOp {ok : Nat → Prop} {h : Heap} {i : Nat} (o : Op) (hi : ¬ ok i) : Keeps ok h (setOp h i o) := by
  intro j hj hl
  rw [setOp_ne _ _ _ _ (by rintro rfl; exact hi hj)]
  exact ⟨by simpa using hl, rfl, rfl⟩

theorem keeps_wrap {ok : Nat → Prop} {h : Heap} {i : Nat} (k : Nat) (hi : ¬ ok i) : Keeps ok h (wrapLast h i k) := by
  intro j hj hl
  rw [wrapLast_ne _ _ _ _ (by rintro rfl; exact hi hj)]
  exact ⟨by simpa using hl, rfl, rfl⟩

/-- In a sum, after a product without `*`. -/
def InSum (h : Heap) (cur : Nat) (ys : List ((U → ℝ) → ℝ)) (y : (U → ℝ) → ℝ) : Prop :=
  ∃ ws w, nodeAt h cur = ⟨none, some .sum, ws ++ [w]⟩ ∧ cur < h.length ∧ ws ≠ [] ∧ MeansAll h (· ≠ cur) ws ys ∧ Means h (· ≠ cur) w y

/-- In a product with `*` that is the last value of a sum. -/
def InProd (h : Heap) (cur : Nat) (ys : List ((U → ℝ) → ℝ)) (y : (U → ℝ) → ℝ) : Prop :=
  ∃ s ws vs zs, s ≠ cur ∧ s < h.length ∧ cur < h.length ∧ nodeAt h s = ⟨none, some .sum, ws ++ [.node cur]⟩ ∧
    nodeAt h cur = ⟨some s, some .product, vs⟩ ∧ MeansAll h (fun i => i ≠ s ∧ i ≠ cur) ws ys ∧
    MeansAll h (fun i => i ≠ s ∧ i ≠ cur) vs zs ∧ 2 ≤ vs.length ∧ ∀ σ, product zs σ = y σ

/-- After a subtraction in a product with `*`. -/
def InRest (h : Heap) (cur : Nat) (ys : List ((U → ℝ) → ℝ)) (y : (U → ℝ) → ℝ) : Prop :=
  ∃ s ws w vs, s ≠ cur ∧ s < h.length ∧ cur < h.length ∧ nodeAt h s = ⟨none, some .sum, ws ++ [w]⟩ ∧
    nodeAt h cur = ⟨some s, some .product, vs⟩ ∧ MeansAll h (· ≠ s) ws ys ∧ Means h (· ≠ s) w y ∧ 2 ≤ vs.length

theorem InProd.inRest {h : Heap} {cur : Nat} {ys : List ((U → ℝ) → ℝ)} {y : (U → ℝ) → ℝ} (i : InProd h cur ys y) : InRest h cur ys y := by
  obtain ⟨s, ws, vs, zs, h1, h2, h3, h4, h5, h6, h7, h8, h9⟩ := i
  have hid : ∀ ok, Keeps ok h h := fun ok i _ hi => ⟨hi, rfl, rfl⟩
  refine ⟨s, ws, .node cur, vs, h1, h2, h3, h4, h5, h6.frame (hid _) fun i hi _ => hi.1, ?_, h8⟩
  have hne : zs ≠ [] := by rintro rfl; have := h7.length_eq; simp at this; simp [this] at h8
  have := means_product (ok := (· ≠ s)) h3 h1.symm (xs := zs) (by rw [h5]; exact h7.frame (hid _) fun i hi _ => hi.1) hne (by rw [h5])
  rwa [show y = product zs from funext fun σ => (h9 σ).symm]

/-- An operand is read in a sum. -/
theorem sum_operand {a : Arg} (ha : Good a) (h : Heap) (cur : Nat) (vs : List Val) (xs : List ((U → ℝ) → ℝ)) (l : List Tok)
    (hn : nodeAt h cur = ⟨none, some .sum, vs⟩) (hc : cur < h.length) (hv : vs ≠ []) (m : MeansAll h (· ≠ cur) vs xs) :
    ∃ h', loop h cur (a.tok :: l) = loop h' cur l ∧ InSum h' cur xs fun σ => a.value σ := by
  obtain ⟨g, v, hp, hm⟩ := ha h (some cur)
  have hc' : cur < (h ++ g).length := by simp; omega
  refine ⟨push (h ++ g) cur v, by rw [loop_arg, hp, ok_bind], vs, v, ?_, by simpa using hc', hv, ?_, ?_⟩
  · rw [push_self _ _ _ hc', nodeAt_append _ _ _ hc, hn]
  · exact m.frame ((keeps_append _ h g).trans (keeps_push v (by simp))) fun _ hi _ => hi
  · exact hm.frame (keeps_push v (by simpa using hc)) fun i hi _ => by omega

/-- A subtracted operand is read in a sum. -/
theorem sum_minus {a : Arg} (ha : Good a) (h : Heap) (cur : Nat) (op : Option Op) (vs : List Val) (xs : List ((U → ℝ) → ℝ)) (l : List Tok)
    (hn : nodeAt h cur = ⟨none, op, vs⟩) (hop : op = none ∧ vs.length = 1 ∨ op = some .sum) (hc : cur < h.length) (hv : vs ≠ [])
    (m : MeansAll h (· ≠ cur) vs xs) :
    ∃ h', loop h cur (.lit '-' :: a.tok :: l) = loop h' cur l ∧ InSum h' cur xs fun σ => - a.value σ := by
  obtain ⟨g, v, hp, hm⟩ := ha h (some cur)
  have hc' : cur < (h ++ g).length := by simp; omega
  have hc2 : cur < (h ++ g ++ [(⟨some cur, some .negate, [v]⟩ : Node)]).length := by simp; omega
  have hn2 : nodeAt (h ++ g ++ [(⟨some cur, some .negate, [v]⟩ : Node)]) cur = ⟨none, op, vs⟩ := by
    rw [nodeAt_append _ _ _ hc', nodeAt_append _ _ _ hc, hn]
  have key : ∃ h', minus (h ++ g) cur op v = .ok (h', cur) ∧ nodeAt h' cur = ⟨none, some .sum, vs ++ [.node (h ++ g).length]⟩ ∧
      cur < h'.length ∧ Keeps (· ≠ cur) (h ++ g ++ [(⟨some cur, some .negate, [v]⟩ : Node)]) h' := by
    rcases hop with ⟨rfl, h1⟩ | rfl
    · refine ⟨push (setOp (h ++ g ++ [(⟨some cur, some .negate, [v]⟩ : Node)]) cur .sum) cur (.node (h ++ g).length), ?_, ?_, ?_, ?_⟩
      · simp only [minus, hn2, h1]; simp
      · rw [push_self _ _ _ (by simpa using hc2), setOp_self _ _ _ hc2, hn2]
      · simpa using hc2
      · exact (keeps_setOp .sum (by simp)).trans (keeps_push _ (by simp))
    · refine ⟨push (h ++ g ++ [(⟨some cur, some .negate, [v]⟩ : Node)]) cur (.node (h ++ g).length), ?_, ?_, ?_, ?_⟩
      · simp [minus]
      · rw [push_self _ _ _ hc2, hn2]
      · simpa using hc2
      · exact keeps_push _ (by simp)
  obtain ⟨h', k1, k2, k3, k4⟩ := key
  refine ⟨h', by rw [loop_minus, hp, ok_bind, hn, k1, ok_bind], vs, _, k2, k3, hv, ?_, ?_⟩
  · exact m.frame (((keeps_append _ h g).trans (keeps_append _ _ _)).trans k4) fun _ hi _ => hi
  · have hm' : Means (h ++ g ++ [(⟨some cur, some .negate, [v]⟩ : Node)]) (· ≠ cur) v fun σ => a.value σ :=
      hm.frame (keeps_append _ _ _) fun i hi _ => by omega
    refine Means.frame (h := h ++ g ++ [(⟨some cur, some .negate, [v]⟩ : Node)]) (ok := (· ≠ cur)) ?_ k4 fun _ hi _ => hi
    refine means_negate (by simp) (by omega) (by rw [nodeAt_end]; exact .cons hm' .nil) (by rw [nodeAt_end])

/-- The first product of a sum. -/
def InFirst (h : Heap) (cur : Nat) (y : (U → ℝ) → ℝ) : Prop :=
  ∃ op vs zs, nodeAt h cur = ⟨none, op, vs⟩ ∧ cur < h.length ∧ (op = none ∧ vs.length = 1 ∨ op = some .product ∧ 2 ≤ vs.length) ∧
    MeansAll h (· ≠ cur) vs zs ∧ ∀ σ, product zs σ = y σ

/-- In a sum, after `+`. -/
def Open (h : Heap) (cur : Nat) (x : (U → ℝ) → ℝ) : Prop :=
  ∃ vs xs, nodeAt h cur = ⟨none, some .sum, vs⟩ ∧ cur < h.length ∧ vs ≠ [] ∧ MeansAll h (· ≠ cur) vs xs ∧ ∀ σ, total xs σ = x σ

theorem keeps_refl (ok : Nat → Prop) (h : Heap) : Keeps ok h h := fun _ _ hi => ⟨hi, rfl, rfl⟩

theorem InFirst.means {h : Heap} {cur : Nat} {y : (U → ℝ) → ℝ} (i : InFirst h cur y) : Means h (fun _ => True) (.node cur) y := by
  obtain ⟨op, vs, zs, h1, h2, h3, h4, h5⟩ := i
  have hm : MeansAll h (fun _ => True) (nodeAt h cur).vals zs := by rw [h1]; exact h4.frame (keeps_refl _ _) fun _ _ _ => trivial
  have hlen := h4.length_eq
  rw [show y = product zs from funext fun σ => (h5 σ).symm]
  rcases h3 with ⟨rfl, h3⟩ | ⟨rfl, h3⟩
  · obtain ⟨x, rfl⟩ := List.length_eq_one_iff.1 (hlen.symm.trans h3)
    rw [show product [x] = total [x] by funext σ; simp [product, total]]
    exact means_sum h2 trivial hm (by simp) (.inl (by rw [h1]))
  · exact means_product h2 trivial hm (by rintro rfl; simp at hlen; simp [hlen] at h3) (by rw [h1])

theorem climb_top (n : Nat) (h : Heap) (i : Nat) (hp : (nodeAt h i).parent = none) : climb n h i = i := by
  cases n with
  | zero => rfl
  | succ n => rw [climb, hp]

/-- A new sum around the topmost object. -/
theorem new_sum (h : Heap) (top : Nat) (x : (U → ℝ) → ℝ) (ht : top < h.length) (hp : (nodeAt h top).parent = none)
    (m : Means h (fun _ => True) (.node top) x) :
    Open (setParent h top h.length ++ [⟨(nodeAt h top).parent, some .sum, [.node top]⟩]) h.length x := by
  refine ⟨[.node top], [x], ?_, by simp, by simp, ?_, fun σ => by simp [total]⟩
  · have := nodeAt_end (setParent h top h.length) ⟨(nodeAt h top).parent, some .sum, [.node top]⟩
    rw [length_setParent] at this
    rw [this, hp]
  · exact .cons (m.frame ((keeps_parent _ _ _ _ ht).trans (keeps_append _ _ _)) fun i _ hi => by omega) .nil

theorem InFirst.plus {h : Heap} {cur : Nat} {y : (U → ℝ) → ℝ} (i : InFirst h cur y) :
    ∃ h' cur', MathText.plus h cur = .ok (h', cur') ∧ Open h' cur' y := by
  have hm := i.means
  obtain ⟨op, vs, zs, h1, h2, h3, h4, h5⟩ := i
  rcases h3 with ⟨rfl, h3⟩ | ⟨rfl, h3⟩
  · refine ⟨setOp h cur .sum, cur, by simp only [MathText.plus, h1], vs, zs, by rw [setOp_self _ _ _ h2, h1], by simpa using h2, ?_,
      h4.frame (keeps_setOp _ (by simp)) fun _ hi _ => hi, fun σ => ?_⟩
    · rintro rfl; simp at h3
    · obtain ⟨x, rfl⟩ := List.length_eq_one_iff.1 (h4.length_eq.symm.trans h3)
      rw [← h5]; simp [product, total]
  · refine ⟨_, _, ?_, new_sum h cur y h2 (by rw [h1]) hm⟩
    simp only [MathText.plus, h1, climb_top _ _ _ (show (nodeAt h cur).parent = none by rw [h1])]

theorem InSum.plus {h : Heap} {cur : Nat} {ys : List ((U → ℝ) → ℝ)} {y : (U → ℝ) → ℝ} (i : InSum h cur ys y) :
    MathText.plus h cur = .ok (h, cur) ∧ Open h cur fun σ => total ys σ + y σ := by
  obtain ⟨ws, w, h1, h2, h3, h4, h5⟩ := i
  exact ⟨by simp only [MathText.plus, h1], ws ++ [w], ys ++ [y], h1, h2, by simp, List.rel_append h4 (.cons h5 .nil), total_append ys y⟩

theorem InRest.plus {h : Heap} {cur : Nat} {ys : List ((U → ℝ) → ℝ)} {y : (U → ℝ) → ℝ} (i : InRest h cur ys y) :
    ∃ h' cur', MathText.plus h cur = .ok (h', cur') ∧ Open h' cur' fun σ => total ys σ + y σ := by
  obtain ⟨s, ws, w, vs, h1, h2, h3, h4, h5, h6, h7, h8⟩ := i
  have hm : Means h (fun _ => True) (.node s) (total (ys ++ [y])) := by
    refine means_sum h2 trivial ?_ (by simp) (.inr (by rw [h4]))
    rw [h4]
    exact List.rel_append (h6.frame (keeps_refl _ _) fun _ _ _ => trivial) (.cons (h7.frame (keeps_refl _ _) fun _ _ _ => trivial) .nil)
  have hclimb : climb h.length h cur = s := by
    obtain ⟨n, hn⟩ : ∃ n, h.length = n + 1 := ⟨h.length - 1, by omega⟩
    rw [hn, climb, h5]
    exact climb_top _ _ _ (by rw [h4])
  refine ⟨_, _, ?_, new_sum h s _ h2 (by rw [h4]) ?_⟩
  · simp only [MathText.plus, h5, hclimb]
  · rwa [show (fun σ => total ys σ + y σ) = total (ys ++ [y]) from funext fun σ => (total_append ys y σ).symm]

theorem Open.operand {a : Arg} (ha : Good a) {h : Heap} {cur : Nat} {x : (U → ℝ) → ℝ} (o : Open h cur x) (l : List Tok) :
    ∃ h' ys, loop h cur (a.tok :: l) = loop h' cur l ∧ (InSum h' cur ys fun σ => a.value σ) ∧ ∀ σ, total ys σ = x σ := by
  obtain ⟨vs, xs, h1, h2, h3, h4, h5⟩ := o
  obtain ⟨h', k1, k2⟩ := sum_operand ha h cur vs xs l h1 h2 h3 h4
  exact ⟨h', xs, k1, k2, h5⟩

theorem InSum.minus {a : Arg} (ha : Good a) {h : Heap} {cur : Nat} {ys : List ((U → ℝ) → ℝ)} {y : (U → ℝ) → ℝ} (i : InSum h cur ys y) (l : List Tok) :
    ∃ h' ys', loop h cur (.lit '-' :: a.tok :: l) = loop h' cur l ∧ (InSum h' cur ys' fun σ => - a.value σ) ∧ ∀ σ, total ys' σ = total ys σ + y σ := by
  obtain ⟨ws, w, h1, h2, h3, h4, h5⟩ := i
  obtain ⟨h', k1, k2⟩ := sum_minus ha h cur _ _ (ys ++ [y]) l h1 (.inr rfl) h2 (by simp) (List.rel_append h4 (.cons h5 .nil))
  exact ⟨h', _, k1, k2, total_append ys y⟩

theorem InFirst.minus {a : Arg} (ha : Good a) {h : Heap} {cur : Nat} {y : (U → ℝ) → ℝ} (i : InFirst h cur y) (l : List Tok) :
    ∃ h' cur' ys', loop h cur (.lit '-' :: a.tok :: l) = loop h' cur' l ∧ (InSum h' cur' ys' fun σ => - a.value σ) ∧ ∀ σ, total ys' σ = y σ := by
  have him := i.means
  obtain ⟨op, vs, zs, h1, h2, h3, h4, h5⟩ := i
  rcases h3 with ⟨rfl, h3⟩ | ⟨rfl, h3⟩
  · obtain ⟨h', k1, k2⟩ := sum_minus ha h cur _ _ zs l h1 (.inl ⟨rfl, h3⟩) h2 (by rintro rfl; simp at h3) h4
    refine ⟨h', cur, _, k1, k2, fun σ => ?_⟩
    obtain ⟨x, rfl⟩ := List.length_eq_one_iff.1 (h4.length_eq.symm.trans h3)
    rw [← h5]; simp [product, total]
  · obtain ⟨g, v, hp, hm⟩ := ha h (some cur)
    have hc' : cur < (h ++ g).length := by simp; omega
    let N : Node := ⟨some cur, some .negate, [v]⟩
    let k := (h ++ g).length
    have hn2 : nodeAt (h ++ g ++ [N]) cur = ⟨none, some .product, vs⟩ := by
      rw [nodeAt_append _ _ _ hc', nodeAt_append _ _ _ h2, h1]
    have hmin : MathText.minus (h ++ g) cur (some .product) v =
        .ok (setParent (setParent (h ++ g ++ [N]) cur (k + 1)) k (k + 1) ++ [⟨none, some .sum, [.node cur, .node k]⟩], k + 1) := by
      have hlen : ¬ vs.length = 1 := by omega
      simp only [MathText.minus, N] at hn2 ⊢
      simp only [hn2, hlen]
      simp [k]
    have hkk : Keeps (fun _ => True) (h ++ g ++ [N]) (setParent (setParent (h ++ g ++ [N]) cur (k + 1)) k (k + 1) ++ [⟨none, some .sum, [.node cur, .node k]⟩]) :=
      ((keeps_parent _ _ _ _ (by simp only [List.length_append] at hc' ⊢; omega)).trans (keeps_parent _ _ _ _ (by simp [k]))).trans (keeps_append _ _ _)
    have hkk' : Keeps (fun i => i < k + 1) (h ++ g ++ [N]) (setParent (setParent (h ++ g ++ [N]) cur (k + 1)) k (k + 1) ++ [⟨none, some .sum, [.node cur, .node k]⟩]) :=
      fun i _ hi => hkk i trivial hi
    refine ⟨_, k + 1, [y], by rw [loop_minus, hp, ok_bind, h1, hmin, ok_bind], ⟨[.node cur], .node k, ?_, ?_, by simp, .cons ?_ .nil, ?_⟩, fun σ => by simp [total]⟩
    · have := nodeAt_end (setParent (setParent (h ++ g ++ [N]) cur (k + 1)) k (k + 1)) ⟨none, some .sum, [.node cur, .node k]⟩
      simp only [length_setParent, List.length_append, List.length_singleton] at this
      simpa [k] using this
    · simp [k]
    · refine Means.frame (h := h ++ g ++ [N]) (ok := (· < k + 1)) ?_ hkk' fun i hi _ => by omega
      exact him.frame ((keeps_append _ _ g).trans (keeps_append _ _ _)) fun i _ hi => by simp [k]; omega
    · refine Means.frame (h := h ++ g ++ [N]) (ok := (· < k + 1)) ?_ hkk' fun i hi _ => by omega
      refine means_negate (by simp [k]) (by omega) (x := fun σ => a.value σ) ?_ (by rw [nodeAt_end])
      rw [nodeAt_end]
      exact .cons (hm.frame (keeps_append _ _ _) fun i _ hi => by simp only [k]; omega) .nil

theorem getLast_append (ws : List Val) (w : Val) : (ws ++ [w]).getLast? = some w := by simp

theorem InRest.minus {a : Arg} (ha : Good a) {h : Heap} {cur : Nat} {ys : List ((U → ℝ) → ℝ)} {y : (U → ℝ) → ℝ} (i : InRest h cur ys y) (l : List Tok) :
    ∃ h', loop h cur (.lit '-' :: a.tok :: l) = loop h' cur l ∧ InRest h' cur ys fun σ => y σ - a.value σ := by
  obtain ⟨s, ws, w, vs, h1, h2, h3, h4, h5, h6, h7, h8⟩ := i
  obtain ⟨g, v, hp, hm⟩ := ha h (some cur)
  have hc' : cur < (h ++ g).length := by simp; omega
  have hs' : s < (h ++ g).length := by simp; omega
  let N : Node := ⟨some cur, some .negate, [v]⟩
  let k := (h ++ g).length
  let M : Node := ⟨some cur, some .sum, [w, .node k]⟩
  have hsN : s < (h ++ g ++ [N]).length := by simp only [List.length_append] at hs' ⊢; omega
  have hnc : nodeAt (h ++ g ++ [N]) cur = ⟨some s, some .product, vs⟩ := by
    rw [nodeAt_append _ _ _ hc', nodeAt_append _ _ _ h3, h5]
  have hns : nodeAt (h ++ g ++ [N]) s = ⟨none, some .sum, ws ++ [w]⟩ := by
    rw [nodeAt_append _ _ _ hs', nodeAt_append _ _ _ h2, h4]
  have hmin : MathText.minus (h ++ g) cur (some .product) v = .ok (wrapLast (h ++ g ++ [N]) s (k + 1) ++ [M], cur) := by
    have hlen : ¬ vs.length = 1 := by omega
    simp only [MathText.minus, N] at hnc hns ⊢
    simp only [hnc, hlen, last, hns, getLast_append]
    simp [k, M, ok_map]
  have hk1 : Keeps (· ≠ s) (h ++ g ++ [N]) (wrapLast (h ++ g ++ [N]) s (k + 1) ++ [M]) :=
    (keeps_wrap _ (by simp)).trans (keeps_append _ _ _)
  have hk2 : Keeps (· ≠ s) h (wrapLast (h ++ g ++ [N]) s (k + 1) ++ [M]) :=
    ((keeps_append _ _ g).trans (keeps_append _ _ _)).trans hk1
  have hlw : (wrapLast (h ++ g ++ [N]) s (k + 1)).length = k + 1 := by simp [k]; omega
  have hM : nodeAt (wrapLast (h ++ g ++ [N]) s (k + 1) ++ [M]) (k + 1) = M := by
    have := nodeAt_end (wrapLast (h ++ g ++ [N]) s (k + 1)) M
    rwa [hlw] at this
  refine ⟨wrapLast (h ++ g ++ [N]) s (k + 1) ++ [M], by rw [loop_minus, hp, ok_bind, h5, hmin, ok_bind],
    s, ws, .node (k + 1), vs, h1, ?_, ?_, ?_, ?_, h6.frame hk2 fun _ hi _ => hi, ?_, h8⟩
  · simp only [List.length_append, hlw]; omega
  · simp only [List.length_append, hlw]; omega
  · rw [nodeAt_append _ _ _ (by simpa using hsN), wrapLast_self _ _ _ hsN, hns]; simp
  · rw [nodeAt_append _ _ _ (by simp only [hlw]; omega), wrapLast_ne _ _ _ _ h1, hnc]
  · have e : (fun σ => y σ - a.value σ) = total [y, fun σ => - a.value σ] := by funext σ; simp [total, sub_eq_add_neg]
    rw [e]
    refine means_sum (by simp [k]) (by omega) ?_ (by simp) (.inr (by rw [hM]))
    rw [hM]
    refine .cons (h7.frame hk2 fun _ hi _ => hi) (.cons ?_ .nil)
    refine Means.frame (h := h ++ g ++ [N]) (ok := (· ≠ s)) ?_ hk1 fun _ hi _ => hi
    refine means_negate (by simp [k]) (by omega) (x := fun σ => a.value σ) ?_ (by rw [nodeAt_end])
    rw [nodeAt_end]
    exact .cons (hm.frame (keeps_append _ _ _) fun i hi _ => by omega) .nil

theorem InSum.slash {a : Arg} (ha : Good a) {h : Heap} {cur : Nat} {ys : List ((U → ℝ) → ℝ)} {y : (U → ℝ) → ℝ} (i : InSum h cur ys y) (l : List Tok) :
    ∃ h', loop h cur (.lit '/' :: a.tok :: l) = loop h' cur l ∧ InSum h' cur ys fun σ => y σ / a.value σ := by
  obtain ⟨ws, w, h1, h2, h3, h4, h5⟩ := i
  obtain ⟨g, v, hp, hm⟩ := ha h (some cur)
  have hc' : cur < (h ++ g).length := by simp; omega
  let N : Node := ⟨some cur, some .invert, [v]⟩
  let k := (h ++ g).length
  let M : Node := ⟨some cur, some .product, [w, .node k]⟩
  have hcN : cur < (h ++ g ++ [N]).length := by simp only [List.length_append] at hc' ⊢; omega
  have hnc : nodeAt (h ++ g ++ [N]) cur = ⟨none, some .sum, ws ++ [w]⟩ := by
    rw [nodeAt_append _ _ _ hc', nodeAt_append _ _ _ h2, h1]
  have hsl : MathText.slash (h ++ g) cur (some .sum) v = .ok (wrapLast (h ++ g ++ [N]) cur (k + 1) ++ [M], cur) := by
    have hlen : ¬ (ws ++ [w]).length = 1 := by
      cases ws with
      | nil => exact absurd rfl h3
      | cons => simp
    simp only [MathText.slash, N] at hnc ⊢
    simp only [hnc, hlen, last, getLast_append]
    simp [k, M, ok_map]
  have hk1 : Keeps (· ≠ cur) (h ++ g ++ [N]) (wrapLast (h ++ g ++ [N]) cur (k + 1) ++ [M]) :=
    (keeps_wrap _ (by simp)).trans (keeps_append _ _ _)
  have hk2 : Keeps (· ≠ cur) h (wrapLast (h ++ g ++ [N]) cur (k + 1) ++ [M]) :=
    ((keeps_append _ _ g).trans (keeps_append _ _ _)).trans hk1
  have hlw : (wrapLast (h ++ g ++ [N]) cur (k + 1)).length = k + 1 := by simp [k]; omega
  have hM : nodeAt (wrapLast (h ++ g ++ [N]) cur (k + 1) ++ [M]) (k + 1) = M := by
    have := nodeAt_end (wrapLast (h ++ g ++ [N]) cur (k + 1)) M
    rwa [hlw] at this
  refine ⟨wrapLast (h ++ g ++ [N]) cur (k + 1) ++ [M], by rw [loop_slash, hp, ok_bind, h1, hsl, ok_bind],
    ws, .node (k + 1), ?_, ?_, h3, h4.frame hk2 fun _ hi _ => hi, ?_⟩
  · rw [nodeAt_append _ _ _ (by simpa using hcN), wrapLast_self _ _ _ hcN, hnc]; simp
  · simp only [List.length_append, hlw]; omega
  · have e : (fun σ => y σ / a.value σ) = product [y, fun σ => (a.value σ)⁻¹] := by funext σ; simp [product, div_eq_mul_inv]
    rw [e]
    refine means_product (by simp only [List.length_append, hlw, List.length_singleton]; omega) (by omega) ?_ (by simp) (by rw [hM])
    rw [hM]
    refine .cons (h5.frame hk2 fun _ hi _ => hi) (.cons ?_ .nil)
    refine Means.frame (h := h ++ g ++ [N]) (ok := (· ≠ cur)) ?_ hk1 fun _ hi _ => hi
    refine means_invert (by simp [k]) (by omega) (x := fun σ => a.value σ) ?_ (by rw [nodeAt_end])
    rw [nodeAt_end]
    exact .cons (hm.frame (keeps_append _ _ _) fun i hi _ => by omega) .nil

/-- One more factor. -/
theorem prod_operand {a : Arg} (ha : Good a) (h : Heap) (cur s : Nat) (ws vs : List Val) (ys zs : List ((U → ℝ) → ℝ)) (l : List Tok)
    (h1 : s ≠ cur) (h2 : s < h.length) (h3 : cur < h.length) (h4 : nodeAt h s = ⟨none, some .sum, ws ++ [.node cur]⟩)
    (h5 : nodeAt h cur = ⟨some s, some .product, vs⟩) (h6 : MeansAll h (fun i => i ≠ s ∧ i ≠ cur) ws ys)
    (h7 : MeansAll h (fun i => i ≠ s ∧ i ≠ cur) vs zs) (h8 : 1 ≤ vs.length) :
    ∃ h', loop h cur (a.tok :: l) = loop h' cur l ∧ InProd h' cur ys fun σ => product zs σ * a.value σ := by
  obtain ⟨g, v, hp, hm⟩ := ha h (some cur)
  have hc' : cur < (h ++ g).length := by simp; omega
  have hs' : s < (h ++ g).length := by simp; omega
  have hk : Keeps (fun i => i ≠ s ∧ i ≠ cur) h (push (h ++ g) cur v) := (keeps_append _ _ g).trans (keeps_push _ (by simp))
  refine ⟨push (h ++ g) cur v, by rw [loop_arg, hp, ok_bind], s, ws, vs ++ [v], zs ++ [fun σ => a.value σ], h1, by simpa using hs',
    by simpa using hc', ?_, ?_, h6.frame hk fun _ hi _ => hi, List.rel_append (h7.frame hk fun _ hi _ => hi) (.cons ?_ .nil),
    by simp; omega, product_append _ _⟩
  · rw [push_ne _ _ _ _ h1.symm, nodeAt_append _ _ _ h2, h4]
  · rw [push_self _ _ _ hc', nodeAt_append _ _ _ h3, h5]
  · exact hm.frame (keeps_push _ (by omega)) fun i hi _ => by omega

theorem InSum.star {a : Arg} (ha : Good a) {h : Heap} {cur : Nat} {ys : List ((U → ℝ) → ℝ)} {y : (U → ℝ) → ℝ} (i : InSum h cur ys y) (l : List Tok) :
    ∃ h' cur', loop h cur (.lit '*' :: a.tok :: l) = loop h' cur' l ∧ InProd h' cur' ys fun σ => y σ * a.value σ := by
  obtain ⟨ws, w, h1, h2, h3, h4, h5⟩ := i
  let M : Node := ⟨some cur, some .product, [w]⟩
  have hst : MathText.star h cur = .ok (wrapLast h cur h.length ++ [M], h.length) := by
    simp only [MathText.star, h1, last, getLast_append]
    rfl
  have hk : Keeps (· ≠ cur) h (wrapLast h cur h.length ++ [M]) := (keeps_wrap _ (by simp)).trans (keeps_append _ _ _)
  have hM : nodeAt (wrapLast h cur h.length ++ [M]) h.length = M := by
    have := nodeAt_end (wrapLast h cur h.length) M
    rwa [length_wrapLast] at this
  obtain ⟨h', k1, k2⟩ := prod_operand ha (wrapLast h cur h.length ++ [M]) h.length cur ws [w] ys [y] l (by omega) (by simp; omega) (by simp)
    (by rw [nodeAt_append _ _ _ (by simpa using h2), wrapLast_self _ _ _ h2, h1]; simp) hM
    (h4.frame hk fun i hi hl => ⟨hi, by omega⟩) (.cons (h5.frame hk fun i hi hl => ⟨hi, by omega⟩) .nil) (by simp)
  refine ⟨h', _, by rw [loop_star, hst, ok_bind, k1], ?_⟩
  simpa [product] using k2

theorem InProd.star {a : Arg} (ha : Good a) {h : Heap} {cur : Nat} {ys : List ((U → ℝ) → ℝ)} {y : (U → ℝ) → ℝ} (i : InProd h cur ys y) (l : List Tok) :
    ∃ h', loop h cur (.lit '*' :: a.tok :: l) = loop h' cur l ∧ InProd h' cur ys fun σ => y σ * a.value σ := by
  obtain ⟨s, ws, vs, zs, h1, h2, h3, h4, h5, h6, h7, h8, h9⟩ := i
  obtain ⟨h', k1, k2⟩ := prod_operand ha h cur s ws vs ys zs l h1 h2 h3 h4 h5 h6 h7 (by omega)
  refine ⟨h', ?_, ?_⟩
  · rw [loop_star, MathText.star, h5]
    exact k1
  · simpa only [h9] using k2

theorem InProd.slash {a : Arg} (ha : Good a) {h : Heap} {cur : Nat} {ys : List ((U → ℝ) → ℝ)} {y : (U → ℝ) → ℝ} (i : InProd h cur ys y) (l : List Tok) :
    ∃ h', loop h cur (.lit '/' :: a.tok :: l) = loop h' cur l ∧ InProd h' cur ys fun σ => y σ / a.value σ := by
  obtain ⟨s, ws, vs, zs, h1, h2, h3, h4, h5, h6, h7, h8, h9⟩ := i
  obtain ⟨g, v, hp, hm⟩ := ha h (some cur)
  have hc' : cur < (h ++ g).length := by simp; omega
  have hs' : s < (h ++ g).length := by simp; omega
  let N : Node := ⟨some cur, some .invert, [v]⟩
  let k := (h ++ g).length
  have hcN : cur < (h ++ g ++ [N]).length := by simp only [List.length_append] at hc' ⊢; omega
  have hsN : s < (h ++ g ++ [N]).length := by simp only [List.length_append] at hs' ⊢; omega
  have hsl : MathText.slash (h ++ g) cur (some .product) v = .ok (push (h ++ g ++ [N]) cur (.node k), cur) := by
    simp [MathText.slash, N, k]
  have hk1 : Keeps (fun i => i ≠ s ∧ i ≠ cur) (h ++ g ++ [N]) (push (h ++ g ++ [N]) cur (.node k)) := keeps_push _ (by simp)
  have hk2 : Keeps (fun i => i ≠ s ∧ i ≠ cur) h (push (h ++ g ++ [N]) cur (.node k)) := ((keeps_append _ _ g).trans (keeps_append _ _ _)).trans hk1
  refine ⟨push (h ++ g ++ [N]) cur (.node k), by rw [loop_slash, hp, ok_bind, h5, hsl, ok_bind], s, ws, vs ++ [.node k], zs ++ [fun σ => (a.value σ)⁻¹],
    h1, by simpa using hsN, by simpa using hcN, ?_, ?_, h6.frame hk2 fun _ hi _ => hi, List.rel_append (h7.frame hk2 fun _ hi _ => hi) (.cons ?_ .nil),
    by simp; omega, fun σ => by rw [product_append, h9]; exact (div_eq_mul_inv _ _).symm⟩
  · rw [push_ne _ _ _ _ h1.symm, nodeAt_append _ _ _ hs', nodeAt_append _ _ _ h2, h4]
  · rw [push_self _ _ _ hcN, nodeAt_append _ _ _ hc', nodeAt_append _ _ _ h3, h5]
  · refine Means.frame (h := h ++ g ++ [N]) (ok := fun i => i ≠ s ∧ i ≠ cur) ?_ hk1 fun _ hi _ => hi
    refine means_invert (by simp [k]) (by omega) (x := fun σ => a.value σ) ?_ (by rw [nodeAt_end])
    rw [nodeAt_end]
    exact .cons (hm.frame (keeps_append _ _ _) fun i hi _ => by omega) .nil

theorem InProd.rest (l : List Tok) : (r : Rest) → ∀ {h : Heap} {cur : Nat} {ys : List ((U → ℝ) → ℝ)} {y : (U → ℝ) → ℝ}, InProd h cur ys y →
    ∃ h', loop h cur (r.toks '*' '/' ++ l) = loop h' cur l ∧ InProd h' cur ys fun σ => r.times σ (y σ)
  | .nil, h, _, _, _, i => ⟨h, by rw [Rest.toks, List.nil_append], i⟩
  | .cons false a r, h, cur, ys, y, i => by
    obtain ⟨h', k1, k2⟩ := i.star (arg_good a) (r.toks '*' '/' ++ l)
    obtain ⟨h2, k3, k4⟩ := InProd.rest l r k2
    refine ⟨h2, ?_, by simpa [Rest.times] using k4⟩
    rw [Rest.toks, sign, if_neg (by simp), List.cons_append, List.cons_append, k1, k3]
  | .cons true a r, h, cur, ys, y, i => by
    obtain ⟨h', k1, k2⟩ := i.slash (arg_good a) (r.toks '*' '/' ++ l)
    obtain ⟨h2, k3, k4⟩ := InProd.rest l r k2
    refine ⟨h2, ?_, by simpa [Rest.times] using k4⟩
    rw [Rest.toks, sign, if_pos rfl, List.cons_append, List.cons_append, k1, k3]

theorem InSum.rest (l : List Tok) : (r : Rest) → ∀ {h : Heap} {cur : Nat} {ys : List ((U → ℝ) → ℝ)} {y : (U → ℝ) → ℝ}, InSum h cur ys y →
    ∃ h' cur', loop h cur (r.toks '*' '/' ++ l) = loop h' cur' l ∧
      ((r.hasStar = false ∧ InSum h' cur' ys fun σ => r.times σ (y σ)) ∨ (r.hasStar = true ∧ InProd h' cur' ys fun σ => r.times σ (y σ)))
  | .nil, h, cur, _, _, i => ⟨h, cur, by rw [Rest.toks, List.nil_append], .inl ⟨rfl, i⟩⟩
  | .cons false a r, h, cur, ys, y, i => by
    obtain ⟨h', cur', k1, k2⟩ := i.star (arg_good a) (r.toks '*' '/' ++ l)
    obtain ⟨h2, k3, k4⟩ := InProd.rest l r k2
    refine ⟨h2, cur', ?_, .inr ⟨rfl, by simpa [Rest.times] using k4⟩⟩
    rw [Rest.toks, sign, if_neg (by simp), List.cons_append, List.cons_append, k1, k3]
  | .cons true a r, h, cur, ys, y, i => by
    obtain ⟨h', k1, k2⟩ := i.slash (arg_good a) (r.toks '*' '/' ++ l)
    obtain ⟨h2, cur', k3, k4⟩ := InSum.rest l r k2
    refine ⟨h2, cur', ?_, by simpa [Rest.times, Rest.hasStar] using k4⟩
    rw [Rest.toks, sign, if_pos rfl, List.cons_append, List.cons_append, k1, k3]

theorem times_neg (σ : U → ℝ) : (r : Rest) → (x : ℝ) → r.times σ (-x) = - r.times σ x
  | .nil, x => rfl
  | .cons false a r, x => by
    rw [Rest.times, Rest.times, if_neg (by simp), if_neg (by simp), neg_mul, times_neg σ r]
  | .cons true a r, x => by
    rw [Rest.times, Rest.times, if_pos rfl, if_pos rfl, neg_div, times_neg σ r]

theorem sumValue_congr (σ : U → ℝ) {x y : ℝ} (h : x = y) (l : List (Bool × Term)) : sumValue σ x l = sumValue σ y l := by rw [h]

theorem InSum.result {h : Heap} {cur : Nat} {ys : List ((U → ℝ) → ℝ)} {y : (U → ℝ) → ℝ} (i : InSum h cur ys y) :
    Means h (fun _ => True) (.node (climbTo none h.length h cur)) fun σ => total ys σ + y σ := by
  obtain ⟨ws, w, h1, h2, h3, h4, h5⟩ := i
  have hc : climbTo none h.length h cur = cur := by
    obtain ⟨n, hn⟩ : ∃ n, h.length = n + 1 := ⟨h.length - 1, by omega⟩
    rw [hn, climbTo, h1]
  rw [hc, show (fun σ => total ys σ + y σ) = total (ys ++ [y]) from funext fun σ => (total_append ys y σ).symm]
  refine means_sum h2 trivial ?_ (by simp) (.inr (by rw [h1]))
  rw [h1]
  exact List.rel_append (h4.frame (keeps_refl _ _) fun _ _ _ => trivial) (.cons (h5.frame (keeps_refl _ _) fun _ _ _ => trivial) .nil)

theorem InRest.result {h : Heap} {cur : Nat} {ys : List ((U → ℝ) → ℝ)} {y : (U → ℝ) → ℝ} (i : InRest h cur ys y) :
    Means h (fun _ => True) (.node (climbTo none h.length h cur)) fun σ => total ys σ + y σ := by
  obtain ⟨s, ws, w, vs, h1, h2, h3, h4, h5, h6, h7, h8⟩ := i
  have hc : climbTo none h.length h cur = s := by
    obtain ⟨n, hn⟩ : ∃ n, h.length = n + 2 := ⟨h.length - 2, by omega⟩
    rw [hn, climbTo, h5]
    show (if _ then _ else climbTo none (n + 1) h s) = s
    rw [if_neg (by simp), climbTo, h4]
  rw [hc, show (fun σ => total ys σ + y σ) = total (ys ++ [y]) from funext fun σ => (total_append ys y σ).symm]
  refine means_sum h2 trivial ?_ (by simp) (.inr (by rw [h4]))
  rw [h4]
  exact List.rel_append (h6.frame (keeps_refl _ _) fun _ _ _ => trivial) (.cons (h7.frame (keeps_refl _ _) fun _ _ _ => trivial) .nil)

theorem InFirst.result {h : Heap} {cur : Nat} {y : (U → ℝ) → ℝ} (i : InFirst h cur y) :
    Means h (fun _ => True) (.node (climbTo none h.length h cur)) y := by
  have hc : climbTo none h.length h cur = cur := by
    obtain ⟨op, vs, zs, h1, h2, h3, h4, h5⟩ := i
    obtain ⟨n, hn⟩ : ∃ n, h.length = n + 1 := ⟨h.length - 1, by omega⟩
    rw [hn, climbTo, h1]
  rw [hc]
  exact i.means

/-- The end of the loop. -/
def Done (h : Heap) (cur : Nat) (l : List Tok) (x : (U → ℝ) → ℝ) : Prop :=
  ∃ h' cur', loop h cur l = .ok (h', cur') ∧ Means h' (fun _ => True) (.node (climbTo none h'.length h' cur')) x

theorem done_of_eq {h h' : Heap} {cur cur' : Nat} {l l' : List Tok} {x x' : (U → ℝ) → ℝ} (e : loop h cur l = loop h' cur' l')
    (d : Done h' cur' l' x') (hx : ∀ σ, x' σ = x σ) : Done h cur l x := by
  obtain ⟨a, b, c, d⟩ := d
  refine ⟨a, b, e.trans c, ?_⟩
  rwa [show x = x' from funext fun σ => (hx σ).symm]

/-- From the second product on. -/
theorem sums_of_products : (l : List (Bool × Term)) → ∀ {h : Heap} {cur : Nat} {ys : List ((U → ℝ) → ℝ)} {y : (U → ℝ) → ℝ} (st : Bool), Safe st l →
    (st = false ∧ InSum h cur ys y ∨ st = true ∧ InRest h cur ys y) →
    Done h cur (sumToks l) fun σ => sumValue σ (total ys σ + y σ) l
  | [], h, cur, ys, y, st, _, i => by
    refine ⟨h, cur, by rw [sumToks, loop], ?_⟩
    rcases i with ⟨_, i⟩ | ⟨_, i⟩
    · exact i.result
    · exact i.result
  | (b, t) :: l, h, cur, ys, y, st, hs, i => by
    have term : ∀ {h' : Heap} {cur' : Nat} {ys' : List ((U → ℝ) → ℝ)} {y' : (U → ℝ) → ℝ}, Safe t.rest.hasStar l → InSum h' cur' ys' y' →
        Done h' cur' (t.rest.toks '*' '/' ++ sumToks l) fun σ => sumValue σ (total ys' σ + t.rest.times σ (y' σ)) l := by
      intro h' cur' ys' y' hs' i'
      obtain ⟨h2, cur2, k1, k2⟩ := i'.rest (sumToks l) t.rest
      refine done_of_eq k1 (sums_of_products l t.rest.hasStar hs' (k2.imp id fun k => ⟨k.1, k.2.inRest⟩)) fun σ => rfl
    cases b with
    | false =>
      have hs' : Safe t.rest.hasStar l := by simpa [Safe] using hs
      have hplus : ∃ h' cur', plus h cur = .ok (h', cur') ∧ Open h' cur' fun σ => total ys σ + y σ := by
        rcases i with ⟨_, i⟩ | ⟨_, i⟩
        · exact ⟨h, cur, i.plus⟩
        · exact i.plus
      obtain ⟨h', cur', k1, k2⟩ := hplus
      obtain ⟨h2, ys2, k3, k4, k5⟩ := k2.operand (arg_good t.first) (t.rest.toks '*' '/' ++ sumToks l)
      refine done_of_eq ?_ (term hs' k4) fun σ => ?_
      · rw [sumToks, sign, if_neg (by simp), loop_plus, k1, ok_bind, Term.toks, List.cons_append, k3]
      · rw [k5, sumValue, if_neg (by simp)]; rfl
    | true =>
      rcases i with ⟨rfl, i⟩ | ⟨rfl, i⟩
      · have hs' : Safe t.rest.hasStar l := by simpa [Safe] using hs
        obtain ⟨h2, ys2, k3, k4, k5⟩ := i.minus (arg_good t.first) (t.rest.toks '*' '/' ++ sumToks l)
        refine done_of_eq ?_ (term hs' k4) fun σ => ?_
        · rw [sumToks, sign, if_pos rfl, Term.toks, List.cons_append, k3]
        · rw [k5, sumValue, if_pos rfl, times_neg, ← sub_eq_add_neg]; rfl
      · have hs' : t.rest = .nil ∧ Safe true l := by simpa [Safe] using hs
        obtain ⟨h2, k3, k4⟩ := i.minus (arg_good t.first) (sumToks l)
        refine done_of_eq ?_ (sums_of_products l true hs'.2 (.inr ⟨rfl, k4⟩)) fun σ => ?_
        · rw [sumToks, sign, if_pos rfl, Term.toks, hs'.1, Rest.toks, List.cons_append, List.nil_append, k3]
        · rw [sumValue, if_pos rfl]
          refine sumValue_congr σ ?_ l
          rw [Term.value, hs'.1, Rest.times]; ring

theorem first_product (t : Term) (l : List (Bool × Term)) (hs : Safe false l) :
    Done [⟨none, none, []⟩] 0 (t.toks ++ sumToks l) fun σ => sumValue σ (t.value σ) l := by
  obtain ⟨g, v, hl, hm⟩ := first_ok (arg_good t.first) [] none none (t.rest.toks '*' '/' ++ sumToks l)
  obtain ⟨op', vs', g', xs', h1, h2, h3, h4, h5⟩ := prods_loop (sumToks l) t.rest (rest_good t.rest) [] none none [v] g _ (.inl ⟨rfl, rfl⟩) hm
  have hf : InFirst (⟨none, op', vs'⟩ :: g') 0 fun σ => t.value σ :=
    ⟨op', vs', xs', rfl, by simp, h2, MeansAll.frame h3 (keeps_refl _ _) fun i hi _ => by
      simp only [List.length_nil] at hi; omega, fun σ => by rw [h5]; simp [product, Term.value]⟩
  refine done_of_eq (x' := fun σ => sumValue σ (t.value σ) l) (hl.trans h1) ?_ fun _ => rfl
  show Done (⟨none, op', vs'⟩ :: g') 0 (sumToks l) _
  match l, hs with
  | [], _ => exact ⟨_, _, by rw [sumToks, loop], hf.result⟩
  | (b, t2) :: l, hs =>
    have hs' : Safe t2.rest.hasStar l := by simpa [Safe] using hs
    have term : ∀ {h' : Heap} {cur' : Nat} {ys' : List ((U → ℝ) → ℝ)} {y' : (U → ℝ) → ℝ}, InSum h' cur' ys' y' →
        Done h' cur' (t2.rest.toks '*' '/' ++ sumToks l) fun σ => sumValue σ (total ys' σ + t2.rest.times σ (y' σ)) l := by
      intro h' cur' ys' y' i'
      obtain ⟨h2, cur2, k1, k2⟩ := i'.rest (sumToks l) t2.rest
      refine done_of_eq k1 (sums_of_products l t2.rest.hasStar hs' (k2.imp id fun k => ⟨k.1, k.2.inRest⟩)) fun σ => rfl
    cases b with
    | false =>
      obtain ⟨h', cur', k1, k2⟩ := hf.plus
      obtain ⟨h2, ys2, k3, k4, k5⟩ := k2.operand (arg_good t2.first) (t2.rest.toks '*' '/' ++ sumToks l)
      refine done_of_eq ?_ (term k4) fun σ => ?_
      · rw [sumToks, sign, if_neg (by simp), loop_plus, k1, ok_bind, Term.toks, List.cons_append, k3]
      · rw [k5, sumValue, if_neg (by simp)]; rfl
    | true =>
      obtain ⟨h2, cur2, ys2, k3, k4, k5⟩ := hf.minus (arg_good t2.first) (t2.rest.toks '*' '/' ++ sumToks l)
      refine done_of_eq ?_ (term k4) fun σ => ?_
      · rw [sumToks, sign, if_pos rfl, Term.toks, List.cons_append, k3]
      · rw [k5, sumValue, if_pos rfl, times_neg, ← sub_eq_add_neg]; rfl

/-! ### Theorems -/

/-- **C87, the part that holds.**  `calc(…)` of products with `+` and `-` between them is read as
an expression with the quantity that the text stands for, whatever the sizes of the units, as long
as no product is subtracted after a product with `*` (not counting the first) before the next
`+`.  Operands are numbers, functions of operands, and `calc(…)` with operators of one level.
Recursion must be allowed to the depth of the expression.  Missing: parentheses, operators inside
the functions, both levels of operators inside a nested `calc(…)`, and subtracted products. -/
theorem calc_partial (t : Term) (l : List (Bool × Term)) (hs : Safe false l) :
    ∃ e n, (∀ limit, n ≤ limit → parse limit (.func "calc".toList (t.toks ++ sumToks l)) = .ok e) ∧
      ∀ σ, eval σ e = sumValue σ (t.value σ) l := by
  obtain ⟨h', cur', h1, e, he, hx⟩ := first_product t l hs
  obtain ⟨n, hn⟩ := he.reify
  refine ⟨e, n, fun limit hl => ?_, hx⟩
  have hop : operatorOf "calc".toList = some none := rfl
  rw [parse, parseVal, hop]
  have hne : (t.toks ++ sumToks l).isEmpty = false := by rw [Term.toks]; rfl
  simp only [hne, Bool.false_eq_true, ↓reduceIte, List.nil_append, List.length_nil, h1, ok_map, ok_bind, hn limit hl]

/-- The same for a function outside `calc(…)`, or a number. -/
theorem operand_partial (a : Arg) :
    ∃ e n, (∀ limit, n ≤ limit → parse limit a.tok = .ok e) ∧ ∀ σ, eval σ e = a.value σ := by
  obtain ⟨g, v, hp, e, he, hx⟩ := arg_good a [] none
  obtain ⟨n, hn⟩ := he.reify
  exact ⟨e, n, fun limit hl => by rw [parse, hp, ok_bind, hn limit hl], hx⟩

/-- A number of pixels. -/
def px (x : ℝ) : UV := ⟨x, .px⟩

/-- A plain number. -/
def nr (x : ℝ) : UV := ⟨x, .number⟩

/-- `calc(1px - 2px * 3 + 4px / 5)` is covered. -/
example : Safe false [(true, ⟨.num (px 2), .cons false (.num (nr 3)) .nil⟩), (false, ⟨.num (px 4), .cons true (.num (nr 5)) .nil⟩)] := by
  simp [Safe, Rest.hasStar]

/-- **C87 is violated.**  `calc(1 + 2 * 3 - 4 * 5)` is read as 1 + (2 * 3 * 5 - 4). -/
theorem subtracted_product_violated : ∃ (t : Term) (l : List (Bool × Term)) (e : Expr),
    (∀ limit, 10 ≤ limit → parse limit (.func "calc".toList (t.toks ++ sumToks l)) = .ok e) ∧
    ∃ σ, eval σ e ≠ sumValue σ (t.value σ) l := by
  refine ⟨⟨.num (nr 1), .nil⟩, [(false, ⟨.num (nr 2), .cons false (.num (nr 3)) .nil⟩), (true, ⟨.num (nr 4), .cons false (.num (nr 5)) .nil⟩)],
    .sum [.unit (nr 1), .sum [.prod [.unit (nr 2), .unit (nr 3), .unit (nr 5)], .negate (.unit (nr 4))]], fun limit hl => ?_, fun _ => 1, ?_⟩
  · obtain ⟨k, rfl⟩ := Nat.exists_eq_add_of_le hl
    rw [Nat.add_comm]
    rfl
  · simp [eval, evals, sumValue, Term.value, Rest.times, Arg.value, nr]; norm_num

/-- `max(3px, 1px + 2px)` is read as the sum of a maximum and 2px: 5px instead of 3px. -/
theorem max_operators_violated : ∃ e,
    (∀ limit, 10 ≤ limit → parse limit (.func "max".toList [.num (px 3), .lit ',', .num (px 1), .lit '+', .num (px 2)]) = .ok e) ∧
    eval (fun _ => 1) e = 5 := by
  refine ⟨.sum [.max [.unit (px 3), .unit (px 1)], .unit (px 2)], fun limit hl => ?_, ?_⟩
  · obtain ⟨k, rfl⟩ := Nat.exists_eq_add_of_le hl
    rw [Nat.add_comm]
    rfl
  · simp [eval, evals, extremum, px]; norm_num

/-- `max(1px + 2px, 3px)` is refused. -/
theorem max_sum_violated (limit : Nat) :
    parse limit (.func "max".toList [.num (px 1), .lit '+', .num (px 2), .lit ',', .num (px 3)]) = .error .valueError := rfl

/-- `calc((1px + 2px) * 3)` is refused: parentheses are no tokens of the kinds that are read. -/
theorem parentheses_violated (limit : Nat) :
    parse limit (.func "calc".toList [.other, .lit '*', .num (nr 3)]) = .error .valueError := rfl

/-- `calc(2 * calc(3 * 4 + 5))` never ends: the object of the outer product becomes a value of its
own value. -/
theorem nested_sum_violated (limit : Nat) :
    parse limit (.func "calc".toList [.num (nr 2), .lit '*', .func "calc".toList [.num (nr 3), .lit '*', .num (nr 4), .lit '+', .num (nr 5)]]) =
      .error (.dom "RecursionError") := by
  have hp : ∃ r, parseVal [] none (.func "calc".toList [.num (nr 2), .lit '*', .func "calc".toList
      [.num (nr 3), .lit '*', .num (nr 4), .lit '+', .num (nr 5)]]) = .ok r ∧ r.2 = .node 2 ∧
      nodeAt r.1 0 = ⟨some 2, some .product, [.unit (nr 2), .node 2]⟩ ∧ nodeAt r.1 2 = ⟨none, some .sum, [.node 0, .unit (nr 5)]⟩ :=
    ⟨_, rfl, rfl, rfl, rfl⟩
  obtain ⟨r, h1, h2, h3, h4⟩ := hp
  have key : ∀ n, reify n r.1 (.node 0) = .error (.dom "RecursionError") ∧ reify n r.1 (.node 2) = .error (.dom "RecursionError") := by
    intro n
    induction n with
    | zero => exact ⟨rfl, rfl⟩
    | succ n ih =>
      constructor
      · rw [reify, h3, each, each, ih.2]
        cases n <;> rfl
      · rw [reify, h4, each, ih.1]
        rfl
  rw [parse, h1, ok_bind, h2, (key limit).2]

/-- `calc(calc(3px * 2 - 1px) + 2px)` fails with an `IndexError`. -/
theorem nested_minus_violated (limit : Nat) :
    parse limit (.func "calc".toList [.func "calc".toList [.num (px 3), .lit '*', .num (nr 2), .lit '-', .num (px 1)], .lit '+', .num (px 2)]) =
      .error .indexError := rfl

end SvgPy.MathText
