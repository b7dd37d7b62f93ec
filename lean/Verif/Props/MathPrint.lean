import Verif.Model.MathPrint
import Verif.Props.SumValue
import Mathlib.Tactic.Ring
import Mathlib.Tactic.NormNum

set_option linter.unusedSimpArgs false

/-! Texts of math values read back. -/

namespace SvgPy.MathPrint

open SvgPy.UnitValue (U UV)
open SvgPy.SumValue (Expr eval evals extremum)

/-! ### Specification: reading by recursive descent

`*` and `/` bind closer than `+` and `-`, both group to the left.  A minus sign without spaces may
stand before a number without a sign or before a parenthesis: before a name it would be part of
the name (`-calc(`), before a sign the beginning of a name (`--1px`). -/

abbrev Reader := List W → Option (ℝ × List W)

/-- Something and a closing parenthesis. -/
def closed : Option (ℝ × List W) → Option (ℝ × List W)
  | some (v, .close :: r) => some (v, r)
  | _ => none

/-- More factors. -/
noncomputable def factors (F : Reader) : Nat → ℝ → List W → Option (ℝ × List W)
  | 0, _, _ => none
  | n + 1, v, .times :: r => (F r).bind fun x => factors F n (v * x.1) x.2
  | n + 1, v, .over :: r => (F r).bind fun x => factors F n (v / x.1) x.2
  | _ + 1, v, r => some (v, r)

noncomputable def prodOf (F : Reader) (n : Nat) (ts : List W) : Option (ℝ × List W) :=
  (F ts).bind fun x => factors F n x.1 x.2

/-- More terms. -/
noncomputable def terms (F : Reader) : Nat → ℝ → List W → Option (ℝ × List W)
  | 0, _, _ => none
  | n + 1, v, .plus :: r => (prodOf F n r).bind fun x => terms F n (v + x.1) x.2
  | n + 1, v, .minus :: r => (prodOf F n r).bind fun x => terms F n (v - x.1) x.2
  | _ + 1, v, r => some (v, r)

noncomputable def sumOf (F : Reader) (n : Nat) (ts : List W) : Option (ℝ × List W) :=
  (prodOf F n ts).bind fun x => terms F n x.1 x.2

/-- Arguments with commas, up to the closing parenthesis. -/
noncomputable def argsOf (F : Reader) : Nat → List W → Option (List ℝ × List W)
  | 0, _ => none
  | n + 1, ts =>
    match sumOf F n ts with
    | some (v, .close :: r) => some ([v], r)
    | some (v, .comma :: r) => (argsOf F n r).map fun x => (v :: x.1, x.2)
    | _ => none

noncomputable def apply : Fn → List ℝ → Option ℝ
  | .min, l => some (extremum Min.min l)
  | .max, l => some (extremum Max.max l)
  | .clamp, [a, b, c] => some (Max.max a (Min.min b c))
  | .clamp, _ => none

open Classical in
/-- Numbers, parentheses and functions. -/
noncomputable def fact (σ : U → ℝ) : Nat → Reader
  | 0, _ => none
  | _ + 1, .num x :: r => some (x.value * σ x.unit, r)
  | n + 1, .paren :: r => closed (sumOf (fact σ n) n r)
  | n + 1, .calc :: r => closed (sumOf (fact σ n) n r)
  | _ + 1, .neg :: .num x :: r => if 0 ≤ x.value then some (-(x.value * σ x.unit), r) else none
  | n + 1, .neg :: .paren :: r => (closed (sumOf (fact σ n) n r)).map fun x => (-x.1, x.2)
  | n + 1, .fn f :: r => (argsOf (fact σ n) n r).bind fun x => (apply f x.1).map fun v => (v, x.2)
  | _ + 1, _ => none

/-- The whole text is read, with the quantity `v`. -/
def ReadsAs (σ : U → ℝ) (ts : List W) (v : ℝ) : Prop := ∃ n, ∀ m, n ≤ m → ∀ k, n ≤ k → sumOf (fact σ m) k ts = some (v, [])

/-! ### Which values have a faithful text -/

/-- The text needs no parentheses as a factor. -/
def isFact (less : Bool) : Expr → Bool
  | .sum _ => !less
  | .prod _ => !less
  | .invert _ => !less
  | _ => true

/-- The text needs no parentheses as a term. -/
def isTerm (less : Bool) : Expr → Bool
  | .sum _ => !less
  | _ => true

/-- A minus sign may stand before the text. -/
def MayNegate (nested less : Bool) : Expr → Prop
  | .unit x => 0 ≤ x.value
  | .sum _ => nested = true ∧ less = false
  | .prod _ => nested = true ∧ less = false
  | .negate _ => nested = true ∧ less = false
  | .invert _ => nested = true ∧ less = false
  | _ => False

mutual
/-- No parentheses are missing, and minus signs stand where they can. -/
def Fits (nested less : Bool) : Expr → Prop
  | .unit _ => True
  | .sum l => l ≠ [] ∧ FitsSum less l
  | .prod l => l ≠ [] ∧ FitsProd less l
  | .negate e => MayNegate nested less e ∧ Fits nested less e
  | .invert e => isFact less e = true ∧ Fits nested less e
  | .max l => l ≠ [] ∧ FitsArgs l
  | .min l => l ≠ [] ∧ FitsArgs l
  | .clamp a b c => Fits nested less a ∧ Fits nested less b ∧ Fits nested less c

def FitsSum (less : Bool) : List Expr → Prop
  | [] => True
  | e :: l => Fits true less e ∧ FitsMoreSum less l

def FitsMoreSum (less : Bool) : List Expr → Prop
  | [] => True
  | .negate e :: l => (isTerm less e = true ∧ Fits true less e) ∧ FitsMoreSum less l
  | e :: l => (isTerm less e = true ∧ Fits true less e) ∧ FitsMoreSum less l

def FitsProd (less : Bool) : List Expr → Prop
  | [] => True
  | e :: l => (isTerm less e = true ∧ Fits true less e) ∧ FitsMoreProd less l

def FitsMoreProd (less : Bool) : List Expr → Prop
  | [] => True
  | .invert e :: l => (isFact less e = true ∧ Fits true less e) ∧ FitsMoreProd less l
  | e :: l => (isFact less e = true ∧ Fits true less e) ∧ FitsMoreProd less l

def FitsArgs : List Expr → Prop
  | [] => True
  | e :: l => Fits true true e ∧ FitsArgs l
end

/-! ### Proofs -/

/-- For all large numbers. -/
def Ev (P : Nat → Nat → Prop) : Prop := ∃ n, ∀ m, n ≤ m → ∀ k, n ≤ k → P m k

theorem Ev.and {P Q : Nat → Nat → Prop} (hp : Ev P) (hq : Ev Q) : Ev fun m k => P m k ∧ Q m k := by
  obtain ⟨a, ha⟩ := hp
  obtain ⟨b, hb⟩ := hq
  exact ⟨max a b, fun m hm k hk => ⟨ha m (by omega) k (by omega), hb m (by omega) k (by omega)⟩⟩

theorem Ev.imp {P Q : Nat → Nat → Prop} (hp : Ev P) (h : ∀ m k, P m k → Q m k) : Ev Q := by
  obtain ⟨a, ha⟩ := hp
  exact ⟨a, fun m hm k hk => h m k (ha m hm k hk)⟩

/-- One more for the second number. -/
theorem Ev.succ {P Q : Nat → Nat → Prop} (hp : Ev P) (h : ∀ m k, P m k → Q m (k + 1)) : Ev Q := by
  obtain ⟨a, ha⟩ := hp
  refine ⟨a + 1, fun m hm k hk => ?_⟩
  obtain ⟨j, rfl⟩ : ∃ j, k = j + 1 := ⟨k - 1, by omega⟩
  exact h m j (ha m (by omega) j (by omega))

/-- One more for the first number, used for both. -/
theorem Ev.deep {P Q : Nat → Nat → Prop} (hp : Ev P) (h : ∀ m, P m m → ∀ k, Q (m + 1) k) : Ev Q := by
  obtain ⟨a, ha⟩ := hp
  refine ⟨a + 1, fun m hm k hk => ?_⟩
  obtain ⟨j, rfl⟩ : ∃ j, m = j + 1 := ⟨m - 1, by omega⟩
  exact h j (ha j (by omega) j (by omega)) k

section
variable (σ : U → ℝ)

def FactOk (ts : List W) (v : ℝ) : Prop := ∀ rest, Ev fun m _ => fact σ m (ts ++ rest) = some (v, rest)

def TermOk (ts : List W) (v : ℝ) : Prop := ∀ rest r, (Ev fun m k => factors (fact σ m) k v rest = some r) →
  Ev fun m k => prodOf (fact σ m) k (ts ++ rest) = some r

/-- Not `*` or `/`. -/
def NoMul : List W → Prop
  | .times :: _ => False
  | .over :: _ => False
  | _ => True

/-- Not `+` or `-` either. -/
def NoOp : List W → Prop
  | .times :: _ => False
  | .over :: _ => False
  | .plus :: _ => False
  | .minus :: _ => False
  | _ => True

theorem NoOp.noMul {l : List W} (h : NoOp l) : NoMul l := by
  cases l with
  | nil => trivial
  | cons a l => cases a <;> first | exact h.elim | trivial

def SumOk (ts : List W) (v : ℝ) : Prop := ∀ rest r, NoMul rest → (Ev fun m k => terms (fact σ m) k v rest = some r) →
  Ev fun m k => sumOf (fact σ m) k (ts ++ rest) = some r

variable {σ}

theorem factors_end (v : ℝ) (rest : List W) (h : NoMul rest) : Ev fun m k => factors (fact σ m) k v rest = some (v, rest) := by
  refine Ev.succ (P := fun _ _ => True) ⟨0, fun _ _ _ _ => trivial⟩ fun m k _ => ?_
  cases rest with
  | nil => rfl
  | cons a l => cases a <;> first | exact h.elim | rfl

theorem terms_end (v : ℝ) (rest : List W) (h : NoOp rest) : Ev fun m k => terms (fact σ m) k v rest = some (v, rest) := by
  refine Ev.succ (P := fun _ _ => True) ⟨0, fun _ _ _ _ => trivial⟩ fun m k _ => ?_
  cases rest with
  | nil => rfl
  | cons a l => cases a <;> first | exact h.elim | rfl

theorem FactOk.term {ts : List W} {v : ℝ} (h : FactOk σ ts v) : TermOk σ ts v := by
  intro rest r hr
  refine ((h rest).and hr).imp fun m k hk => ?_
  rw [prodOf, hk.1]
  exact hk.2

theorem TermOk.sum {ts : List W} {v : ℝ} (h : TermOk σ ts v) : SumOk σ ts v := by
  intro rest r hn hr
  refine ((h rest _ (factors_end v rest hn)).and hr).imp fun m k hk => ?_
  rw [sumOf, hk.1]
  exact hk.2

theorem TermOk.times {ts us : List W} {v x : ℝ} (h : TermOk σ ts v) (hu : FactOk σ us x) : TermOk σ (ts ++ .times :: us) (v * x) := by
  intro rest r hr
  rw [List.append_assoc, List.cons_append]
  refine h _ _ (Ev.succ ((hu rest).and hr) fun m k hk => ?_)
  rw [factors, hk.1]
  exact hk.2

theorem TermOk.over {ts us : List W} {v x : ℝ} (h : TermOk σ ts v) (hu : FactOk σ us x) : TermOk σ (ts ++ .over :: us) (v / x) := by
  intro rest r hr
  rw [List.append_assoc, List.cons_append]
  refine h _ _ (Ev.succ ((hu rest).and hr) fun m k hk => ?_)
  rw [factors, hk.1]
  exact hk.2

theorem SumOk.plus {ts us : List W} {v x : ℝ} (h : SumOk σ ts v) (hu : TermOk σ us x) : SumOk σ (ts ++ .plus :: us) (v + x) := by
  intro rest r hn hr
  rw [List.append_assoc, List.cons_append]
  refine h _ _ trivial (Ev.succ ((hu rest _ (factors_end x rest hn)).and hr) fun m k hk => ?_)
  rw [terms, hk.1]
  exact hk.2

theorem SumOk.minus {ts us : List W} {v x : ℝ} (h : SumOk σ ts v) (hu : TermOk σ us x) : SumOk σ (ts ++ .minus :: us) (v - x) := by
  intro rest r hn hr
  rw [List.append_assoc, List.cons_append]
  refine h _ _ trivial (Ev.succ ((hu rest _ (factors_end x rest hn)).and hr) fun m k hk => ?_)
  rw [terms, hk.1]
  exact hk.2

theorem SumOk.closed {ts : List W} {v : ℝ} (h : SumOk σ ts v) (rest : List W) :
    Ev fun m k => MathPrint.closed (sumOf (fact σ m) k (ts ++ .close :: rest)) = some (v, rest) :=
  (h (.close :: rest) _ trivial (terms_end v _ trivial)).imp fun m k hk => by rw [hk]; rfl

theorem SumOk.paren {ts : List W} {v : ℝ} (h : SumOk σ ts v) : FactOk σ (.paren :: ts ++ [.close]) v := by
  intro rest
  refine (h.closed rest).deep fun m hm k => ?_
  simp only [List.append_assoc, List.cons_append, List.nil_append, fact, hm]

theorem SumOk.calc {ts : List W} {v : ℝ} (h : SumOk σ ts v) : FactOk σ (.calc :: ts ++ [.close]) v := by
  intro rest
  refine (h.closed rest).deep fun m hm k => ?_
  simp only [List.append_assoc, List.cons_append, List.nil_append, fact, hm]

theorem SumOk.negParen {ts : List W} {v : ℝ} (h : SumOk σ ts v) : FactOk σ (.neg :: .paren :: ts ++ [.close]) (-v) := by
  intro rest
  refine (h.closed rest).deep fun m hm k => ?_
  simp only [List.append_assoc, List.cons_append, List.nil_append, fact, hm]
  rfl

theorem num_ok (x : UV) : FactOk σ [.num x] (x.value * σ x.unit) := by
  intro rest
  exact Ev.deep (P := fun _ _ => True) ⟨0, fun _ _ _ _ => trivial⟩ fun m _ k => by
    simp only [List.cons_append, List.nil_append, fact]

theorem neg_num_ok (x : UV) (hx : 0 ≤ x.value) : FactOk σ [.neg, .num x] (-(x.value * σ x.unit)) := by
  intro rest
  exact Ev.deep (P := fun _ _ => True) ⟨0, fun _ _ _ _ => trivial⟩ fun m _ k => by
    simp only [List.cons_append, List.nil_append, fact, if_pos hx]

/-- In parentheses, or not. -/
theorem wrap_fact {ts : List W} {v : ℝ} (n : Bool) (h : SumOk σ ts v) : FactOk σ (left n false ++ ts ++ right false) v := by
  cases n
  · exact h.calc
  · exact h.paren

def ArgsOk (σ : U → ℝ) (ts : List W) (vs : List ℝ) : Prop := ∀ rest, Ev fun m k => argsOf (fact σ m) k (ts ++ .close :: rest) = some (vs, rest)

theorem args_one {ts : List W} {v : ℝ} (h : SumOk σ ts v) : ArgsOk σ ts [v] := by
  intro rest
  refine Ev.succ (h (.close :: rest) _ trivial (terms_end v _ trivial)) fun m k hk => ?_
  rw [argsOf, hk]

theorem args_cons {ts us : List W} {v : ℝ} {vs : List ℝ} (h : SumOk σ ts v) (hu : ArgsOk σ us vs) : ArgsOk σ (ts ++ .comma :: us) (v :: vs) := by
  intro rest
  refine Ev.succ ((h (.comma :: (us ++ .close :: rest)) _ trivial (terms_end v _ trivial)).and (hu rest)) fun m k hk => ?_
  rw [argsOf, List.append_assoc, List.cons_append, hk.1]
  simp only [hk.2, Option.map_some]

theorem fn_ok {f : Fn} {ts : List W} {vs : List ℝ} {v : ℝ} (h : ArgsOk σ ts vs) (hf : apply f vs = some v) : FactOk σ (.fn f :: ts ++ [.close]) v := by
  intro rest
  refine (h rest).deep fun m hm k => ?_
  simp only [List.append_assoc, List.cons_append, List.nil_append, fact, hm, Option.bind_some, hf, Option.map_some]

/-- What is shown for each value: its text is read, as a factor if `isFact`, as a term if
`isTerm`. -/
def Shows (σ : U → ℝ) (n p : Bool) (e : Expr) : Prop :=
  SumOk σ (text n p e) (eval σ e) ∧ (isTerm p e = true → TermOk σ (text n p e) (eval σ e)) ∧ (isFact p e = true → FactOk σ (text n p e) (eval σ e)) ∧
    (MayNegate n p e → FactOk σ (.neg :: text n p e) (- eval σ e))

theorem FactOk.shows {n p : Bool} {e : Expr} (h : FactOk σ (text n p e) (eval σ e))
    (hn : MayNegate n p e → FactOk σ (.neg :: text n p e) (- eval σ e)) : Shows σ n p e :=
  ⟨h.term.sum, fun _ => h.term, fun _ => h, hn⟩

theorem wrap_neg {ts : List W} {v : ℝ} {n p : Bool} (h : SumOk σ ts v) (hn : n = true ∧ p = false) :
    FactOk σ (.neg :: (left n p ++ ts ++ right p)) (-v) := by
  obtain ⟨rfl, rfl⟩ := hn
  exact h.negParen

end

mutual
theorem shows (σ : U → ℝ) (h1 : σ .number = 1) (n p : Bool) : (e : Expr) → Fits n p e → Shows σ n p e
  | .unit x, _ => FactOk.shows (by rw [text, eval]; exact num_ok x) fun hx => by rw [text, eval]; exact neg_num_ok x hx
  | .sum l, h => by
    rw [Fits] at h
    have hs := shows_sum σ h1 p l h.1 h.2
    have hn : MayNegate n p (.sum l) → FactOk σ (.neg :: text n p (.sum l)) (- eval σ (.sum l)) := fun hn => by
      rw [text, eval]; exact wrap_neg hs hn
    cases p with
    | false => exact FactOk.shows (by rw [text, eval]; exact wrap_fact n hs) hn
    | true =>
      refine ⟨?_, fun hc => by simp [isTerm] at hc, fun hc => by simp [isFact] at hc, hn⟩
      rw [text, eval]
      simpa [left, right] using hs
  | .prod l, h => by
    rw [Fits] at h
    have hs := shows_prod σ h1 p l h.1 h.2
    have hn : MayNegate n p (.prod l) → FactOk σ (.neg :: text n p (.prod l)) (- eval σ (.prod l)) := fun hn => by
      rw [text, eval]; exact wrap_neg hs.sum hn
    cases p with
    | false => exact FactOk.shows (by rw [text, eval]; exact wrap_fact n hs.sum) hn
    | true =>
      have ht : TermOk σ (text n true (.prod l)) (eval σ (.prod l)) := by
        rw [text, eval]
        simpa [left, right] using hs
      exact ⟨ht.sum, fun _ => ht, fun hc => by simp [isFact] at hc, hn⟩
  | .negate e, h => by
    rw [Fits] at h
    have hneg := (shows σ h1 n p e h.2).2.2.2 h.1
    refine FactOk.shows ?_ fun hn => ?_
    · rw [text, eval]
      cases p with
      | false => exact wrap_fact n hneg.term.sum
      | true => simpa [left, right] using hneg
    · rw [text, eval]; exact wrap_neg hneg.term.sum hn
  | .invert e, h => by
    rw [Fits] at h
    have he := (shows σ h1 n p e h.2).2.2.1 h.1
    have ht : TermOk σ (.num ⟨1, .number⟩ :: .over :: text n p e) (eval σ e)⁻¹ := by
      have := (num_ok (σ := σ) ⟨1, .number⟩).term.over he
      simpa [h1] using this
    have hn : MayNegate n p (.invert e) → FactOk σ (.neg :: text n p (.invert e)) (- eval σ (.invert e)) := fun hn => by
      rw [text, eval]; exact wrap_neg ht.sum hn
    cases p with
    | false => exact FactOk.shows (by rw [text, eval]; exact wrap_fact n ht.sum) hn
    | true =>
      have ht : TermOk σ (text n true (.invert e)) (eval σ (.invert e)) := by
        rw [text, eval]
        simpa [left, right] using ht
      exact ⟨ht.sum, fun _ => ht, fun hc => by simp [isFact] at hc, hn⟩
  | .max l, h => by
    rw [Fits] at h
    refine FactOk.shows ?_ fun hn => hn.elim
    rw [text, eval]
    exact fn_ok (shows_args σ h1 l h.1 h.2) rfl
  | .min l, h => by
    rw [Fits] at h
    refine FactOk.shows ?_ fun hn => hn.elim
    rw [text, eval]
    exact fn_ok (shows_args σ h1 l h.1 h.2) rfl
  | .clamp a b c, h => by
    rw [Fits] at h
    have ha := (shows σ h1 n p a h.1).1
    have hb := (shows σ h1 n p b h.2.1).1
    have hc := (shows σ h1 n p c h.2.2).1
    refine FactOk.shows ?_ fun hn => hn.elim
    rw [text, eval]
    have := fn_ok (f := .clamp) (args_cons ha (args_cons hb (args_one hc))) rfl
    simpa using this

theorem shows_sum (σ : U → ℝ) (h1 : σ .number = 1) (p : Bool) : (l : List Expr) → l ≠ [] → FitsSum p l → SumOk σ (sumText p l) (evals σ l).sum
  | [], hl, _ => absurd rfl hl
  | e :: l, _, h => by
    rw [FitsSum] at h
    rw [sumText, evals, List.sum_cons]
    exact shows_more_sum σ h1 p l h.2 _ _ (shows σ h1 true p e h.1).1

theorem shows_more_sum (σ : U → ℝ) (h1 : σ .number = 1) (p : Bool) : (l : List Expr) → FitsMoreSum p l → ∀ ts v, SumOk σ ts v →
    SumOk σ (ts ++ moreSum p l) (v + (evals σ l).sum)
  | [], _, ts, v, h => by simpa [moreSum, evals] using h
  | .negate e :: l, hf, ts, v, h => by
    rw [FitsMoreSum] at hf
    have := shows_more_sum σ h1 p l hf.2 _ _ (h.minus ((shows σ h1 true p e hf.1.2).2.1 hf.1.1))
    rw [moreSum, evals, eval, List.sum_cons]
    rwa [List.append_assoc, sub_eq_add_neg, add_assoc] at this
  | .unit x :: l, hf, ts, v, h => by
    simp only [FitsMoreSum] at hf
    have := shows_more_sum σ h1 p l hf.2 _ _ (h.plus ((shows σ h1 true p (.unit x) hf.1.2).2.1 hf.1.1))
    rw [moreSum, evals, List.sum_cons]
    · rwa [List.append_assoc, add_assoc] at this
    · simp
  | .sum k :: l, hf, ts, v, h => by
    simp only [FitsMoreSum] at hf
    have := shows_more_sum σ h1 p l hf.2 _ _ (h.plus ((shows σ h1 true p (.sum k) hf.1.2).2.1 hf.1.1))
    rw [moreSum, evals, List.sum_cons]
    · rwa [List.append_assoc, add_assoc] at this
    · simp
  | .prod k :: l, hf, ts, v, h => by
    simp only [FitsMoreSum] at hf
    have := shows_more_sum σ h1 p l hf.2 _ _ (h.plus ((shows σ h1 true p (.prod k) hf.1.2).2.1 hf.1.1))
    rw [moreSum, evals, List.sum_cons]
    · rwa [List.append_assoc, add_assoc] at this
    · simp
  | .invert e :: l, hf, ts, v, h => by
    simp only [FitsMoreSum] at hf
    have := shows_more_sum σ h1 p l hf.2 _ _ (h.plus ((shows σ h1 true p (.invert e) hf.1.2).2.1 hf.1.1))
    rw [moreSum, evals, List.sum_cons]
    · rwa [List.append_assoc, add_assoc] at this
    · simp
  | .max k :: l, hf, ts, v, h => by
    simp only [FitsMoreSum] at hf
    have := shows_more_sum σ h1 p l hf.2 _ _ (h.plus ((shows σ h1 true p (.max k) hf.1.2).2.1 hf.1.1))
    rw [moreSum, evals, List.sum_cons]
    · rwa [List.append_assoc, add_assoc] at this
    · simp
  | .min k :: l, hf, ts, v, h => by
    simp only [FitsMoreSum] at hf
    have := shows_more_sum σ h1 p l hf.2 _ _ (h.plus ((shows σ h1 true p (.min k) hf.1.2).2.1 hf.1.1))
    rw [moreSum, evals, List.sum_cons]
    · rwa [List.append_assoc, add_assoc] at this
    · simp
  | .clamp a b c :: l, hf, ts, v, h => by
    simp only [FitsMoreSum] at hf
    have := shows_more_sum σ h1 p l hf.2 _ _ (h.plus ((shows σ h1 true p (.clamp a b c) hf.1.2).2.1 hf.1.1))
    rw [moreSum, evals, List.sum_cons]
    · rwa [List.append_assoc, add_assoc] at this
    · simp

theorem shows_prod (σ : U → ℝ) (h1 : σ .number = 1) (p : Bool) : (l : List Expr) → l ≠ [] → FitsProd p l → TermOk σ (prodText p l) (evals σ l).prod
  | [], hl, _ => absurd rfl hl
  | e :: l, _, h => by
    rw [FitsProd] at h
    rw [prodText, evals, List.prod_cons]
    exact shows_more_prod σ h1 p l h.2 _ _ ((shows σ h1 true p e h.1.2).2.1 h.1.1)

theorem shows_more_prod (σ : U → ℝ) (h1 : σ .number = 1) (p : Bool) : (l : List Expr) → FitsMoreProd p l → ∀ ts v, TermOk σ ts v →
    TermOk σ (ts ++ moreProd p l) (v * (evals σ l).prod)
  | [], _, ts, v, h => by simpa [moreProd, evals] using h
  | .invert e :: l, hf, ts, v, h => by
    rw [FitsMoreProd] at hf
    have := shows_more_prod σ h1 p l hf.2 _ _ (h.over ((shows σ h1 true p e hf.1.2).2.2.1 hf.1.1))
    rw [moreProd, evals, eval, List.prod_cons]
    rwa [List.append_assoc, div_eq_mul_inv, mul_assoc] at this
  | .unit x :: l, hf, ts, v, h => by
    simp only [FitsMoreProd] at hf
    have := shows_more_prod σ h1 p l hf.2 _ _ (h.times ((shows σ h1 true p (.unit x) hf.1.2).2.2.1 hf.1.1))
    rw [moreProd, evals, List.prod_cons]
    · rwa [List.append_assoc, mul_assoc] at this
    · simp
  | .sum k :: l, hf, ts, v, h => by
    simp only [FitsMoreProd] at hf
    have := shows_more_prod σ h1 p l hf.2 _ _ (h.times ((shows σ h1 true p (.sum k) hf.1.2).2.2.1 hf.1.1))
    rw [moreProd, evals, List.prod_cons]
    · rwa [List.append_assoc, mul_assoc] at this
    · simp
  | .prod k :: l, hf, ts, v, h => by
    simp only [FitsMoreProd] at hf
    have := shows_more_prod σ h1 p l hf.2 _ _ (h.times ((shows σ h1 true p (.prod k) hf.1.2).2.2.1 hf.1.1))
    rw [moreProd, evals, List.prod_cons]
    · rwa [List.append_assoc, mul_assoc] at this
    · simp
  | .negate e :: l, hf, ts, v, h => by
    simp only [FitsMoreProd] at hf
    have := shows_more_prod σ h1 p l hf.2 _ _ (h.times ((shows σ h1 true p (.negate e) hf.1.2).2.2.1 hf.1.1))
    rw [moreProd, evals, List.prod_cons]
    · rwa [List.append_assoc, mul_assoc] at this
    · simp
  | .max k :: l, hf, ts, v, h => by
    simp only [FitsMoreProd] at hf
    have := shows_more_prod σ h1 p l hf.2 _ _ (h.times ((shows σ h1 true p (.max k) hf.1.2).2.2.1 hf.1.1))
    rw [moreProd, evals, List.prod_cons]
    · rwa [List.append_assoc, mul_assoc] at this
    · simp
  | .min k :: l, hf, ts, v, h => by
    simp only [FitsMoreProd] at hf
    have := shows_more_prod σ h1 p l hf.2 _ _ (h.times ((shows σ h1 true p (.min k) hf.1.2).2.2.1 hf.1.1))
    rw [moreProd, evals, List.prod_cons]
    · rwa [List.append_assoc, mul_assoc] at this
    · simp
  | .clamp a b c :: l, hf, ts, v, h => by
    simp only [FitsMoreProd] at hf
    have := shows_more_prod σ h1 p l hf.2 _ _ (h.times ((shows σ h1 true p (.clamp a b c) hf.1.2).2.2.1 hf.1.1))
    rw [moreProd, evals, List.prod_cons]
    · rwa [List.append_assoc, mul_assoc] at this
    · simp

theorem shows_args (σ : U → ℝ) (h1 : σ .number = 1) : (l : List Expr) → l ≠ [] → FitsArgs l → ArgsOk σ (argText l) (evals σ l)
  | [], hl, _ => absurd rfl hl
  | [e], _, h => by
    rw [FitsArgs] at h
    rw [argText]
    simpa [evals] using args_one (shows σ h1 true true e h.1).1
  | e :: e' :: l, _, h => by
    rw [FitsArgs] at h
    rw [argText, evals]
    · exact args_cons (shows σ h1 true true e h.1).1 (shows_args σ h1 (e' :: l) (by simp) h.2)
    · simp
end

/-! ### Theorems -/

/-- **C88, the part that holds.**  The text of a value is read with the quantity of the value, if
no parentheses are missing inside `min()` and `max()` (where the code writes none) and minus signs
stand only before numbers without a sign or before parentheses. -/
theorem text_partial (σ : U → ℝ) (h1 : σ .number = 1) (e : Expr) (h : Fits false false e) : ReadsAs σ (tostring e) (eval σ e) := by
  have := (shows σ h1 false false e h).1 [] _ trivial (terms_end _ _ trivial)
  rwa [List.append_nil] at this

mutual
/-- No negated values but in sums after the first value, no functions `min()` and `max()`. -/
def Plain : Expr → Prop
  | .unit _ => True
  | .sum l => l ≠ [] ∧ PlainSum l
  | .prod l => l ≠ [] ∧ Plains l
  | .negate _ => False
  | .invert e => Plain e
  | .max _ => False
  | .min _ => False
  | .clamp a b c => Plain a ∧ Plain b ∧ Plain c

def Plains : List Expr → Prop
  | [] => True
  | e :: l => Plain e ∧ Plains l

def PlainSum : List Expr → Prop
  | [] => True
  | e :: l => Plain e ∧ PlainMore l

def PlainMore : List Expr → Prop
  | [] => True
  | .negate e :: l => Plain e ∧ PlainMore l
  | e :: l => Plain e ∧ PlainMore l
end

theorem isTerm_false (e : Expr) : isTerm false e = true := by cases e <;> rfl

theorem isFact_false (e : Expr) : isFact false e = true := by cases e <;> rfl

mutual
theorem plain_fits (n : Bool) : (e : Expr) → Plain e → Fits n false e
  | .unit _, _ => by rw [Fits]; trivial
  | .sum l, h => by rw [Plain] at h; rw [Fits]; exact ⟨h.1, plain_sum l h.2⟩
  | .prod l, h => by rw [Plain] at h; rw [Fits]; exact ⟨h.1, plain_prod l h.2⟩
  | .negate _, h => by rw [Plain] at h; exact h.elim
  | .invert e, h => by rw [Plain] at h; rw [Fits]; exact ⟨isFact_false e, plain_fits n e h⟩
  | .max _, h => by rw [Plain] at h; exact h.elim
  | .min _, h => by rw [Plain] at h; exact h.elim
  | .clamp a b c, h => by rw [Plain] at h; rw [Fits]; exact ⟨plain_fits n a h.1, plain_fits n b h.2.1, plain_fits n c h.2.2⟩

theorem plain_sum : (l : List Expr) → PlainSum l → FitsSum false l
  | [], _ => by rw [FitsSum]; trivial
  | e :: l, h => by rw [PlainSum] at h; rw [FitsSum]; exact ⟨plain_fits true e h.1, plain_more l h.2⟩

theorem plain_more : (l : List Expr) → PlainMore l → FitsMoreSum false l
  | [], _ => by rw [FitsMoreSum]; trivial
  | .negate e :: l, h => by
    simp only [PlainMore] at h
    simp only [FitsMoreSum]
    exact ⟨⟨isTerm_false e, plain_fits true e h.1⟩, plain_more l h.2⟩
  | .unit x :: l, h => by
    simp only [PlainMore] at h
    simp only [FitsMoreSum]
    exact ⟨⟨rfl, plain_fits true _ h.1⟩, plain_more l h.2⟩
  | .sum k :: l, h => by
    simp only [PlainMore] at h
    simp only [FitsMoreSum]
    exact ⟨⟨rfl, plain_fits true _ h.1⟩, plain_more l h.2⟩
  | .prod k :: l, h => by
    simp only [PlainMore] at h
    simp only [FitsMoreSum]
    exact ⟨⟨rfl, plain_fits true _ h.1⟩, plain_more l h.2⟩
  | .invert e :: l, h => by
    simp only [PlainMore] at h
    simp only [FitsMoreSum]
    exact ⟨⟨rfl, plain_fits true _ h.1⟩, plain_more l h.2⟩
  | .max k :: l, h => by
    simp only [PlainMore] at h
    simp only [FitsMoreSum]
    exact ⟨⟨rfl, plain_fits true _ h.1⟩, plain_more l h.2⟩
  | .min k :: l, h => by
    simp only [PlainMore] at h
    simp only [FitsMoreSum]
    exact ⟨⟨rfl, plain_fits true _ h.1⟩, plain_more l h.2⟩
  | .clamp a b c :: l, h => by
    simp only [PlainMore] at h
    simp only [FitsMoreSum]
    exact ⟨⟨rfl, plain_fits true _ h.1⟩, plain_more l h.2⟩

theorem plain_prod : (l : List Expr) → Plains l → FitsProd false l
  | [], _ => by rw [FitsProd]; trivial
  | e :: l, h => by rw [Plains] at h; rw [FitsProd]; exact ⟨⟨isTerm_false e, plain_fits true e h.1⟩, plain_factors l h.2⟩

theorem plain_factors : (l : List Expr) → Plains l → FitsMoreProd false l
  | [], _ => by rw [FitsMoreProd]; trivial
  | .invert e :: l, h => by
    rw [Plains, Plain] at h
    simp only [FitsMoreProd]
    exact ⟨⟨isFact_false e, plain_fits true e h.1⟩, plain_factors l h.2⟩
  | .negate _ :: _, h => by rw [Plains, Plain] at h; exact h.1.elim
  | .unit x :: l, h => by
    rw [Plains] at h
    simp only [FitsMoreProd]
    exact ⟨⟨rfl, plain_fits true _ h.1⟩, plain_factors l h.2⟩
  | .sum k :: l, h => by
    rw [Plains] at h
    simp only [FitsMoreProd]
    exact ⟨⟨rfl, plain_fits true _ h.1⟩, plain_factors l h.2⟩
  | .prod k :: l, h => by
    rw [Plains] at h
    simp only [FitsMoreProd]
    exact ⟨⟨rfl, plain_fits true _ h.1⟩, plain_factors l h.2⟩
  | .max k :: l, h => by
    rw [Plains] at h
    simp only [FitsMoreProd]
    exact ⟨⟨rfl, plain_fits true _ h.1⟩, plain_factors l h.2⟩
  | .min k :: l, h => by
    rw [Plains] at h
    simp only [FitsMoreProd]
    exact ⟨⟨rfl, plain_fits true _ h.1⟩, plain_factors l h.2⟩
  | .clamp a b c :: l, h => by
    rw [Plains] at h
    simp only [FitsMoreProd]
    exact ⟨⟨rfl, plain_fits true _ h.1⟩, plain_factors l h.2⟩
end

/-- Any nesting of sums, differences, products, quotients and `clamp()` has a faithful text. -/
theorem plain_text_partial (σ : U → ℝ) (h1 : σ .number = 1) (e : Expr) (h : Plain e) : ReadsAs σ (tostring e) (eval σ e) :=
  text_partial σ h1 e (plain_fits false e h)

/-- `calc((1px - (2px + 3px)) * 4)`. -/
example : Plain (.prod [.sum [.unit ⟨1, .px⟩, .negate (.sum [.unit ⟨2, .px⟩, .unit ⟨3, .px⟩])], .unit ⟨4, .number⟩]) := by
  simp [Plain, Plains, PlainSum, PlainMore]

/-- `max(1px + 2px, -3px, calc(…))` with a clamp inside. -/
example : Fits false false (.max [.sum [.unit ⟨1, .px⟩, .unit ⟨2, .px⟩], .negate (.unit ⟨3, .px⟩), .clamp (.unit ⟨1, .px⟩) (.unit ⟨2, .px⟩) (.unit ⟨3, .px⟩)]) := by
  simp [Fits, FitsArgs, FitsSum, FitsMoreSum, MayNegate, isTerm]

/-- What is read is unique. -/
theorem readsAs_unique (σ : U → ℝ) (ts : List W) (v w : ℝ) (hv : ReadsAs σ ts v) (hw : ReadsAs σ ts w) : v = w := by
  obtain ⟨n, hn⟩ := hv
  obtain ⟨n', hn'⟩ := hw
  have := (hn (max n n') (by omega) (max n n') (by omega)).symm.trans (hn' (max n n') (by omega) (max n n') (by omega))
  simpa using this

/-- **C88 is violated.**  The values `max((1 + 2) * 3)` and `max(1 + 2 * 3)` have the same text
`max(1 + 2 * 3)`: the first is 9, its text is read as 7. -/
theorem parenless_text_violated : ∃ e : Expr, ∀ σ : U → ℝ, σ .number = 1 → eval σ e = 9 ∧ ReadsAs σ (tostring e) 7 := by
  refine ⟨.max [.prod [.sum [.unit ⟨1, .number⟩, .unit ⟨2, .number⟩], .unit ⟨3, .number⟩]], fun σ h1 => ⟨?_, ?_⟩⟩
  · simp [eval, evals, extremum, h1]; norm_num
  · have := text_partial σ h1 (.max [.sum [.unit ⟨1, .number⟩, .prod [.unit ⟨2, .number⟩, .unit ⟨3, .number⟩]]])
      (by simp [Fits, FitsArgs, FitsSum, FitsMoreSum, FitsProd, FitsMoreProd, isTerm, isFact])
    have e1 : eval σ (.max [.sum [.unit ⟨1, .number⟩, .prod [.unit ⟨2, .number⟩, .unit ⟨3, .number⟩]]]) = 7 := by
      simp [eval, evals, extremum, h1]; norm_num
    rw [e1] at this
    have e2 : ∀ a b c : UV, tostring (.max [.sum [.unit a, .prod [.unit b, .unit c]]]) = tostring (.max [.prod [.sum [.unit a, .unit b], .unit c]]) := by
      intro a b c
      simp [tostring, text, argText, sumText, moreSum, prodText, moreProd, left, right]
    rwa [e2] at this

/-- The text of a subtracted sum inside `max()` lacks its parentheses. -/
theorem parenless_minus_violated : ∃ e : Expr, ∀ σ : U → ℝ, σ .number = 1 → eval σ e = 0 ∧ ReadsAs σ (tostring e) 2 := by
  refine ⟨.min [.sum [.unit ⟨3, .number⟩, .negate (.sum [.unit ⟨2, .number⟩, .unit ⟨1, .number⟩])]], fun σ h1 => ⟨?_, ?_⟩⟩
  · simp [eval, evals, extremum, h1]; norm_num
  · have := text_partial σ h1 (.min [.sum [.unit ⟨3, .number⟩, .negate (.unit ⟨2, .number⟩), .unit ⟨1, .number⟩]])
      (by simp [Fits, FitsArgs, FitsSum, FitsMoreSum, FitsProd, FitsMoreProd, isTerm, isFact])
    have e1 : eval σ (.min [.sum [.unit ⟨3, .number⟩, .negate (.unit ⟨2, .number⟩), .unit ⟨1, .number⟩]]) = 2 := by
      simp [eval, evals, extremum, h1]; norm_num
    rw [e1] at this
    have e2 : ∀ a b c : UV, tostring (.min [.sum [.unit a, .negate (.unit b), .unit c]]) = tostring (.min [.sum [.unit a, .negate (.sum [.unit b, .unit c])]]) := by
      intro a b c
      simp [tostring, text, argText, sumText, moreSum, prodText, moreProd, left, right]
    rwa [e2] at this

/-- The text `calc(-calc(…))` of a negated sum, and `calc(--1px)` of a negated negative number,
cannot be read. -/
theorem negate_text_violated (σ : U → ℝ) (v : ℝ) :
    ¬ ReadsAs σ (tostring (.negate (.sum [.unit ⟨1, .px⟩, .unit ⟨2, .px⟩]))) v ∧ ¬ ReadsAs σ (tostring (.negate (.unit ⟨-1, .px⟩))) v := by
  constructor
  · rintro ⟨n, hn⟩
    have := hn (n + 2) (by omega) n (le_refl n)
    simp [tostring, text, left, right, sumOf, prodOf, fact, closed] at this
  · rintro ⟨n, hn⟩
    have := hn (n + 2) (by omega) n (le_refl n)
    have h0 : ¬ (0 : ℝ) ≤ -1 := by norm_num
    simp [tostring, text, left, right, sumOf, prodOf, fact, closed, h0] at this

end SvgPy.MathPrint
