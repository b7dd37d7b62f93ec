import Verif.Model.Py

/-! Python list indexing.  This file models the language runtime. -/

namespace SvgPy.PyList

/-- The position of `l[i:i]` in a list of length `n` for an integer `i`. -/
def clamp (n : Nat) (i : Int) : Nat := if i < 0 then (n + i).toNat else min i.toNat n

/-- The position of `l[i]`, if any. -/
def index (n : Nat) (i : Int) : Option Nat :=
  if 0 ≤ i ∧ i < n then some i.toNat
  else if i < 0 ∧ -n ≤ i then some (n + i).toNat
  else none

/-- `l[i:i] = [x]`. -/
def insertAt {α : Type} (l : List α) (i : Int) (x : α) : List α :=
  l.take (clamp l.length i) ++ x :: l.drop (clamp l.length i)

/-- `l[i] = x`. -/
def setAt {α : Type} (l : List α) (i : Int) (x : α) : Py (List α) :=
  match index l.length i with
  | none => .error .indexError
  | some k => .ok (l.set k x)

/-- `del l[i]`. -/
def delAt {α : Type} (l : List α) (i : Int) : Py (List α) :=
  match index l.length i with
  | none => .error .indexError
  | some k => .ok (l.eraseIdx k)

/-- `l[i]`. -/
def getAt {α : Type} (l : List α) (i : Int) : Py α :=
  match index l.length i with
  | none => .error .indexError
  | some k => match l[k]? with
    | none => .error .indexError
    | some x => .ok x

/-- `l.index(x)`. -/
def indexOf {α : Type} [DecidableEq α] (x : α) : List α → Option Nat
  | [] => none
  | y :: ys => if y = x then some 0 else (indexOf x ys).map (· + 1)

end SvgPy.PyList
