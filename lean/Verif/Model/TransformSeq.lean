import Verif.Model.PyList

/-!
`SVGTransformList` as a sequence of objects, `/repo/svgpy/transform.py` 278-341, 344-345, 366-370, 380-402, 433-483,
517-541.  The operations that it inherits from `collections.abc.MutableSequence` (`clear`, `extend`, `pop`, `remove`,
`reverse`, `index`) are modelled as the library implements them, by loops over the abstract operations.

`SVGTransform` has no `__eq__`: two transforms are equal only if they are the same object, so that a transform is
a number here, the place of the object in a store.  Simplifications: slices without step; `extend` gets a list and not
any iterable; the parsing of text by the constructor is left out (see C10, C59).
-/

namespace SvgPy.TransformSeq

/-- An SVGTransform object. -/
abbrev Ref := Nat

/-- An argument: a transform or something else. -/
inductive Obj
  | item (r : Ref)
  | wrong
  deriving DecidableEq

/-- What an operation leaves and what it returns or raises. -/
abbrev Out := List Ref × Py (Option Ref)

/-- `__getitem__`, `get_item`, transform.py 312-313, 433-442. -/
def getItem (l : List Ref) (i : Int) : Out :=
  match PyList.getAt l i with
  | .error e => (l, .error e)
  | .ok r => (l, .ok (some r))

/-- `__delitem__`, transform.py 309-310. -/
def delItem (l : List Ref) (i : Int) : Out :=
  match PyList.delAt l i with
  | .error e => (l, .error e)
  | .ok l' => (l', .ok none)

/-- `__setitem__` with a number, transform.py 328-340; also `replace_item`, 529-541. -/
def setItem (l : List Ref) (i : Int) : Obj → Out
  | .wrong => (l, .error .typeError)
  | .item r =>
    match PyList.setAt l i r with
    | .error e => (l, .error e)
    | .ok l' => (l', .ok (some r))

/-- The loop over the new items, transform.py 333-336. -/
def allItems : List Obj → Option (List Ref)
  | [] => some []
  | .wrong :: _ => none
  | .item r :: os =>
    match allItems os with
    | none => none
    | some rs => some (r :: rs)

/-- `__setitem__` with a slice `i:j`, transform.py 328-340; `none` is an argument that is no list. -/
def setSlice (l : List Ref) (i j : Int) : Option (List Obj) → Out
  | none => (l, .error .typeError)
  | some os =>
    match allItems os with
    | none => (l, .error .typeError)
    | some rs =>
      let a := PyList.clamp l.length i
      let b := PyList.clamp l.length j
      (l.take a ++ rs ++ l.drop (max a b), .ok none)

/-- `append`, `append_item`, transform.py 380-402. -/
def append (l : List Ref) : Obj → Out
  | .wrong => (l, .error .typeError)
  | .item r => (l ++ [r], .ok (some r))

/-- `insert`, `insert_item_before`, transform.py 456-483. -/
def insert (l : List Ref) (i : Int) : Obj → Out
  | .wrong => (l, .error .typeError)
  | .item r => (PyList.insertAt l i r, .ok (some r))

/-- `remove_item`, transform.py 517-527; also `pop` of MutableSequence. -/
def removeItem (l : List Ref) (i : Int) : Out :=
  match getItem l i with
  | (l, .error e) => (l, .error e)
  | (l, .ok x) =>
    match delItem l i with
    | (l, .error e) => (l, .error e)
    | (l, .ok _) => (l, .ok x)

/-- The loop of `MutableSequence.clear`: `pop()` until IndexError; `fuel` is more than the length. -/
def clearLoop : Nat → List Ref → List Ref
  | 0, l => l
  | n + 1, l =>
    match removeItem l (-1) with
    | (l, .error _) => l
    | (l, .ok _) => clearLoop n l

/-- `MutableSequence.clear`. -/
def clear (l : List Ref) : List Ref := clearLoop (l.length + 1) l

/-- `initialize`, transform.py 444-454. -/
def initWith (l : List Ref) (o : Obj) : Out := append (clear l) o

/-- `MutableSequence.extend` for another object than the list itself. -/
def extend : List Ref → List Obj → Out
  | l, [] => (l, .ok none)
  | l, o :: os =>
    match append l o with
    | (l, .error e) => (l, .error e)
    | (l, .ok _) => extend l os

/-- `__iadd__`, transform.py 315-319: TypeError for what is no list (after NotImplemented). -/
def iadd (l : List Ref) : Option (List Obj) → Out
  | none => (l, .error .typeError)
  | some os => extend l os

/-- `self += self`: `MutableSequence.extend` copies the list first. -/
def iaddSelf (l : List Ref) : Out := extend l (l.map .item)

/-- `self[i], self[j] = self[j], self[i]`. -/
def swap (l : List Ref) (i j : Nat) : List Ref :=
  match l[i]?, l[j]? with
  | some x, some y => (l.set i y).set j x
  | _, _ => l

/-- The loop of `MutableSequence.reverse`: `for i in range(n // 2)`. -/
def reverseLoop (n : Nat) : Nat → List Ref → List Ref
  | 0, l => l
  | k + 1, l => swap (reverseLoop n k l) k (n - k - 1)

/-- `MutableSequence.reverse`. -/
def reverse (l : List Ref) : List Ref := reverseLoop l.length (l.length / 2) l

/-- The loop of `Sequence.index` from a place on; `fuel` is more than the length. -/
def indexLoop (l : List Ref) (o : Obj) : Nat → Nat → Option Nat
  | 0, _ => none
  | n + 1, i =>
    match getItem l i with
    | (_, .ok (some r)) => if Obj.item r = o then some i else indexLoop l o n (i + 1)
    | _ => none

/-- `MutableSequence.remove`. -/
def removeValue (l : List Ref) (o : Obj) : Out :=
  match indexLoop l o (l.length + 1) 0 with
  | none => (l, .error .valueError)
  | some i => delItem l i

/-- The operations. -/
inductive Op
  | getItem (i : Int)
  | delItem (i : Int)
  | setItem (i : Int) (o : Obj)
  | setSlice (i j : Int) (os : Option (List Obj))
  | append (o : Obj)
  | insert (i : Int) (o : Obj)
  | removeItem (i : Int)
  | clear
  | initWith (o : Obj)
  | iadd (os : Option (List Obj))
  | iaddSelf
  | reverse
  | removeValue (o : Obj)

/-- One operation. -/
def run (l : List Ref) : Op → Out
  | .getItem i => getItem l i
  | .delItem i => delItem l i
  | .setItem i o => setItem l i o
  | .setSlice i j os => setSlice l i j os
  | .append o => append l o
  | .insert i o => insert l i o
  | .removeItem i => removeItem l i
  | .clear => (clear l, .ok none)
  | .initWith o => initWith l o
  | .iadd os => iadd l os
  | .iaddSelf => iaddSelf l
  | .reverse => (reverse l, .ok none)
  | .removeValue o => removeValue l o

/-- Operations one after the other; exceptions are caught by the caller. -/
def runAll (l : List Ref) : List Op → List Ref
  | [] => l
  | o :: os => runAll (run l o).1 os

/-- The objects: the values of the transforms by number. -/
abbrev Store (V : Type) := List V

/-- `copy.deepcopy` of the items, with the memo of the objects copied before: an object that occurs twice is copied once. -/
def copyItems {V : Type} : Store V → List (Ref × Ref) → List Ref → Store V × List Ref
  | s, _, [] => (s, [])
  | s, memo, r :: rs =>
    match memo.lookup r with
    | some r' =>
      let p := copyItems s memo rs
      (p.1, r' :: p.2)
    | none =>
      match s[r]? with
      | none => let p := copyItems s memo rs; (p.1, r :: p.2)
      | some v =>
        let p := copyItems (s ++ [v]) ((r, s.length) :: memo) rs
        (p.1, s.length :: p.2)

/-- `__add__`, transform.py 302-307. -/
def add {V : Type} (s : Store V) (l : List Ref) : Option (List Obj) → Store V × Py (List Ref)
  | none => (s, .error .typeError)
  | some os =>
    let p := copyItems s [] l
    match extend p.2 os with
    | (_, .error e) => (p.1, .error e)
    | (l', .ok _) => (p.1, .ok l')

end SvgPy.TransformSeq
