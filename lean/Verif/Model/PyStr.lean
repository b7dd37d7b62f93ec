/-!
Python's `str` methods on lists of characters.  This file models the language
runtime, not a file in `/repo`.
-/

namespace SvgPy

/-- Python strings as lists of code points. -/
abbrev Str := List Char

namespace PyStr

/-- `str.isspace()` of one character: the code points CPython treats as white
space (what `strip()` and `split()` without arguments use). -/
def isSpace (c : Char) : Bool :=
  let n := c.toNat
  (9 ≤ n && n ≤ 13) || (28 ≤ n && n ≤ 32) || n == 0x85 || n == 0xA0 || n == 0x1680 ||
  (0x2000 ≤ n && n ≤ 0x200A) || n == 0x2028 || n == 0x2029 || n == 0x202F || n == 0x205F || n == 0x3000

/-- `s.lstrip()`. -/
def lstrip (s : Str) : Str := s.dropWhile isSpace

/-- `s.rstrip()`. -/
def rstrip (s : Str) : Str := (s.reverse.dropWhile isSpace).reverse

/-- `s.strip()`. -/
def strip (s : Str) : Str := rstrip (lstrip s)

/-- `s.split(c)` for a one-character separator: never empty. -/
def splitOn (c : Char) : Str → List Str
  | [] => [[]]
  | x :: xs =>
    if x = c then [] :: splitOn c xs
    else match splitOn c xs with
      | [] => [[x]]
      | p :: ps => (x :: p) :: ps

/-- `s.split(c, maxsplit=1)` when `c` occurs (as `some`), `none` otherwise; also
`s.partition(c)`. -/
def cut (c : Char) : Str → Option (Str × Str)
  | [] => none
  | x :: xs =>
    if x = c then some ([], xs)
    else match cut c xs with
      | none => none
      | some (a, b) => some (x :: a, b)

/-- `s.split()`: maximal runs of non-space characters. -/
def splitWsAux : Str → Str → List Str
  | acc, [] => if acc.isEmpty then [] else [acc.reverse]
  | acc, x :: xs =>
    if isSpace x then (if acc.isEmpty then splitWsAux [] xs else acc.reverse :: splitWsAux [] xs)
    else splitWsAux (x :: acc) xs

/-- `s.split()`. -/
def splitWs (s : Str) : List Str := splitWsAux [] s

/-- `sep.join(parts)`. -/
def join (sep : Str) : List Str → Str
  | [] => []
  | [p] => p
  | p :: ps => p ++ sep ++ join sep ps

/-- `a <= b` on strings: lexicographic by code point. -/
def le : Str → Str → Bool
  | [], _ => true
  | _ :: _, [] => false
  | a :: as, b :: bs => if a.toNat < b.toNat then true else if a = b then le as bs else false

/-- Insertion into a sorted list, before the first larger element. -/
def insertSorted (p : Str) : List Str → List Str
  | [] => [p]
  | q :: qs => if le p q then p :: q :: qs else q :: insertSorted p qs

/-- `sorted(parts)`: the result of sorting does not depend on the algorithm, so
the model uses insertion. -/
def sorted : List Str → List Str
  | [] => []
  | p :: ps => insertSorted p (sorted ps)

end PyStr
end SvgPy
