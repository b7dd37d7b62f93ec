import Verif.Model.PyStr

/-! Model of `Element.RE_DIGIT_SEQUENCE_SPLITTER.split`, `/repo/svgpy/dom.py` 1393:
the regular expression `\s*,\s*|\s+`. -/

namespace SvgPy.SeqSplit

open PyStr

/-- A match of the expression at the start of the text: what follows it. -/
def sepAt (s : Str) : Option Str :=
  match s.dropWhile isSpace with
  | ',' :: t => some (t.dropWhile isSpace)
  | r => match s with
    | [] => none
    | c :: _ => if isSpace c then some r else none

/-- The loop of `split`: the text before the first match, then the rest.  Matches do
not overlap and are found from left to right.  The number bounds the recursion. -/
def splitN : Nat → Str → List Str
  | 0, _ => [[]]
  | _ + 1, [] => [[]]
  | n + 1, c :: t =>
    match sepAt (c :: t) with
    | some r => [] :: splitN n r
    | none =>
      match splitN n t with
      | [] => [[c]]
      | p :: ps => (c :: p) :: ps

/-- `split(s)`; every step consumes a character. -/
def split (s : Str) : List Str := splitN (s.length + 1) s

end SvgPy.SeqSplit
