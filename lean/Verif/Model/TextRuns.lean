import Mathlib.Data.List.Basic

/-!
The division of a text into runs of one direction and lines: `/repo/svgpy/text.py` 330-347 and 502 with
`UBiDi.set_para`, `get_processed_length`, `get_logical_run` and `UBreakIterator`, `/repo/svgpy/icu.py` 551-558,
563-564, 592-603, 665-685, 729-734.

A Python string is a list of code points; ICU works on UTF-16 units (`UChar` is `char16_t`), into which cffi
converts strings.  ICU itself is given: the levels of the units and the places of the breaks are arbitrary
functions.
-/

namespace SvgPy.TextRuns

/-- A code point as UTF-16, as in `ffi.new('UChar[]', text)`, icu.py 594 and 730. -/
def units (c : Nat) : List Nat :=
  if c < 0x10000 then [c] else [0xD800 + (c - 0x10000) / 0x400, 0xDC00 + (c - 0x10000) % 0x400]

/-- `ffi.new('UChar[]', text)` without the null at the end, icu.py 594-595 and 730-731. -/
def encode (s : List Nat) : List Nat := s.flatMap units

/-- The conversion of units in `ffi.string`, icu.py 678. -/
def decode : List Nat → List Nat
  | [] => []
  | [u] => [u]
  | u :: v :: rest =>
    if 0xD800 ≤ u ∧ u < 0xDC00 ∧ 0xDC00 ≤ v ∧ v < 0xE000 then (0x10000 + (u - 0xD800) * 0x400 + (v - 0xDC00)) :: decode rest
    else u :: decode (v :: rest)

/-- `ffi.string`, icu.py 678: up to the first null. -/
def ffiString (us : List Nat) : List Nat := decode (us.takeWhile (· != 0))

/-- A slice of a Python list or string, with indexes that are not negative. -/
def slice {α : Type} (l : List α) (i j : Nat) : List α := (l.take j).drop i

/-- `get_logical_run`, icu.py 551-558: the end of the run of units of the same level and the level. -/
def logicalRun (levels : List Nat) (start : Nat) : Nat × Nat :=
  let l := levels.getD start 0
  (start + ((levels.drop start).takeWhile (· == l)).length, l)

/-- `__iter__` and `__next__` of a break iterator, icu.py 665-678: `bs` are the results of `next` until `UBRK_DONE`. -/
def segments (source : List Nat) (start : Nat) : List Nat → List (List Nat)
  | [] => []
  | b :: bs => ffiString (slice source start b) :: segments source b bs

/-- A run: its level, of which one bit is left (text.py 339), and its lines in the order of drawing. -/
structure Run where
  level : Nat
  lines : List (List Nat)
  deriving DecidableEq

/-- Whether the run is opposite to the text, text.py 342-343. -/
def opposite (ltr : Bool) (level : Nat) : Bool := (!ltr && level == 0) || (ltr && level == 1)

/-- One round of the loop over runs, text.py 338-347.  `brk` gives the breaks of a list of units. -/
def oneRun (brk : List Nat → List Nat) (ltr : Bool) (text : List Nat) (start limit level : Nat) : Run :=
  let lv := level % 2
  let paragraph := slice text start limit
  let source := encode paragraph
  let lines := segments source 0 (brk source)
  ⟨lv, if opposite ltr lv then lines.reverse else lines⟩

/-- The loop over runs, text.py 337-347 and 502.  `n` rounds are enough, since every run has a unit. -/
def runLoop (brk : List Nat → List Nat) (ltr : Bool) (text levels : List Nat) (maxLimit : Nat) : Nat → Nat → List Run
  | 0, _ => []
  | n + 1, start =>
    if start < maxLimit then
      let r := logicalRun levels start
      oneRun brk ltr text start r.1 r.2 :: runLoop brk ltr text levels maxLimit n r.1
    else []

/-- The runs of a text, text.py 330-347 and 502.  `bidi` gives the level of each unit. -/
def textRuns (bidi : Bool → List Nat → List Nat) (brk : List Nat → List Nat) (ltr : Bool) (text : List Nat) : List Run :=
  let source := encode text
  runLoop brk ltr text (bidi ltr source) source.length source.length 0

end SvgPy.TextRuns
