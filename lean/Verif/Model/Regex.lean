import Verif.Model.PyStr

/-! Python's regular expressions as a backtracking matcher, for the constructs used in
`/repo/svgpy/css/mediaquery.py` 33-65.  It models the `re` module of the language runtime, not a file
in `/repo`: alternatives are tried in order, repetitions are greedy, and the first way to match that
lets the rest of the pattern match is taken. -/

namespace SvgPy.Regex

/-- Patterns.  `star p` is `[p]*` for a class of characters, `loop a` is `(a)+` for a pattern that
never matches the empty text, `group i a` records what `a` matched. -/
inductive Re
  | eps
  | chr (p : Char → Bool)
  | seq (a b : Re)
  | alt (a b : Re)
  | star (p : Char → Bool)
  | loop (a : Re)
  | group (i : Nat) (a : Re)

/-- Recorded groups, the last one in front. -/
abbrev Caps := List (Nat × Str)

/-- The rest of the text after a match, and the groups. -/
abbrev Res := Str × Caps

/-- What remains to be matched. -/
abbrev Cont := Str → Caps → Option Res

/-- `[p]*`, greedy. -/
def starM (p : Char → Bool) (c : Caps) (k : Cont) : Str → Option Res
  | [] => k [] c
  | x :: s => if p x then (starM p c k s).or (k (x :: s) c) else k (x :: s) c

/-- `(a)+`, greedy, where `f` matches `a`; the number bounds the repetitions. -/
def loopM (f : Str → Caps → Cont → Option Res) : Nat → Str → Caps → Cont → Option Res
  | 0, _, _, _ => none
  | n + 1, s, c, k => f s c (fun s' c' => (loopM f n s' c' k).or (k s' c'))

/-- One character. -/
def chrM (p : Char → Bool) (c : Caps) (k : Cont) : Str → Option Res
  | [] => none
  | x :: s => if p x then k s c else none

/-- The matcher. -/
def Re.m : Re → Str → Caps → Cont → Option Res
  | .eps, s, c, k => k s c
  | .chr p, s, c, k => chrM p c k s
  | .seq a b, s, c, k => a.m s c (fun s' c' => b.m s' c' k)
  | .alt a b, s, c, k => (a.m s c k).or (b.m s c k)
  | .star p, s, c, k => starM p c k s
  | .loop a, s, c, k => loopM a.m (s.length + 1) s c k
  | .group i a, s, c, k => a.m s c (fun s' c' => k s' ((i, s.take (s.length - s'.length)) :: c'))

/-- `(a)?`, greedy. -/
def Re.opt (a : Re) : Re := .alt a .eps

/-- `[p]+`, greedy. -/
def Re.plus (p : Char → Bool) : Re := .seq (.chr p) (.star p)

/-- Patterns in a row. -/
def Re.cat : List Re → Re
  | [] => .eps
  | [a] => a
  | a :: as => .seq a (Re.cat as)

/-- A literal text. -/
def Re.lit (s : Str) : Re := Re.cat (s.map fun x => .chr (· == x))

/-- `pattern.match(s)`: the matched text, the groups and the rest. -/
def matchAt (r : Re) (s : Str) : Option (Str × Caps × Str) :=
  (r.m s [] (fun s' c => some (s', c))).map fun x => (s.take (s.length - x.1.length), x.2, x.1)

/-- `match.group(i)`. -/
def groupOf (c : Caps) (i : Nat) : Option Str := (c.find? (·.1 = i)).map (·.2)

/-- The first of named alternatives that matches. -/
def firstAlt {τ : Type} : List (τ × Re) → Str → Option (τ × Str × Str)
  | [], _ => none
  | (t, r) :: ps, s =>
    match matchAt r s with
    | some (x, _, rest) => some (t, x, rest)
    | none => firstAlt ps s

/-- `pattern.finditer(s)` for a pattern of named alternatives that never match the empty text: the
names and texts of the matches.  The number bounds the steps. -/
def findIter {τ : Type} (ps : List (τ × Re)) : Nat → Str → List (τ × Str)
  | 0, _ => []
  | n + 1, s =>
    match firstAlt ps s with
    | some (t, x, rest) => (t, x) :: findIter ps n rest
    | none =>
      match s with
      | [] => []
      | _ :: s => findIter ps n s

/-- `pattern.finditer(s)`. -/
def findAll {τ : Type} (ps : List (τ × Re)) (s : Str) : List (τ × Str) := findIter ps (s.length + 1) s

/-- `\s`. -/
def sp : Char → Bool := PyStr.isSpace

/-- `\S`. -/
def nsp (x : Char) : Bool := !PyStr.isSpace x

/-- `.`, without `DOTALL`. -/
def dot (x : Char) : Bool := x ≠ '\n'

/-- One given character. -/
def Re.c (x : Char) : Re := .chr (· == x)

end SvgPy.Regex
