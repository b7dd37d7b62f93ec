import Verif.Model.PyStr

/-! Model of `normalize_text`, `/repo/svgpy/css/__init__.py` 40-47. -/

namespace SvgPy.CssText

open PyStr

/-- `s.replace('\r\n', ' ')`, css/__init__.py 44-45. -/
def replaceCrLf : Str → Str
  | [] => []
  | '\r' :: '\n' :: s => ' ' :: replaceCrLf s
  | c :: s => c :: replaceCrLf s

/-- `.replace('\r', ' ').replace('\n', ' ')`, css/__init__.py 45. -/
def replaceBreaks (s : Str) : Str := s.map (fun c => if c = '\r' ∨ c = '\n' then ' ' else c)

/-- `re.sub(r'(\x20){2,}', ' ', s)`, css/__init__.py 40 and 46. -/
def collapse : Str → Str
  | [] => []
  | ' ' :: ' ' :: s => collapse (' ' :: s)
  | c :: s => c :: collapse s

/-- `normalize_text`, css/__init__.py 43-47. -/
def normalizeText (s : Str) : Str := collapse (replaceBreaks (replaceCrLf (strip s)))

end SvgPy.CssText
