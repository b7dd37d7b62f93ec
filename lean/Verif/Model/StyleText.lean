import Verif.Model.PyDict
import Verif.Model.PyStr

/-! Model of `dict_to_style` and `style_to_dict`, `/repo/svgpy/utils.py` 42-53 and 241-255. -/

namespace SvgPy.StyleText

open PyStr

/-- `'{}: {};'.format(key, value)`, utils.py 52. -/
def item (p : Str × Str) : Str := p.1 ++ [':', ' '] ++ p.2 ++ [';']

/-- `dict_to_style`, utils.py 42-53 (the `None` argument gives `''` as the empty
dictionary does). -/
def dictToStyle (d : Dict Str Str) : Str := join [' '] (sorted (d.map item))

/-- `[x for x in items if len(x) == 2]` and the unpacking, utils.py 252-254. -/
def pairOf (x : List Str) : Option (Str × Str) :=
  match x with
  | [k, v] => some (strip k, strip v)
  | _ => none

/-- `style_to_dict`, utils.py 241-255. -/
def styleToDict (text : Str) : Dict Str Str :=
  if (strip text).isEmpty then []
  else Dict.ofPairs (((splitOn ';' (strip text)).map (splitOn ':')).filterMap pairOf)

end SvgPy.StyleText
