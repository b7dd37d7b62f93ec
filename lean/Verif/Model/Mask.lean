import Verif.Model.MaskBorder

/-!
The shorthand property `mask`: `MaskShorthand`, `/repo/svgpy/css/shorthands.py` 602-708, with `_parse_component_list`
(145-206) and the descriptors of the longhands (css/props.py 1158-1265).

Simplifications: as in `Components`; strings with the text of a keyword and `var()`, which the descriptors also accept, are
left out.
-/

namespace SvgPy.Mask

open SvgPy.PyStr SvgPy.Decl SvgPy.Shorthand SvgPy.Components
open SvgPy.MaskBorder (Kind kinds)

/-- `mask-image`, css/props.py 1184-1194. -/
def imageDesc (kind : Str → Kind) : Desc := ⟨true, keywords ["none"] (kinds kind [.image]), "none".toList⟩

/-- `mask-position`, css/props.py 1220-1245; a number counts as a length without unit (317-321). -/
def positionDesc (kind : Str → Kind) : Desc :=
  ⟨true, keywords ["left", "center", "right", "top", "bottom"] (kinds kind [.number, .length, .percentage, .math]),
    "0% 0%".toList⟩

/-- `mask-size`, css/props.py 1258-1266. -/
def sizeDesc (kind : Str → Kind) : Desc :=
  ⟨true, keywords ["auto", "cover", "contain"] (kinds kind [.number, .length, .percentage, .math]), "auto".toList⟩

/-- `mask-repeat`, css/props.py 1246-1257. -/
def repeatDesc : Desc :=
  ⟨true, keywords ["repeat-x", "repeat-y", "repeat", "space", "round", "no-repeat"] nothing, "repeat".toList⟩

/-- `mask-origin`, css/props.py 1204-1219. -/
def originDesc : Desc :=
  ⟨true, keywords ["border-box", "padding-box", "content-box", "margin-box", "fill-box", "stroke-box", "view-box"] nothing,
    "border-box".toList⟩

/-- `mask-clip`, css/props.py 1158-1174. -/
def clipDesc : Desc :=
  ⟨true, keywords ["border-box", "padding-box", "content-box", "margin-box", "fill-box", "stroke-box", "view-box",
    "no-clip"] nothing, "border-box".toList⟩

/-- `mask-composite`, css/props.py 1175-1183. -/
def compositeDesc : Desc := ⟨true, keywords ["add", "subtract", "intersect", "exclude"] nothing, "add".toList⟩

/-- `mask-mode`, css/props.py 1195-1203. -/
def modeDesc : Desc := ⟨true, keywords ["alpha", "luminance", "match-source"] nothing, "match-source".toList⟩

/-- The longhands of `mask` with their descriptors, css/shorthands.py 941-950. -/
def descs (kind : Str → Kind) : List (Str × Desc) :=
  [("mask-image".toList, imageDesc kind), ("mask-position".toList, positionDesc kind),
   ("mask-size".toList, sizeDesc kind), ("mask-repeat".toList, repeatDesc), ("mask-origin".toList, originDesc),
   ("mask-clip".toList, clipDesc), ("mask-composite".toList, compositeDesc), ("mask-mode".toList, modeDesc)]

/-- The longhands of `mask`, css/shorthands.py 941-950. -/
def longhands : List Str :=
  ["mask-image".toList, "mask-position".toList, "mask-size".toList, "mask-repeat".toList, "mask-origin".toList,
   "mask-clip".toList, "mask-composite".toList, "mask-mode".toList]

/-- The longhands of `mask-border`, css/shorthands.py 951-958. -/
def borderLonghands : List Str :=
  ["mask-border-source".toList, "mask-border-slice".toList, "mask-border-width".toList,
   "mask-border-outset".toList, "mask-border-repeat".toList, "mask-border-mode".toList]

/-- `x.type != 'whitespace'`. -/
def notSpace : Tok → Bool
  | .ws _ => false
  | _ => true

/-- One box is for both longhands, the second of two boxes is for `mask-clip`, css/shorthands.py 611-621. -/
def boxes (m : Dict Str (List Tok)) : Dict Str (List Tok) :=
  match Dict.get? m "mask-origin".toList with
  | none => m
  | some o =>
    let box := o.filter notSpace
    let clip := Dict.get? m "mask-clip".toList
    match box, clip with
    | [a], none => Dict.set m "mask-clip".toList [a]
    | [a, b], none => Dict.set (Dict.set m "mask-origin".toList [a]) "mask-clip".toList [b]
    | _ :: _ :: _, _ => Dict.del m "mask-origin".toList
    | _, _ => m

/-- Longhands that are missing get this value, css/shorthands.py 631-633. -/
def fillWith (v : Str) (m : List (Str × Str)) : List (Str × Str) :=
  m ++ (longhands.filter fun n => !(Dict.contains m n)).map fun n => (n, v)

/-- `MaskShorthand.set_css_declaration`, css/shorthands.py 604-636; `none` for `return False`. -/
def maskSet (kind : Str → Kind) (d : Decls) (l : List Tok) (p : Str) : Option Decls :=
  let r := parseAll (descs kind) l
  if r.2.length > 1 then none
  else if r.2.length = 1 then some (setAll d p (fillWith (r.2.headD []) []))
  else some (setAll d p (fillWith "initial".toList (texts (boxes r.1))))

/-- No longhand of `mask-border` stands between those of `mask`, and those behind are `initial`, css/shorthands.py 639-662. -/
def inOrder (d : Decls) : Bool :=
  let keys := Dict.keys d
  let idx := longhands.map (fun n => keys.idxOf n)
  let hi := idx.foldl max 0
  let lo := idx.foldl min hi
  (longhands.all fun n => keys.contains n) &&
    borderLonghands.all fun n => !(keys.contains n) ||
      !((lo < keys.idxOf n && keys.idxOf n < hi) ||
        (hi < keys.idxOf n && (Dict.get? d n).map Prod.fst != some "initial".toList))

/-- A value that is written unless it is `initial`, css/shorthands.py 694-705. -/
def written (slash : Bool) (v : Str) : List Str :=
  if v = "initial".toList then [] else if slash then [['/'], v] else [v]

/-- `MaskShorthand.tostring`, css/shorthands.py 638-708. -/
def maskToString (d : Decls) (m : Dict Str Str) : Str :=
  if inOrder d then
    match longhands.map (Dict.get? m) with
    | [some image, some position, some size, some rep, some origin, some clip, some composite, some mode] =>
      let vs := [image, position, size, rep, origin, clip, composite, mode]
      if (vs.all fun x => wideKeywords.contains x) && (vs.all fun x => x == image) then image
      else if vs.any fun x => wideKeywords.contains x && x != "initial".toList then []
      else if position = "initial".toList ∧ size ≠ "initial".toList then []
      else join [' '] (written false image ++ written false position ++ written true size ++ written false rep ++
        written false origin ++ (if origin = clip then [] else written false clip) ++ written false composite ++
        written false mode)
    | _ => []
  else []

/-- Reading the `mask` property of a block, css/shorthands.py 73-98. -/
def maskGet (supports : Str → Str → Bool) (d : Decls) : Str := getValue supports longhands (maskToString d) d

end SvgPy.Mask
