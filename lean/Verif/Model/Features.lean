import Verif.Model.PyDict

/-!
The OpenType features that a style asks for: `features_from_style`, `/repo/svgpy/opentype.py` 627-750.

Simplifications: the styles are a structure of the values that the function reads; feature values are integers (as
`parse_font_feature_settings` makes them).
-/

namespace SvgPy.Features

/-- The entries of `style` that the function reads. -/
structure Style where
  featureSettings : Dict String Int
  kerning : String
  alternates : List String
  caps : String
  eastAsian : List String
  ligatures : List String
  numeric : List String
  position : String

/-- opentype.py 630-636. -/
def kerning (st : Style) (d : Dict String Int) : Dict String Int :=
  if st.kerning = "none" then (d.set "kern" 0).set "vkrn" 0
  else if st.kerning = "normal" then (d.set "kern" 1).set "vkrn" 1
  else d

/-- opentype.py 638-649. -/
def alternates (st : Style) (d : Dict String Int) : Dict String Int :=
  if st.alternates = ["normal"] then d
  else if "historical-forms" ∈ st.alternates then d.set "hist" 1
  else d

/-- opentype.py 651-665. -/
def caps (st : Style) (d : Dict String Int) : Dict String Int :=
  if st.caps = "small-caps" then d.set "smcp" 1
  else if st.caps = "all-small-caps" then (d.set "c2sc" 1).set "smcp" 1
  else if st.caps = "petite-caps" then d.set "pcap" 1
  else if st.caps = "all-petite-caps" then (d.set "c2pc" 1).set "pcap" 1
  else if st.caps = "unicase" then d.set "unic" 1
  else if st.caps = "titling-caps" then d.set "titl" 1
  else d

/-- opentype.py 667-677. -/
def eastAsianForm (st : Style) (d : Dict String Int) : Dict String Int :=
  if "jis78" ∈ st.eastAsian then d.set "jp78" 1
  else if "jis83" ∈ st.eastAsian then d.set "jp83" 1
  else if "jis90" ∈ st.eastAsian then d.set "jp90" 1
  else if "simplified" ∈ st.eastAsian then d.set "smpl" 1
  else if "traditional" ∈ st.eastAsian then d.set "trad" 1
  else d

/-- opentype.py 679-682. -/
def eastAsianWidth (st : Style) (d : Dict String Int) : Dict String Int :=
  if "full-width" ∈ st.eastAsian then d.set "fwid" 1
  else if "proportional-width" ∈ st.eastAsian then d.set "pwid" 1
  else d

/-- opentype.py 684-685. -/
def ruby (st : Style) (d : Dict String Int) : Dict String Int :=
  if "ruby" ∈ st.eastAsian then d.set "ruby" 1 else d

/-- opentype.py 697-702. -/
def common (st : Style) (d : Dict String Int) : Dict String Int :=
  if "common-ligatures" ∈ st.ligatures then (d.set "liga" 1).set "clig" 1
  else if "no-common-ligatures" ∈ st.ligatures then (d.set "liga" 0).set "clig" 0
  else d

/-- opentype.py 704-707. -/
def discretionary (st : Style) (d : Dict String Int) : Dict String Int :=
  if "discretionary-ligatures" ∈ st.ligatures then d.set "dlig" 1
  else if "no-discretionary-ligatures" ∈ st.ligatures then d.set "dlig" 0
  else d

/-- opentype.py 709-712. -/
def historical (st : Style) (d : Dict String Int) : Dict String Int :=
  if "historical-ligatures" ∈ st.ligatures then d.set "hlig" 1
  else if "no-historical-ligatures" ∈ st.ligatures then d.set "hlig" 0
  else d

/-- opentype.py 714-717. -/
def contextual (st : Style) (d : Dict String Int) : Dict String Int :=
  if "contextual" ∈ st.ligatures then d.set "calt" 1
  else if "no-contextual" ∈ st.ligatures then d.set "calt" 0
  else d

/-- opentype.py 687-717. -/
def ligatures (st : Style) (d : Dict String Int) : Dict String Int :=
  if st.ligatures = ["normal"] then d
  else if st.ligatures = ["none"] then
    ((((d.set "liga" 0).set "clig" 0).set "dlig" 0).set "hlig" 0).set "calt" 0
  else contextual st (historical st (discretionary st (common st d)))

/-- opentype.py 723-726. -/
def figures (st : Style) (d : Dict String Int) : Dict String Int :=
  if "lining-nums" ∈ st.numeric then d.set "lnum" 1
  else if "oldstyle-nums" ∈ st.numeric then d.set "onum" 1
  else d

/-- opentype.py 728-731. -/
def spacing (st : Style) (d : Dict String Int) : Dict String Int :=
  if "proportional-nums" ∈ st.numeric then d.set "pnum" 1
  else if "tabular-nums" ∈ st.numeric then d.set "tnum" 1
  else d

/-- opentype.py 733-736. -/
def fractions (st : Style) (d : Dict String Int) : Dict String Int :=
  if "diagonal-fractions" ∈ st.numeric then d.set "frac" 1
  else if "stacked-fractions" ∈ st.numeric then d.set "afrc" 1
  else d

/-- opentype.py 738-739. -/
def ordinal (st : Style) (d : Dict String Int) : Dict String Int :=
  if "ordinal" ∈ st.numeric then d.set "ordn" 1 else d

/-- opentype.py 741-742. -/
def slashedZero (st : Style) (d : Dict String Int) : Dict String Int :=
  if "slashed-zero" ∈ st.numeric then d.set "zero" 1 else d

/-- opentype.py 719-742. -/
def numeric (st : Style) (d : Dict String Int) : Dict String Int :=
  if st.numeric = ["normal"] then d
  else slashedZero st (ordinal st (fractions st (spacing st (figures st d))))

/-- opentype.py 744-748. -/
def position (st : Style) (d : Dict String Int) : Dict String Int :=
  if st.position = "sub" then d.set "subs" 1
  else if st.position = "super" then d.set "sups" 1
  else d

/-- The dictionary `features` at the end, opentype.py 627-748. -/
def featureMap (st : Style) : Dict String Int :=
  position st (numeric st (ligatures st (ruby st (eastAsianWidth st (eastAsianForm st
    (caps st (alternates st (kerning st st.featureSettings))))))))

/-- `'{}={}'.format(tag, value)`, opentype.py 750. -/
def text (p : String × Int) : String := p.1 ++ "=" ++ toString p.2

/-- `features_from_style`, opentype.py 627-750. -/
def features (st : Style) : List String := (featureMap st).map text

end SvgPy.Features
