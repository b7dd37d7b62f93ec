# Formal model of svgpy: design

The subject is the Python package in `/repo/svgpy`, read as text and never run.
The model is Lean 4 under `lean/Verif`, split into

- `Verif/Model/*.lean`: definitions that mirror the Python functions branch by branch. Each carries the file and lines it models and says where it simplifies.
- `Verif/Lemmas/*.lean`: helper lemmas.
- `Verif/Props/*.lean`: the specifications and the property theorems, with an `example` beside each theorem showing that its hypotheses are met by a non-trivial case.

Exceptions are values (`Except`/`Option`/small error types), mutation is a function returning the new state, loops are recursion over lists.

## Trusted base

- Lean's kernel and the standard axioms `propext`, `Classical.choice`, `Quot.sound`. No other axiom is used; there is no `sorry`, `native_decide` or `bv_decide`.
- The reading of the Python source: the model is tied to the code only by the citations in the comments.
- Numbers. Python floats (and numpy arrays, and `Decimal`) are modelled as exact elements of an ordered field (`ℚ`, `ℝ` or an arbitrary one). Rounding, overflow, infinities and NaN are outside the model. Where the code uses a tolerance (`math.isclose`) the tolerance is modelled exactly.
- Libraries. `lxml`, `tinycss2`, `cssselect`, `numpy`, `scipy`, `urllib` and the font libraries are not modelled except for the small contracts stated in the comments (for example that `append` of lxml moves the node to the end, that `np.matmul` is matrix multiplication).
- Strings are lists of Unicode characters. Case mapping is modelled where needed and the comment says how.

Not modelled at all: font handling (`freetype`, `harfbuzz`, `fontconfig`, `icu`, `opentype`), text layout (`text.py`), the concrete SVG element classes in `element.py`, network access, XML parsing and serialisation.

When the code violates a property, the negation is proved with a concrete witness (theorem name ending in `_violated`), what does hold is proved as `…_partial`, and the disagreement is listed under "Findings".

## What is modelled

| File | Modelled | Not modelled |
|---|---|---|
| `geometry/rect.py` | `DOMRectReadOnly`, `DOMRect` (union, intersection, containment, transform, adjust, normalise) | object protocol, JSON |
| `geometry/matrix.py` | constructors, components, imports and exports, all in-place and copying operations, `transform_point`, readers of angle/scale/translation | `tostring`, `__repr__` |
| `core.py` | `SVGLength` (text, units, conversion, arithmetic, comparison), dict/style text functions, style inheritance, `CSSUtils.compute_font_size/compute_font_weight/compute_line_height` over chains of ancestors, `parse_font`, `parse_font_family`, `parse_font_feature_settings`, `parse_font_variant` (with `shlex.split`), `FontManager._find_face` (fontconfig and FreeType arbitrary), `normalize_text_content` (with `html.unescape` and `east_asian_width` arbitrary) | font files and metrics, `rem` in font sizes |
| `element.py` | geometry and path data of `circle`, `ellipse`, `rect`, `line`, `polyline`, `polygon` from parsed attributes (`CSSUtils.get_value` included), `SVGUseElement.get_path_data` (references to shapes) | text elements, `use` of `svg` and `symbol`, parsing of attributes |
| `formatter.py` | all | infinities, NaN |
| `transform.py` | `SVGTransform`, `SVGTransformList.matrix/consolidate/parse/tostring` | list protocol, non-ASCII digits |
| `base.py` | `get_descendant_path_data` over a whole document, viewport transformation, `SVGPreserveAspectRatio`, `zoomAndPan`, lookups of viewport elements, `get_view_box`, `_get_ctm`, `get_bbox`, `get_transformed_path_data`, `get_total_length`, `get_viewport_size`, `points` | parsing of other attributes |
| `utils.py` | case-insensitive maps, qualified names, CSS text normalisation, lookups by id, class and name (XPath axes and `re:test` of plain names as in libxml2 and lxml), data: URLs, content types | loading of other URLs |
| `css/__init__.py` | `CSSParser.parse_rules`, `fromstring`, `parse` (the tree of rules), `insert_rule`, `delete_rule`, rule flattening, cascade, declaration blocks, the inline style and its attribute (properties outside shorthands, shorthands that are not nested), `CSS.escape` | parsing and serialising of CSS |
| `css/mediaquery.py`, `css/screen.py` | parsing of media queries, evaluation of the trees, comparison chains | letters that change length in lower case, decimal digits other than 0-9 |
| `css/props.py` | `PropertyDescriptor.__init__`, `support`, `supports` | the table of descriptors (parts of it in the shorthands) |
| `css/shorthands.py` | `white-space`, `font-synthesis`, `text-decoration`, `font-variant`, `overflow`, `font`, `mask-border`, `_parse_component_list` | `mask` |
| `css/types.py` | `UnitType`, `CSSUnitValue.to` and comparison, `CSSNumericType.add_types/multiply_types/apply_percent_hint/create_type`, type objects in the constructors of math values, `create_sum_value`, `to`, `to_sum`, `add`, `equals`, `_reify_component_values`, `CSSUnparsedValue`, `CSSVariableReferenceValue.tostring`, `tostring`/`value` of keyword and unit values, `CSSNumericValue.parse` from tokens, `tostring` of math values, `StylePropertyMap`, parsing of style values | `CSSImageValue` and `CSSURLImageValue` objects |
| `dom.py` | token lists, dataset names, `RE_DIGIT_SEQUENCE_SPLITTER`, `Element.append/prepend/insert/insert_before/replace/remove/text_content` on mixed content, `node_insert_before`, `NamedNodeMap`, `Attr`, attribute methods of `Element`, `owner_document`, `attach_document` | lxml itself (its moves, tails and siblings are described in the model), checks of node types |
| `text.py` | the loop over glyphs in `_get_text_path_data` (positions, rotations, ligatures, runs in two directions, division into runs and lines), `get_sub_string_length`, `_get_descendant_chars`, `_get_descendant_chars_info` (texts), `get_chars`, `get_number_of_chars` | fonts and shaping (outlines, offsets and advances are inputs), `text-anchor` |
| `window.py` | `Document.child_nodes/append/prepend/insert/insert_before/remove/replace`, charset of a parsed document | windows, locations, style computation, loading |
| `path.py` | the matrix of `from_glyph`, segment types, `parse`, `tostring`, `toabsolute`, `normalize`, `transform`, `get_center_of_arc`, `get_angle`, `get_next_control_point`, `get_bbox` (segments and parser loops), `CubicBezierCurve`, `Ellipse.get_length`, `get_length`, `get_total_length` | `get_point_at_length`, the numerical error of SciPy's integrals |
| `url.py` | `URL`: constructor, all component getters and setters, `_parse_host`, `_parse_url`, `tostring`; `URL.origin`, `Location`, `URLSearchParams`, `quote_numeric_character_references` (POSIX paths; `urlsplit` of Python 3.6 and `posixpath` modelled in `UrlSplit`) | percent encoding of other parts, IDNA and case mapping (arbitrary functions), the file system |
| `freetype.py` | `FTMatrix`, `matrix2d` | the binding to the library |
| `opentype.py` | `features_from_style` | the table of language tags |
| `icu.py` | `UBiDi.set_para/get_logical_run`, the iteration of `UBreakIterator` | ICU itself, the other bindings |
| `style.py` | `flatten_css_rules`, `get_css_style`, `get_css_style_sheets` and the functions for links, `style` elements and instructions, `get_css_rules` | selectors (a parameter), loading, the text of the built-in style sheet |
| `window.py`, `css/screen.py` | `MediaQueryList.matches`, `_mql_compare`, `ScreenOrientation.angle` and `type` | values in other units than px and dppx, how the viewport size is found, floats (rational here) |
| `css/__init__.py` | `CSSFontFeatureValuesRule._parse_content` | tinycss2 (tokens are given), the text of the family names |
| `dom.py`, `window.py` | `child_nodes`, `children`, `first_child`, `last_child`, siblings, element siblings, `parent_node`, `parent_element`, `get_root_node`, `Document.iter` | lxml's own traversal (taken as primitives), entity references |
| `transform.py` | `SVGTransformList` as a sequence: `append`, `insert`, `__getitem__`, `__setitem__`, `__delitem__`, `__add__`, `__iadd__`, `initialize`, `remove_item`, `replace_item`, and the inherited `clear`, `extend`, `pop`, `remove`, `reverse` | slices with a step, `extend` with iterators |
| `text.py`, `base.py` | `SVGTextContentElement.get_computed_geometry`, `SVGFitToViewBox.view_box` | conversion into pixels (a parameter here; C34), `inf`, `nan` and underscores for `float()` |
| `css/shorthands.py` | `MaskShorthand.set_css_declaration`, `.tostring` | strings with the text of a keyword and `var()`; removal of the first equal comma instead of the one read |
| `core.py` | `Font` (measures, `__eq__`, `set_point_size`), `FontManager.get_face` (size) | hinting and rounding by FreeType, failing loads, choice of the face (see FontMatch) |
| `dom.py` | `Element.get_computed_style` | geometry that is not a list of lengths; texts of lengths, feature settings and keywords are parameters (modelled elsewhere) |
| `dom.py`, `exception.py` | `ensure_pre_insertion_validity`, `ensure_pre_remove_validity`, the inserting and removing methods of `Attr`, `Comment`, `ProcessingInstruction` and `Element`; `DOMException` | lxml's own methods are a parameter; messages of the checks |
| `element.py`, `base.py`, `text.py` | `SVGPathElement`, `set_path_data`, `get_total_length`, `get_bbox` and `get_path_data` of text elements | the pieces of a text are a parameter (modelled in `TextRuns`, `GlyphRun`) |
| `element.py`, `window.py` | `SVGElementClassLookup`, `create_element(_ns)`, `create_document`, `create_svg_document` | lxml's `makeelement` as: refuses names XML does not allow, else gives the node asked for; attributes left out |
| `css/__init__.py`, `css/types.py` | `CSS.register_property`, `CSS.supports`, the descriptor chosen by `_parse_css_style_value` | what the descriptors say of a value is C109; lower case of ASCII letters only |
| `exception.py` | `DOMException` and its subclasses | a subclass that is called `DOMException` too, and `__repr__`, left out |
| `path.py` | `Ellipse.point` | exact reals |

## Properties: model and proof

- **C01 Rectangle union is the smallest enclosing rectangle** — module `Rect`. Rectangles over an arbitrary linearly ordered field with optional coordinates; unite_self branch by branch. Prove the result is the least upper bound for non-degenerate rectangles and for folds over lists; prove the negation for degenerate ones with a witness. *Status: partial.* Proved for rectangles with area and single points; false for horizontal/vertical segments (witness proved).
- **C02 Rectangle intersection is exactly the common area** — module `Rect`. intersect_self branch by branch; point-set equality when interiors overlap; witness that disjoint rectangles return the first one unchanged. *Status: partial.* Proved when the interiors meet; otherwise the code returns the receiver unchanged (proved in general), so the claim is false there.
- **C03 Transformed rectangle bounds the image of the rectangle** — module `Rect`. transform_self branch by branch (including the overwritten x1/y1); prove containment for the sign patterns where it holds, witness elsewhere. *Status: partial.* Proved with an exact if-and-only-if condition on the matrix; false outside it.
- **C04 Rectangle containment, validity and adjustment laws** — module `Rect`. isempty, isvalid, contains, normalize, transpose, translate, adjust over a linearly ordered field; iff statements against point sets. *Status: partial.* Validity, normalising, transposing, translating proved in full; containment false for segments; adjust-and-back false when the intermediate rectangle has no area.
- **C05 A matrix that reports itself 2D really is 2D** — module `Matrix`. 16 entries + flag, every mutating method as an operation; invariant by induction on the operation list. *Status: proved.* All constructors, setters, in-place and copying operations, any history. Numbers are exact reals.
- **C06 Matrix multiplication composes transformations** — module `Matrix`. multiply/premultiply/transform_point against mathematical 4x4 matrix-vector product; heap-free copies. *Status: proved.* All matrices; independence of objects is proved on a heap with arrays that setters write into.
- **C07 Scaling, rotating and skewing about a point behave as documented** — module `Matrix`. scale_self with origin, translate_self, flips, 2D rotation with cos/sin as a unit pair. *Status: proved.* All matrices and arguments over the reals.
- **C08 Matrix serialisation round-trips and conflicting input is refused** — module `Matrix`. _init_from_matrix with 22 optional members, exceptions as values; tojson/tolist. *Status: proved.* All reachable matrices and all keyword imports.
- **C09 A transform list acts as the composition of its items, and consolidation preserves it** — module `Transform`. Items as an inductive type with matrices; list product; consolidate. *Status: proved.* All lists; items of unknown type raise and leave the list unchanged. Numbers are exact reals.
- **C10 Transform serialisation round-trips** — module `TransformText`. Characters; tostring incl. shortening; the parsing regular expressions as scanners; numbers as fixed point. *Status: proved.* All lists without unknown items, any precision above zero, any delimiter of white space and commas.
- **C11 Number formatting is faithful and canonical** — module `Formatter`. Round-half-even to fixed point integers, digit printing, rstrip; parse back. *Status: proved.* All rational numbers, and the negative zero, for every precision above zero.
- **C12 Path data survives serialise-then-parse** — module `PathText`. Character level tostring and the finditer scanner of the parser. *Status: partial.* All lists, any precision above zero, unless a closing command directly follows one of the same case: those collapse.
- **C13 Converting path commands to absolute keeps the drawing** — module `PathGeom`. Segments over a field; spec = SVG drawing semantics (list of absolute primitives). *Status: proved.* Every segment at every pen position and bearing, against a separate drawing semantics.
- **C14 Path normalisation keeps the drawing and only uses M, L, C and Z** — module `PathGeom`. PathParser.normalize loop with its state; spec = same drawing after degree elevation. *Status: partial.* Proved for paths without arcs in which smooth segments follow a segment of their own family and bearings do not follow a curve; false otherwise (witnesses).
- **C15 Transforming a path transforms its points** — module `PathGeom`. PathParser.transform loop; spec = image of drawing. *Status: partial.* Proved for plane matrices and paths without arcs in which no relative segment or second H/V follows an absolute H/V; false otherwise.
- **C16 Cubic curve bounds enclose the whole curve** — module `Bezier`. CubicBezierCurve roots/get_bbox over the reals; extreme value argument. *Status: proved.* All control points over the reals: contains the whole curve and touches it on each side.
- **C17 Path bounding box encloses the path** — module `Bezier`. PathParser.get_bbox loop over unite; proved for the cases where unite is right, witness otherwise. *Status: partial.* bbox_exact says what is computed for every normalised path; strokes along a horizontal or vertical line may be lost, all others are contained.
- **C18 Case-insensitive mapping behaves as a map keyed by lower-cased names** — module `CaseMap`. Two association lists, refinement to a finite map keyed by lower-cased key. *Status: proved.* Any sequence of operations has the outputs and final contents of a plain map over lower-cased keys.
- **C19 Style attribute text round-trips** — module `StyleText`. Character lists: split/strip/join as Python defines them. *Status: proved.* Round trip for all dicts whose texts are trimmed and free of the separators; values containing a colon are dropped (also proved).
- **C20 Qualified names are resolved unambiguously** — module `QName`. QualifiedName constructor, exceptions as values. *Status: partial.* Proved for namespaces without a closing brace; false with one.
- **C21 CSS identifier escaping is lossless** — module `CssEscape`. CSS.escape over code points; independent CSS identifier consumer as specification. *Status: proved.* All strings of Unicode scalar values, against the identifier reader of CSS Syntax 3.
- **C22 CSS text normalisation is canonical** — module `CssText`. normalize_text. *Status: proved.* For all texts.
- **C23 Resolving a URL against a base does not change the base** — module `Url`. URL constructor relative branch with the base as mutable state. *Status: partial.* All URLs and bases: the base is unchanged unless the reference is resolved against it; then it is turned into the resolved URL and only protocol, user, host name and port are kept.
- **C24 Assigning an invalid href leaves the URL untouched** — module `Url`. href setter with exceptions as values. *Status: partial.* Texts refused before the first assignment leave all components; an invalid port, host or path is noticed after earlier components were changed. What is read does not depend on the object assigned to.
- **C25 URL host, hostname, port and href stay consistent** — module `Url`. Component setters as operations over a state with cached host. *Status: partial.* Assignments to port, host and hostname; a change of protocol, an IPv6 host name and a failed assignment break the relation.
- **C26 Media query logic follows and/or/not** — module `MediaQuery`. Query trees, _match_node recursion with the not_op flag; spec = Boolean evaluation. *Status: partial.* Proved for all trees whose negated conditions have one term; not(A and B), not(A or B) are evaluated wrongly (general description proved). Parsing of the text: C101.
- **C27 Media feature ranges mean what they say** — module `MediaQuery`. _eval_expr_compare loop; spec = chain of comparisons. *Status: partial.* Proved for chains over numeric features; for aspect-ratio equality and < are wrong.
- **C28 Active style rules are exactly those whose enclosing media match, in source order** — module `Style`. Nested rules; spec = path-based selection. *Status: proved.* For all nestings; media matching is a parameter.
- **C29 Cascade picks the last matching declaration, important declarations separately** — module `Style`. get_css_style fold. *Status: proved.* Whenever the cascade returns; the only failure (an @namespace rule with a quoted string) is characterised. Selector matching is a parameter.
- **C30 Inherited style takes the nearest specified value** — module `Style`. get_inherited_style loop over the ancestor chain. *Status: partial.* Proved for all inherited properties except longhands of a font shorthand in use, and for other properties given by attributes; rules and style attributes for properties that are not inherited, the initial mask, display overrides, font together with font-family, system fonts and marker are wrong in the code.
- **C31 A declaration block behaves as an ordered map** — module `Decl`. CSSStyleDeclaration operations; refinement to an ordered map. *Status: proved.* All histories, including shorthands (which stand for their longhands), of a block that is not the inline style of an element. The parser/serialiser and the shorthand expansion are parameters.
- **C32 White-space shorthand round-trips** — module `Shorthand`. WhiteSpaceShorthand tables. *Status: proved.* All keywords and all blocks; validity of a longhand value is a parameter.
- **C33 Media list operations keep the list a set** — module `MediaList`. MediaList operations over lists of strings. *Status: partial.* Proved for histories of append/delete and for admissible entries; false for texts with repeated entries, the empty medium and insert with a comma.
- **C34 Length conversion is consistent** — module `Length`. SVGLength.value/convert over a field with a context record. *Status: partial.* Proved for all units except converting into ex/cap/ch/ic with a font present, which is wrong. Numbers are exact reals; parsing is not modelled.
- **C35 Length arithmetic agrees with arithmetic in pixels** — module `Length`. __add__/__sub__/__mul__. *Status: partial.* Proved whenever a copy of the length sees the same unit size (always so for absolute units or without a context); false otherwise.
- **C36 Length comparison is a consistent order** — module `Length`. comparison operators with isclose. *Status: partial.* Trichotomy in full; symmetry for lengths in one unit or far enough apart; false otherwise.
- **C37 Every length unit is absolute, relative or a resolution** — module `Length`. unit classification. *Status: partial.* All units except cap, which is in no class.
- **C38 Typed CSS unit conversion is consistent** — module `UnitValue`. UnitType tables and CSSUnitValue.to. *Status: proved.* All units and values over the reals.
- **C39 Typed CSS type algebra is sound** — module `NumType`. CSSNumericType as partial maps from base types to integers. *Status: partial.* All types; sums are exactly as specified unless the operands differ in their percentages only (a number and a percentage are added); products lose the percentages of the second operand.
- **C40 Building a math value does not alter its operands** — module `NumType`. Heap of type dictionaries with aliasing as in the constructors. *Status: partial.* All heaps of values with shared type objects and all constructions; an inversion also inverts the types of its operand and of all values sharing the type object.
- **C41 Sum values compute the value of the expression** — module `SumValue`. Expression trees, create_sum_value, semantic evaluation. *Status: partial.* All expression trees and all positive unit sizes; proved for everything calc() allows and for all trees where terms with the same units have the same powers; the code merges terms whatever the powers.
- **C42 Typed CSS equality is an equivalence** — module `SumValue`. equals on expression trees. *Status: partial.* Exact characterisation for all values; negations, inversions and clamps never equal themselves.
- **C43 Unparsed values keep their text** — module `Unparsed`. _reify_component_values over nested token lists, against the flattened text. *Status: partial.* All nested token lists whose var() functions are in lower case, without white space around the name and without empty fallback; an empty fallback is lost.
- **C44 Assigning an item of an unparsed value replaces it** — module `Unparsed`. __setitem__/insert/extend as list operations. *Status: partial.* Slices and construction in full; assignment to an index inserts instead of replacing (exact effect proved).
- **C45 Dataset keys round-trip** — module `Dataset`. _convert_name/_convert_key on characters. *Status: partial.* Round trip with an exact condition on the key; false outside it (witnesses). Case mapping is a parameter.
- **C46 Token lists behave as ordered sets** — module `TokenList`. DOMTokenList operations on the attribute text. *Status: partial.* Proved for attributes without repeated tokens and tokens without any white space; false otherwise (witnesses).
- **C47 Attribute objects and element attributes stay in sync** — module `AttrMap`. Heap of Attr objects and element attributes; invariant over histories. *Status: partial.* All histories of attribute operations; an object removed by writing the empty string to it loses its value, and objects constructed with an owner element stay attached after removal.
- **C48 append and prepend place content in the documented order** — module `Content`. Mixed content (text, children with tails); append/prepend. *Status: partial.* Proved for new nodes and, for append, text after a node; text appended to an element with children goes before them, prepending several nodes to an element without children reverses them.
- **C49 Text content is the text of the subtree in document order** — module `Content`. _get_text_content on trees. *Status: partial.* Proved for trees without comments and links inside; text after a comment and in links is dropped.
- **C50 preserveAspectRatio text is understood** — module `Aspect`. SVGPreserveAspectRatio tables, parse, tostring. *Status: partial.* All keywords but xMinYMid, all separators; round trip for all settings but none+slice.
- **C51 viewBox fitting places the view box correctly in the viewport** — module `Viewport`. get_viewport_transformation_matrix over an ordered field. *Status: partial.* Proved when all lengths are plain numbers or px and the scales are equal or clearly different; false for mixed units.
- **C52 Nearest and farthest viewport lookups return the right ancestor** — module `Ancestors`. Lookups along the chain of ancestors against first and last element with a property. *Status: partial.* All four lookups and the view box lookup are proved for all chains; owner and viewport element are wrong for elements that match themselves below the outermost one.
- **C53 Relative font sizes are relative to the parent** — module `FontStyle`. compute_font_size over ancestor chains. *Status: partial.* Minimum for all chains; the relation for text inside an element with a relative size, for chains that use one of the keywords; an element with a relative size itself has the size of its parent, and larger inside smaller is applied wrongly.
- **C54 font-variant keywords are distributed to the right longhands** — module `FontVariant`. parse_font_variant. *Status: partial.* All texts, word by word; functions with white space in the arguments and capital letters are not understood.
- **C55 Document child operations keep the other children** — module `DocChildren`. Document child list operations. *Status: partial.* All documents and histories of operations; removing or replacing the root loses the comments around it, and prepending to an empty document reverses the nodes.
- **C56 Elliptical arc centre parameters describe the requested arc** — module `Arc`. get_center_of_arc over the reals. *Status: proved.* All arcs over the reals, including radii that are too small.
- **C57 Font-synthesis shorthand round-trips** — module `Shorthand`. FontSynthesisShorthand set and tostring. *Status: proved.* All token lists and all blocks; validity of a longhand value is a parameter.
- **C58 Translation, rotation and scale can be read back from a matrix** — module `MatrixParts`. Readers of angle, scale and translation against trigonometry over the reals. *Status: partial.* In the plane in full; in space the angles are only right for one common scale factor.
- **C59 Transform attributes are read function by function** — module `TransformText`. The two regular expressions as scanners; written calls as a separate grammar; parse gives one item per call. *Status: partial.* Proved for functions with white space or a comma between them; functions written without anything between them are dropped.
- **C60 Path data text is read command by command** — module `PathText`. A grammar of written commands as an inductive relation; the finditer scanner returns exactly its segments. *Status: partial.* Closing letters must be followed by white space or the end, arc flags must be separated; otherwise commands are lost.
- **C61 The extent of an arc leads from its start to its end** — module `Arc`. Directions by cosine and sine; sign of the cross product of the two radii decides among the four flag cases. *Status: proved.* All arcs over the reals for which a centre is computed.
- **C62 The length of a path is the sum of the lengths of its strokes** — module `PathLength`. Loop of get_total_length against the pen semantics of PathGeom, lengths as integrals of speed. *Status: partial.* All path data with smooth curves after lines or their own family; numerical integrals are taken as exact; a smooth curve after a closing is measured with a stale control point.
- **C63 The length of an elliptical arc is the integral along the ellipse** — module `EllipseLength`. Quadrant bookkeeping and change of variable in the elliptic integral. *Status: proved.* All positive radii, starts and extents below a full turn, over the reals; the elliptic integral of SciPy is taken as exact.
- **C64 The current transformation matrix maps element coordinates to the viewport and the screen** — module `Ancestors`. _get_ctm along the chain of ancestors against maps of the plane. *Status: partial.* Proved if all transforms stand inside the nearest viewport; transforms on or outside it are misplaced or lost (witnesses).
- **C65 Inserting, replacing and removing a child leaves the rest of the content in place** — module `Content`. insert/insert_before/replace/remove on mixed content against splitting the content at the child. *Status: partial.* Insertions in full; removing and replacing a child also drops the text that follows it.
- **C66 Comparison of typed CSS unit values is consistent** — module `UnitValue`. __eq__/__lt__/… against quantities in base units. *Status: proved.* All unit values over the reals; equality with the relative tolerance of the code, which is not transitive (witness).
- **C67 Converting a typed CSS expression keeps its quantity** — module `SumValue`. to/to_sum/add against evaluation with arbitrary positive unit sizes. *Status: partial.* All linear expressions; powers of units are ignored by to, and to_sum fails unless the units are given in the order of the terms.
- **C68 Members of an unparsed value are the references and the texts between them** — module `Unparsed`. Members against the list of references and an alternation predicate. *Status: partial.* References for all token lists; single texts without other functions: each function splits the text after its arguments.
- **C69 The text of a typed CSS value shows its content** — module `CachedText`. Value objects with remembered text; induction over histories of changes. *Status: partial.* All histories of changes to constructed values; parsed values keep the text they were parsed from for ever.
- **C70 Dot segments are removed from URL paths** — module `UrlPath`. Path setter with normpath against an independent remove_dot_segments over segments; induction over the segments. *Status: partial.* All paths without empty inner segments whose last segment is not a dot segment; no path keeps a dot segment.
- **C71 Reading the text of a URL gives the same URL** — module `UrlText`. Text of a normal URL is split again: uniqueness of the delimiters, component by component. *Status: partial.* All URLs in normal form; an explicit default port, duplicate query keys and equals signs in query values are lost.
- **C72 Relative references are resolved against the base** — module `UrlRef`. Constructor with a base; merge of paths plus C70 and C71 for the resolved text. *Status: partial.* All references with a relative path; references without path, with absolute path and query, with a host, and invalid URLs are resolved wrongly.
- **C73 An element without own font size has the font size of its parent** — module `FontStyle`. compute_font_size over chains of ancestors; the inherited value against the size of the parent. *Status: partial.* All chains whose inherited value is absolute; em and percentages are applied again for every descendant.
- **C74 Keywords for absolute font sizes are in order** — module `FontStyle`. Keyword table for all default sizes; cases by row. *Status: partial.* All default sizes; medium differs from fractional default sizes in the range of the table.
- **C75 Relative font weights follow CSS Fonts** — module `FontStyle`. Refinement of the loop over the ancestors to a fold by the rules of CSS Fonts. *Status: partial.* All chains of attributes with multiples of 100; an element with a relative weight itself has the weight of its parent, other numbers are interpolated.
- **C76 Line heights refer to the font size** — module `FontStyle`. compute_line_height. *Status: partial.* normal, percentages and pixels; numbers are taken for pixels, em refers to the parent.
- **C77 The font shorthand is split into its parts** — module `FontText`. shlex.split as a state machine; round trip from parts to text to parts. *Status: partial.* All lists of keywords and of names that are quoted or one word; names of several words without quotes, spaces around the slash and families named like system fonts are misread.
- **C78 Lists of font families give the names in order** — module `FontText`. Round trip for lists of names. *Status: partial.* Lists with quoted (double or single) and one-word names, or without any quotes; names of several words without quotes next to quoted ones and quoted commas are split wrongly.
- **C79 Font feature settings give each tag its value** — module `FontText`. Round trip for lists of settings; later ones win. *Status: partial.* All lists of valid settings; a comma at the end raises IndexError, tags with spaces are ignored.
- **C80 Circles and ellipses draw exactly their curve** — module `Shapes`. Geometry from attributes and path data; the drawing of the path (specification of C14) against the equation of the ellipse. *Status: partial.* All circles; all ellipses except those where one radius is a percentage and the other auto, which is violated.
- **C81 Rectangles draw exactly their border** — module `Shapes`. As C80, with sides and quarter ellipses; the border as distance from the inner rectangle. *Status: proved.* Path data without normalisation.
- **C82 Lines, polylines and polygons draw the lines between their points** — module `Shapes`. Induction over the list of points. *Status: proved.* A line shorter than 1e-9 in both directions draws nothing.
- **C83 Curves that replace an arc stay close to it** — module `ArcCurves`. Polar form of the Bezier curve of the code for part of the unit circle, with a polynomial bound of its radius; image under the matrix of the code; loop invariant of C14 extended by arcs. *Status: partial.* Arcs of circles, quarters and halves of unrotated ellipses (hence all basic shapes); for other arcs of ellipses the code uses directions as parameters and is off by more than 2%.
- **C84 Bounding boxes of basic shapes** — module `ShapeBox`. The quarters of the normalised shapes are computed exactly; the counted points span the box. *Status: partial.* Circles, ellipses and rectangles whose size exceeds the tolerance of the code; polylines without horizontal and vertical lines, for which the box is wrong.
- **C85 Lengths of basic shapes** — module `ShapeLength`. Arc length of a quarter of an ellipse as an integral of the speed; lengths of lines; C17 on the path data of the shapes; induction over the points. *Status: proved.* Sizes below the comparison tolerance of the code are taken for zero by it; the hypotheses (ClearArc) exclude them. The length is the exact integral: the rounding of the numeric quadrature is C62 and C63.
- **C86 Bounding boxes of groups** — module `ElementBox`. Induction over the tree with an abstract relation of drawn points and boxes, closed under union (C01) and transforms (C03), for containment and for exactness. *Status: partial.* Holds for shapes, a/g/defs/symbol and use without transforms; violated for transforms of use elements, marker and pattern contents, boxes without area.
- **C87 Math functions are read with their meaning** — module `MathText`. The objects of the parser as a heap; a relation of heap values to expressions with a footprint and a frame lemma; one invariant for each state of the parser (first product, sum, product in a sum, after a subtraction in a product). *Status: partial.* Sums of products with operands that have operators of one level, unless a product is subtracted after a product. The rest is violated or refused by the code, see the findings.
- **C88 The text of a math value has its meaning** — module `MathPrint`. A reader by recursive descent as specification; induction over the expression, with the level (factor, term, sum) at which its text can be read. *Status: partial.* Holds for all values built of sums, differences, products, quotients and clamp(); inside min() and max() only if no parentheses are needed (the code writes none); negated values only where the sign can stand.
- **C89 The size of the viewport of an element** — module `ViewportSize`. Chain of elements, nested calls bounded by fuel; induction over the chain with the invariant that a length and its copies keep their pixels; non-termination as `none` for every fuel. *Status: partial.* Sizes in all units but vw, vh, vmin and vmax; positions that are no percentages; font units only for the innermost viewport. The rest is violated by the code (five witnesses).
- **C90 White space of text content** — module `TextContent`. Each pass as a recursive function; text decomposed into words and gaps (every text without CR has such a decomposition); induction over the pieces with one lemma per pass. *Status: partial.* A text alone, without carriage returns. What is missing is violated by the code: text after another text, the first text with pre, CR LF with pre-line, text that looks like a character reference.
- **C91 The text of search parameters gives the parameters back** — module `SearchParams`. `urlencode` with UTF-8 byte by byte; specification is the reader of form data of the URL Standard (percent decoding, `utf8Decode?` of Lean); induction over bytes and over pairs; sortedness from `sorted`. *Status: proved.* Names and values are texts; `~` quoted or not depending on the version of Python.
- **C92 The query of a URL shows its search parameters** — module `SearchParams`. `URL.search` with the loop over character references; `Means t bs`: the text decodes to the bytes whatever follows; induction over the loop. Violations by evaluation. *Status: partial.* Names and values without plus and percent signs, names without equals signs. The rest is violated by the code (four witnesses).
- **C93 The points attribute keeps its points** — module `Points`. Number tokens and scanner of C59/C60, formatted numbers of C11; induction over the points. *Status: proved.* ASCII digits; floats are exact.
- **C94 The text-decoration shorthand gives its words to the right longhands** — module `Components`. Token lists; a value is a permutation of runs of tokens each supported by one longhand; induction over runs, then over longhands.  Findings: invalid values reset the longhands, words after an interruption are dropped, keywords are case-sensitive. *Status: partial.* Values of lower-case words with one space between them; the code violates the rest: invalid values are not ignored and keywords are case-sensitive.
- **C95 The font-variant shorthand gives its words to the right longhands** — module `Components`. As C94 with the keyword tables of the six longhands.  Findings: separated words of one longhand are lost although valid; a CSS-wide keyword beside other words is accepted. *Status: partial.* Values whose words of one longhand stand together; the code loses words otherwise.
- **C96 The overflow shorthand sets both directions** — module `Components`. Same parser for overflow-x only.  Findings: KeyError for unknown keywords; trailing words dropped. *Status: partial.* The code raises KeyError for invalid values.
- **C97 The text of a length is understood and can be read back** — module `LengthText`. Tokens of the number grammar followed by letters; the number scanner stops in front of the unit also when this starts with e; formatted numbers are tokens. *Status: proved.* Decimal is exact; ASCII digits and letters; precision at least one.
- **C98 Text that is no length is refused** — module `LengthText`. Completeness of the number scanner: what is accepted starts with a token.  Finding: what stands behind the number and unit is ignored. *Status: partial.* The code accepts anything behind the number and unit: `10 px` loses its unit.
- **C99 The addressable characters of a text element are those of its content** — module `TextChars`. White space processing keeps all other characters; induction over the forest with a relation between texts and chunks.  Findings: AttributeError for comments, TypeError for an empty leading tspan, text in links lost, only the first text of a nested tspan. *Status: partial.* Elements with tspan elements only inside; the code violates the rest.
- **C100 The inline style and the style attribute agree** — module `InlineStyle`. The element as its declarations and the text of its attribute; refinement to an abstract map from names to values and priorities, by induction over histories, using the round trip of the attribute text (C19).  For properties outside the shorthands.  Findings: what is removed from the attribute is still read; priorities are not written; values with colons are lost; names in capitals cannot be read. *Status: partial.* For properties that are not part of shorthands, values without colon and semicolon, and attribute texts that keep the properties declared; the code violates the claim for other attribute texts and values.
- **C101 The text of a media query means what it says** — module `MediaParse`. Python's regular expressions as a backtracking matcher (Model/Regex), the patterns and the functions of mediaquery.py on top of it, nested calls bounded by fuel.  Grammar of queries with their texts and truth values as a separate specification; lemmas on where greedy repetitions stop, induction over the features and the list; the evaluation by C26.  Findings: spaces, nesting, `and not`, line breaks, the empty list, endless recursion. *Status: partial.* parse_meaning covers all queries without nesting, with spaces where the code needs them; the match is proved for negations of one term (C26). The rest is violated by the code (ten witnesses).
- **C102 The nodes of a document belong to it** — module `OwnerDoc`. Nodes and documents as numbers with parents, stored documents and roots; the operations as a transition relation, including the loss of Python objects.  Invariant over executions: below the root of a document every node stores that document or none, and parents form no cycles.  Findings: comments beside the root, nodes taken out, roots moved elsewhere. *Status: partial.* Holds for the root and all nodes below it, for executions in which roots are taken out only by their documents. The code violates the rest: comments beside the root, nodes taken out, roots moved below other elements.
- **C103 The font of a text is the best face of the first family that can show it** — module `FontMatch`. Faces as records, fontconfig and FreeType as arbitrary functions.  Each narrowing step is shown to keep the minimal faces of an order, their composition to be the minimal faces of the lexicographic order; then the loop over the families is the first success.  The groups of CSS Fonts are a separate specification: proved when all values are on one side, refuted by witnesses otherwise. *Status: partial.* The choice by family, glyphs, slant and distance is proved for all libraries. The widths and weights of CSS Fonts are proved when the wanted value is there or all values lie on one side of it; otherwise the code goes by distance and violates them (two witnesses).
- **C104 Lookups by id, class and name find exactly the matching elements** — module `Lookup`. Trees of elements and comments; elements are known by the path of child indexes.  XPath axes as preorder walks, `re:test` as a search for the pattern the code builds.  Specification: a relation that follows the path, and document order on paths; the lists are proved to have exactly the matching paths in that order, and the specification to determine the list.  Class lists by Python's split; findings for tabs, dots and None. *Status: partial.* Ids, qualified names and local names in full. Namespaces when given as text; classes for names without special characters and class attributes with spaces only. The code violates the rest (three witnesses).
- **C105 The path data of groups and use elements are the outlines that they show** — module `UsePath`. Documents as a map from numbers to elements (shapes, groups, links, symbols, defs, use, others) with arbitrary references; the recursion of `get_path_data` with a bound on its depth.  Specification: an inductive relation for what a list of elements shows in the coordinates of its parent.  Proved: the recursion ends if nothing needs itself and returns data only then, and the data are what is shown where nothing below is transformed, hidden, a link, or an svg or symbol reached by use; witnesses for the rest. *Status: partial.* The recursion ends exactly where nothing needs itself (or fails). Correct outlines if the elements below have no transform, are not hidden, are no links, and use does not refer to svg or symbol elements. The code violates the rest (nine witnesses).
- **C106 CSS rules stand where they are written and know where they stand** — module `CssTree`. A store of rule and sheet objects; `parse_rules` with the constructors of the rules, `parse` over a web of addresses with a bound on the depth, `insert_rule`, `delete_rule`.  Specification: places (sheets and @media rules) with their lists, a relation between texts and trees of objects, the import relation.  Invariant of all reachable stores by induction over the parser and over the steps; loading ends exactly if the import relation is well-founded below the address. *Status: partial.* Source order, uniqueness of places, deletion and parent_style_sheet in full; parent_rule for sheets that are not imported; insertion for indexes that there are. Loading ends exactly for sheets that do not import themselves. The code violates the rest (five witnesses).
- **C107 Each glyph of a text stands where the attribute lists put it** — module `GlyphRun`. The loop over glyphs with its consumed lists, the loop over texts with the lists of elements that are shared and consumed, the matrix and the truncation of `from_glyph`, sums of advances.  Specification: a closed form for the coordinate of glyph i, a rotation about a point, nearest ancestor with a value.  Induction over glyphs and texts; the drawn outline is an isometry applied to a translation that is off by less than 1/64. *Status: partial.* One run of glyphs, the outline and the sums of advances in full; texts with children if only the outer element has lists. The code violates the rest: the lists of an outer element are not advanced by characters that have their own value, a list of a child that is too short hides that of the parent, and the length of a child counts its first text only.
- **C108 The font shorthand declares its parts and can be read back** — module `FontShorthand`. The seven passes over the tokens with the descriptors of the longhands, the solidus, initial values, the nested `font-variant`, the test on the order of declarations and the text.  Specification: groups of tokens per part, a table of the longhands with their words, the canonical text.  Induction over the groups shows that each pass takes its own group and leaves the others; declarations as maps; the order test from the shape of the keys. *Status: partial.* Values of the grammar with a line height that has a unit and without the word normal. The code violates the rest: a line height that is a number goes to the weight, normal is added to the style, keywords count in lower case only, and values that are no font reset all longhands.
- **C109 A property supports exactly the values that its syntax names** — module `Syntax`. The split at combinators, multipliers, the map of types, functions and identifiers, `support` with its tables and `supports`.  Specification: syntaxes as lists of terms, combinators and brackets with their text, a table which term stands for which token.  Induction over the elements shows that the components are the texts of the terms; then case analysis by token and induction over the value. *Status: partial.* support_iff and supports_iff tell for all syntaxes what is supported. The code departs from CSS: hz and fr are lengths, calc() is none, the number of values is not checked, keywords are compared with case, strings count as keywords, a block raises, and * refuses unknown functions, units and commas.
- **C110 A style map is an ordered map of declarations** — module `StyleMap`. `set`, `delete`, `get_all`, `get`, `has` and the methods inherited from the abstract mappings, on the declaration block of C31.  Specification: a list of entries without the name, the joined text, a relation for refused arguments, steps of an abstract map.  Induction over the arguments for the checks and over histories for the map. *Status: partial.* Proved for longhands. The code violates the rest: a shorthand that was set is not in the map, `name in map` is always true, append does nothing, and set without values removes the declaration.
- **C111 A property value is parsed into one style value per item** — module `StyleParse`. `_parse_css_style_value` and `_reify_css_style_value` over the tokens of the value, with `desc.support` (C109) as a parameter.  Specification: items of typed tokens woven with commas, the text of an item, a relation for its class.  Induction over the items; every list of tokens is such a weaving. *Status: partial.* What is parsed is characterised completely. The code violates the rest: a value with a comma is taken for properties that are no lists, a comma at the end is ignored, one too much makes an empty value, and transform functions cannot be parsed.
- **C112 A data URL gives its data and its content type** — module `DataUrl`. `load` for data: URLs on top of the URL model of C23-C25, `get_content_type` on the mapping of C18, and the charset that `parse` uses.  Specification: a structure of type, parameters, flag and data with its text; the last value of a name.  Uses the split and join lemmas and the refinement of C18. *Status: partial.* Proved for URLs with a type and plain parameters, or with neither. The code violates the rest: a document that is not in base64 raises AttributeError, data after a question mark are lost, parameters without a type give an empty type, the flag is understood in lower case only, and values with an equals sign are dropped.
- **C113 Glyph matrices compose as linear maps with the y axis up** — module `FTMatrix`. All methods of `FTMatrix` over the reals.  Specification: the action on points as in the FreeType manual, and the SVG rotation and skews between two reflections.  By ring identities; the inverse by determinants. *Status: partial.* Everything is proved apart from the documented names: b is said to be yx and c to be xy, but the code has them the other way round (names_violated).
- **C114 Font keywords turn on and off the features of CSS Fonts** — module `Features`. `features_from_style` branch by branch.  Specification: the tables of CSS Fonts 3 as groups of alternatives, and what it means that a style asks for a value of a feature.  By showing that the code updates the dictionary with the first keyword of each group, that groups share no feature, and the dictionary lemmas. *Status: partial.* Proved for all valid styles, apart from the precedence: the code lets the keywords win over font-feature-settings, CSS Fonts has it the other way round (precedence_violated).
- **C115 The mask-border shorthand declares its parts and can be read back** — module `MaskBorder`. `MaskBorderShorthand` with the list parser of C94 and C108 and its variant for slices.  Specification: the words of each part, groups of them, and a relation between groups and tokens that allows any white space.  By induction over that relation for one part (what is found, and that the rest is again such a value), then the six parts in turn; the order test by bounds on positions. *Status: partial.* Proved for values with slices before widths before outsets and fill at the end. The code violates the rest: unknown words and commas are accepted, widths cannot be left out before outsets, fill before the numbers loses them, a CSS-wide keyword among other words is taken alone, and the shorthand is empty after a longhand of mask was declared.
- **C116 The style attribute of an element follows its style, shorthands included** — module `InlineShorthand`. `_StyleAttribute` and `CSSStyleDeclaration` with `_inline_style`, for a set of shorthands given by their longhands, their parsers and serialisers (`Family`).  Specification: a style is a partial function from properties to values and priorities; `text` of a shorthand and `spelled` of an attribute are defined from it alone.  Refinement by induction over the history; the entries of an attribute are about disjoint sets of properties, so that reading it gives the style whatever its order.  That `white-space` satisfies the conditions is a theorem. *Status: partial.* Proved for shorthands that are not nested (not font, font-variant, mask) and values that give the shorthand a text. The code violates the rest: a value of a shorthand that gives no text is stored but removed from the attribute, and priorities are not written to the attribute.
- **C117 The document is the one at the address of the location** — module `Navigation`. `Location` (all setters, `reload`), `normalize_url`, `Document.navigate` and the `location` setters over the URL model of C23-C25; loading is an arbitrary function from addresses to documents or errors.  Specification: `Asked` relates the old location and the action to the new location, `Shows` location and document.  Proved for the last action of any history. *Status: partial.* Proved for actions that raise no error, and that errors show no other document. The code violates the rest: an address that is refused or cannot be loaded has become the location already, the old document is removed before the new one is loaded, and assigning a fragment loads the document again.
- **C118 Two addresses have the same origin exactly if scheme, host and port agree** — module `Navigation`. `URL.origin`; the recursion through blobs has a bound as in Python.  Injectivity of scheme, host name and used port by splitting the text at the first slash and the last colon. *Status: partial.* Proved with ports compared as texts. The code violates the rest: a port assigned with leading zeros is kept so.
- **C119 A ligature takes the position of its first character** — module `Ligature`. The re-positioning in `_get_text_path_data` and the rendering of a line (`GlyphRun`); the shaper is given by the clusters of its glyphs.  Specification: the number of the first character of each glyph.  The loop is first split into finding the ligatures and removing values, then by induction over the glyphs with the finished part of the lists as invariant. *Status: partial.* Proved for the first run of a text of ASCII characters with ligatures of two characters and none at the end of the line. The code violates the rest: ligatures of three characters, ligatures at the end of a line, runs after the first one, characters with several glyphs, and values at the end of a list.
- **C120 Text in two directions stands in the order of the bidirectional algorithm** — module `BidiText`. The loops over runs, lines and glyphs in `_get_text_path_data` for horizontal text, with the boxes of the `Rect` model; ICU and HarfBuzz are given by their runs and glyphs.  Specification: rule L2 of UAX #9 for levels and glyphs, and a row of cells.  By induction over glyphs, lines and runs: what has been drawn is the row of the flipped runs; the reordering is computed block by block. *Status: partial.* Proved for all texts with the two levels of their directions and glyphs without offsets. The code violates the rest: runs of nested levels stand in the order of the characters, and in runs from right to left the offset of a glyph moves all later ones.
- **C121 A text is divided into runs and lines without loss** — module `TextRuns`. The loop over runs and the break iterator, with strings as lists of code points and ICU's buffers as lists of UTF-16 units; levels and breaks are arbitrary functions.  Specification: characters with the level of their first unit.  By induction over the breaks and over the runs; decoding inverts encoding. *Status: partial.* That nothing is lost is proved for all texts, that directions are right for texts of the basic plane or of one direction. The code violates the rest: run ends in UTF-16 units are used as indexes of characters.
- **C122 A document uses the style sheets that it names and that apply** — module `StyleSheets`. The decisions of `get_css_style_sheet_from_element` and of the loop over processing instructions, the loops and their errors; resolving and loading are arbitrary.  Specification: relations between an element and the sheet it stands for, and lists in the same order.  By cases for one element, by induction for the document. *Status: partial.* Proved for documents in which style sheets have an address and are no preloads. The code violates the rest: a link without address makes every use of style sheets fail, preloads are applied, types of linked files are ignored, and keywords in upper case are not known.
- **C123 Media features describe the window and its screen** — module `MediaFeatures`. `MediaQueryList.matches` with its table of conditions, `_mql_compare` with the tolerance of lengths, `_eval_expr_name`, the setter of the angle with its loops, and the type of the orientation, on top of the evaluation of C27.  Specification: a table of the features as numbers of the window and the screen, and the relations of the operators.  By cases for the features; the loops by induction. *Status: partial.* Proved for queries of one term, with values in px, dppx or without unit that are equal to the feature or outside the tolerance of lengths, and for viewports at least one pixel high. color and color-index are taken as the code documents them, bits of a pixel and the colours these tell apart, which is not what Media Queries 4 says. The code violates the rest: lower viewports make every query raise, aspect-ratio cuts the sides to whole pixels, orientation is that of the screen and wrong for square screens turned by a quarter, device-aspect-ratio compares numerators only, and (width) holds at width zero.
- **C124 The font-feature-values rule gives each name its numbers** — module `FeatureValues`. `CSSFontFeatureValuesRule._parse_content` as a fold over tokens with the local variables as state, storing in the mappings of C18.  Specification: a grammar of settings, blocks and contents as inductive relations, the last setting of a name, the names as first spelled.  By induction over the derivation; for arbitrary tokens an invariant of the loop. *Status: partial.* settings_partial requires that every setting is closed by a semicolon. The code violates the rest: the last setting of a block is lost without semicolon, settings with invalid numbers keep the other numbers, features of one number take several, and an at-rule without block makes the whole rule raise TypeError.
- **C125 Moving about in the tree reaches every node once, in document order** — module `TreeWalk`. Trees of elements, comments and processing instructions; a node is the list of child numbers on its way to the top; lxml's `getnext`, `getparent`, `itersiblings` on these, and the properties of the code on top.  Specification: child number `i`, document order by recursion, and a walk as an inductive relation using only the public operations.  By mutual induction over trees; the walk is shown deterministic and complete. *Status: partial.* The code violates the rest: the child nodes of the document have no parent node, and Document.iter with more than one tag raises TypeError.
- **C126 A transform list is a list of transform objects** — module `TransformSeq`. The operations of `SVGTransformList` on a list of object numbers, with the loops of `MutableSequence` (clear by popping, reverse by swapping, search by index), and `+` with `deepcopy` over a store of objects.  Specification: what each operation does to `a ++ x :: b`, where an index names `x` from the front or the back, and which are refused.  By cases, loops by induction; then induction over sequences of operations. *Status: partial.* The code violates the rest: initialize with something else empties the list before it raises TypeError, += keeps the items before the wrong one, and + copies the items of the left operand only. Slices without step.
- **C127 Attributes that are lists give the numbers written in them** — module `AttrLists`. `get_computed_geometry` of text elements and `view_box`, on top of the models of the splitter and of `SVGLength.parse` (C97).  Specification: a grammar of lists, of lengths and of numbers.  Reading by induction over the list; conversely the splitter is shown sound, so that nothing else is read. *Status: partial.* The code violates the rest: white space around a list raises ValueError, a viewBox with more numbers or with units is accepted, and items may go on after the length (C98). The conversion into pixels is a parameter (C34).
- **C128 The mask shorthand declares its parts and can be read back** — module `Mask`. `MaskShorthand` with the descriptors of its eight longhands, over tokens.  Specification: parts, their words, a layout relation for order and white space, and what is declared.  Each longhand is read from the list of segments that are left; the box rules by cases on whether the boxes are neighbours when they are read; reading back through the segments in the order of the longhands. *Status: partial.* Proved for single layers. The code violates the rest: several layers, lists of boxes, unknown words, a size without solidus and a CSS-wide keyword among other words are taken, and mask-border is not reset.
- **C129 Font units are the measures of the font of the element** — module `FontMeasure`. `Font` over a model of a FreeType face: measures in font units, a size, and a glyph slot that keeps the glyph loaded last.  Specification: units times size by em square, the writing modes with horizontal lines, the size set last.  That requests do not disturb each other is an invariant (fonts alike but for the slot) over all lists of requests. *Status: partial.* Proved for ex, horizontal ch and ic, sizes and independence of requests. The code violates the rest: cap is a vertical advance or an AttributeError, missing glyphs of x and 0, turned digits, upright ideographs, ascent and descent, equal fonts.
- **C130 The computed style has computed values and the geometry** — module `CompStyle`. `get_computed_style` as a list of assignments that each read the style so far, then the geometry; lengths through the model of C34; nested calls counted by a limit.  Specification: one clause per property, with pixels per unit.  A lemma on an assignment in the middle of a list gives each clause; that units of the font never give a style is an induction over the limit. *Status: partial.* Proved for values without units of the font. The code violates the rest: lengths in ex, cap, ch or ic recurse without end, and the inline size refers to 100 pixels and a font size of 16.
- **C131 Refused tree operations raise the DOM exception and change nothing** — module `Validity`. The two checks as functions of kinds and lists of children; the methods of attributes, comments, processing instructions and elements as programs that call them and lxml, which is a parameter.  Specification: the steps of the standard as a relation giving the exception; `Refused` says the exception and that the whole tree is the same.  Case analysis, induction over the arguments of `append`, `prepend` and `extend`. *Status: partial.* Proved for all kinds of nodes and methods. The code violates the rest: ancestors and second roots pass the check, a refused append of several nodes is half done, a refused prepend loses the text of the element, extend with a generator adds nothing, remove_child(None) removes the element itself.
- **C132 Path and text elements give the path data of what they draw** — module `PathData`. The methods of `<path>` on top of the models of C12 (text of paths), C14 (normalisation) and C62 (length); those of text elements as folds over pieces of text with path data and a box.  Specification: same commands with the same numbers, the drawing of C14, the bounding box of C01.  The round trip never produces the text `none` because that text has no segments. *Status: partial.* Proved for path elements and text elements, with the exceptions of C01, C12, C14, C60 and C62. The code violates the rest: a tspan gives the box and the path data of the whole text around it, and wrong settings are not refused for an empty path.
- **C133 A shorthand is important exactly if all its longhands are** — module `Shorthand`. `get_property_priority` collects the priorities of the declared longhands and compares them.  Specification: the longhands of the block, one by one.  Membership in the collected list by induction over the longhands. *Status: partial.* Proved for all shorthands and blocks in which every longhand is declared. The code violates the rest: longhands that are not declared are passed over.
- **C134 The factories give the elements and documents that were asked for** — module `Factory`. The class table and lookup, and the factories on top of the model of qualified names (C20), with the caller's map of prefixes returned as it is afterwards.  Specification: lists of element names, with the interface name made from the element name; plain names resolve to themselves. *Status: partial.* Proved for plain names, names in braces and the four built-in prefixes. The code violates the rest: the class goes by the local name alone, prefixes of the map given are not known, the map of the caller is written to, and the content type ignores a namespace written in the name.
- **C135 Registered custom properties stay as they were first registered and decide how values are read** — module `Registry`. The registries of all documents as a state, one step for each call; the choice of descriptor in `_parse_css_style_value` and the lookup of `CSS.supports`.  Specification: the first call in the history that asks for the name in the document. *Status: partial.* Registration and CSS.supports are proved in full. The code violates the rest: the registered syntax and inheritance are never looked at, values of registered properties are checked against *.
- **C136 DOM exceptions carry the message, name and code they stand for** — module `DomError`. The constructor with the class name, the positional and the keyword arguments as inputs.  Specification: the Web IDL table of legacy codes, written down again, and a relation for texts separated by spaces. *Status: partial.* Proved for all classes and arguments; the three deprecated names IndexSizeError, InvalidAccessError and TypeMismatchError have the code 0.
- **C137 Points of an ellipse lie on it, and every point of it is reached** — module `EllipsePoint`. `Ellipse.point` over the reals.  Specification: the equation of the ellipse in the coordinates along its axes. *Status: proved.* Exact reals in place of floats.

## Findings: where the code does not do what the property says

- C01: the union of rectangles where one has no area (a segment) loses its far end.
- C02: the intersection of disjoint rectangles returns the receiver.
- C03: transforming with both axes negative gives a wrong box.
- C04: containment of segments is wrong; adjusting and adjusting back can end elsewhere.
- C19: style declarations whose value contains a colon are dropped.
- C20: a namespace containing `}` is not recovered from a qualified name.
- C26: `not (A and B)` and `not (A or B)` are evaluated with the connectives exchanged.
- C27: equality of aspect-ratio features is always true and `<` is true for equal ratios.
- C29: an `@namespace` rule with a quoted string raises TypeError.
- C30: `display: none` as attribute wins over a style that overrides it; `font` with `font-family` raises KeyError; `font: caption` leaves longhands without values; `marker` raises NotImplementedError.
- C32: unknown or upper-case `white-space` keywords silently mean `normal`.
- C33: a media text with repeated entries is stored twice and delete leaves one; `append("")` is lost by the text round trip; `insert` accepts entries with a comma.
- C34: with a font present, converting into ex/cap/ch/ic resizes the font to the length itself, so the result is constant.
- C35: arithmetic copies the context element without its parent, so `1em * 2` under a 20px parent is 32px; percentages of different directions are added as plain numbers.
- C36: `1e-9in == 0px` holds in one direction only; equality is not transitive.
- C37: `cap` belongs to no class of units.
- C45: keys "Foo", "a-1", "a-" do not round trip; "É" and "-é" share one attribute; setting an absent key to '' raises KeyError.
- C46: repeated tokens in the attribute survive remove/toggle; tokens with non-ASCII white space are split.
- C50: `xMinYMid` is misspelt `XMinYMid` and so read as `xMidYMid`; `none slice` loses `slice`.
- C51: lengths in different units give wrong scales; scales within the comparison tolerance stay different.
- C58: the angles read from a 3D matrix are wrong when the scale factors differ.
- C59: functions written without anything between them (`translate(10)scale(2)`) are dropped, all but the last, without an error; so is anything malformed.
- C12: closing commands of one case that follow each other collapse to one when written.
- C60: a closing letter directly followed by another command (`...zM...`, common in files) is dropped; arc flags written without separators (`0 015,5`) lose the segment.
- C14: an arc that ends where it starts raises IndexError; arcs are only approximated by curves; S after Q, T after C and S after an S that follows a line mirror the wrong point; S and T after Z fail; a bearing between a curve and its smooth successor, or between two moves, breaks the reset of the start point.
- C15: after an absolute H or V one coordinate of the current point is forgotten, so later relative segments are placed at 0 and a second H raises TypeError; radii and rotation of arcs are not transformed; 3D matrices raise ValueError.
- C17: of a stroke along a horizontal or vertical line only the upper left end is taken into the box of a path, so `M0,0 L10,0` has an empty box.
- C62: in the total length a smooth curve after a closing command uses the control point of the segment before the closing; the other orders of C14 also give wrong lengths.
- C52: `owner_svg_element` and `viewport_element` of an inner svg (or symbol) element are the element itself.
- C64: the screen matrix ignores transforms of groups outside the nearest viewport, and applies the transform of an svg element inside its view box.
- C48: `Element.append('text')` puts the text before existing children; appending a node that is already a child moves the text after it as well; prepending two nodes to an element without children reverses them.
- C49: `text_content` drops the text after comments and processing instructions, and text in and after `a` and `textPath` children.
- C65: removing or replacing a child drops the text that follows it.
- C55: removing the root of a document also removes the comments around it; replacing it loses them as well, and leaves the document empty if the new node is refused; prepending a root and a comment to an empty document reverses them; `insert` at the end raises IndexError.
- C47: an attribute object to which the empty string is written removes the attribute and reads None afterwards; an `Attr` constructed with `owner_element` is not entered into the map of the element, so that it stays attached after the attribute is removed.
- C39: a percentage and a number are added without a hint; adding percentages of different powers depends on the order; in products the percentages of the second operand are dropped (`px * %` and `% * px` have different types).
- C40: `CSSMathInvert` inverts the type of its operand, and of all values that share the type object, in place; a percent hint becomes the empty string.
- C66: equality of unit values is not transitive.
- C41: sums merge terms with the same units even if the powers differ: `px*px/em + em*em/px` is reduced to `2px*px/em`.
- C42: values containing a negation, inversion or clamp do not `equals` themselves.
- C67: `to` ignores powers (`2px*3px` converts to `6px`); `to_sum` raises ValueError unless units are requested in the order of the terms, because `list.remove` compares incompatible units; `to_sum` of a clamp raises TypeError.
- C43: the empty fallback of `var(--a,)` is lost; `VAR( --a )` is rewritten to `var(--a)`.
- C44: assignment to an index of an unparsed value inserts the item before the old one instead of replacing it.
- C68: `calc(1px) b` gives two adjacent texts `calc(1px` and `) b`.
- C69: a parsed value that is changed keeps its old text: `CSSStyleValue.parse('color','red')` set to `blue` still serialises to `red`; `CSSUnparsedValue.tostring` also prints each member to standard output.
- C23: `URL('c', base)` turns the object `base` into the resolved URL (path, query and fragment are overwritten).
- C24: assigning a text with an invalid port to `href` has already changed the protocol, with a bad host character also the port, with a backslash in the path everything before the path.
- C25: changing the protocol after reading `host` with a default port loses the port in `host`; `hostname = '[::1]'` drops the port from `host`; a failed assignment to `host` leaves the new host name; `protocol = ':'` raises IndexError.
- C70: `/a/b/..` gives `/a` instead of `/a/`, `/a//b` gives `/a/b`, a relative `../a` gives `/../a`.
- C71: `http://h:80/` has port `80`, its text read again has none; `?a=b=c` becomes `?a=b`; of `?a=1&a=2` one pair is left; a password without user name is lost.
- C72: `#f` and `?q=1` against `http://h/a/b` lose the segment `b`; the question mark of `/x?q=1` is quoted into the path; `//k/x` gives `/x`; `http://k:99999/` is taken for a relative path.
- C53: an element with `font-size="larger"` has the size of its parent, only its descendants are larger; `larger` inside `smaller` multiplies by 1.2 twice; sizes given by style attributes or sheets are ignored when a relative size is computed. (Not modelled: `1rem` on the root element recurses for ever.)
- C73: `2em` or `200%` on an element is applied once more for each level of descendants that inherit it.
- C74: with the default size 12.5, `medium` is 12.
- C75: an element with `font-weight="bolder"` has the weight of its parent; `bolder` than 350 is 550; weights of ancestors given by style are ignored.
- C76: `line-height: 1.5` is 1.5 pixels; `2em` refers to the font size of the parent.
- C54: `styleset(a, b)` loses `b)`, `Small-Caps` and `none ` are ignored.
- C77: `12px Times New Roman` has size `New` and family `Roman`; `12px / 2 serif` has size `2`; `12px menu` gives nothing.
- C78: `DejaVu Sans, "Foo"` gives `DejaVu`, `Sans`, `Foo`; `"Foo, Bar"` gives two names.
- C79: `"liga",` raises IndexError; a tag with a space is ignored.
- C80: `rx="10%"` with `ry` auto uses the text 10% for both radii, so they differ in a viewport that is not square.
- C83: normalising an arc with two different radii whose ends are not on the axes of the ellipse gives wrong curves: the directions of the ends are used as parameters of the ellipse. `M 12,-12 A 20 15 0 0 1 12,12` passes (20, 0), the normalised curve (19.46, 0).
- C84: the bounding box of a horizontal or vertical line is a point (`M 0 0 L 3 0` has width 0).
- C86: the `transform` of a `use` element is applied twice by `get_transformed_path_data` (and thus `get_bbox`); the transform of the referenced element is applied after the translation by `x` and `y` instead of before.
- C86: `get_bbox` of a shape is in the coordinates of its parent (its own transform included), that of a group in its own coordinates.
- C86: the contents of `marker` and `pattern` elements count for the box of a group; boxes without area are not moved by the transform of a group; under rotations the box of the box is taken, which is too large.
- C87: `calc(1 + 2 * 3 - 4 * 5)` is read as 1 + (2 * 3 * 5 - 4); `max(3px, 1px + 2px)` as max(3px, 1px) + 2px; `max(1px + 2px, 3px)` and parentheses are refused; `calc(2 * calc(3 * 4 + 5))` recurses without end; `calc(calc(3px * 2 - 1px) + 2px)` fails with `IndexError`.
- C88: inside `min()` and `max()` all parentheses are left out, at any depth: `max((1 + 2) * 3)` is written `max(1 + 2 * 3)`. A negated sum is written `calc(-calc(...))` and a negated negative number `calc(--1px)`, which are names for a CSS reader. The parser of the code refuses the parentheses that `tostring` writes (C87).
- C89: `x="10%"` of a nested `svg` refers to its own width, not to the viewport around it. In `50vmax` and `50vmin` the number is ignored. `vw` in a height refers to the width of the same element. `<svg width="50vw">` without a `viewBox` never gets a size: the length asks for the viewport, which asks for the length (`RecursionError`). An outer `width="10em"` loses its font size as soon as another viewport is inside.
- C90: `<text>foo<tspan>bar</tspan></text>` is read as "foo bar": a space is put between texts that have none between them. `white-space: pre` loses the blanks at the beginning of the first text, and of a text after one that ends with a blank (line feeds included). With `pre-line` a blank before CR LF is kept. Character references are replaced a second time after the XML parser (`&amp;lt;` becomes `<`).
- C92: `url.search_params['a'] = '1+1'` gives the query `?a=1+1`, which means `1 1`; `'%41'` means `A`; a name with `=` is cut. `URL('http://h/?a=%41').search_params['a']` is `%41`: the setter replaces `+` but does not decode percent signs.
- C94: `text-decoration: foo` resets all longhands instead of being ignored; `underline red overline` silently drops `overline`; `UNDERLINE` is not understood (css/shorthands.py 145-206, css/props.py 289-291).
- C95: `font-variant: common-ligatures small-caps discretionary-ligatures` is valid CSS and loses `discretionary-ligatures`; `inherit small-caps` is accepted as `inherit`; invalid values reset the longhands.
- C96: `overflow: foo` raises KeyError (css/shorthands.py 731); `overflow: hidden foo` is accepted as `hidden`.
- C98: `SVGLength.parse` uses `match`, not `fullmatch`: `10 px` is 10 without a unit, `10px; left` and `5%%` are accepted (core.py 1286).
- C99: a comment inside `text` makes `get_chars` raise AttributeError (`local_name`, text.py 115); an empty `tspan` before any text makes it raise TypeError (`len(None)`, text.py 111); text in and behind `a` elements is lost; a `tspan` with elements inside has only its first text (text.py 636).
- C100: removing the `style` attribute, or a property from its text, does not change `element.style`: what was declared is still read (css/__init__.py 1370-1417 only adds). The priority is never written to the attribute, and `red !important` in an attribute is read as the value. A value with a colon (`url(http://…)`) is lost from the attribute when another property is set. `FILL: red` in an attribute is stored under the capital name, which no lookup finds.
- C101: `(width>=600px)` is taken for the name of a feature (a space is needed before the sign); `( color )` is a feature with spaces in its name; `(a)and(b)` is one name; nested parentheses are dropped, `((a) or (b)) and (c)` is false; `(not (b))` raises KeyError; `(a) and not (b)` forgets `(a)`; with a line break behind `and` the condition becomes `or`; `print and (a) or (b)` is accepted; the empty list, which CSS says is true, never matches; `(abc` recurses without end.
- C102: a comment or processing instruction beside the root element of a parsed file has `owner_document` None, although it is in `document.child_nodes` (window.py 253-257 attaches only the root). A removed node keeps its document as long as its Python object lives and has none otherwise (dom.py 2238-2251 never detaches). A node moved into a tree without document keeps the old one (`attach_document(None)` does nothing). A root moved below another element remains the `document_element` of its document.
- C103: the width and the weight go by distance alone (core.py 774-790, 821-835, marked FIXME): with faces of weight 600 and 900, bold text (700) gets 600 where CSS Fonts asks for 900; with faces of width 75 and 113, text of normal width gets 113 where CSS Fonts asks for 75. A `font-stretch` that is not a keyword (`75%`) makes every text use the fallback font.
- C104: the class test is `(^| )name($| )`: an element with `class="a<tab>b"` is not found by `a` although its class list has it; the name is not escaped, so `a.b` finds class `axb`, and `a+` or a quote in the name breaks the expression. `get_elements_by_tag_name_ns(None, …)` finds elements of every namespace. `get_elements_by_class_name` writes the entry `re` into the dictionary passed as `nsmap`. On `svg` elements the lookups include the element itself.
- C105: the path data of a group ignore the transforms and `display: none` of its children; the content of `a` and of a used `symbol` is never drawn, and with a width a used `symbol` is a ZeroDivisionError; `get_transformed_path_data` of `use` applies its own transform twice and that of the used element after `x`, `y`; a group that contains an `image`, `foreignObject`, `switch`, `marker` or `view` raises NotImplementedError; a `use` element inside the group that it refers to recurses without end.
- C106: the rules at the top of an imported sheet have the `@import` rule as `parent_rule`; `insert_rule` accepts an index behind the end (and returns it though the rule stands elsewhere) and a text without a rule; a deleted rule keeps its parents; a style sheet that imports itself, directly or through others, recurses without end; `@import` inside `@media` and after other rules is followed.
- C107: in `<text x="1 2 3">a<tspan x="9">b</tspan>c</text>` the last character stands at 2 instead of 3; in `<text x="1 2 3"><tspan x="9">ab</tspan></text>` the second character stands at 9 plus the advance instead of 2; `get_sub_string_length` of a `tspan` with children counts its first text only.
- C108: `font: 12px/1.5 serif` sets the weight to 1.5 and loses the line height; `italic normal 12px serif` gives the style `italic normal`; `bold` alone and two CSS-wide keywords are accepted and reset all longhands; `BOLD` becomes part of the family.
- C109: `PropertyDescriptor.supports`: `1hz` and `1fr` are lengths, `calc()` is neither length nor number, the empty value and three lengths are supported by `<length>`, `NONE` is not `none` but the string `"none"` is, `"inherit"` is supported everywhere, a value with a block raises `NotImplementedError`, a `#` inside the arguments of a function allows commas everywhere, and `*` refuses unknown functions, unknown units and commas.
- C110: `StylePropertyMap`: `has("overflow")` and `get_all("overflow")` find nothing after `set("overflow", ...)`; `name in map` (inherited from `Mapping`) is true for absent properties because `__getitem__` never raises `KeyError`; `append` does nothing; `set(name)` without values or with a blank one removes the declaration.
- C111: `CSSStyleValue.parse_all`: `color: red, blue` gives two values although `color` is no list; a comma at the end is ignored and a comma too much gives an empty value; `transform: rotate(45deg)` raises `ValueError` because its type has no class.
- C112: `load`: everything after `?` in a data: URL is lost; `data:;charset=utf-8,x` and `data:;base64,x` have an empty media type instead of `text/plain`; `;BASE64` is not understood. `get_content_type` drops parameters with a second `=` and keeps quotes. `SVGDOMImplementation.parse` raises `AttributeError` for data: URLs that are not in base64, because `load` returns a text for them.
- C113: `FTMatrix.b` is documented as "equivalent to yx" and `c` as "equivalent to xy", but `b` is `xy` and `c` is `yx`; `to_float_array` has the same exchange.
- C114: `features_from_style` lets font-variant and font-kerning override font-feature-settings; CSS Fonts 3 (7.2) gives font-feature-settings the last word.
- C115: `mask-border: foo` sets all the longhands to `initial`; commas are accepted (`10, 20`); the valid `10 / / 2` declares an empty width and cannot be read back, `10//2` loses the outset; `fill 10` loses the number; `inherit 10` is taken as `inherit`; declaring e.g. `mask-mode` later makes `mask-border` empty.
- C116: a shorthand value that cannot be read back (e.g. `mask-border: 10 / / 2`) is stored in the style while the attribute loses the shorthand and all its longhands (css/__init__.py 1578-1580, 186-190); `!important` is never written to the attribute, so it is lost when the document is saved.
- C117: `Location` setters change the URL before `_navigate` refuses it (url.py 80-181), and `Document.navigate` removes the root before the new document is loaded (window.py 559-563): after a data: address the location is wrong, after a failed load the document is empty. Assigning `hash` reloads the document, so changes are lost. Reloading `about:blank` of a new window removes its svg element.
- C118: `url.port = '080'` is stored as is, so that `http://h:080` and `http://h` have different origins (url.py 406-420).
- C119: the re-positioning for ligatures (text.py 348-393) drops one value per ligature also if it has three characters, finds no ligature at the end of a line, uses indexes of the whole text although the values of earlier runs have been taken from the lists, and loses the shift or the rotation of a second character at the end of its list; a character with two glyphs uses up the position of the next one.
- C120: only the parity of the level of a run is used (text.py 339), so that a number within words from right to left in a text from left to right (levels 1, 2, 1) does not change the order of the words; in a run from right to left `x_offset` is not taken back (479-480), so that a mark moves everything after it.
- C121: the ends of runs come from ICU in UTF-16 units, but cut the text by characters (text.py 338-340): in a text of two directions, a character outside of the basic plane (an emoji) moves every later run by one character, which is drawn in the wrong direction.
- C122: `<link rel="stylesheet"/>` without `href`, or an empty `href` of an `xml-stylesheet` instruction, raises IndexError (`href[0]`, style.py 177 and 256) in `Document.style_sheets` and in every computed style; `rel="preload" as="style"` is applied as a style sheet, `rel="preload stylesheet"` without `as` is not; `type` is ignored for links and instructions, so that XSLT files are loaded as CSS; `rel="StyleSheet"` and `type="TEXT/CSS"` are not recognised.
- C123: every media query raises ZeroDivisionError when the viewport is lower than one pixel or the screen has no height (`Fraction(int(width), int(height))`, window.py 727-729); `aspect-ratio` cuts the sides to whole pixels, so 100.5 by 100 is not wider than 1/1; `orientation` is taken from the screen, not from the viewport (window.py 735), and a square screen turned by a quarter is `landscape`; `device-aspect-ratio` is compared through `SVGLength`, whose expression is not anchored at the end and reads only the numerator (core.py 992-997 and 1275): a screen of 1280 by 720 matches `16/1`, one of 1280 by 800 does not match `16/10`; `(width)` matches at width 0.
- C124: in `@font-feature-values` the last setting of a block is lost if no semicolon follows (css/__init__.py 1063-1080), `a: -1 2;` sets `2` although the setting is invalid, `@annotation` takes several numbers, and an at-rule without block (`@swash;`) raises TypeError because its content is `None` (1054).
- C125: the root element and the nodes beside it are child nodes of the document but their `parent_node` is `None` (dom.py 1495-1498), and `Document.iter('a', 'b')` raises TypeError because it calls `node.iter(tag=tag, *tags)`, which gives `tag` twice (window.py 543).
- C126: `SVGTransformList.initialize(x)` with something that is no transform raises TypeError after it has emptied the list (transform.py 452-453); `+=` and `extend` raise TypeError after they have added the items before the wrong one; `a + b` copies the items of `a` but shares those of `b` (302-307).
- C127: the lists of text elements and the `viewBox` are split without removing white space at the ends, so that `x=" 10 20"`, `x="10 20 "` and `viewBox=" 0 0 10 20"` raise ValueError although SVG allows them (text.py 542-602, base.py 595); `viewBox="0 0 10 20 30"` and `viewBox="0 0 1in 50%"` are accepted.
- C128: the `mask` shorthand reads several layers wrongly: of `url(a) alpha, url(b) luminance` the second layer is lost and `mask-mode` becomes `alpha,`; of `border-box, padding-box` nothing is left; `mask: auto` (a size without solidus, invalid) is declared as size, and the shorthand then reads as empty; unknown words set all longhands to `initial`; `inherit none` is taken as `inherit`; `mask-border` is not reset (css/shorthands.py 145-206, 604-636).
- C129: `Font.cap_height` (unit `cap`) gives the vertical advance of H instead of its height, and raises `AttributeError` for fonts without H and h because `FTSize` has no `height`; without `x` or `0` the measures of the glyph for missing characters are used instead of half an em; on vertical lines with turned digits `ch` is the advance downwards; with upright letters `ic` is one em although the ideograph is there; `ascent` and `descent` are font units divided by 64 and do not depend on the size; equal fonts can measure differently, since the writing mode is not compared (core.py 635-736, freetype.py 862-874).
- C130: an element with a font size, stroke width, tab size or geometry attribute (`<rect width="2ex">`) in `ex`, `cap`, `ch` or `ic` raises `RecursionError`: the length builds a `Font` for the element, which takes its computed style, which computes the length again; percentages of `inline-size` refer to 100 pixels and `em` to 16 pixels on every element, since the length has no context (dom.py 1795-1861, core.py 629-633, 1407-1413).
- C131: `ensure_pre_insertion_validity` does not look for ancestors nor for a second root element; `append(a, attr)` raises but has added `a`; `prepend(attr)` raises and the text of the element is gone, since it is cleared before the check; `extend(generator)` reads the generator in its check and then adds nothing; `element.remove_child(None)` removes `element` from its parent (dom.py 694-712, 1596-1619, 1730-1739, 2195-2228, 2238-2251).
- C132: `get_bbox()` and `get_path_data()` of a `<tspan>` or `<textPath>` give the box and the outlines of the whole `<text>` around it, since the characters are collected from the nearest text element and not restricted to the element (text.py 42-49, 506-523, 658-682), unlike `get_chars()`; settings of a wrong class are only refused when there is something to draw.
- C30: of properties that are not inherited (`opacity`, `filter`, `clip-path`, `transform`, …) only presentation attributes are looked at, so that `style="opacity: 0.5"` and style sheets have no effect on the computed style (dom.py 1922-1924); the initial value of `mask` is `no` instead of `none` (dom.py 1912).
- C133: `get_property_priority` of a shorthand passes over longhands that are not declared: with `font-synthesis-weight: none !important` alone, `font-synthesis` is reported as important (css/shorthands.py 55-71).
- C134: `SVGElementClassLookup` goes by the local name whatever the namespace (an XHTML `style`, `title`, `script` or `a` becomes an SVG object, a foreign `rect` an `SVGRectElement`, an SVG `video` an `HTMLVideoElement`; element.py 1187-1192), and `clipPath`, `foreignObject`, `mesh` and `switch` are commented out of the table; `create_element_ns` does not hand its `nsmap` to `QualifiedName` (element.py 1335), so `create_element_ns(uri, 'p:name', nsmap={'p': uri})` is a `NamespaceError`; it writes a default namespace into the dictionary of the caller, even when it then fails (1333-1334); `create_document(None, '{http://www.w3.org/2000/svg}svg')` is an `application/xml` document with an SVG root (window.py 798-803).
- C135: `_parse_css_style_value` takes the descriptor of a registered custom property from `css_property_descriptor_map`, where it never is (css/types.py 508-517), so after `register_property` any value is taken for it whatever its syntax.
- C136: `DOMException(name='IndexSizeError')`, `'InvalidAccessError'` and `'TypeMismatchError'` have the code 0 although the class has the constants 1, 15 and 17 for them (exception.py 193-213).

## Axioms each theorem depends on

Printed by `#print axioms` for every theorem of `MANIFEST.json`.

**propext, Classical.choice, Quot.sound** (774): `Ancestors.ctm_none`, `Ancestors.ctm_partial`, `Ancestors.lookups`, `Ancestors.owner_nested_violated`, `Ancestors.owner_outermost`, `Ancestors.owner_partial`, `Ancestors.screenCtm_partial`, `Ancestors.screenCtm_root_violated`, `Ancestors.screenCtm_violated`, `Ancestors.viewBox_own`, `Ancestors.viewBox_spec`, `ArcCurves.ellipse_violated`, `ArcCurves.normalize_arcs_partial`, `ArcCurves.rect_normalized`, `ArcCurves.round_normalized`, `Aspect.none_slice_violated`, `Aspect.parse_keyword_partial`, `Aspect.parse_pair_partial`, `Aspect.parse_tostring_partial`, `Aspect.parse_unknown`, `Aspect.xMinYMid_violated`, `Aspect.zoom_default`, `Aspect.zoom_roundtrip`, `AttrLists.geometry_partial`, `AttrLists.lengths_sound_partial`, `AttrLists.rotate_spec`, `AttrLists.space_violated`, `AttrLists.viewbox_few`, `AttrLists.viewbox_partial`, `AttrLists.viewbox_violated`, `AttrMap.history_unique`, `AttrMap.owned_violated`, `AttrMap.write_empty_violated`, `Bezier.bbox_contains_partial`, `Bezier.bbox_contains_slanted`, `Bezier.bbox_exact`, `Bezier.bbox_flat_violated`, `Bezier.curve_bbox`, `Bezier.extremum`, `Bezier.roots_complete`, `Bezier.tight_isBoundingBox`, `BidiText.bidi_order_partial`, `BidiText.nested_violated`, `CachedText.text_partial`, `CachedText.text_stale`, `CachedText.text_violated`, `CaseMap.get_after_set`, `CaseMap.run_observe`, `CaseMap.run_outputs`, `CompStyle.computed_spec`, `CompStyle.computed_total`, `CompStyle.font_unit_violated`, `CompStyle.inline_violated`, `CompStyle.recursion_violated`, `CompStyle.synthesis_spec`, `Components.fv_garbage_violated`, `Components.fv_mixed_violated`, `Components.fv_normal_none`, `Components.fv_order`, `Components.fv_round_trip_partial`, `Components.fv_set`, `Components.fv_split_violated`, `Components.fv_wide`, `Components.ov_dropped_violated`, `Components.ov_round_trip_partial`, `Components.ov_set`, `Components.ov_three`, `Components.ov_unknown_violated`, `Components.ov_wide`, `Components.td_case_violated`, `Components.td_dropped_violated`, `Components.td_garbage_violated`, `Components.td_order`, `Components.td_round_trip_partial`, `Components.td_set`, `Components.td_two_wides`, `Components.td_wide`, `Content.append_move_violated`, `Content.append_text_violated`, `Content.insertBefore_self`, `Content.prepend_partial`, `Content.remove_partial`, `Content.remove_tail_violated`, `Content.replace_tail_violated`, `Content.setTextContent_spec`, `Content.textContent_comment_violated`, `Content.textContent_link_violated`, `Content.textContent_partial`, `CssEscape.escape_injective`, `CssEscape.escape_no_control`, `CssEscape.readName_escape`, `CssEscape.startsIdent_escape`, `CssTree.group_insert_partial`, `CssTree.link_mirrors`, `CssTree.parents_partial`, `CssTree.places_unique`, `CssTree.sheet_insert_partial`, `CssTree.style_mirrors`, `DataUrl.content_type_spec`, `DataUrl.document_spec`, `DataUrl.document_text_violated`, `DataUrl.flag_case_violated`, `DataUrl.load_default`, `DataUrl.load_nothing`, `DataUrl.load_spec`, `DataUrl.no_mime_violated`, `DataUrl.parameter_violated`, `DataUrl.query_violated`, `Dataset.convertKey_convertName_iff_partial`, `Dataset.convertName_injective_partial`, `Dataset.convertName_spec`, `Dataset.del_spec`, `Dataset.get_set_partial`, `Dataset.get_spec`, `Dataset.keys_set_only_partial`, `Dataset.keys_set_partial`, `Dataset.roundtrip_violated`, `Dataset.set_empty_violated`, `Dataset.shared_name_violated`, `Decl.get_after_set`, `Decl.lowerLike_ascii`, `Decl.readonly_unchanged`, `Decl.run_refines`, `Decl.step_raises_iff`, `DocChildren.append_spec`, `DocChildren.history_proper`, `DocChildren.insertBefore_spec`, `DocChildren.insert_spec`, `DocChildren.prepend_partial`, `DocChildren.replace_partial`, `DomError.code_deprecated_violated`, `DomError.code_partial`, `DomError.construct_keyword`, `DomError.construct_spec`, `ElementBox.element_box_holds_partial`, `ElementBox.element_box_partial`, `ElementBox.flat_box_violated`, `ElementBox.group_box_partial`, `ElementBox.marker_box_violated`, `ElementBox.root_box`, `ElementBox.shape_box_violated`, `ElementBox.turned_box_violated`, `ElementBox.use_order_violated`, `ElementBox.use_transform_violated`, `EllipsePoint.point_along`, `EllipsePoint.point_on`, `EllipsePoint.point_onto`, `EllipsePoint.point_turn`, `FTMatrix.array_iff`, `FTMatrix.array_raises`, `FTMatrix.eq_iff_act`, `FTMatrix.flip_act`, `FTMatrix.ft_close`, `FTMatrix.ft_round_trip`, `FTMatrix.inverse_iff`, `FTMatrix.inverse_raises`, `FTMatrix.multiply_act`, `FTMatrix.names_violated`, `FTMatrix.new_act`, `FTMatrix.ofFT_act`, `FTMatrix.rotate_act`, `FTMatrix.rotate_full`, `FTMatrix.rotate_rotate`, `FTMatrix.scale_act`, `FTMatrix.set_get`, `FTMatrix.skew_act`, `Factory.class_missing_violated`, `Factory.class_other`, `Factory.class_partial`, `Factory.class_update`, `Factory.class_violated`, `Factory.document_empty`, `Factory.document_fails`, `Factory.document_no_implementation`, `Factory.document_root`, `Factory.document_type`, `Factory.document_type_violated`, `Factory.element_braced`, `Factory.element_no_namespace`, `Factory.element_nsmap`, `Factory.element_plain`, `Factory.map_kept_partial`, `Factory.map_written_violated`, `Factory.prefix_partial`, `Factory.prefix_violated`, `Factory.svg_document`, `FeatureValues.negative_violated`, `FeatureValues.no_block_violated`, `FeatureValues.open_setting_violated`, `FeatureValues.settings_partial`, `FeatureValues.two_numbers_violated`, `FeatureValues.values_sound`, `Features.features_spec`, `Features.wants_unique`, `FontMatch.best_exists`, `FontMatch.candidates_best`, `FontMatch.chosen_face`, `FontMatch.css_face_partial`, `FontMatch.css_weight_violated`, `FontMatch.css_width_violated`, `FontMatch.fallback_iff`, `FontMatch.family_without_text`, `FontMatch.other_stretch_fallback`, `FontMeasure.ascent_violated`, `FontMeasure.ask_stable`, `FontMeasure.cap_missing_violated`, `FontMeasure.cap_violated`, `FontMeasure.ch_missing_violated`, `FontMeasure.ch_spec`, `FontMeasure.ch_turned_violated`, `FontMeasure.ch_upright`, `FontMeasure.eq_equiv`, `FontMeasure.eq_violated`, `FontMeasure.ex_missing_violated`, `FontMeasure.ic_missing`, `FontMeasure.ic_spec`, `FontMeasure.ic_upright_violated`, `FontMeasure.ic_vertical`, `FontMeasure.line_spec`, `FontMeasure.scale_spec`, `FontMeasure.sizeAfter_total`, `FontMeasure.size_exact`, `FontMeasure.size_spec`, `FontMeasure.unit_spec`, `FontMeasure.x_height_spec`, `FontShorthand.case_violated`, `FontShorthand.font_get_needs`, `FontShorthand.font_get_wide`, `FontShorthand.font_order`, `FontShorthand.font_round_trip_partial`, `FontShorthand.font_set_partial`, `FontShorthand.font_wide`, `FontShorthand.font_wide_get`, `FontShorthand.incomplete_violated`, `FontShorthand.line_height_violated`, `FontShorthand.normal_violated`, `FontShorthand.two_wides_violated`, `FontStyle.em_compounds`, `FontStyle.inherit_partial`, `FontStyle.inherit_violated`, `FontStyle.keywords_default`, `FontStyle.keywords_factor`, `FontStyle.keywords_medium`, `FontStyle.keywords_order`, `FontStyle.keywords_violated`, `FontStyle.larger_partial`, `FontStyle.line_partial`, `FontStyle.line_violated`, `FontStyle.mixed_violated`, `FontStyle.own_violated`, `FontStyle.relative_partial`, `FontStyle.size_minimum`, `FontStyle.smaller_partial`, `FontStyle.style_violated`, `FontStyle.weight_order`, `FontStyle.weight_partial`, `FontStyle.weight_violated`, `FontText.family_quoted`, `FontText.family_violated`, `FontText.features_partial`, `FontText.features_violated`, `FontText.font_partial`, `FontText.font_system`, `FontText.font_violated`, `FontText.variant_none`, `FontText.variant_partial`, `FontText.variant_violated`, `Formatter.format_eq_iff`, `Formatter.format_neat`, `Formatter.format_precision_zero`, `Formatter.format_read`, `GlyphRun.drawn_exact`, `GlyphRun.drawn_stands`, `GlyphRun.length_add`, `GlyphRun.run_places`, `GlyphRun.short_list_violated`, `GlyphRun.skipped_value_violated`, `GlyphRun.sub_length`, `GlyphRun.text_places_partial`, `GlyphRun.tspan_length_violated`, `GlyphRun.whole_length`, `InlineShorthand.attribute_restores_style`, `InlineShorthand.no_text_violated`, `InlineShorthand.plainly_value`, `InlineShorthand.priority_lost_violated`, `InlineShorthand.style_follows_history`, `InlineShorthand.written_attribute_read`, `InlineShorthand.ws_sane`, `InlineStyle.inline_style_history_partial`, `InlineStyle.inline_style_violated_capitals`, `InlineStyle.inline_style_violated_colon`, `InlineStyle.inline_style_violated_priority`, `InlineStyle.inline_style_violated_stale`, `InlineStyle.priority_not_written`, `InlineStyle.remove_last_partial`, `InlineStyle.remove_returns_partial`, `InlineStyle.removed_attribute_still_read`, `Length.add_absolute`, `Length.add_no_context`, `Length.add_partial`, `Length.add_percent_violated`, `Length.agree_absolute`, `Length.convertNumber_mixed`, `Length.convertNumber_partial`, `Length.convert_partial`, `Length.divNum_partial`, `Length.divNum_zero`, `Length.eq_iff`, `Length.eq_trans_violated`, `Length.isabsolute_iff`, `Length.lt_asymm`, `Length.neg_partial`, `Length.roundtrip_partial`, `Length.scale_partial`, `Length.scale_violated`, `Length.size_absolute`, `Length.size_pos`, `Length.sub_partial`, `Length.symm_partial`, `Length.symm_units_partial`, `Length.symm_violated`, `Length.to_font_unit_violated`, `Length.trichotomy`, `Length.twoStep_partial`, `Length.value_pixels`, `LengthText.accepted_partial`, `LengthText.no_number`, `LengthText.no_unit`, `LengthText.read_length`, `LengthText.read_none`, `LengthText.read_number`, `LengthText.refused`, `LengthText.rest_violated`, `LengthText.space_violated`, `LengthText.write_read`, `LengthText.write_read_exact`, `LengthText.write_read_number`, `Ligature.ligature_places_partial`, `Ligature.lists_follow_partial`, `Lookup.by_class_name_partial`, `Lookup.by_tag_name`, `Lookup.by_tag_name_ns_partial`, `Lookup.dot_violated`, `Lookup.found_unique`, `Lookup.none_violated`, `Lookup.tab_violated`, `Mask.border_violated`, `Mask.box_list_violated`, `Mask.get_spec`, `Mask.layers_violated`, `Mask.no_solidus_violated`, `Mask.round_trip`, `Mask.set_all`, `Mask.set_order`, `Mask.set_spec`, `Mask.two_wides`, `Mask.unknown_violated`, `Mask.wide_mixed_violated`, `Mask.wide_spec`, `MaskBorder.comma_violated`, `MaskBorder.fill_first_violated`, `MaskBorder.get_spec`, `MaskBorder.mask_after_violated`, `MaskBorder.no_width_violated`, `MaskBorder.round_trip`, `MaskBorder.set_spec`, `MaskBorder.two_wides`, `MaskBorder.two_wides_after`, `MaskBorder.unknown_violated`, `MaskBorder.wide_mixed_violated`, `MaskBorder.wide_spec`, `MathPrint.negate_text_violated`, `MathPrint.parenless_minus_violated`, `MathPrint.parenless_text_violated`, `MathPrint.plain_text_partial`, `MathPrint.readsAs_unique`, `MathPrint.text_partial`, `MathText.calc_partial`, `MathText.max_operators_violated`, `MathText.max_sum_violated`, `MathText.nested_minus_violated`, `MathText.nested_sum_violated`, `MathText.operand_partial`, `MathText.parentheses_violated`, `MathText.subtracted_product_violated`, `Matrix.copying_eq`, `Matrix.flip_apply`, `Matrix.flip_flip`, `Matrix.fromArray_tolist`, `Matrix.fromMatrix_tojson`, `Matrix.invert_spec`, `Matrix.isidentity_iff`, `Matrix.multiply_apply`, `Matrix.multiply_assoc`, `Matrix.multiply_ident`, `Matrix.multiply_point`, `Matrix.objects_independent`, `Matrix.ofInit_refused_iff`, `Matrix.ofInit_values`, `Matrix.parts_2d`, `Matrix.parts_3d_partial`, `Matrix.parts_3d_scale`, `Matrix.parts_3d_violated`, `Matrix.reachable_is2d`, `Matrix.rotateAxisAngle_apply`, `Matrix.rotateAxisAngle_back`, `Matrix.rotateFromVector_apply`, `Matrix.rotate_apply`, `Matrix.rotate_back`, `Matrix.scale_apply`, `Matrix.scale_fixes`, `Matrix.scale_origin`, `Matrix.set_spec`, `Matrix.skew_apply`, `Matrix.toFloatArray_flag`, `Matrix.transformPoint_2d`, `Matrix.transformPoint_spec`, `Matrix.translate_apply`, `Matrix.translate_back`, `MediaFeatures.angle_quarters`, `MediaFeatures.aspect_partial`, `MediaFeatures.boolean_partial`, `MediaFeatures.device_aspect_violated`, `MediaFeatures.fraction_violated`, `MediaFeatures.media_type`, `MediaFeatures.numeric_partial`, `MediaFeatures.orientation_partial`, `MediaFeatures.orientation_violated`, `MediaFeatures.range_partial`, `MediaFeatures.square_violated`, `MediaFeatures.unit_mismatch`, `MediaFeatures.zero_height_violated`, `MediaFeatures.zero_width_violated`, `MediaList.append_append`, `MediaList.history_set_partial`, `MediaList.insert_violated`, `MediaList.setText_duplicate_violated`, `MediaParse.and_not_violated`, `MediaParse.empty_violated`, `MediaParse.glued_and_violated`, `MediaParse.inner_space_violated`, `MediaParse.media_text_meaning_partial`, `MediaParse.nested_not_violated`, `MediaParse.nested_violated`, `MediaParse.newline_violated`, `MediaParse.no_space_violated`, `MediaParse.parse_meaning`, `MediaParse.type_or_violated`, `MediaParse.unclosed_violated`, `MediaQuery.evalCompare_numeric_iff`, `MediaQuery.matchList_iff_partial`, `MediaQuery.plainOp_plain`, `MediaQuery.plainOp_prefix`, `Navigation.blank_violated`, `Navigation.blob_origin`, `Navigation.document_replaced`, `Navigation.error_leaves`, `Navigation.failed_load_violated`, `Navigation.fragment_violated`, `Navigation.leading_zero_violated`, `Navigation.location_shown`, `Navigation.opaque_origin`, `Navigation.origin_text`, `Navigation.refused_keeps`, `Navigation.refused_violated`, `Navigation.same_origin`, `NumType.add_comm_partial`, `NumType.add_order`, `NumType.add_partial`, `NumType.mul_comm_partial`, `NumType.mul_partial`, `OwnerDoc.comment_violated`, `OwnerDoc.moved_root_violated`, `OwnerDoc.owner_ends`, `OwnerDoc.owner_in_document_partial`, `OwnerDoc.removed_violated`, `OwnerDoc.unowned_violated`, `PathData.assigned_exact_partial`, `PathData.assigned_nothing`, `PathData.assigned_partial`, `PathData.empty_spec`, `PathData.length_partial`, `PathData.normalized_partial`, `PathData.outside_spec`, `PathData.settings_refused_partial`, `PathData.settings_violated`, `PathData.span_violated`, `PathData.text_box_partial`, `PathData.text_normalized_partial`, `PathData.text_path`, `PathData.written_spec_partial`, `PathGeom.absolute_draw`, `PathGeom.arcCentre_none_iff`, `PathGeom.arcCentre_some`, `PathGeom.arc_extent`, `PathGeom.arc_on_ellipse`, `PathGeom.normalize_arc_violated`, `PathGeom.normalize_draw_partial`, `PathGeom.normalize_mixed_violated`, `PathGeom.normalize_smooth_violated`, `PathGeom.toAbs_none`, `PathGeom.toAbs_step`, `PathGeom.transformSeg_special`, `PathGeom.transform_arc_violated`, `PathGeom.transform_draw_partial`, `PathGeom.transform_horizontal_error`, `PathGeom.transform_horizontal_violated`, `PathLength.arcLength_spec`, `PathLength.ellipse_length`, `PathLength.strokeLength_cubic`, `PathLength.strokeLength_quad`, `PathLength.totalLength_close_violated`, `PathLength.totalLength_partial`, `PathText.parse_close_violated`, `PathText.parse_flags_violated`, `PathText.parse_written_partial`, `PathText.roundtrip_exact_partial`, `PathText.roundtrip_rounded_partial`, `PathText.roundtrip_violated`, `Points.read_odd`, `Points.read_points`, `Points.write_read`, `Points.write_read_exact`, `QName.resolve_brace_violated`, `QName.resolve_braced_conflict`, `QName.resolve_name`, `QName.resolve_prefixed`, `Rect.adjust_violated`, `Rect.contains_iff_partial`, `Rect.contains_segment_violated`, `Rect.intersect_disjoint_violated`, `Rect.intersect_no_common_area`, `Rect.intersect_points_partial`, `Rect.isvalid_iff_interior`, `Rect.normalize_idem`, `Rect.normalize_spec`, `Rect.transform_isBoundingBox_iff_partial`, `Rect.transform_no_area`, `Rect.transform_violated`, `Rect.translate_spec`, `Rect.uniteAll_isBoundingBox_partial`, `Rect.uniteAll_perm_partial`, `Rect.unite_isBoundingBox_partial`, `Rect.unite_segment_is_near_corner`, `Rect.unite_segment_violated`, `Registry.chosen_builtin`, `Registry.chosen_unregistered_partial`, `Registry.refused_iff`, `Registry.registered_spec`, `Registry.registered_syntax_ignored`, `Registry.registered_syntax_violated`, `SearchParams.name_violated`, `SearchParams.percent_violated`, `SearchParams.plus_violated`, `SearchParams.query_partial`, `SearchParams.round_trip`, `SearchParams.setter_violated`, `SearchParams.text_injective`, `ShapeBox.circle_box`, `ShapeBox.line_box_violated`, `ShapeBox.polyline_box_partial`, `ShapeBox.rect_box`, `ShapeBox.rect_element_box`, `ShapeBox.round_box`, `ShapeLength.circle_length`, `ShapeLength.circumference_circle`, `ShapeLength.ellipse_length`, `ShapeLength.line_length`, `ShapeLength.polygon_length`, `ShapeLength.polyline_length`, `ShapeLength.rect_length`, `ShapeLength.rect_length_none`, `Shapes.circle_drawn`, `Shapes.ellipse_auto_violated`, `Shapes.ellipse_drawn_partial`, `Shapes.line_drawn`, `Shapes.polygon_drawn`, `Shapes.polyline_drawn`, `Shapes.rect_drawn`, `Shapes.rect_radii`, `Shapes.round_drawn`, `Shapes.rounded_drawn`, `Shapes.square_drawn`, `Shapes.used_size`, `Shorthand.fsGet_fsSet`, `Shorthand.fsGet_fsSet_wide`, `Shorthand.fsGet_iff`, `Shorthand.fsSet_longhands`, `Shorthand.priority_all_partial`, `Shorthand.priority_missing_violated`, `Shorthand.wsGet_iff`, `Shorthand.wsGet_undescribed`, `Shorthand.wsGet_wsSet`, `Shorthand.wsGet_wsSet_wide`, `Shorthand.wsSet_longhands`, `Shorthand.wsSet_other`, `Shorthand.wsSet_unknown`, `Shorthand.wsSet_wide`, `Style.display_none_iff`, `Style.flattenRules_spec`, `Style.inherited_nearest_partial`, `Style.inherited_returns`, `Style.own_mask_violated`, `Style.own_rule_violated`, `Style.own_value_partial`, `StyleMap.contains_violated`, `StyleMap.get_after_set`, `StyleMap.history`, `StyleMap.nothing_violated`, `StyleMap.readonly_kept`, `StyleMap.set_raises_iff`, `StyleMap.set_spec`, `StyleMap.shorthand_violated`, `StyleParse.empty_item_violated`, `StyleParse.not_list_violated`, `StyleParse.parse_first`, `StyleParse.parse_iff`, `StyleParse.parse_length`, `StyleParse.parse_multi_iff`, `StyleParse.parse_refused`, `StyleParse.parse_toString`, `StyleParse.trailing_comma_violated`, `StyleParse.transform_violated`, `StyleSheets.case_violated`, `StyleSheets.missing_href_violated`, `StyleSheets.preload_violated`, `StyleSheets.rules_partial`, `StyleSheets.sheets_partial`, `StyleSheets.type_violated`, `StyleSheets.used_iff_partial`, `StyleText.styleToDict_dictToStyle`, `SumValue.add_value`, `SumValue.equals_iff`, `SumValue.equals_refl_partial`, `SumValue.equals_symm`, `SumValue.equals_violated`, `SumValue.product_powers`, `SumValue.sumValue_defined`, `SumValue.sumValue_linear`, `SumValue.sumValue_partial`, `SumValue.sumValue_violated`, `SumValue.toSum_order_violated`, `SumValue.toSum_partial`, `SumValue.to_defined`, `SumValue.to_partial`, `SumValue.to_power_violated`, `Syntax.anything_violated`, `Syntax.block_violated`, `Syntax.calc_violated`, `Syntax.case_violated`, `Syntax.comma_violated`, `Syntax.count_violated`, `Syntax.frequency_violated`, `Syntax.star_iff`, `Syntax.string_violated`, `Syntax.support_iff`, `Syntax.support_partial`, `Syntax.support_total`, `Syntax.support_type`, `Syntax.supports_iff`, `Syntax.supports_partial`, `Syntax.unitless`, `TextChars.chars_of_none`, `TextChars.comment_violated`, `TextChars.empty_violated`, `TextChars.link_violated`, `TextChars.nested_violated`, `TextContent.cr_violated`, `TextContent.first_partial`, `TextContent.inserted_violated`, `TextContent.line_words_partial`, `TextContent.normal_partial`, `TextContent.pieces_exist`, `TextContent.pre_after_violated`, `TextContent.pre_line_partial`, `TextContent.pre_violated`, `TextContent.unescaped_violated`, `TextRuns.directions_partial`, `TextRuns.one_direction_partial`, `TextRuns.text_kept`, `TokenList.add_nbsp_violated`, `TokenList.history_nodup_partial`, `TokenList.membership_partial`, `TokenList.remove_duplicate_violated`, `TokenList.remove_spec`, `TokenList.replace_spec`, `TokenList.toggle_returns_partial`, `TokenList.toggle_spec`, `Transform.consolidate_other`, `Transform.consolidate_spec`, `Transform.listMatrix_spec`, `Transform.listMatrix_unknown`, `TransformSeq.history_partial`, `TransformSeq.initialize_violated`, `TransformSeq.refused`, `TransformSeq.sequence_partial`, `TransformText.parse_adjacent_violated`, `TransformText.parse_calls`, `TransformText.parse_garbage_violated`, `TransformText.roundtrip_exact`, `TransformText.roundtrip_rounded`, `TreeWalk.child_nodes_spec`, `TreeWalk.element_siblings_spec`, `TreeWalk.siblings_spec`, `UnitValue.compare_spec`, `UnitValue.eq_laws`, `UnitValue.eq_not_transitive`, `UnitValue.names`, `UnitValue.order_laws`, `UnitValue.to_back`, `UnitValue.to_defined_iff`, `UnitValue.to_quantity`, `UnitValue.to_to`, `Unparsed.members_partial`, `Unparsed.members_violated`, `Unparsed.references`, `Unparsed.setItem_violated`, `Unparsed.text_partial`, `Unparsed.text_violated`, `Url.authority_spec`, `Url.base_frame`, `Url.base_partial`, `Url.base_violated`, `Url.host_error_violated`, `Url.host_partial`, `Url.host_spec`, `Url.hostname_spec`, `Url.hostname_violated`, `Url.href_fresh`, `Url.href_host`, `Url.href_partial`, `Url.href_violated`, `Url.ipv6_spec`, `Url.path_no_dots`, `Url.path_partial`, `Url.path_violated`, `Url.port_spec`, `Url.protocol_violated`, `Url.read_violated`, `Url.reference_partial`, `Url.reference_text`, `Url.reference_violated`, `Url.text_partial`, `Url.text_port_violated`, `Url.text_query_violated`, `UsePath.child_transform_violated`, `UsePath.cycle_violated`, `UsePath.hidden_violated`, `UsePath.link_violated`, `UsePath.path_acyclic`, `UsePath.path_ends`, `UsePath.path_exists_partial`, `UsePath.path_shows_partial`, `UsePath.symbol_size_violated`, `UsePath.symbol_violated`, `UsePath.transformed_shows_partial`, `UsePath.undef_violated`, `UsePath.use_shows_partial`, `UsePath.use_transform_violated`, `UsePath.used_transform_violated`, `Validity.append_half_violated`, `Validity.extend_children`, `Validity.remove_none_violated`, `Viewport.matrixNoBox_spec`, `Viewport.matrix_fits_partial`, `Viewport.matrix_mixed_violated`, `Viewport.matrix_uniform_violated`, `Viewport.matrix_units_violated`, `ViewportSize.em_violated`, `ViewportSize.endless_violated`, `ViewportSize.viewport_partial`, `ViewportSize.vmax_violated`, `ViewportSize.vw_violated`, `ViewportSize.x_violated`

**propext, Quot.sound** (111): `AttrMap.free_object`, `AttrMap.get_reads`, `AttrMap.new_attr`, `AttrMap.other_attributes`, `AttrMap.removeAttribute_keeps`, `AttrMap.remove_keeps`, `AttrMap.set_object`, `AttrMap.toggle_spec`, `AttrMap.write_object`, `BidiText.offset_violated`, `Content.append_partial`, `Content.insertBefore_spec`, `Content.insert_spec`, `Content.replace_partial`, `Content.replace_self`, `CssText.normalizeText_canonical`, `CssText.normalizeText_idem`, `CssText.normalizeText_of_canonical`, `CssTree.deleted_parent_violated`, `CssTree.group_delete`, `CssTree.imported_parent_violated`, `CssTree.insert_index_violated`, `CssTree.insert_nothing_violated`, `CssTree.sheet_delete`, `Decl.reads_refine`, `DocChildren.remove_partial`, `DocChildren.remove_root_violated`, `DocChildren.replace_root_partial`, `DocChildren.replace_root_violated`, `Features.precedence_violated`, `FontMeasure.eq_iff`, `FontText.family_partial`, `GlyphRun.run_length`, `GlyphRun.text_length`, `GlyphRun.tspan_length_partial`, `Ligature.decomposed_violated`, `Ligature.last_violated`, `Ligature.later_violated`, `Ligature.rotation_lost_violated`, `Ligature.shift_lost_violated`, `Ligature.three_violated`, `Lookup.by_id`, `Lookup.by_local_name`, `MediaList.append_spec`, `MediaList.delete_append`, `MediaList.delete_gone_partial`, `MediaList.delete_spec`, `MediaList.getText_setText_getText`, `MediaList.insert_spec`, `MediaList.setText_getText_partial`, `MediaQuery.evalCompare_aspect_iff_partial`, `MediaQuery.evalCompare_aspect_lt_violated`, `MediaQuery.match_not_or_violated`, `MediaQuery.match_not_swaps`, `MediaQuery.match_not_violated`, `NumType.add_units_partial`, `NumType.construct_partial`, `NumType.invert_effect`, `NumType.negate_type`, `QName.resolve_name_injective_partial`, `QName.resolve_name_recovers_partial`, `Rect.adjust_edges`, `Rect.adjust_inverse_partial`, `Rect.contains_no_area`, `Rect.isvalid_iff_not_isempty`, `Rect.transpose_spec`, `Rect.transpose_transpose`, `Registry.supports_iff`, `SearchParams.get_del`, `SearchParams.get_set`, `Shorthand.priority_shared`, `Style.getCssStyle_error_iff`, `Style.getCssStyle_spec`, `StyleMap.delete_spec`, `StyleMap.getAll_spec`, `StyleMap.has_iff`, `StyleMap.pop_spec`, `StyleParse.items_exist`, `StyleText.dictToStyle_perm`, `StyleText.styleToDict_colon_dropped`, `TextChars.chars_ink_partial`, `TextChars.chars_of_partial`, `TextChars.chars_ok_partial`, `TextChars.chars_start_partial`, `TokenList.add_spec`, `TokenList.inadmissible_error`, `TokenList.setTokens_none_iff`, `TokenList.tokens_setTokens`, `TransformSeq.sum_partial`, `TreeWalk.ends_have_no_siblings`, `TreeWalk.iter_partial`, `TreeWalk.iter_tags_violated`, `TreeWalk.parent_partial`, `TreeWalk.root_parent_violated`, `TreeWalk.walk_complete`, `TreeWalk.walk_spec`, `Unparsed.extend_spec`, `Unparsed.setItem_effect`, `Unparsed.setItem_partial`, `Validity.above_violated`, `Validity.append_first_partial`, `Validity.extend_allowed`, `Validity.extend_once_violated`, `Validity.insertion_partial`, `Validity.leaf_refuses`, `Validity.prepend_text_violated`, `Validity.removal_spec`, `Validity.remove_spec`, `Validity.second_root_violated`, `Validity.single_allowed`, `Validity.single_refused_partial`

**propext** (37): `AttrMap.get_absent`, `AttrMap.setItemStr_spec`, `AttrMap.set_in_use`, `AttrMap.write_element`, `CachedText.change_spec`, `Content.textContent_other`, `CssText.normalizeText_words`, `CssTree.import_cycle_violated`, `CssTree.load_acyclic`, `CssTree.load_ends`, `DocChildren.append_first`, `Length.cap_violated`, `Length.classes_partial`, `MediaList.append_empty_violated`, `MediaQuery.evalCompare_aspect_eq_violated`, `NumType.add_comm_violated`, `NumType.add_percent_violated`, `NumType.invert_violated`, `NumType.mul_percent_violated`, `Registry.run_raised`, `Style.display_override_violated`, `Style.font_and_family_violated`, `Style.font_system_violated`, `Style.marker_violated`, `StyleMap.get_first`, `TextContent.other_partial`, `TextContent.pre_partial`, `TextRuns.astral_violated`, `TransformSeq.extend_violated`, `TransformSeq.sum_violated`, `TreeWalk.ends_spec`, `TreeWalk.root_spec`, `TreeWalk.walk_unique`, `Validity.exception_keyword`, `Validity.exception_spec`, `Validity.sibling_allowed`, `Validity.sibling_refused`

**none** (4): `Content.prepend_order_violated`, `DocChildren.prepend_violated`, `StyleMap.append_violated`, `Unparsed.setItem_type`
