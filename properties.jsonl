{"id": "C01", "title": "Rectangle union is the smallest enclosing rectangle", "statement": "Uniting two rectangles yields a rectangle that contains every point of both and is contained in every rectangle that contains both; uniting a whole list of rectangles (the way element bounding boxes are accumulated) yields the bounding box of all of them, whatever the order.", "quantifier": "all pairs and all finite lists of rectangles, including zero-width and zero-height ones", "why_tests_cant": "Four real coordinates per rectangle and any number of rectangles; the failing inputs are degenerate shapes that a sampled test rarely picks.", "anchors": ["svgpy/geometry/rect.py:DOMRect.unite_self", "svgpy/geometry/rect.py:DOMRectReadOnly.unite", "svgpy/base.py:SVGGraphicsElement.get_bbox"]}
{"id": "C02", "title": "Rectangle intersection is exactly the common area", "statement": "Intersecting two rectangles yields exactly the set of points that belong to both; when they have no common area the result is an empty rectangle.", "quantifier": "all pairs of rectangles", "why_tests_cant": "Infinitely many relative positions; a handful of overlap examples does not rule out a wrong branch for the disjoint case.", "anchors": ["svgpy/geometry/rect.py:DOMRect.intersect_self"]}
{"id": "C03", "title": "Transformed rectangle bounds the image of the rectangle", "statement": "Applying a 2D affine matrix to a rectangle yields a rectangle that contains the image of every point of the original, and no smaller axis-aligned rectangle does.", "quantifier": "all rectangles with non-negative sizes and all 2D affine matrices", "why_tests_cant": "The result depends on which corner is extremal, which depends on signs of four matrix entries; the claim ranges over all reals.", "anchors": ["svgpy/geometry/rect.py:DOMRect.transform_self"]}
{"id": "C04", "title": "Rectangle containment, validity and adjustment laws", "statement": "A rectangle is valid exactly when it is not empty; containment answers exactly whether all points of the argument are inside; normalising keeps the same point set and makes sizes non-negative; transposing twice, or translating/adjusting by an offset and then by its opposite, gives the original back.", "quantifier": "all rectangles and offsets", "why_tests_cant": "Universal algebraic laws over real coordinates.", "anchors": ["svgpy/geometry/rect.py:DOMRectReadOnly.contains", "svgpy/geometry/rect.py:DOMRectReadOnly.isempty", "svgpy/geometry/rect.py:DOMRectReadOnly.isvalid", "svgpy/geometry/rect.py:DOMRect.normalize", "svgpy/geometry/rect.py:DOMRect.adjust_self"]}
{"id": "C05", "title": "A matrix that reports itself 2D really is 2D", "statement": "Whatever sequence of constructors, component assignments and in-place operations produced a matrix, if is2d is true then all its 3D components have their 2D default values.", "quantifier": "all histories of matrix operations", "why_tests_cant": "The flag is maintained separately from the components, so it can only be validated over all operation sequences.", "anchors": ["svgpy/geometry/matrix.py:DOMMatrix", "svgpy/geometry/matrix.py:DOMMatrixReadOnly.is2d"]}
{"id": "C06", "title": "Matrix multiplication composes transformations", "statement": "Transforming a point by A.multiply(B) equals transforming it by B and then by A; multiplication is associative with the identity matrix neutral; operators, in-place and copying forms agree and the copying forms leave their operands unchanged.", "quantifier": "all matrices and points", "why_tests_cant": "Sixteen free real entries on each side; row/column confusions hide on symmetric examples.", "anchors": ["svgpy/geometry/matrix.py:DOMMatrix.multiply_self", "svgpy/geometry/matrix.py:DOMMatrixReadOnly.multiply", "svgpy/geometry/matrix.py:DOMMatrixReadOnly.transform_point"]}
{"id": "C07", "title": "Scaling, rotating and skewing about a point behave as documented", "statement": "Scaling with an origin keeps that origin fixed and scales distances from it; a translation followed by the opposite translation, a flip applied twice and a rotation followed by the opposite rotation restore the matrix.", "quantifier": "all matrices, origins, factors and angles", "why_tests_cant": "Real-valued parameters.", "anchors": ["svgpy/geometry/matrix.py:DOMMatrix.scale_self", "svgpy/geometry/matrix.py:DOMMatrix.translate_self", "svgpy/geometry/matrix.py:DOMMatrix.rotate_self", "svgpy/geometry/matrix.py:DOMMatrixReadOnly.flip_x"]}
{"id": "C08", "title": "Matrix serialisation round-trips and conflicting input is refused", "statement": "A matrix exported to a component dictionary or to a float list and imported again is the same matrix with the same is2d flag; an import in which the two names of one component disagree, or a matrix declared 2D carries a 3D component, is refused and never silently resolved.", "quantifier": "all matrices; all component dictionaries", "why_tests_cant": "The dictionary has 22 optional members giving an exponential number of present/absent combinations.", "anchors": ["svgpy/geometry/matrix.py:DOMMatrixReadOnly._init_from_matrix", "svgpy/geometry/matrix.py:DOMMatrixReadOnly.from_matrix", "svgpy/geometry/matrix.py:DOMMatrixReadOnly.from_float_array", "svgpy/geometry/matrix.py:DOMMatrixReadOnly.tojson"]}
{"id": "C09", "title": "A transform list acts as the composition of its items, and consolidation preserves it", "statement": "The matrix of a transform list is the product of the item matrices in list order; consolidating a non-empty list leaves exactly one matrix item with the same combined matrix; consolidating an empty list changes nothing and returns nothing.", "quantifier": "all finite lists of transform items of any kind", "why_tests_cant": "Unbounded list length.", "anchors": ["svgpy/transform.py:SVGTransformList.matrix", "svgpy/transform.py:SVGTransformList.consolidate"]}
{"id": "C10", "title": "Transform serialisation round-trips", "statement": "Serialising a transform list (including the shortened forms of rotate, scale and translate) and parsing the text again gives a list with the same combined effect.", "quantifier": "all lists of valid transform items whose numbers have at most six decimals", "why_tests_cant": "Text round trip over unbounded lists and all numbers.", "anchors": ["svgpy/transform.py:SVGTransform.tostring", "svgpy/transform.py:SVGTransformList.tostring", "svgpy/transform.py:SVGTransformList.parse"]}
{"id": "C11", "title": "Number formatting is faithful and canonical", "statement": "Formatting a number and reading the text back gives the number rounded to the configured number of decimals; the text has no trailing zeros, no dangling decimal point and never reads -0; equal rounded numbers give equal text.", "quantifier": "all numbers", "why_tests_cant": "Infinite domain, and the corner cases (-0, trailing zeros, carries) are sparse.", "anchors": ["svgpy/formatter.py:format_number_sequence"]}
{"id": "C12", "title": "Path data survives serialise-then-parse", "statement": "Writing a list of path segments to a string and parsing that string gives back the same segments in the same order.", "quantifier": "all finite lists of valid path segments", "why_tests_cant": "Unbounded lists and a text grammar in which repeated command letters are dropped.", "anchors": ["svgpy/path.py:PathParser.tostring", "svgpy/path.py:PathParser.parse", "svgpy/path.py:SVGPathSegment.tostring"]}
{"id": "C13", "title": "Converting path commands to absolute keeps the drawing", "statement": "The absolute form of each segment, used in sequence, draws the same curve as the original relative commands, for every starting point.", "quantifier": "all finite segment lists", "why_tests_cant": "The current point depends on the whole preceding history.", "anchors": ["svgpy/path.py:PathSegment.toabsolute", "svgpy/path.py:PathSegment.end"]}
{"id": "C14", "title": "Path normalisation keeps the drawing and only uses M, L, C and Z", "statement": "Normalised path data uses only the commands M, L, C and Z and describes exactly the same curve as the original path.", "quantifier": "all finite lists of segments that form a path", "why_tests_cant": "Smooth commands depend on the previous segment; unbounded history.", "anchors": ["svgpy/path.py:PathParser.normalize", "svgpy/path.py:PathSegment.normalize"]}
{"id": "C15", "title": "Transforming a path transforms its points", "statement": "Transforming path data by an affine matrix gives path data whose drawing is the image of the original drawing under the matrix.", "quantifier": "all finite segment lists and all affine matrices", "why_tests_cant": "The current point has to be tracked through every preceding segment.", "anchors": ["svgpy/path.py:PathParser.transform", "svgpy/path.py:PathSegment.transform"]}
{"id": "C16", "title": "Cubic curve bounds enclose the whole curve", "statement": "The box computed for a cubic Bezier curve contains the curve point for every parameter value between 0 and 1, and touches the curve on each side.", "quantifier": "all control points and all parameters in [0,1]", "why_tests_cant": "A continuum of parameters.", "anchors": ["svgpy/path.py:PathSegment.get_bbox", "svgpy/path.py:CubicBezierCurve"]}
{"id": "C17", "title": "Path bounding box encloses the path", "statement": "The bounding box of path data contains every point of every segment of the path.", "quantifier": "all finite normalised segment lists", "why_tests_cant": "Unbounded segment lists.", "anchors": ["svgpy/path.py:PathParser.get_bbox"]}
{"id": "C18", "title": "Case-insensitive mapping behaves as a map keyed by lower-cased names", "statement": "After any sequence of assignments, deletions and lookups, a case-insensitive mapping answers as a map indexed by the lower-cased key, its length is the number of distinct keys and iteration lists each key once in the spelling first used.", "quantifier": "all operation histories and keys", "why_tests_cant": "Two internal dictionaries must stay consistent through every history.", "anchors": ["svgpy/utils.py:CaseInsensitiveMapping"]}
{"id": "C19", "title": "Style attribute text round-trips", "statement": "Writing a property dictionary as a style attribute and parsing it gives the same dictionary; the text does not depend on insertion order.", "quantifier": "all dictionaries whose names and values contain no separator characters and no outer whitespace", "why_tests_cant": "Unbounded dictionaries and strings.", "anchors": ["svgpy/utils.py:dict_to_style", "svgpy/utils.py:style_to_dict"]}
{"id": "C20", "title": "Qualified names are resolved unambiguously", "statement": "Resolving a namespace and name yields a full name from which the same namespace and local part are recovered; two different (namespace, local name) pairs never share a full name; a prefix that contradicts the namespace is rejected.", "quantifier": "all namespace and name strings", "why_tests_cant": "Arbitrary strings with braces and colons.", "anchors": ["svgpy/utils.py:QualifiedName"]}
{"id": "C21", "title": "CSS identifier escaping is lossless", "statement": "CSS.escape turns any string into text that a CSS tokenizer reads back as one identifier with that string as its value (NUL becomes U+FFFD); distinct NUL-free strings never collide.", "quantifier": "all strings", "why_tests_cant": "All Unicode strings; context-dependent rules for leading digits and hyphens.", "anchors": ["svgpy/css/__init__.py:CSS.escape"]}
{"id": "C22", "title": "CSS text normalisation is canonical", "statement": "Normalising CSS text removes outer whitespace, line breaks and runs of spaces, keeps the sequence of all other characters, and normalising twice is the same as once.", "quantifier": "all strings", "why_tests_cant": "All strings.", "anchors": ["svgpy/css/__init__.py:normalize_text"]}
{"id": "C23", "title": "Resolving a URL against a base does not change the base", "statement": "Constructing a URL from a relative reference and a base URL object leaves the base object as it was.", "quantifier": "all references and base URLs", "why_tests_cant": "Aliasing defect visible only when the base is used again.", "anchors": ["svgpy/url.py:URL.__init__"]}
{"id": "C24", "title": "Assigning an invalid href leaves the URL untouched", "statement": "If assigning to href raises an error, every component of the URL reads as before.", "quantifier": "all URLs and all strings", "why_tests_cant": "Failure atomicity over all failing inputs and prior states.", "anchors": ["svgpy/url.py:URL.href", "svgpy/url.py:URL._parse_url"]}
{"id": "C25", "title": "URL host, hostname, port and href stay consistent", "statement": "After any sequence of assignments to protocol, host, hostname and port, host is the hostname followed by the port unless the port is the default of the current protocol, and href shows that host.", "quantifier": "all histories of component assignments", "why_tests_cant": "The host text is cached, so staleness only shows on particular histories.", "anchors": ["svgpy/url.py:URL.host", "svgpy/url.py:URL.port", "svgpy/url.py:URL.protocol", "svgpy/url.py:URL._parse_host"]}
{"id": "C26", "title": "Media query logic follows and/or/not", "statement": "A media query list matches when one of its queries does; 'and' is conjunction, 'or' is disjunction and 'not' negates the whole condition that follows, for every truth assignment of the media features.", "quantifier": "all query trees and all truth assignments of their features", "why_tests_cant": "Exponentially many assignments and unbounded trees.", "anchors": ["svgpy/css/mediaquery.py:match", "svgpy/css/mediaquery.py:_match_node"]}
{"id": "C27", "title": "Media feature ranges mean what they say", "statement": "A range or equality condition on a media feature (including chained ones and aspect ratios) holds exactly when the corresponding numeric comparisons hold.", "quantifier": "all numbers and comparison chains", "why_tests_cant": "Boundary equality cases over all values.", "anchors": ["svgpy/css/mediaquery.py:_eval_expr_compare"]}
{"id": "C28", "title": "Active style rules are exactly those whose enclosing media match, in source order", "statement": "Flattening style sheets yields precisely the plain rules all of whose enclosing import/media rules match, each as often as it occurs and in source order.", "quantifier": "all nestings of import and media rules", "why_tests_cant": "Unbounded nesting.", "anchors": ["svgpy/style.py:flatten_css_rules"]}
{"id": "C29", "title": "Cascade picks the last matching declaration, important declarations separately", "statement": "For every property the style computed from rules is the value of the last declaration among matching rules, and the important part is the last important one.", "quantifier": "all rule lists and elements", "why_tests_cant": "Unbounded rule lists and override patterns.", "anchors": ["svgpy/style.py:get_css_style"]}
{"id": "C30", "title": "Inherited style takes the nearest specified value", "statement": "For an inherited property the value is the one specified by the element itself, or else by its nearest ancestor that specifies a value other than 'inherit', or else the initial value; an element is hidden exactly when it or an ancestor resolves display to none.", "quantifier": "all ancestor chains and specified styles", "why_tests_cant": "Unbounded depth and three cascading sources per level.", "anchors": ["svgpy/dom.py:Element.get_inherited_style", "svgpy/dom.py:Element.isdisplay"]}
{"id": "C31", "title": "A declaration block behaves as an ordered map", "statement": "After any sequence of set, remove and read operations a CSS declaration block returns the last value and priority set, forgets removed properties, treats names case-insensitively except custom properties, ignores settings with an invalid priority, lists each property once, and a read-only block never changes.", "quantifier": "all operation histories", "why_tests_cant": "History-dependent state.", "anchors": ["svgpy/css/__init__.py:CSSStyleDeclaration"]}
{"id": "C32", "title": "White-space shorthand round-trips", "statement": "Setting the white-space shorthand to a keyword and reading it gives the keyword back, and its longhands are those the keyword stands for; a combination of longhands no keyword describes is never reported as a keyword.", "quantifier": "all keywords and all longhand combinations", "why_tests_cant": "Needs all combinations of longhand values, including arbitrary other strings.", "anchors": ["svgpy/css/shorthands.py:WhiteSpaceShorthand"]}
{"id": "C33", "title": "Media list operations keep the list a set", "statement": "Appending a medium never creates a duplicate and is idempotent, deleting removes it and fails if absent, item order is preserved and media_text round-trips.", "quantifier": "all operation histories", "why_tests_cant": "History-dependent.", "anchors": ["svgpy/css/__init__.py:MediaList"]}
{"id": "C34", "title": "Length conversion is consistent", "statement": "Converting a length to another unit and back gives the original number; converting in two steps equals converting in one; convert() does not change the length in pixels; resolution and length units are never mixed.", "quantifier": "all numbers, all units and all font/viewport contexts with positive sizes", "why_tests_cant": "All ordered pairs and triples of units times all contexts.", "anchors": ["svgpy/core.py:SVGLength.value", "svgpy/core.py:SVGLength.convert"]}
{"id": "C35", "title": "Length arithmetic agrees with arithmetic in pixels", "statement": "The pixel value of a sum or difference of lengths is the sum or difference of their pixel values, and scaling by a number scales the pixel value.", "quantifier": "all pairs of lengths in any units", "why_tests_cant": "All pairs of units; unitless operands take a different branch.", "anchors": ["svgpy/core.py:SVGLength.__add__", "svgpy/core.py:SVGLength.__sub__", "svgpy/core.py:SVGLength.__mul__"]}
{"id": "C36", "title": "Length comparison is a consistent order", "statement": "For any two comparable lengths exactly one of less, equal and greater holds, <= and >= are their unions with equal, and equality does not depend on the side an operand is on.", "quantifier": "all pairs of lengths", "why_tests_cant": "Tolerance effects show up only in tiny windows of values.", "anchors": ["svgpy/core.py:SVGLength.__eq__", "svgpy/core.py:SVGLength.__lt__", "svgpy/core.py:SVGLength.__ge__"]}
{"id": "C37", "title": "Every length unit is absolute, relative or a resolution", "statement": "Each supported unit belongs to exactly one of the three classes absolute, relative and resolution, and the absolute ones are exactly those whose pixel value is independent of the context.", "quantifier": "all supported units, all contexts", "why_tests_cant": "Context independence quantifies over all contexts.", "anchors": ["svgpy/core.py:SVGLength.isabsolute", "svgpy/core.py:SVGLength.isrelative", "svgpy/core.py:SVGLength.isresolution"]}
{"id": "C38", "title": "Typed CSS unit conversion is consistent", "statement": "Converting a unit value succeeds exactly between units of the same kind, preserves the quantity, is reversible and composes.", "quantifier": "all values and unit pairs", "why_tests_cant": "All numbers and pairs/triples of units.", "anchors": ["svgpy/css/types.py:CSSUnitValue.to", "svgpy/css/types.py:UnitType"]}
{"id": "C39", "title": "Typed CSS type algebra is sound", "statement": "The type of a product does not depend on operand order and multiplies dimensions; numbers, percentages and lengths cannot be added to each other without a percent hint; adding is symmetric.", "quantifier": "all numeric types", "why_tests_cant": "All integer powers of seven base types.", "anchors": ["svgpy/css/types.py:CSSNumericType.add_types", "svgpy/css/types.py:CSSNumericType.multiply_types"]}
{"id": "C40", "title": "Building a math value does not alter its operands", "statement": "Constructing a sum, product, negation, inversion, minimum, maximum or clamp from existing numeric values leaves the type and value of these operands as they were.", "quantifier": "all operand values and construction sequences", "why_tests_cant": "Aliased state visible only when operands are reused later.", "anchors": ["svgpy/css/types.py:CSSMathInvert.__init__", "svgpy/css/types.py:CSSMathNegate", "svgpy/css/types.py:CSSMathProduct"]}
{"id": "C41", "title": "Sum values compute the value of the expression", "statement": "Whenever a typed CSS expression can be reduced to a sum of unit terms, that sum evaluates to the same quantity as the expression for every assignment of sizes to units.", "quantifier": "all expression trees and all unit sizes", "why_tests_cant": "Unbounded expression trees.", "anchors": ["svgpy/css/types.py:CSSMathSum.create_sum_value", "svgpy/css/types.py:CSSMathProduct.create_sum_value", "svgpy/css/types.py:CSSNumericValue.to"]}
{"id": "C42", "title": "Typed CSS equality is an equivalence", "statement": "equals() holds exactly for structurally identical numeric values: every value equals itself and the answer does not depend on operand order.", "quantifier": "all expression trees", "why_tests_cant": "Unbounded trees.", "anchors": ["svgpy/css/types.py:CSSNumericValue.equals"]}
{"id": "C43", "title": "Unparsed values keep their text", "statement": "Splitting a component value list into text and var() references and serialising it again gives the original text.", "quantifier": "all nested token lists", "why_tests_cant": "Unbounded nesting.", "anchors": ["svgpy/css/types.py:CSSStyleValue._reify_component_values", "svgpy/css/types.py:CSSUnparsedValue.tostring", "svgpy/css/types.py:CSSVariableReferenceValue.tostring"]}
{"id": "C44", "title": "Assigning an item of an unparsed value replaces it", "statement": "Assigning to an index of an unparsed value replaces that item and leaves the number of items and all other items unchanged.", "quantifier": "all item lists and indices", "why_tests_cant": "Sequence contract for all lengths and indices.", "anchors": ["svgpy/css/types.py:CSSUnparsedValue.__setitem__"]}
{"id": "C45", "title": "Dataset keys round-trip", "statement": "Setting a dataset entry makes exactly that key appear in the dataset with that value, stored in the attribute the HTML naming rule prescribes; different keys never share an attribute.", "quantifier": "all admissible keys", "why_tests_cant": "All strings; hyphens, digits and capitals interact.", "anchors": ["svgpy/dom.py:DOMStringMap._convert_key", "svgpy/dom.py:DOMStringMap._convert_name"]}
{"id": "C46", "title": "Token lists behave as ordered sets", "statement": "After add a token is contained, after remove it is not, toggle flips membership and returns the new state, replace keeps position, other tokens are unaffected and no operation introduces a duplicate.", "quantifier": "all operation histories and attribute values", "why_tests_cant": "Depends on the full attribute text, including duplicates and unusual whitespace.", "anchors": ["svgpy/dom.py:DOMTokenList"]}
{"id": "C47", "title": "Attribute objects and element attributes stay in sync", "statement": "An attribute object attached to an element always reads the element's current value, writing through either side is seen by the other, a removed attribute object keeps the last value and no longer affects the element.", "quantifier": "all histories of attribute operations", "why_tests_cant": "Aliasing across histories.", "anchors": ["svgpy/dom.py:NamedNodeMap", "svgpy/dom.py:Attr"]}
{"id": "C48", "title": "append and prepend place content in the documented order", "statement": "append puts the given nodes and strings, in argument order, after all existing content; prepend puts them, in argument order, before all existing content.", "quantifier": "all existing contents and argument lists", "why_tests_cant": "Mixed text/element contents of any length.", "anchors": ["svgpy/dom.py:Element.append", "svgpy/dom.py:Element.prepend", "svgpy/dom.py:node_append_data", "svgpy/dom.py:node_prepend_data"]}
{"id": "C49", "title": "Text content is the text of the subtree in document order", "statement": "The text content of a text element is the concatenation of all character data in it and in its nested text content elements, in document order.", "quantifier": "all subtrees", "why_tests_cant": "Unbounded nesting.", "anchors": ["svgpy/dom.py:Element.text_content", "svgpy/dom.py:Element._get_text_content"]}
{"id": "C50", "title": "preserveAspectRatio text is understood", "statement": "Each alignment keyword defined by SVG, with or without meet/slice, parses to the corresponding alignment; serialising and parsing any setting gives the same setting.", "quantifier": "all alignments, meet/slice values and whitespace/comma separated texts", "why_tests_cant": "Arbitrary texts fall back to defaults, so a wrong table entry is silent.", "anchors": ["svgpy/base.py:SVGPreserveAspectRatio.parse", "svgpy/base.py:SVGPreserveAspectRatio.tostring"]}
{"id": "C51", "title": "viewBox fitting places the view box correctly in the viewport", "statement": "The viewport transformation maps the view box into the viewport (meet), over the whole viewport (slice) or exactly onto it (none), with uniform scale unless none, and aligned as requested.", "quantifier": "all positive viewport and view box sizes, all positions, alignments and meet/slice values", "why_tests_cant": "Continuum of sizes times all alignment modes.", "anchors": ["svgpy/base.py:SVGGraphicsElement.get_viewport_transformation_matrix"]}
{"id": "C52", "title": "Nearest and farthest viewport lookups return the right ancestor", "statement": "The nearest (farthest) svg or viewport element is the first (last) element on the path to the root with that name, the owner of the outermost svg element is none.", "quantifier": "all ancestor chains", "why_tests_cant": "Unbounded depth.", "anchors": ["svgpy/base.py:SVGElement.get_nearest_viewport_element", "svgpy/base.py:SVGElement.get_farthest_svg_element", "svgpy/base.py:SVGElement.owner_svg_element"]}
{"id": "C53", "title": "Relative font sizes are relative to the parent", "statement": "font-size larger is larger and smaller is smaller than the inherited size unless limited by the minimum font size; the computed size is never below the minimum.", "quantifier": "all ancestor chains and font-size values", "why_tests_cant": "Unbounded inheritance depth.", "anchors": ["svgpy/core.py:CSSUtils.compute_font_size"]}
{"id": "C54", "title": "font-variant keywords are distributed to the right longhands", "statement": "Parsing font-variant assigns each keyword to the one longhand it belongs to, in order, and longhands without a keyword are normal.", "quantifier": "all keyword sequences", "why_tests_cant": "Unbounded sequences.", "anchors": ["svgpy/core.py:CSSUtils.parse_font_variant"]}
{"id": "C55", "title": "Document child operations keep the other children", "statement": "Appending, inserting, replacing or removing a child of a document affects only that child: all other children stay, in order.", "quantifier": "all documents with comments and processing instructions around the root", "why_tests_cant": "Histories over unbounded child lists.", "anchors": ["svgpy/window.py:Document.append", "svgpy/window.py:Document.replace", "svgpy/window.py:Document.remove", "svgpy/window.py:Document.child_nodes"]}
{"id": "C56", "title": "Elliptical arc centre parameters describe the requested arc", "statement": "For an arc command whose radii are large enough, both the start and the end point lie on the ellipse with the computed centre, radii and rotation.", "quantifier": "all radii, rotations and end points", "why_tests_cant": "Real-valued trigonometric identity.", "anchors": ["svgpy/path.py:PathSegment.get_center_of_arc"]}
{"id": "C57", "title": "Font-synthesis shorthand round-trips", "statement": "Setting font-synthesis gives the two longhands its tokens stand for, in either order, and reading the shorthand gives the tokens back in canonical order exactly when both longhands are declared with one priority and a described combination.", "quantifier": "all token lists and all longhand combinations", "why_tests_cant": "Needs all combinations of longhand values, including arbitrary other strings.", "anchors": ["svgpy/css/shorthands.py:FontSynthesisShorthand"]}
{"id": "C58", "title": "Translation, rotation and scale can be read back from a matrix", "statement": "A matrix made by translating, then rotating, then scaling by positive factors reports that translation, those rotation angles and those factors.", "quantifier": "all translations, all angles in range and all positive factors, in the plane and in space", "why_tests_cant": "Needs trigonometric identities over all real angles.", "anchors": ["svgpy/geometry/matrix.py:DOMMatrixReadOnly.get_angle", "svgpy/geometry/matrix.py:DOMMatrixReadOnly.get_scale", "svgpy/geometry/matrix.py:DOMMatrixReadOnly.get_translate"]}
{"id": "C59", "title": "Transform attributes are read function by function", "statement": "A transform attribute made of transform functions with white space or a comma between them gives one item per function, in order, with the numbers written, in any notation the SVG grammar allows.", "quantifier": "all finite lists of calls, all spacings, all number notations", "why_tests_cant": "Unbounded texts; the parser is a pair of regular expressions that skip what they do not match.", "anchors": ["svgpy/transform.py:SVGTransformList.parse"]}
{"id": "C60", "title": "Path data text is read command by command", "statement": "Path data following the SVG grammar - any number notation, any white space and commas, repeated values after one letter - is read as exactly the segments it spells, in order.", "quantifier": "all finite path data texts of the grammar", "why_tests_cant": "Unbounded texts; the reader is two regular expressions that silently skip what they do not match.", "anchors": ["svgpy/path.py:PathParser.parse", "svgpy/path.py:PathParser.RE_PATH_SEGMENT_LIST"]}
{"id": "C61", "title": "The extent of an arc leads from its start to its end", "statement": "For an elliptical arc the computed start angle is the direction of the start seen from the centre; turning by the computed extent leads to the direction of the end; the turn is clockwise exactly if the sweep flag is set and at least half a turn if the large-arc flag is set, at most half a turn otherwise.", "quantifier": "all arcs with real parameters for which a centre is computed", "why_tests_cant": "Continuous parameters with four flag combinations and four quadrants for each end.", "anchors": ["svgpy/path.py:PathSegment.get_center_of_arc", "svgpy/path.py:get_angle"]}
{"id": "C62", "title": "The length of a path is the sum of the lengths of its strokes", "statement": "The total length of path data is the sum of the lengths of all lines, curves, arcs and closing lines it draws, whatever the notation (relative, smooth, horizontal, bearing); movetos add nothing.", "quantifier": "all path data beginning with a moveto, real coordinates", "why_tests_cant": "Unbounded segment lists, continuous coordinates and integrals along curves.", "anchors": ["svgpy/path.py:PathParser.get_total_length", "svgpy/path.py:PathSegment.get_length", "svgpy/path.py:CubicBezierCurve.get_length"]}
{"id": "C63", "title": "The length of an elliptical arc is the integral along the ellipse", "statement": "For positive radii, any start direction and any extent below a full turn, the computed length is the integral of the speed of the ellipse between the parameters of the two directions.", "quantifier": "all positive radii, start angles and extents", "why_tests_cant": "Real parameters; the code pieces the length together from quadrants with an elliptic integral.", "anchors": ["svgpy/path.py:Ellipse.get_length"]}
{"id": "C64", "title": "The current transformation matrix maps element coordinates to the viewport and the screen", "statement": "The screen matrix of an element applies all transforms and viewport mappings from the element up to the outermost svg element in order, then its zoom and pan; the matrix to the nearest viewport applies the transforms up to the nearest viewport element and its viewport mapping.", "quantifier": "all ancestor chains, transform lists and viewports", "why_tests_cant": "Unbounded nesting depth, real coordinates and order of matrix products.", "anchors": ["svgpy/base.py:SVGGraphicsElement._get_ctm", "svgpy/base.py:SVGGraphicsElement.get_ctm", "svgpy/base.py:SVGGraphicsElement.get_screen_ctm"]}
{"id": "C65", "title": "Inserting, replacing and removing a child leaves the rest of the content in place", "statement": "Inserting a node before a child puts it directly before that child; replacing puts the new node in the place of the old one; removing takes away that child only. Text and other children stay as they are, and nodes that are not children are refused.", "quantifier": "all contents, positions and nodes", "why_tests_cant": "Unbounded mixed content; text after a child is stored on the child itself, so operations can silently move or drop it.", "anchors": ["svgpy/dom.py:Element.insert", "svgpy/dom.py:Element.insert_before", "svgpy/dom.py:Element.replace", "svgpy/dom.py:Element.remove", "svgpy/dom.py:node_insert_before"]}
{"id": "C66", "title": "Comparison of typed CSS unit values is consistent", "statement": "Two unit values can be compared exactly if they are of the same kind; then they are equal exactly if their quantities agree up to the relative tolerance, and of less, equal and greater exactly one holds, whatever the units and the order of the operands.", "quantifier": "all units and real values", "why_tests_cant": "Real values; tolerance and conversion ratios interact and one side is converted into the unit of the other.", "anchors": ["svgpy/css/types.py:CSSUnitValue.__eq__", "svgpy/css/types.py:CSSUnitValue.__lt__", "svgpy/css/types.py:CSSUnitValue.normalize"]}
{"id": "C67", "title": "Converting a typed CSS expression keeps its quantity", "statement": "If a typed expression is converted to a unit or to a sum of units, the result has the requested units and stands for the same quantity; an expression whose units are all compatible with requested ones can be converted, whatever the order; add() gives the sum of its operands.", "quantifier": "all expression trees, units and sizes of units", "why_tests_cant": "Unbounded nesting, real values, and merging of terms by units.", "anchors": ["svgpy/css/types.py:CSSNumericValue.to", "svgpy/css/types.py:CSSNumericValue.to_sum", "svgpy/css/types.py:CSSNumericValue.add"]}
{"id": "C68", "title": "Members of an unparsed value are the references and the texts between them", "statement": "The references among the members of an unparsed value are the var() functions of the text outside fallbacks, in order, and between two of them there is at most one text, which is not empty.", "quantifier": "all nested token lists", "why_tests_cant": "Unbounded nesting of functions and references.", "anchors": ["svgpy/css/types.py:CSSStyleValue._reify_component_values"]}
{"id": "C69", "title": "The text of a typed CSS value shows its content", "statement": "After any changes of the value, the unit value or the items of a typed CSS value, its text shows the content it has then, whether it was constructed or parsed.", "quantifier": "all values and all sequences of changes", "why_tests_cant": "All histories of changes; the stale text shows only after parsing and changing.", "anchors": ["svgpy/css/types.py:CSSStyleValue.tostring", "svgpy/css/types.py:CSSKeywordValue.value", "svgpy/css/types.py:CSSUnitValue.value", "svgpy/css/types.py:CSSUnparsedValue.tostring"]}
{"id": "C70", "title": "Dot segments are removed from URL paths", "statement": "Assigning a path to a URL with a hierarchical protocol stores the path with its dot segments removed as in RFC 3986, 5.2.4: . disappears, .. removes the segment before it, other segments and the final slash are kept; the path is absolute.", "quantifier": "all paths, all URL objects", "why_tests_cant": "Unbounded numbers of segments and all combinations of dot segments and slashes.", "anchors": ["svgpy/url.py:URL.pathname"]}
{"id": "C71", "title": "Reading the text of a URL gives the same URL", "statement": "If the text of a URL object is assigned to any URL object, that object has the same protocol, user name, password, host name, port, path, query and fragment; user, host and port end at the first slash, question mark or number sign.", "quantifier": "all URL objects in normal form, all objects assigned to", "why_tests_cant": "All components vary independently, and delimiters in one component would move text into another.", "anchors": ["svgpy/url.py:URL.tostring", "svgpy/url.py:URL._parse_url", "svgpy/url.py:URL.search"]}
{"id": "C72", "title": "Relative references are resolved against the base", "statement": "A reference without protocol is resolved against the base as in RFC 3986, 5.2: a relative path takes the place of the last segment of the base path, an empty path keeps the path of the base, query and fragment are those of the reference, protocol, user, host and port those of the base unless the reference gives a host; a URL with a protocol is not taken for a reference.", "quantifier": "all references, all base URLs", "why_tests_cant": "Every component of reference and base may be present or absent; paths of any length.", "anchors": ["svgpy/url.py:URL.__init__"]}
{"id": "C73", "title": "An element without own font size has the font size of its parent", "statement": "The computed font size of an element without a font-size of its own equals the computed font size of its parent, whatever kind of value the ancestors use.", "quantifier": "all chains of ancestors and all their font sizes", "why_tests_cant": "Chains of any length; the inherited value is interpreted again for every descendant.", "anchors": ["svgpy/core.py:CSSUtils.compute_font_size", "svgpy/dom.py:Element.get_inherited_style"]}
{"id": "C74", "title": "Keywords for absolute font sizes are in order", "statement": "For every default font size the keywords from xx-small to xx-large give sizes in this order, medium is the default size, and outside the table the factors of CSS apply.", "quantifier": "all default font sizes", "why_tests_cant": "Real-valued default size with a table for some of them.", "anchors": ["svgpy/core.py:CSSUtils.compute_font_size"]}
{"id": "C75", "title": "Relative font weights follow CSS Fonts", "statement": "The computed weight of an element is the one of CSS Fonts 4 for the weights of its ancestors and its own: bolder and lighter are applied once to the weight of the parent, do not go in the wrong direction, and weights stay between 100 and 900.", "quantifier": "all chains of ancestors and all their font weights", "why_tests_cant": "Chains of any length with any mixture of relative and absolute weights.", "anchors": ["svgpy/core.py:CSSUtils.compute_font_weight"]}
{"id": "C76", "title": "Line heights refer to the font size", "statement": "The line height normal is 1.2 times the font size of the element, numbers, percentages and em multiply the font size of the element, other lengths are kept.", "quantifier": "all font sizes and line heights", "why_tests_cant": "Real values.", "anchors": ["svgpy/core.py:CSSUtils.compute_line_height"]}
{"id": "C77", "title": "The font shorthand is split into its parts", "statement": "A font shorthand written with any keywords, a size, optionally a line height, and any list of family names gives exactly these keywords, size, line height and names.", "quantifier": "all lists of keywords and names, all sizes and line heights", "why_tests_cant": "Unbounded lists; names with and without quotes; the parser works backwards from the end.", "anchors": ["svgpy/core.py:CSSUtils.parse_font"]}
{"id": "C78", "title": "Lists of font families give the names in order", "statement": "A list of family names separated by commas, each with or without quotes, gives the names in order without quotes and surrounding white space.", "quantifier": "all lists of names", "why_tests_cant": "Unbounded lists; quotes switch the parser for the whole list.", "anchors": ["svgpy/core.py:CSSUtils.parse_font_family"]}
{"id": "C79", "title": "Font feature settings give each tag its value", "statement": "A list of feature settings gives each tag the number of its last setting: 1 for on or nothing, 0 for off; invalid settings are ignored.", "quantifier": "all lists of settings", "why_tests_cant": "Unbounded lists with repeated tags.", "anchors": ["svgpy/core.py:CSSUtils.parse_font_feature_settings"]}
{"id": "C80", "title": "Circles and ellipses draw exactly their curve", "statement": "The path data of a circle or ellipse draws exactly the points of the ellipse with the centre and radii of its attributes, and nothing if a radius is not positive.", "quantifier": "all centres and radii in all units, all points of the plane", "why_tests_cant": "A statement about all points of the curve; percentages refer to different sizes for each attribute.", "anchors": ["svgpy/element.py:SVGCircleElement.get_path_data", "svgpy/element.py:SVGEllipseElement.get_path_data"]}
{"id": "C81", "title": "Rectangles draw exactly their border", "statement": "The path data of a rectangle draws exactly the border of the rectangle with the position and size of its attributes, whose corners are quarters of an ellipse with the given radii, limited to half of the size; and nothing if the width or height is not positive.", "quantifier": "all positions, sizes and radii in all units, all chains of inherited sizes, all points of the plane", "why_tests_cant": "A statement about all points of the border; auto and inherit have rules of their own.", "anchors": ["svgpy/element.py:SVGRectElement.get_path_data", "svgpy/core.py:CSSUtils.get_value"]}
{"id": "C82", "title": "Lines, polylines and polygons draw the lines between their points", "statement": "A line draws the straight line between its end points, a polyline the lines that join its points in turn, and a polygon also the line from its last to its first point.", "quantifier": "all lists of points, all points of the plane", "why_tests_cant": "Lists of any length.", "anchors": ["svgpy/element.py:SVGLineElement.get_path_data", "svgpy/element.py:SVGPolylineElement.get_path_data", "svgpy/element.py:SVGPolygonElement.get_path_data"]}
{"id": "C83", "title": "Curves that replace an arc stay close to it", "statement": "Normalised path data draws the same as the original, except that each elliptical arc is replaced by Bezier curves that join its ends, run through its directions as seen from the centre and differ from it by at most 0.03% of the distance from the centre.", "quantifier": "all path data with any arcs, all points of all curves", "why_tests_cant": "The error bound is about every real point of a curve, for every extent and number of pieces.", "anchors": ["svgpy/path.py:PathSegment.normalize", "svgpy/path.py:PathParser.normalize"]}
{"id": "C84", "title": "Bounding boxes of basic shapes", "statement": "The bounding box of a circle or ellipse has its centre at the centre and the diameters as sizes, that of a rectangle (with or without round corners) is the rectangle itself, and that of lines and polylines is the smallest box around their points.", "quantifier": "all positions, sizes and radii of the basic shapes in user units", "why_tests_cant": "The box is computed from Bezier curves that stand for arcs; that it is the exact box is a statement about all their points.", "anchors": ["svgpy/path.py:PathParser.get_bbox", "svgpy/element.py:SVGCircleElement.get_path_data", "svgpy/element.py:SVGRectElement.get_path_data"]}
{"id": "C85", "title": "Lengths of basic shapes", "statement": "The total length of a circle or ellipse whose radii are lengths is its circumference, that of a rectangle twice the sum of its sizes (with round corners the straight parts of the sides and the circumference of the ellipse the corners make up), that of a line the distance of its ends, and that of a polyline or polygon the sum of the distances of its points in turn.", "quantifier": "all positions, sizes and radii of the basic shapes above the comparison tolerance 1e-9 of the code", "why_tests_cant": "The length is the integral of the speed along arcs and lines, for every real size.", "anchors": ["svgpy/base.py:SVGGeometryElement.get_total_length", "svgpy/path.py:PathParser.get_total_length"]}
{"id": "C86", "title": "Bounding boxes of groups", "statement": "The bounding box of an element holds all points that the element and its displayed descendants draw, each under the transforms of the elements around it; it is the smallest such box if groups have only translations, scalings and quarter turns.", "quantifier": "all trees of elements of any depth and all transforms", "why_tests_cant": "Trees, transforms and shapes are unbounded; a test compares a few boxes.", "anchors": ["svgpy/base.py:SVGGraphicsElement.get_bbox", "svgpy/base.py:SVGGraphicsElement.get_transformed_path_data", "svgpy/element.py:SVGUseElement.get_path_data"]}
{"id": "C87", "title": "Math functions are read with their meaning", "statement": "Reading calc(), min(), max() or clamp() gives an expression whose value is the one CSS prescribes for the text: products and quotients before sums and differences, both from left to right, whatever the units.", "quantifier": "all expressions of any length and depth, all sizes of units", "why_tests_cant": "Operator precedence and nesting must be right for every sequence of operators; the parser changes a tree in place as it goes, and tests cover a few sequences.", "anchors": ["svgpy/css/types.py:CSSNumericValue.parse", "svgpy/css/types.py:CSSNumericValue._parse_math_expression", "svgpy/css/types.py:CSSNumericValue._reify_math_expression"]}
{"id": "C88", "title": "The text of a math value has its meaning", "statement": "The text of a typed CSS math value, read by the rules of CSS (precedence, grouping to the left, parentheses), stands for the quantity of the value.", "quantifier": "all expressions of any depth and all sizes of units", "why_tests_cant": "Parentheses must be right for every nesting of the seven classes.", "anchors": ["svgpy/css/types.py:CSSMathSum.tostring", "svgpy/css/types.py:CSSMathProduct.tostring", "svgpy/css/types.py:CSSMathNegate.tostring", "svgpy/css/types.py:CSSMathMax.tostring"]}
{"id": "C89", "title": "The size of the viewport of an element", "statement": "The viewport of an element is that of the nearest svg or symbol element around it: its width and height are lengths, percentages of the viewport around it, or all of that viewport; outside all of them it is the window; x and y place it in the viewport around it.", "quantifier": "all chains of ancestors, all sizes in all units, all sizes of the window", "why_tests_cant": "Viewports nest without bound and every size can have any of the units; the computation of a length asks back for the viewport.", "anchors": ["svgpy/base.py:SVGElement.get_viewport_size", "svgpy/core.py:SVGLength.value"]}
{"id": "C90", "title": "White space of text content", "statement": "With white-space normal or nowrap the words of a text are kept in order with one space for the white space between two of them (none where lines are joined between wide characters or at zero width spaces) and none at its ends; with pre-line this holds for every line; with pre and pre-wrap the text is kept; no white space appears where there is none.", "quantifier": "all texts, all values of white-space, any widths of characters", "why_tests_cant": "Six passes over the text each change what the next one sees; runs of blanks and line feeds can be of any length and mixed in any order.", "anchors": ["svgpy/core.py:CSSUtils.normalize_text_content"]}
{"id": "C91", "title": "The text of search parameters gives the parameters back", "statement": "The text of search parameters, read by the rules for form data of the URL Standard, gives every name with its value, in the order of the names, whatever characters they contain; a name has the value set last, and deleted names are gone.", "quantifier": "all search parameters built by any sequence of assignments and deletions, all characters", "why_tests_cant": "Every character outside a small set must be encoded byte by byte; a test sees a few characters.", "anchors": ["svgpy/url.py:URLSearchParams.tostring", "svgpy/url.py:URLSearchParams.__setitem__"]}
{"id": "C92", "title": "The query of a URL shows its search parameters", "statement": "The search text of a URL, read by the rules for form data of the URL Standard, gives the search parameters of the URL, and assigning a search text gives the parameters it means.", "quantifier": "all search parameters, all characters, all search texts", "why_tests_cant": "Whether a character survives depends on the set of characters left unquoted and on numeric character references in the text.", "anchors": ["svgpy/url.py:URL.search", "svgpy/url.py:quote_numeric_character_references"]}
{"id": "C93", "title": "The points attribute keeps its points", "statement": "Numbers in the points attribute, in any spelling and with any separators the grammar allows, are read as the points they stand for, an odd number of them as no points; points that are assigned are read again, rounded to the decimals that are written.", "quantifier": "all lists of points, all spellings of numbers, all separators, all precisions above zero", "why_tests_cant": "Numbers can follow each other without separator; whether they are told apart depends on the spelling of both.", "anchors": ["svgpy/base.py:SVGAnimatedPoints.points", "svgpy/formatter.py:format_coordinate_pair_sequence"]}
{"id": "C94", "title": "The text-decoration shorthand gives its words to the right longhands", "statement": "A text-decoration value made of words for line, style and colour in any order gives each longhand its words and resets the others; reading the shorthand gives the same words in canonical order; a CSS-wide keyword goes to all longhands; a value that is not valid changes nothing.", "quantifier": "all sequences of words, all orders of the groups, all earlier declarations and priorities", "why_tests_cant": "Each longhand takes what it supports from what the previous ones left over; whether every order works is a question about all interleavings.", "anchors": ["svgpy/css/shorthands.py:TextDecorationShorthand", "svgpy/css/shorthands.py:ShorthandProperty._parse_component_list"]}
{"id": "C95", "title": "The font-variant shorthand gives its words to the right longhands", "statement": "A font-variant value made of words for the six longhands in any order gives each longhand its words and makes the others normal; reading gives the same words in canonical order; normal, none and CSS-wide keywords are kept; a value that is not valid changes nothing.", "quantifier": "all sequences of words, all orders, all earlier declarations and priorities", "why_tests_cant": "Six longhands with dozens of keywords have far more orders than can be tried.", "anchors": ["svgpy/css/shorthands.py:FontVariantShorthand", "svgpy/css/shorthands.py:ShorthandProperty._parse_component_list"]}
{"id": "C96", "title": "The overflow shorthand sets both directions", "statement": "One keyword of overflow is for both directions, two are for the horizontal and the vertical one; reading the shorthand gives them back; CSS-wide keywords are kept; a value that is not valid changes nothing.", "quantifier": "all keywords, all earlier declarations and priorities, all token lists", "why_tests_cant": "The outcome depends on everything already declared in the block and on tokens the tests never contain.", "anchors": ["svgpy/css/shorthands.py:OverflowShorthand"]}
{"id": "C97", "title": "The text of a length is understood and can be read back", "statement": "A number in any spelling followed by a unit in any letter case, with white space around, is read as that number and unit; a number alone has no unit; the text a length writes is read back as the same unit and the number rounded to the decimals written, exactly when it has no more decimals than that.", "quantifier": "all numbers, spellings, units, letter cases, white space and precisions", "why_tests_cant": "The letter e is both an exponent and the start of units, numbers have unboundedly many spellings, and rounding must not change the unit or the reading.", "anchors": ["svgpy/core.py:SVGLength.parse", "svgpy/core.py:SVGLength._normalize", "svgpy/core.py:SVGLength.tostring"]}
{"id": "C98", "title": "Text that is no length is refused", "statement": "Text that is not a number with an optional known unit raises ValueError, and nothing else is raised.", "quantifier": "all texts", "why_tests_cant": "Tests can only try some wrong texts.", "anchors": ["svgpy/core.py:SVGLength.parse", "svgpy/core.py:SVGLength._normalize"]}
{"id": "C99", "title": "The addressable characters of a text element are those of its content", "statement": "get_chars of a text element has all characters of the displayed text in it, in document order, none lost, doubled or moved; only white space is changed and there is none at the start; the characters of a tspan are those of the text in it.", "quantifier": "all trees of text elements, texts, white-space values and characters", "why_tests_cant": "The white space of each piece depends on what was produced before it, so pieces interact over the whole tree.", "anchors": ["svgpy/text.py:SVGTextContentElement._get_descendant_chars", "svgpy/text.py:SVGTextContentElement._get_descendant_chars_info", "svgpy/text.py:SVGTextContentElement.get_chars", "svgpy/text.py:SVGTextContentElement.get_number_of_chars"]}
{"id": "C100", "title": "The inline style and the style attribute agree", "statement": "After any sequence of style.set_property, style.remove_property, reads and writes of the style attribute, reading a property through element.style gives the value and priority set last by either way, and the text of the style attribute spells out exactly the declared properties; removing the last property removes the attribute.", "quantifier": "all histories of operations, property names and values", "why_tests_cant": "Two stores (the declarations of the style object and the attribute) are reconciled at every access; whether they drift apart depends on the whole history.", "anchors": ["svgpy/css/__init__.py:CSSStyleDeclaration._declarations", "svgpy/css/__init__.py:CSSStyleDeclaration.set_property", "svgpy/css/__init__.py:CSSStyleDeclaration.remove_property", "svgpy/css/__init__.py:_StyleAttribute.update"]}
{"id": "C101", "title": "The text of a media query means what it says", "statement": "Parsing the text of a list of media queries yields one tree per query that is true under exactly the truth assignments that make the written query true: media types with not and only, features with and without values, min- and max- prefixes, one- and two-sided comparisons, conditions joined by and or by or. The list matches exactly when one of its queries is true, and parsing always comes to an end.", "quantifier": "all lists of queries with any number of features, names, values, spacing and truth assignments", "why_tests_cant": "The parser is a set of greedy regular expressions applied to each other's matches; whether they cut a text at the right places depends on everything that follows in it.", "anchors": ["svgpy/css/mediaquery.py:parse", "svgpy/css/mediaquery.py:_parse_media_query", "svgpy/css/mediaquery.py:_parse_media_in_parens", "svgpy/css/mediaquery.py:_parse_mf_range", "svgpy/css/mediaquery.py:match"]}
{"id": "C102", "title": "The nodes of a document belong to it", "statement": "After any sequence of append, insert, prepend, replace, addnext, addprevious, remove and creation of nodes on elements and documents, owner_document of every node in a document is that document, whether or not the Python objects of the nodes were kept; looking for the document always ends. A node outside of every document belongs to none.", "quantifier": "all trees, numbers of documents, sequences of operations and moments at which Python objects are dropped", "why_tests_cant": "Each node caches its document and falls back on its ancestors; whether a stale entry is ever met depends on the whole history and on garbage collection.", "anchors": ["svgpy/dom.py:Node.owner_document", "svgpy/dom.py:Element.attach_document", "svgpy/dom.py:Element.append", "svgpy/dom.py:Element.addnext", "svgpy/window.py:Document.append", "svgpy/window.py:Document.remove"]}
{"id": "C103", "title": "The font of a text is the best face of the first family that can show it", "statement": "The face chosen for a text belongs to the first family of font-family that has, among its best faces, one with glyphs for all characters of the text (other than white space); the fallback font is taken exactly if no family has. Best is decided by the width first, then the slant, the weight and the size; within a family the width and the weight are those CSS Fonts prescribes.", "quantifier": "all font libraries (families, faces, glyphs), all styles and texts", "why_tests_cant": "The choice is made by five narrowings over whatever fonts are installed; a test sees the handful of fonts of one machine.", "anchors": ["svgpy/core.py:FontManager._find_face", "svgpy/fontconfig.py:FontConfig.FC_WIDTH_MAP", "svgpy/fontconfig.py:FontConfig.FC_SLANT_MAP"]}
{"id": "C104", "title": "Lookups by id, class and name find exactly the matching elements", "statement": "get_element_by_id returns the first element in document order with the id, or None if there is none. get_elements_by_tag_name, get_elements_by_tag_name_ns, get_elements_by_local_name and get_elements_by_class_name return, each once and in document order, exactly the elements below (for documents and svg elements: and including) the element whose qualified name, namespace and local name, local name, or class list matches.", "quantifier": "all trees with comments and processing instructions, all names, ids and class attributes", "why_tests_cant": "Nothing bounds the shape of a document; missing or doubled elements and wrong order show only in particular trees, and the class test is a regular expression over arbitrary text.", "anchors": ["svgpy/utils.py:get_element_by_id", "svgpy/utils.py:get_elements_by_class_name", "svgpy/utils.py:get_elements_by_tag_name", "svgpy/utils.py:get_elements_by_tag_name_ns", "svgpy/dom.py:Element.get_elements_by_local_name"]}
{"id": "C105", "title": "The path data of groups and use elements are the outlines that they show", "statement": "get_path_data of a g, svg or use element, and get_transformed_path_data, return the outlines of everything that is shown below it or through its reference, in document order and in the coordinates of the element (or of its parent), with the transforms of the elements on the way; hidden elements add nothing. Where references run in a circle the call still ends.", "quantifier": "all documents with any nesting of groups, links, symbols and use elements and any references", "why_tests_cant": "Nesting and references are unbounded, and circles through groups and several use elements cannot be enumerated; lost or doubled transforms show only for particular combinations.", "anchors": ["svgpy/base.py:SVGGraphicsElement.get_descendant_path_data", "svgpy/base.py:SVGGraphicsElement.get_transformed_path_data", "svgpy/element.py:SVGUseElement.get_path_data", "svgpy/element.py:SVGGElement.get_path_data"]}
{"id": "C106", "title": "CSS rules stand where they are written and know where they stand", "statement": "The css_rules of a style sheet, of its @media rules and of the sheets behind its @import rules are the rules of the text in source order. However sheets are loaded and rules inserted and deleted, each rule stands at one place only, its parent_style_sheet is the sheet and its parent_rule the grouping rule (None at the top of a sheet) where it stands. insert_rule puts the rule at the index it returns and delete_rule removes the rule at the index, everything else stays; a wrong index is refused. Sheets that import each other do not hang the program.", "quantifier": "all texts, all webs of sheets that import each other, all sequences of loading, inserting and deleting", "why_tests_cant": "The links are an invariant of object graphs over arbitrarily long histories; nesting depth, import graphs and the order of edits are unbounded.", "anchors": ["svgpy/css/__init__.py:CSSParser.parse_rules", "svgpy/css/__init__.py:CSSParser.parse", "svgpy/css/__init__.py:CSSStyleSheet.insert_rule", "svgpy/css/__init__.py:CSSGroupingRule.insert_rule", "svgpy/css/__init__.py:CSSStyleSheet.delete_rule", "svgpy/css/__init__.py:CSSImportRule", "svgpy/css/__init__.py:CSSMediaRule"]}
{"id": "C107", "title": "Each glyph of a text stands where the attribute lists put it", "statement": "Glyph i of a text stands at the i-th value of x and y, or, after the last value, where the glyph before it ends, moved by the i-th dx and dy and by its own offset; children of a text element go on where the text before them ended, in position and in the lists; the i-th value of rotate, or the last one, turns it clockwise around its origin. Its outline is drawn there to 1/64 of a unit. The length of a part of the text is the sum of the advances, lengths of neighbouring parts add up, and the whole is the text length.", "quantifier": "all texts, all lists of x, y, dx, dy and rotate of any lengths, all glyphs, all angles", "why_tests_cant": "The position of a glyph depends on all glyphs before it and on lists that run out at different places; tests cover a few lists.", "anchors": ["svgpy/text.py:_get_text_path_data", "svgpy/text.py:_get_descendant_chars_info", "svgpy/text.py:get_sub_string_length", "svgpy/path.py:PathParser.from_glyph", "svgpy/freetype.py:FTMatrix"]}
{"id": "C108", "title": "The font shorthand declares its parts and can be read back", "statement": "A font value made of style, variant, weight and stretch in any order, a size with or without line height, and families sets each of the twelve longhands to the words written for it or to its initial value, with the given priority, and no other property; a CSS-wide keyword goes to all of them. Reading font gives the parts in the order of the syntax without initial values. There is a value only if all longhands have one with the same priority and no sub-property such as font-kerning was set afterwards; values that are no font change nothing.", "quantifier": "all values of the grammar, all declaration blocks, all priorities, all orders of the parts", "why_tests_cant": "Parts can be left out and stand in any order, families are open ended, and reading depends on the order of all other declarations; tests cover a few values.", "anchors": ["svgpy/css/shorthands.py:FontShorthand", "svgpy/css/shorthands.py:ShorthandProperty._parse_component_list", "svgpy/css/shorthands.py:ShorthandProperty._parse_css_declaration", "svgpy/css/shorthands.py:Shorthand.get_property_value", "svgpy/css/props.py:css_property_descriptor_map"]}
{"id": "C109", "title": "A property supports exactly the values that its syntax names", "statement": "A descriptor is built from the text of a syntax: terms (types, functions, keywords) with multipliers, combined with spaces, bars, double ampersands and brackets. A token is supported if and only if it is a CSS-wide keyword, a var() or belongs to a term of the syntax, wherever the term stands and whatever multiplier it has; the type that is reported is one of the syntax and fits the token, and a number without unit is taken as a length only where lengths but no numbers are allowed. A value is supported if all its tokens are, commas only where the syntax has lists, and a CSS-wide keyword only alone. No lookup fails.", "quantifier": "all syntaxes of the grammar, all tokens, all values", "why_tests_cant": "Syntaxes are an open language and are taken apart with regular expressions; a wrong split or prefix test shows only for certain combinations of terms and multipliers, and tests try a few descriptors.", "anchors": ["svgpy/css/props.py:PropertyDescriptor.__init__", "svgpy/css/props.py:PropertyDescriptor.support", "svgpy/css/props.py:PropertyDescriptor.supports", "svgpy/css/props.py:PropertySyntax"]}
{"id": "C110", "title": "A style map is an ordered map of declarations", "statement": "Setting values in a style map replaces the declaration of that name by their texts, separated by commas for list-valued properties and by spaces else, at the end and without priority; names count without case except for custom properties; all other declarations keep their values and order. Arguments of a wrong type, values of another property, and a variable reference that is not alone raise and change nothing; so does everything on a read-only block. What was set is what is read; deleting forgets that declaration only; has, in and get agree; no property is ever declared twice.", "quantifier": "all histories of settings and deletions, all arguments, all blocks", "why_tests_cant": "The map keeps no data of its own but works on the declaration block, with checks before and a deletion in between; what is left after an error or a second setting depends on the history.", "anchors": ["svgpy/css/types.py:StylePropertyMap.set", "svgpy/css/types.py:StylePropertyMap.delete", "svgpy/css/types.py:StylePropertyMap.append", "svgpy/css/types.py:StylePropertyMapReadOnly.get_all", "svgpy/css/types.py:StylePropertyMapReadOnly.has"]}
{"id": "C111", "title": "A property value is parsed into one style value per item", "statement": "Parsing the text of a property gives one style value for each item between commas, in order; its text is the words of the item with a space between them, numbers that stand for lengths get the unit px, and keywords that all properties share are in lower case. The class follows from the types of the words: keyword, image, url, number or plain value. A CSS-wide keyword has to be alone, and a word that the property does not support is refused with ValueError. A single value is written as the text it was parsed from, the values of a list as their own texts. Properties that take their lists as a whole have one value with the whole text.", "quantifier": "all properties, all lists of tokens, all descriptors", "why_tests_cant": "The class of a value depends on the property, the types of all its words and the number of items; tests cover a few of the combinations.", "anchors": ["svgpy/css/types.py:CSSStyleValue._parse_css_style_value", "svgpy/css/types.py:CSSStyleValue._reify_css_style_value", "svgpy/css/types.py:CSSStyleValue.parse", "svgpy/css/types.py:CSSStyleValue.tostring"]}
{"id": "C112", "title": "A data URL gives its data and its content type", "statement": "Loading a URL data:type;name=value;base64,data gives the data after the comma, percent-decoded and base64-decoded if the flag is set, and the type with its parameters as the content type; the fragment does not matter, and without a type it is ASCII text. The content type is understood as the type and the last value of each parameter without case. A document in such a URL is decoded with its charset, UTF-8 if there is none.", "quantifier": "all media types, parameters, data and fragments", "why_tests_cant": "The text goes through URL parsing, splitting at several signs and a mapping without case; each combination of parameters takes another way.", "anchors": ["svgpy/utils.py:load", "svgpy/utils.py:get_content_type", "svgpy/window.py:SVGDOMImplementation.parse", "svgpy/css/__init__.py:CSSParser.fromurl"]}
{"id": "C113", "title": "Glyph matrices compose as linear maps with the y axis up", "statement": "The four numbers of an FTMatrix act on points as FreeType defines it. A product applies the right factor first, scaling, flipping, rotating and skewing are applied before the rest, rotations and skews are those of SVG seen with the y axis upwards, rotations add up, the inverse exists exactly for matrices that do not flatten the plane and undoes them. Lists of numbers and FreeType structures go through unchanged; other numbers lose less than 1/65536, towards zero.", "quantifier": "all matrices, angles, factors, points and FreeType structures", "why_tests_cant": "Signs and transpositions agree on symmetric examples; the laws speak of all matrices.", "anchors": ["svgpy/freetype.py:FTMatrix", "svgpy/freetype.py:matrix2d"]}
{"id": "C114", "title": "Font keywords turn on and off the features of CSS Fonts", "statement": "For a style whose font-kerning and font-variant values are valid, the features handed to the shaper are exactly those that CSS Fonts names for its keywords, with the values on or off, and those of font-feature-settings; no feature appears twice, and font-feature-settings have the last word.", "quantifier": "all styles with valid values of the seven properties and any font-feature-settings", "why_tests_cant": "The keywords of seven properties combine freely; tests can only try a few of the combinations.", "anchors": ["svgpy/opentype.py:features_from_style"]}
{"id": "C115", "title": "The mask-border shorthand declares its parts and can be read back", "statement": "A value of mask-border gives its parts in any order, each at most once, widths behind a solidus after the slices and outsets behind a solidus after the widths. Setting it gives every longhand its part, and initial to those that are not given; other declarations stay. Reading the shorthand gives the parts in canonical order, and setting that text again gives the same longhands. A CSS-wide keyword is given to all the longhands and read back; two of them are refused.", "quantifier": "all values in all orders with any white space, all blocks of declarations and priorities", "why_tests_cant": "The parts are found one after the other in what the earlier ones left over; each order and each combination of parts takes another way through the loop.", "anchors": ["svgpy/css/shorthands.py:MaskBorderShorthand", "svgpy/css/shorthands.py:Shorthand._parse_component_list"]}
{"id": "C116", "title": "The style attribute of an element follows its style, shorthands included", "statement": "Whatever is set and removed through element.style, longhands and shorthands in any order and with any priorities, reading a longhand or a shorthand gives what the history says, and the style attribute spells the style out: a shorthand whenever its longhands can be written as one, the longhands otherwise, never both. An element that has only that attribute, such as one read from the saved document, has the same style. An attribute written by other means that has the properties declared so far is read instead of them.", "quantifier": "all histories of settings, removals and readings, all values, all shorthands whose longhands belong to no other shorthand", "why_tests_cant": "The block and the attribute are two copies of the same data that are compared and merged at each access; each step depends on what all the earlier ones left in both.", "anchors": ["svgpy/css/__init__.py:_StyleAttribute", "svgpy/css/__init__.py:CSSStyleDeclaration"]}
{"id": "C117", "title": "The document is the one at the address of the location", "statement": "Whatever has been assigned to document.location or its fields before, with errors or without: after an assignment that raises no error, the location is the one asked for (the field replaced and nothing else; an address resolved against the old location, or against the working directory from about:\u2026), and the document is the one loaded from exactly this address, with nothing of the old one. An assignment that raises an error changes neither.", "quantifier": "all histories of assignments and reloads, all texts, all outcomes of loading", "why_tests_cant": "Location and document are changed in separate steps, each of which can fail; which of them has happened depends on the address, on the history and on the network.", "anchors": ["svgpy/url.py:Location", "svgpy/window.py:Document.navigate", "svgpy/utils.py:normalize_url"]}
{"id": "C118", "title": "Two addresses have the same origin exactly if scheme, host and port agree", "statement": "Network addresses have the same origin exactly if scheme, host name and used port are the same, where a missing port is that of the scheme; nothing else of the address matters. Files, data and other schemes have no origin (null), a blob that of the address in it.", "quantifier": "all URL objects whose host agrees with host name and port, all host names and ports", "why_tests_cant": "That different origins have different texts is a statement about pairs of addresses; a test compares finitely many.", "anchors": ["svgpy/url.py:URL.origin"]}
{"id": "C119", "title": "A ligature takes the position of its first character", "statement": "When the font joins characters to one glyph, the glyph takes the x, y and rotation of its first character, those of the other characters are dropped, their shifts move the next glyph, and every later glyph and line keeps the values of its own characters.", "quantifier": "all lists of positions, shifts and rotations, all divisions of a line into single characters and ligatures", "why_tests_cant": "The lists are shortened at indexes computed from cluster numbers, once per ligature; each removal shifts the index of all later values, so that the outcome depends on the whole line.", "anchors": ["svgpy/text.py:SVGTextContentElement._get_text_path_data"]}
{"id": "C120", "title": "Text in two directions stands in the order of the bidirectional algorithm", "statement": "The glyphs of a text with words in both directions stand one beside the other, without gaps or overlaps, in the order of rule L2 of the Unicode bidirectional algorithm; the text begins at its start, the next text goes on at its other end, and its box is as wide as its glyphs.", "quantifier": "all sequences of runs, lines and glyphs, all advances, offsets and starts, both directions of the text", "why_tests_cant": "Each run is first drawn in its own direction and then moved by its width, and the lines of opposite runs are drawn in reverse order; whether all this yields the right order depends on any number of runs and lines and on the unions of their boxes.", "anchors": ["svgpy/text.py:SVGTextContentElement._get_text_path_data", "svgpy/geometry/rect.py:DOMRect.translate_self"]}
{"id": "C121", "title": "A text is divided into runs and lines without loss", "statement": "The runs of one direction and their lines, which are shaped and drawn one by one, hold together every character of the text exactly once and unchanged, no line is empty, and every character stands in a run of its own direction.", "quantifier": "all texts, all levels and line breaks that ICU may give", "why_tests_cant": "ICU counts UTF-16 units and Python counts characters; positions go back and forth between the two, and whether characters are lost depends on every combination of characters, levels and breaks.", "anchors": ["svgpy/text.py:SVGTextContentElement._get_text_path_data", "svgpy/icu.py:UBiDi.get_logical_run", "svgpy/icu.py:UBreakIterator.__next__"]}
{"id": "C122", "title": "A document uses the style sheets that it names and that apply", "statement": "The style sheets of a document are the built-in one, then those of its xml-stylesheet instructions, then those of its link and style elements, each in document order; a sheet is used exactly if it is no alternative, its address leads out of the document, its type is CSS and its media hold, and one element that names no sheet does not affect the others. The rules for the elements are those of these sheets, in this order.", "quantifier": "all sequences of instructions and elements, all attributes, all windows and no window", "why_tests_cant": "Whether a sheet is used depends on five attributes at once, of which most combinations are never tested, and the order of rules depends on all sheets together.", "anchors": ["svgpy/style.py:get_css_style_sheets", "svgpy/style.py:get_css_style_sheet_from_element", "svgpy/style.py:get_css_style_sheets_from_xml_stylesheet", "svgpy/style.py:get_css_rules", "svgpy/window.py:Document.style_sheets"]}
{"id": "C123", "title": "Media features describe the window and its screen", "statement": "A media query about a feature is answered from the window it is asked of: width and height are those of the viewport, aspect-ratio is their quotient, orientation is portrait exactly if the viewport is at least as high as wide, resolution is the pixel ratio of the screen times the zoom, the device features are those of the screen, a feature alone holds if its value is not zero, and a media type holds if it is all or that of the screen. The angle of the screen is a number of quarter turns, which exchange its sides.", "quantifier": "all sizes of viewport and screen, all angles, depths and zooms, all features, operators and values", "why_tests_cant": "The sizes, angles and thresholds are unbounded numbers, and the answers differ just at equality, at zero and at fractions of pixels.", "anchors": ["svgpy/window.py:MediaQueryList.matches", "svgpy/window.py:_mql_compare", "svgpy/css/screen.py:ScreenOrientation.angle", "svgpy/css/screen.py:ScreenOrientation.type", "svgpy/css/mediaquery.py:_eval_expr_name"]}
{"id": "C124", "title": "The font-feature-values rule gives each name its numbers", "statement": "Of a rule @font-feature-values, the mapping of a feature (annotation, character-variant, ornaments, styleset, stylistic, swash) has for a name, whatever its case, the numbers of the last setting of this name in the blocks of the feature, it lists the names in the order in which they first occur, and it has no others. Unknown blocks and other rules do not matter. Whatever the content, the numbers of a name are one or more, not negative, and stand in this order in a block of the feature that has the name.", "quantifier": "all contents of the rule, any number of blocks, settings and numbers with any white space between, all tokens", "why_tests_cant": "The loop keeps a name and a list between tokens, so that what is stored depends on all tokens before; contents are unbounded sequences.", "anchors": ["svgpy/css/__init__.py:CSSFontFeatureValuesRule._parse_content"]}
{"id": "C125", "title": "Moving about in the tree reaches every node once, in document order", "statement": "child_nodes of an element or the document are all nodes directly below it in order, with first_child and last_child at the ends and children, first_element_child, last_element_child and child_element_count the same for its elements. next_sibling and previous_sibling are inverse to each other and step through the child nodes; the element siblings are the nearest elements on either side. A node is among the child nodes of another exactly if that is its parent node. Walking by first_child, next_sibling and parent_node from any node visits the node and everything below it, each once and in document order, and then ends. Document.iter gives all nodes of the document, with tags only the elements that have one of them, in document order.", "quantifier": "all documents of any shape with comments and processing instructions anywhere, also beside the root; all nodes; all walks", "why_tests_cant": "The claims relate several operations over trees of unbounded depth and width, and are about walks of unbounded length.", "anchors": ["svgpy/dom.py:Node", "svgpy/dom.py:Element.child_nodes", "svgpy/dom.py:ParentNode", "svgpy/window.py:Document.child_nodes", "svgpy/window.py:Document.iter"]}
{"id": "C126", "title": "A transform list is a list of transform objects", "statement": "SVGTransformList holds the transform objects put into it, the same objects and in order: after any sequence of operations (append, insert, get, replace, remove, slices, clear, initialize, +=, reverse, remove by value) its content and the results are those of a plain list, with Python's negative indexes. Arguments that are no transforms, indexes out of range and missing values are refused with TypeError, IndexError and ValueError, and an operation that is refused leaves the list as it was. The sum of a list and other transforms has the values of both in order and is independent of the operands.", "quantifier": "all lists, all arguments, all indexes, all sequences of operations", "why_tests_cant": "Sequences of operations are unbounded, and indexes have corner cases at both ends for lists of every length.", "anchors": ["svgpy/transform.py:SVGTransformList"]}
{"id": "C127", "title": "Attributes that are lists give the numbers written in them", "statement": "The attributes x, y, dx, dy and rotate of a text element give the values of their items in order, lengths in pixels with the right direction, angles as numbers, whether the items are separated by white space, a comma or both, and with white space around the list; missing attributes give nothing, but x and y of a text element are then zero. The viewBox gives its four numbers with their directions, nothing if it is missing, and is refused if it is not four numbers. Lists with items that are no lengths or numbers are refused.", "quantifier": "all attribute texts: any number of items, all spellings of numbers, all units, all separators", "why_tests_cant": "Lists, spellings and separators are unbounded.", "anchors": ["svgpy/text.py:SVGTextContentElement.get_computed_geometry", "svgpy/base.py:SVGFitToViewBox.view_box"]}
{"id": "C128", "title": "The mask shorthand declares its parts and can be read back", "statement": "Setting mask to a layer with image, position and size behind a solidus, repetition, one or two boxes or no-clip, compositing operator and mode, in any order and with any white space, gives each longhand its part and initial to those that are not given; one box is for origin and clipping, of two boxes the first is the origin; other properties stay and mask-border is reset. The shorthand then reads as the parts in the order of the longhands, and setting this text declares the same again. CSS-wide keywords are given to all longhands; invalid values are ignored; several layers separated by commas are allowed.", "quantifier": "all values: parts in any order, any words and white space, all declaration blocks", "why_tests_cant": "Orders, words, white space and blocks are unbounded.", "anchors": ["svgpy/css/shorthands.py:MaskShorthand.set_css_declaration", "svgpy/css/shorthands.py:MaskShorthand.tostring", "svgpy/css/shorthands.py:ShorthandProperty._parse_component_list"]}
{"id": "C129", "title": "Font units are the measures of the font of the element", "statement": "A font is opened at the font size of the element and the resolution of the screen, to 1/48 of a pixel. The unit ex is the height of the letter x, cap that of the capitals, ch the advance of the digit zero and ic that of the water ideograph, along the line of text; without such glyph a share of the em is used. The measures grow with the size. What was asked of a font before, and sizes it had before, do not matter. Fonts are equal when they agree in family, size, adjustment, stretch, style and weight; equal fonts measure the same.", "quantifier": "all faces, sizes, resolutions, writing modes and all sequences of requests", "why_tests_cant": "Fonts, sizes and the sequences of requests to the shared glyph slot are unbounded.", "anchors": ["svgpy/core.py:Font", "svgpy/core.py:FontManager.get_face", "svgpy/core.py:SVGLength.value"]}
{"id": "C130", "title": "The computed style has computed values and the geometry", "statement": "The computed style of an element has the inherited value of every property, where feature settings, font size (at least ten pixels), size adjustment, synthesis, weight, line height, inline size, stroke width and tab size are computed: the line height refers to the computed font size, the stroke width to the diagonal of the viewport, the inline size to its width or height along the line of text. The geometry of the element is in the style too and wins. Every element with valid values has a computed style, whatever the units.", "quantifier": "all inherited styles, lengths, viewports and geometries; all depths of nested calls", "why_tests_cant": "Styles and lengths are unbounded, and termination for every depth of calls cannot be tested.", "anchors": ["svgpy/dom.py:Element.get_computed_style", "svgpy/core.py:CSSUtils.compute_line_height", "svgpy/core.py:CSSUtils.compute_font_size", "svgpy/core.py:Font.__init__"]}
{"id": "C131", "title": "Refused tree operations raise the DOM exception and change nothing", "statement": "Inserting, replacing and removing make the checks of the DOM standard in its order: a node without children, a node put into itself, a missing reference child, a node of a wrong kind, a second root element. What is not allowed raises HierarchyRequestError or NotFoundError and leaves the tree as it was; what is allowed is handed to lxml with the owner document set. Exceptions have the name of their class, the code of the standard and their message.", "quantifier": "all trees, nodes, argument lists, exceptions and behaviours of lxml", "why_tests_cant": "Trees and argument lists are unbounded, and that nothing changed has to be checked for every node.", "anchors": ["svgpy/dom.py:Node.ensure_pre_insertion_validity", "svgpy/dom.py:Element.append", "svgpy/dom.py:Element.prepend", "svgpy/dom.py:Element.extend", "svgpy/exception.py:DOMException.__init__"]}
{"id": "C132", "title": "Path and text elements give the path data of what they draw", "statement": "A path element gives the segments written in its attribute; none, an empty or a missing attribute is no path, with length 0. Path data that are assigned are read back, rounded to the precision. Normalised path data draw the same with absolute M, L, C and Z. A text element gives the path data of its characters in order and the smallest box around them; an element inside it those of its own characters. Settings of another class are refused.", "quantifier": "all attributes, lists of segments, settings, and nestings of text elements", "why_tests_cant": "Path data and texts are unbounded and what a path draws is a set of points.", "anchors": ["svgpy/element.py:SVGPathElement.get_path_data", "svgpy/element.py:SVGPathElement.get_computed_geometry", "svgpy/base.py:SVGPathData.set_path_data", "svgpy/text.py:SVGTextContentElement.get_bbox", "svgpy/text.py:SVGTextContentElement.get_path_data"]}
{"id": "C133", "title": "A shorthand is important exactly if all its longhands are", "statement": "The priority of a shorthand property of a declaration block is important exactly if all its longhands are declared as important.", "quantifier": "all shorthands, blocks and priorities", "why_tests_cant": "Blocks are unbounded and any subset of the longhands can be declared.", "anchors": ["svgpy/css/shorthands.py:Shorthand.get_property_priority"]}
{"id": "C134", "title": "The factories give the elements and documents that were asked for", "statement": "A new element has the given namespace and local name and the class of its interface, or the generic class of its vocabulary; classes that are added apply to the names they are added for and no others. Prefixes are those of the map given. The maps given by the caller are not changed. A new document has the content type of its namespace and, when a name is given, the root with that name, which belongs to it; a new SVG document has an SVG root.", "quantifier": "all namespaces, names, prefix maps and updates of the class table", "why_tests_cant": "Names, namespaces and maps are unbounded, and the class table is shared state.", "anchors": ["svgpy/element.py:SVGElementClassLookup.lookup", "svgpy/element.py:SVGElementClassLookup.update", "svgpy/element.py:SVGParser.create_element_ns", "svgpy/window.py:Document.create_element_ns", "svgpy/window.py:SVGDOMImplementation.create_document", "svgpy/window.py:SVGDOMImplementation.create_svg_document"]}
{"id": "C135", "title": "Registered custom properties stay as they were first registered and decide how values are read", "statement": "A custom property is registered for the document given, or else that of the window; names that do not begin with two hyphens and names already registered in that document are refused with a ValueError that changes nothing, and other documents are not affected. Values of registered properties are checked against the registered syntax, those of other custom properties are kept as written. CSS.supports answers for built-in properties in any case.", "quantifier": "all sequences of registrations over all documents, all names and descriptors", "why_tests_cant": "The registry is shared state that any sequence of calls can build up.", "anchors": ["svgpy/css/__init__.py:CSS.register_property", "svgpy/css/__init__.py:CSS.supports", "svgpy/css/types.py:CSSStyleValue._parse_css_style_value", "svgpy/window.py:Document.registered_property_set"]}
{"id": "C136", "title": "DOM exceptions carry the message, name and code they stand for", "statement": "An exception has the message given by keyword or else its arguments separated by spaces, its arguments or else the message as Python's args, the name of its class, or for DOMException itself the name given, and the legacy code Web IDL has for the name, 0 for names without one. Unknown keywords are refused.", "quantifier": "all classes, argument lists and keyword arguments", "why_tests_cant": "Arguments, names and messages are unbounded.", "anchors": ["svgpy/exception.py:DOMException"]}
{"id": "C137", "title": "Points of an ellipse lie on it, and every point of it is reached", "statement": "For radii other than zero the point for an angle lies on the rotated ellipse, at that angle counted against the clock along its axes; every point of the ellipse is the point for some angle from 0 to less than 360; whole turns make no difference and half a turn gives the opposite point.", "quantifier": "all centres, radii, rotations and angles", "why_tests_cant": "Real parameters.", "anchors": ["svgpy/path.py:Ellipse.point"]}
