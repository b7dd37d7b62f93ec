{
 "claims": [
  {
   "property": "C01",
   "status": "partial",
   "theorems": [
    "SvgPy.Rect.unite_isBoundingBox_partial",
    "SvgPy.Rect.uniteAll_isBoundingBox_partial",
    "SvgPy.Rect.uniteAll_perm_partial",
    "SvgPy.Rect.unite_segment_violated",
    "SvgPy.Rect.unite_segment_is_near_corner"
   ],
   "note": "Proved for rectangles with area and single points; false for horizontal/vertical segments (witness proved)."
  },
  {
   "property": "C02",
   "status": "partial",
   "theorems": [
    "SvgPy.Rect.intersect_points_partial",
    "SvgPy.Rect.intersect_no_common_area",
    "SvgPy.Rect.intersect_disjoint_violated"
   ],
   "note": "Proved when the interiors meet; otherwise the code returns the receiver unchanged (proved in general), so the claim is false there."
  },
  {
   "property": "C03",
   "status": "partial",
   "theorems": [
    "SvgPy.Rect.transform_isBoundingBox_iff_partial",
    "SvgPy.Rect.transform_violated",
    "SvgPy.Rect.transform_no_area"
   ],
   "note": "Proved with an exact if-and-only-if condition on the matrix; false outside it."
  },
  {
   "property": "C04",
   "status": "partial",
   "theorems": [
    "SvgPy.Rect.isvalid_iff_not_isempty",
    "SvgPy.Rect.isvalid_iff_interior",
    "SvgPy.Rect.contains_iff_partial",
    "SvgPy.Rect.contains_no_area",
    "SvgPy.Rect.contains_segment_violated",
    "SvgPy.Rect.normalize_spec",
    "SvgPy.Rect.normalize_idem",
    "SvgPy.Rect.transpose_transpose",
    "SvgPy.Rect.transpose_spec",
    "SvgPy.Rect.translate_spec",
    "SvgPy.Rect.adjust_inverse_partial",
    "SvgPy.Rect.adjust_edges",
    "SvgPy.Rect.adjust_violated"
   ],
   "note": "Validity, normalising, transposing, translating proved in full; containment false for segments; adjust-and-back false when the intermediate rectangle has no area."
  },
  {
   "property": "C05",
   "status": "proved",
   "theorems": [
    "SvgPy.Matrix.reachable_is2d",
    "SvgPy.Matrix.set_spec"
   ],
   "note": "All constructors, setters, in-place and copying operations, any history. Numbers are exact reals."
  },
  {
   "property": "C06",
   "status": "proved",
   "theorems": [
    "SvgPy.Matrix.multiply_apply",
    "SvgPy.Matrix.multiply_point",
    "SvgPy.Matrix.transformPoint_spec",
    "SvgPy.Matrix.transformPoint_2d",
    "SvgPy.Matrix.multiply_assoc",
    "SvgPy.Matrix.multiply_ident",
    "SvgPy.Matrix.copying_eq",
    "SvgPy.Matrix.objects_independent",
    "SvgPy.Matrix.invert_spec",
    "SvgPy.Matrix.isidentity_iff"
   ],
   "note": "All matrices; independence of objects is proved on a heap with arrays that setters write into."
  },
  {
   "property": "C07",
   "status": "proved",
   "theorems": [
    "SvgPy.Matrix.translate_apply",
    "SvgPy.Matrix.scale_apply",
    "SvgPy.Matrix.rotate_apply",
    "SvgPy.Matrix.rotateAxisAngle_apply",
    "SvgPy.Matrix.rotateFromVector_apply",
    "SvgPy.Matrix.skew_apply",
    "SvgPy.Matrix.scale_origin",
    "SvgPy.Matrix.scale_fixes",
    "SvgPy.Matrix.translate_back",
    "SvgPy.Matrix.flip_flip",
    "SvgPy.Matrix.flip_apply",
    "SvgPy.Matrix.rotate_back",
    "SvgPy.Matrix.rotateAxisAngle_back"
   ],
   "note": "All matrices and arguments over the reals."
  },
  {
   "property": "C08",
   "status": "proved",
   "theorems": [
    "SvgPy.Matrix.fromArray_tolist",
    "SvgPy.Matrix.fromMatrix_tojson",
    "SvgPy.Matrix.ofInit_refused_iff",
    "SvgPy.Matrix.ofInit_values",
    "SvgPy.Matrix.toFloatArray_flag"
   ],
   "note": "All reachable matrices and all keyword imports."
  },
  {
   "property": "C09",
   "status": "proved",
   "theorems": [
    "SvgPy.Transform.listMatrix_spec",
    "SvgPy.Transform.listMatrix_unknown",
    "SvgPy.Transform.consolidate_spec",
    "SvgPy.Transform.consolidate_other"
   ],
   "note": "All lists; items of unknown type raise and leave the list unchanged. Numbers are exact reals."
  },
  {
   "property": "C10",
   "status": "proved",
   "theorems": [
    "SvgPy.TransformText.roundtrip_rounded",
    "SvgPy.TransformText.roundtrip_exact"
   ],
   "note": "All lists without unknown items, any precision above zero, any delimiter of white space and commas."
  },
  {
   "property": "C100",
   "status": "partial",
   "theorems": [
    "SvgPy.InlineStyle.inline_style_history_partial",
    "SvgPy.InlineStyle.remove_returns_partial",
    "SvgPy.InlineStyle.remove_last_partial",
    "SvgPy.InlineStyle.removed_attribute_still_read",
    "SvgPy.InlineStyle.priority_not_written",
    "SvgPy.InlineStyle.inline_style_violated_stale",
    "SvgPy.InlineStyle.inline_style_violated_priority",
    "SvgPy.InlineStyle.inline_style_violated_colon",
    "SvgPy.InlineStyle.inline_style_violated_capitals"
   ],
   "note": "For properties that are not part of shorthands, values without colon and semicolon, and attribute texts that keep the properties declared; the code violates the claim for other attribute texts and values."
  },
  {
   "property": "C101",
   "status": "partial",
   "theorems": [
    "SvgPy.MediaParse.parse_meaning",
    "SvgPy.MediaParse.media_text_meaning_partial",
    "SvgPy.MediaParse.no_space_violated",
    "SvgPy.MediaParse.inner_space_violated",
    "SvgPy.MediaParse.nested_violated",
    "SvgPy.MediaParse.nested_not_violated",
    "SvgPy.MediaParse.and_not_violated",
    "SvgPy.MediaParse.glued_and_violated",
    "SvgPy.MediaParse.newline_violated",
    "SvgPy.MediaParse.type_or_violated",
    "SvgPy.MediaParse.empty_violated",
    "SvgPy.MediaParse.unclosed_violated"
   ],
   "note": "parse_meaning covers all queries without nesting, with spaces where the code needs them; the match is proved for negations of one term (C26). The rest is violated by the code (ten witnesses)."
  },
  {
   "property": "C102",
   "status": "partial",
   "theorems": [
    "SvgPy.OwnerDoc.owner_in_document_partial",
    "SvgPy.OwnerDoc.owner_ends",
    "SvgPy.OwnerDoc.comment_violated",
    "SvgPy.OwnerDoc.removed_violated",
    "SvgPy.OwnerDoc.unowned_violated",
    "SvgPy.OwnerDoc.moved_root_violated"
   ],
   "note": "Holds for the root and all nodes below it, for executions in which roots are taken out only by their documents. The code violates the rest: comments beside the root, nodes taken out, roots moved below other elements."
  },
  {
   "property": "C103",
   "status": "partial",
   "theorems": [
    "SvgPy.FontMatch.chosen_face",
    "SvgPy.FontMatch.fallback_iff",
    "SvgPy.FontMatch.candidates_best",
    "SvgPy.FontMatch.best_exists",
    "SvgPy.FontMatch.family_without_text",
    "SvgPy.FontMatch.other_stretch_fallback",
    "SvgPy.FontMatch.css_face_partial",
    "SvgPy.FontMatch.css_weight_violated",
    "SvgPy.FontMatch.css_width_violated"
   ],
   "note": "The choice by family, glyphs, slant and distance is proved for all libraries. The widths and weights of CSS Fonts are proved when the wanted value is there or all values lie on one side of it; otherwise the code goes by distance and violates them (two witnesses)."
  },
  {
   "property": "C104",
   "status": "partial",
   "theorems": [
    "SvgPy.Lookup.by_id",
    "SvgPy.Lookup.by_tag_name",
    "SvgPy.Lookup.by_local_name",
    "SvgPy.Lookup.by_tag_name_ns_partial",
    "SvgPy.Lookup.by_class_name_partial",
    "SvgPy.Lookup.found_unique",
    "SvgPy.Lookup.tab_violated",
    "SvgPy.Lookup.dot_violated",
    "SvgPy.Lookup.none_violated"
   ],
   "note": "Ids, qualified names and local names in full. Namespaces when given as text; classes for names without special characters and class attributes with spaces only. The code violates the rest (three witnesses)."
  },
  {
   "property": "C105",
   "status": "partial",
   "theorems": [
    "SvgPy.UsePath.path_ends",
    "SvgPy.UsePath.path_acyclic",
    "SvgPy.UsePath.path_shows_partial",
    "SvgPy.UsePath.use_shows_partial",
    "SvgPy.UsePath.transformed_shows_partial",
    "SvgPy.UsePath.path_exists_partial",
    "SvgPy.UsePath.child_transform_violated",
    "SvgPy.UsePath.hidden_violated",
    "SvgPy.UsePath.link_violated",
    "SvgPy.UsePath.use_transform_violated",
    "SvgPy.UsePath.used_transform_violated",
    "SvgPy.UsePath.symbol_violated",
    "SvgPy.UsePath.symbol_size_violated",
    "SvgPy.UsePath.undef_violated",
    "SvgPy.UsePath.cycle_violated"
   ],
   "note": "The recursion ends exactly where nothing needs itself (or fails). Correct outlines if the elements below have no transform, are not hidden, are no links, and use does not refer to svg or symbol elements. The code violates the rest (nine witnesses)."
  },
  {
   "property": "C106",
   "status": "partial",
   "theorems": [
    "SvgPy.CssTree.parents_partial",
    "SvgPy.CssTree.places_unique",
    "SvgPy.CssTree.style_mirrors",
    "SvgPy.CssTree.link_mirrors",
    "SvgPy.CssTree.sheet_insert_partial",
    "SvgPy.CssTree.group_insert_partial",
    "SvgPy.CssTree.sheet_delete",
    "SvgPy.CssTree.group_delete",
    "SvgPy.CssTree.load_ends",
    "SvgPy.CssTree.load_acyclic",
    "SvgPy.CssTree.imported_parent_violated",
    "SvgPy.CssTree.insert_index_violated",
    "SvgPy.CssTree.insert_nothing_violated",
    "SvgPy.CssTree.deleted_parent_violated",
    "SvgPy.CssTree.import_cycle_violated"
   ],
   "note": "Source order, uniqueness of places, deletion and parent_style_sheet in full; parent_rule for sheets that are not imported; insertion for indexes that there are. Loading ends exactly for sheets that do not import themselves. The code violates the rest (five witnesses)."
  },
  {
   "property": "C107",
   "status": "partial",
   "theorems": [
    "SvgPy.GlyphRun.run_places",
    "SvgPy.GlyphRun.run_length",
    "SvgPy.GlyphRun.text_places_partial",
    "SvgPy.GlyphRun.drawn_stands",
    "SvgPy.GlyphRun.drawn_exact",
    "SvgPy.GlyphRun.sub_length",
    "SvgPy.GlyphRun.whole_length",
    "SvgPy.GlyphRun.length_add",
    "SvgPy.GlyphRun.text_length",
    "SvgPy.GlyphRun.tspan_length_partial",
    "SvgPy.GlyphRun.skipped_value_violated",
    "SvgPy.GlyphRun.short_list_violated",
    "SvgPy.GlyphRun.tspan_length_violated"
   ],
   "note": "One run of glyphs, the outline and the sums of advances in full; texts with children if only the outer element has lists. The code violates the rest: the lists of an outer element are not advanced by characters that have their own value, a list of a child that is too short hides that of the parent, and the length of a child counts its first text only."
  },
  {
   "property": "C108",
   "status": "partial",
   "theorems": [
    "SvgPy.FontShorthand.font_set_partial",
    "SvgPy.FontShorthand.font_order",
    "SvgPy.FontShorthand.font_round_trip_partial",
    "SvgPy.FontShorthand.font_wide",
    "SvgPy.FontShorthand.font_wide_get",
    "SvgPy.FontShorthand.font_get_needs",
    "SvgPy.FontShorthand.font_get_wide",
    "SvgPy.FontShorthand.line_height_violated",
    "SvgPy.FontShorthand.normal_violated",
    "SvgPy.FontShorthand.incomplete_violated",
    "SvgPy.FontShorthand.two_wides_violated",
    "SvgPy.FontShorthand.case_violated"
   ],
   "note": "Values of the grammar with a line height that has a unit and without the word normal. The code violates the rest: a line height that is a number goes to the weight, normal is added to the style, keywords count in lower case only, and values that are no font reset all longhands."
  },
  {
   "property": "C109",
   "status": "partial",
   "theorems": [
    "SvgPy.Syntax.support_iff",
    "SvgPy.Syntax.support_total",
    "SvgPy.Syntax.support_partial",
    "SvgPy.Syntax.support_type",
    "SvgPy.Syntax.unitless",
    "SvgPy.Syntax.supports_iff",
    "SvgPy.Syntax.supports_partial",
    "SvgPy.Syntax.star_iff",
    "SvgPy.Syntax.frequency_violated",
    "SvgPy.Syntax.calc_violated",
    "SvgPy.Syntax.count_violated",
    "SvgPy.Syntax.case_violated",
    "SvgPy.Syntax.string_violated",
    "SvgPy.Syntax.block_violated",
    "SvgPy.Syntax.comma_violated",
    "SvgPy.Syntax.anything_violated"
   ],
   "note": "support_iff and supports_iff tell for all syntaxes what is supported. The code departs from CSS: hz and fr are lengths, calc() is none, the number of values is not checked, keywords are compared with case, strings count as keywords, a block raises, and * refuses unknown functions, units and commas."
  },
  {
   "property": "C11",
   "status": "proved",
   "theorems": [
    "SvgPy.Formatter.format_read",
    "SvgPy.Formatter.format_neat",
    "SvgPy.Formatter.format_eq_iff",
    "SvgPy.Formatter.format_precision_zero"
   ],
   "note": "All rational numbers, and the negative zero, for every precision above zero."
  },
  {
   "property": "C110",
   "status": "partial",
   "theorems": [
    "SvgPy.StyleMap.set_spec",
    "SvgPy.StyleMap.set_raises_iff",
    "SvgPy.StyleMap.delete_spec",
    "SvgPy.StyleMap.has_iff",
    "SvgPy.StyleMap.getAll_spec",
    "SvgPy.StyleMap.get_after_set",
    "SvgPy.StyleMap.history",
    "SvgPy.StyleMap.readonly_kept",
    "SvgPy.StyleMap.get_first",
    "SvgPy.StyleMap.pop_spec",
    "SvgPy.StyleMap.shorthand_violated",
    "SvgPy.StyleMap.contains_violated",
    "SvgPy.StyleMap.append_violated",
    "SvgPy.StyleMap.nothing_violated"
   ],
   "note": "Proved for longhands. The code violates the rest: a shorthand that was set is not in the map, `name in map` is always true, append does nothing, and set without values removes the declaration."
  },
  {
   "property": "C111",
   "status": "partial",
   "theorems": [
    "SvgPy.StyleParse.parse_iff",
    "SvgPy.StyleParse.items_exist",
    "SvgPy.StyleParse.parse_refused",
    "SvgPy.StyleParse.parse_multi_iff",
    "SvgPy.StyleParse.parse_length",
    "SvgPy.StyleParse.parse_toString",
    "SvgPy.StyleParse.parse_first",
    "SvgPy.StyleParse.not_list_violated",
    "SvgPy.StyleParse.trailing_comma_violated",
    "SvgPy.StyleParse.empty_item_violated",
    "SvgPy.StyleParse.transform_violated"
   ],
   "note": "What is parsed is characterised completely. The code violates the rest: a value with a comma is taken for properties that are no lists, a comma at the end is ignored, one too much makes an empty value, and transform functions cannot be parsed."
  },
  {
   "property": "C112",
   "status": "partial",
   "theorems": [
    "SvgPy.DataUrl.load_spec",
    "SvgPy.DataUrl.load_default",
    "SvgPy.DataUrl.load_nothing",
    "SvgPy.DataUrl.content_type_spec",
    "SvgPy.DataUrl.document_spec",
    "SvgPy.DataUrl.document_text_violated",
    "SvgPy.DataUrl.query_violated",
    "SvgPy.DataUrl.no_mime_violated",
    "SvgPy.DataUrl.flag_case_violated",
    "SvgPy.DataUrl.parameter_violated"
   ],
   "note": "Proved for URLs with a type and plain parameters, or with neither. The code violates the rest: a document that is not in base64 raises AttributeError, data after a question mark are lost, parameters without a type give an empty type, the flag is understood in lower case only, and values with an equals sign are dropped."
  },
  {
   "property": "C113",
   "status": "partial",
   "theorems": [
    "SvgPy.FTMatrix.eq_iff_act",
    "SvgPy.FTMatrix.new_act",
    "SvgPy.FTMatrix.multiply_act",
    "SvgPy.FTMatrix.flip_act",
    "SvgPy.FTMatrix.scale_act",
    "SvgPy.FTMatrix.rotate_act",
    "SvgPy.FTMatrix.skew_act",
    "SvgPy.FTMatrix.rotate_rotate",
    "SvgPy.FTMatrix.rotate_full",
    "SvgPy.FTMatrix.inverse_iff",
    "SvgPy.FTMatrix.inverse_raises",
    "SvgPy.FTMatrix.set_get",
    "SvgPy.FTMatrix.array_iff",
    "SvgPy.FTMatrix.array_raises",
    "SvgPy.FTMatrix.ofFT_act",
    "SvgPy.FTMatrix.ft_round_trip",
    "SvgPy.FTMatrix.ft_close",
    "SvgPy.FTMatrix.names_violated"
   ],
   "note": "Everything is proved apart from the documented names: b is said to be yx and c to be xy, but the code has them the other way round (names_violated)."
  },
  {
   "property": "C114",
   "status": "partial",
   "theorems": [
    "SvgPy.Features.features_spec",
    "SvgPy.Features.wants_unique",
    "SvgPy.Features.precedence_violated"
   ],
   "note": "Proved for all valid styles, apart from the precedence: the code lets the keywords win over font-feature-settings, CSS Fonts has it the other way round (precedence_violated)."
  },
  {
   "property": "C115",
   "status": "partial",
   "theorems": [
    "SvgPy.MaskBorder.set_spec",
    "SvgPy.MaskBorder.get_spec",
    "SvgPy.MaskBorder.round_trip",
    "SvgPy.MaskBorder.wide_spec",
    "SvgPy.MaskBorder.two_wides",
    "SvgPy.MaskBorder.two_wides_after",
    "SvgPy.MaskBorder.unknown_violated",
    "SvgPy.MaskBorder.comma_violated",
    "SvgPy.MaskBorder.no_width_violated",
    "SvgPy.MaskBorder.fill_first_violated",
    "SvgPy.MaskBorder.wide_mixed_violated",
    "SvgPy.MaskBorder.mask_after_violated"
   ],
   "note": "Proved for values with slices before widths before outsets and fill at the end. The code violates the rest: unknown words and commas are accepted, widths cannot be left out before outsets, fill before the numbers loses them, a CSS-wide keyword among other words is taken alone, and the shorthand is empty after a longhand of mask was declared."
  },
  {
   "property": "C116",
   "status": "partial",
   "theorems": [
    "SvgPy.InlineShorthand.style_follows_history",
    "SvgPy.InlineShorthand.attribute_restores_style",
    "SvgPy.InlineShorthand.plainly_value",
    "SvgPy.InlineShorthand.written_attribute_read",
    "SvgPy.InlineShorthand.ws_sane",
    "SvgPy.InlineShorthand.no_text_violated",
    "SvgPy.InlineShorthand.priority_lost_violated"
   ],
   "note": "Proved for shorthands that are not nested (not font, font-variant, mask) and values that give the shorthand a text. The code violates the rest: a value of a shorthand that gives no text is stored but removed from the attribute, and priorities are not written to the attribute."
  },
  {
   "property": "C117",
   "status": "partial",
   "theorems": [
    "SvgPy.Navigation.location_shown",
    "SvgPy.Navigation.document_replaced",
    "SvgPy.Navigation.refused_keeps",
    "SvgPy.Navigation.error_leaves",
    "SvgPy.Navigation.failed_load_violated",
    "SvgPy.Navigation.refused_violated",
    "SvgPy.Navigation.fragment_violated",
    "SvgPy.Navigation.blank_violated"
   ],
   "note": "Proved for actions that raise no error, and that errors show no other document. The code violates the rest: an address that is refused or cannot be loaded has become the location already, the old document is removed before the new one is loaded, and assigning a fragment loads the document again."
  },
  {
   "property": "C118",
   "status": "partial",
   "theorems": [
    "SvgPy.Navigation.origin_text",
    "SvgPy.Navigation.same_origin",
    "SvgPy.Navigation.opaque_origin",
    "SvgPy.Navigation.blob_origin",
    "SvgPy.Navigation.leading_zero_violated"
   ],
   "note": "Proved with ports compared as texts. The code violates the rest: a port assigned with leading zeros is kept so."
  },
  {
   "property": "C119",
   "status": "partial",
   "theorems": [
    "SvgPy.Ligature.lists_follow_partial",
    "SvgPy.Ligature.ligature_places_partial",
    "SvgPy.Ligature.three_violated",
    "SvgPy.Ligature.last_violated",
    "SvgPy.Ligature.later_violated",
    "SvgPy.Ligature.decomposed_violated",
    "SvgPy.Ligature.shift_lost_violated",
    "SvgPy.Ligature.rotation_lost_violated"
   ],
   "note": "Proved for the first run of a text of ASCII characters with ligatures of two characters and none at the end of the line. The code violates the rest: ligatures of three characters, ligatures at the end of a line, runs after the first one, characters with several glyphs, and values at the end of a list."
  },
  {
   "property": "C12",
   "status": "partial",
   "theorems": [
    "SvgPy.PathText.roundtrip_rounded_partial",
    "SvgPy.PathText.roundtrip_exact_partial",
    "SvgPy.PathText.roundtrip_violated"
   ],
   "note": "All lists, any precision above zero, unless a closing command directly follows one of the same case: those collapse."
  },
  {
   "property": "C120",
   "status": "partial",
   "theorems": [
    "SvgPy.BidiText.bidi_order_partial",
    "SvgPy.BidiText.nested_violated",
    "SvgPy.BidiText.offset_violated"
   ],
   "note": "Proved for all texts with the two levels of their directions and glyphs without offsets. The code violates the rest: runs of nested levels stand in the order of the characters, and in runs from right to left the offset of a glyph moves all later ones."
  },
  {
   "property": "C121",
   "status": "partial",
   "theorems": [
    "SvgPy.TextRuns.text_kept",
    "SvgPy.TextRuns.directions_partial",
    "SvgPy.TextRuns.one_direction_partial",
    "SvgPy.TextRuns.astral_violated"
   ],
   "note": "That nothing is lost is proved for all texts, that directions are right for texts of the basic plane or of one direction. The code violates the rest: run ends in UTF-16 units are used as indexes of characters."
  },
  {
   "property": "C122",
   "status": "partial",
   "theorems": [
    "SvgPy.StyleSheets.sheets_partial",
    "SvgPy.StyleSheets.rules_partial",
    "SvgPy.StyleSheets.used_iff_partial",
    "SvgPy.StyleSheets.missing_href_violated",
    "SvgPy.StyleSheets.preload_violated",
    "SvgPy.StyleSheets.type_violated",
    "SvgPy.StyleSheets.case_violated"
   ],
   "note": "Proved for documents in which style sheets have an address and are no preloads. The code violates the rest: a link without address makes every use of style sheets fail, preloads are applied, types of linked files are ignored, and keywords in upper case are not known."
  },
  {
   "property": "C123",
   "status": "partial",
   "theorems": [
    "SvgPy.MediaFeatures.numeric_partial",
    "SvgPy.MediaFeatures.range_partial",
    "SvgPy.MediaFeatures.aspect_partial",
    "SvgPy.MediaFeatures.boolean_partial",
    "SvgPy.MediaFeatures.orientation_partial",
    "SvgPy.MediaFeatures.angle_quarters",
    "SvgPy.MediaFeatures.media_type",
    "SvgPy.MediaFeatures.unit_mismatch",
    "SvgPy.MediaFeatures.zero_height_violated",
    "SvgPy.MediaFeatures.zero_width_violated",
    "SvgPy.MediaFeatures.fraction_violated",
    "SvgPy.MediaFeatures.orientation_violated",
    "SvgPy.MediaFeatures.square_violated",
    "SvgPy.MediaFeatures.device_aspect_violated"
   ],
   "note": "Proved for queries of one term, with values in px, dppx or without unit that are equal to the feature or outside the tolerance of lengths, and for viewports at least one pixel high. color and color-index are taken as the code documents them, bits of a pixel and the colours these tell apart, which is not what Media Queries 4 says. The code violates the rest: lower viewports make every query raise, aspect-ratio cuts the sides to whole pixels, orientation is that of the screen and wrong for square screens turned by a quarter, device-aspect-ratio compares numerators only, and (width) holds at width zero."
  },
  {
   "property": "C124",
   "status": "partial",
   "theorems": [
    "SvgPy.FeatureValues.settings_partial",
    "SvgPy.FeatureValues.values_sound",
    "SvgPy.FeatureValues.open_setting_violated",
    "SvgPy.FeatureValues.negative_violated",
    "SvgPy.FeatureValues.two_numbers_violated",
    "SvgPy.FeatureValues.no_block_violated"
   ],
   "note": "settings_partial requires that every setting is closed by a semicolon. The code violates the rest: the last setting of a block is lost without semicolon, settings with invalid numbers keep the other numbers, features of one number take several, and an at-rule without block makes the whole rule raise TypeError."
  },
  {
   "property": "C125",
   "status": "partial",
   "theorems": [
    "SvgPy.TreeWalk.child_nodes_spec",
    "SvgPy.TreeWalk.ends_spec",
    "SvgPy.TreeWalk.siblings_spec",
    "SvgPy.TreeWalk.ends_have_no_siblings",
    "SvgPy.TreeWalk.element_siblings_spec",
    "SvgPy.TreeWalk.parent_partial",
    "SvgPy.TreeWalk.root_spec",
    "SvgPy.TreeWalk.walk_spec",
    "SvgPy.TreeWalk.walk_unique",
    "SvgPy.TreeWalk.walk_complete",
    "SvgPy.TreeWalk.iter_partial",
    "SvgPy.TreeWalk.iter_tags_violated",
    "SvgPy.TreeWalk.root_parent_violated"
   ],
   "note": "The code violates the rest: the child nodes of the document have no parent node, and Document.iter with more than one tag raises TypeError."
  },
  {
   "property": "C126",
   "status": "partial",
   "theorems": [
    "SvgPy.TransformSeq.sequence_partial",
    "SvgPy.TransformSeq.refused",
    "SvgPy.TransformSeq.history_partial",
    "SvgPy.TransformSeq.sum_partial",
    "SvgPy.TransformSeq.initialize_violated",
    "SvgPy.TransformSeq.extend_violated",
    "SvgPy.TransformSeq.sum_violated"
   ],
   "note": "The code violates the rest: initialize with something else empties the list before it raises TypeError, += keeps the items before the wrong one, and + copies the items of the left operand only. Slices without step."
  },
  {
   "property": "C127",
   "status": "partial",
   "theorems": [
    "SvgPy.AttrLists.geometry_partial",
    "SvgPy.AttrLists.rotate_spec",
    "SvgPy.AttrLists.lengths_sound_partial",
    "SvgPy.AttrLists.space_violated",
    "SvgPy.AttrLists.viewbox_partial",
    "SvgPy.AttrLists.viewbox_few",
    "SvgPy.AttrLists.viewbox_violated"
   ],
   "note": "The code violates the rest: white space around a list raises ValueError, a viewBox with more numbers or with units is accepted, and items may go on after the length (C98). The conversion into pixels is a parameter (C34)."
  },
  {
   "property": "C128",
   "status": "partial",
   "theorems": [
    "SvgPy.Mask.set_spec",
    "SvgPy.Mask.set_order",
    "SvgPy.Mask.set_all",
    "SvgPy.Mask.get_spec",
    "SvgPy.Mask.round_trip",
    "SvgPy.Mask.wide_spec",
    "SvgPy.Mask.two_wides",
    "SvgPy.Mask.unknown_violated",
    "SvgPy.Mask.layers_violated",
    "SvgPy.Mask.box_list_violated",
    "SvgPy.Mask.no_solidus_violated",
    "SvgPy.Mask.wide_mixed_violated",
    "SvgPy.Mask.border_violated"
   ],
   "note": "Proved for single layers. The code violates the rest: several layers, lists of boxes, unknown words, a size without solidus and a CSS-wide keyword among other words are taken, and mask-border is not reset."
  },
  {
   "property": "C129",
   "status": "partial",
   "theorems": [
    "SvgPy.FontMeasure.ask_stable",
    "SvgPy.FontMeasure.sizeAfter_total",
    "SvgPy.FontMeasure.size_spec",
    "SvgPy.FontMeasure.size_exact",
    "SvgPy.FontMeasure.x_height_spec",
    "SvgPy.FontMeasure.ch_spec",
    "SvgPy.FontMeasure.ic_spec",
    "SvgPy.FontMeasure.ic_vertical",
    "SvgPy.FontMeasure.ic_missing",
    "SvgPy.FontMeasure.ch_upright",
    "SvgPy.FontMeasure.unit_spec",
    "SvgPy.FontMeasure.line_spec",
    "SvgPy.FontMeasure.scale_spec",
    "SvgPy.FontMeasure.eq_iff",
    "SvgPy.FontMeasure.eq_equiv",
    "SvgPy.FontMeasure.cap_violated",
    "SvgPy.FontMeasure.cap_missing_violated",
    "SvgPy.FontMeasure.ch_missing_violated",
    "SvgPy.FontMeasure.ex_missing_violated",
    "SvgPy.FontMeasure.ch_turned_violated",
    "SvgPy.FontMeasure.ic_upright_violated",
    "SvgPy.FontMeasure.ascent_violated",
    "SvgPy.FontMeasure.eq_violated"
   ],
   "note": "Proved for ex, horizontal ch and ic, sizes and independence of requests. The code violates the rest: cap is a vertical advance or an AttributeError, missing glyphs of x and 0, turned digits, upright ideographs, ascent and descent, equal fonts."
  },
  {
   "property": "C13",
   "status": "proved",
   "theorems": [
    "SvgPy.PathGeom.toAbs_step",
    "SvgPy.PathGeom.absolute_draw",
    "SvgPy.PathGeom.toAbs_none"
   ],
   "note": "Every segment at every pen position and bearing, against a separate drawing semantics."
  },
  {
   "property": "C130",
   "status": "partial",
   "theorems": [
    "SvgPy.CompStyle.computed_spec",
    "SvgPy.CompStyle.computed_total",
    "SvgPy.CompStyle.synthesis_spec",
    "SvgPy.CompStyle.font_unit_violated",
    "SvgPy.CompStyle.recursion_violated",
    "SvgPy.CompStyle.inline_violated"
   ],
   "note": "Proved for values without units of the font. The code violates the rest: lengths in ex, cap, ch or ic recurse without end, and the inline size refers to 100 pixels and a font size of 16."
  },
  {
   "property": "C131",
   "status": "partial",
   "theorems": [
    "SvgPy.Validity.insertion_partial",
    "SvgPy.Validity.removal_spec",
    "SvgPy.Validity.leaf_refuses",
    "SvgPy.Validity.single_refused_partial",
    "SvgPy.Validity.single_allowed",
    "SvgPy.Validity.remove_spec",
    "SvgPy.Validity.sibling_refused",
    "SvgPy.Validity.sibling_allowed",
    "SvgPy.Validity.append_first_partial",
    "SvgPy.Validity.extend_children",
    "SvgPy.Validity.extend_allowed",
    "SvgPy.Validity.exception_spec",
    "SvgPy.Validity.exception_keyword",
    "SvgPy.Validity.append_half_violated",
    "SvgPy.Validity.prepend_text_violated",
    "SvgPy.Validity.extend_once_violated",
    "SvgPy.Validity.above_violated",
    "SvgPy.Validity.second_root_violated",
    "SvgPy.Validity.remove_none_violated"
   ],
   "note": "Proved for all kinds of nodes and methods. The code violates the rest: ancestors and second roots pass the check, a refused append of several nodes is half done, a refused prepend loses the text of the element, extend with a generator adds nothing, remove_child(None) removes the element itself."
  },
  {
   "property": "C132",
   "status": "partial",
   "theorems": [
    "SvgPy.PathData.empty_spec",
    "SvgPy.PathData.written_spec_partial",
    "SvgPy.PathData.assigned_partial",
    "SvgPy.PathData.assigned_exact_partial",
    "SvgPy.PathData.assigned_nothing",
    "SvgPy.PathData.normalized_partial",
    "SvgPy.PathData.length_partial",
    "SvgPy.PathData.settings_refused_partial",
    "SvgPy.PathData.settings_violated",
    "SvgPy.PathData.text_box_partial",
    "SvgPy.PathData.text_path",
    "SvgPy.PathData.text_normalized_partial",
    "SvgPy.PathData.outside_spec",
    "SvgPy.PathData.span_violated"
   ],
   "note": "Proved for path elements and text elements, with the exceptions of C01, C12, C14, C60 and C62. The code violates the rest: a tspan gives the box and the path data of the whole text around it, and wrong settings are not refused for an empty path."
  },
  {
   "property": "C133",
   "status": "partial",
   "theorems": [
    "SvgPy.Shorthand.priority_shared",
    "SvgPy.Shorthand.priority_all_partial",
    "SvgPy.Shorthand.priority_missing_violated"
   ],
   "note": "Proved for all shorthands and blocks in which every longhand is declared. The code violates the rest: longhands that are not declared are passed over."
  },
  {
   "property": "C134",
   "status": "partial",
   "theorems": [
    "SvgPy.Factory.class_partial",
    "SvgPy.Factory.class_violated",
    "SvgPy.Factory.class_missing_violated",
    "SvgPy.Factory.class_other",
    "SvgPy.Factory.class_update",
    "SvgPy.Factory.element_plain",
    "SvgPy.Factory.element_braced",
    "SvgPy.Factory.element_no_namespace",
    "SvgPy.Factory.prefix_partial",
    "SvgPy.Factory.prefix_violated",
    "SvgPy.Factory.element_nsmap",
    "SvgPy.Factory.map_kept_partial",
    "SvgPy.Factory.map_written_violated",
    "SvgPy.Factory.document_empty",
    "SvgPy.Factory.document_type",
    "SvgPy.Factory.document_root",
    "SvgPy.Factory.document_fails",
    "SvgPy.Factory.svg_document",
    "SvgPy.Factory.document_type_violated",
    "SvgPy.Factory.document_no_implementation"
   ],
   "note": "Proved for plain names, names in braces and the four built-in prefixes. The code violates the rest: the class goes by the local name alone, prefixes of the map given are not known, the map of the caller is written to, and the content type ignores a namespace written in the name."
  },
  {
   "property": "C135",
   "status": "partial",
   "theorems": [
    "SvgPy.Registry.registered_spec",
    "SvgPy.Registry.refused_iff",
    "SvgPy.Registry.run_raised",
    "SvgPy.Registry.chosen_unregistered_partial",
    "SvgPy.Registry.chosen_builtin",
    "SvgPy.Registry.registered_syntax_ignored",
    "SvgPy.Registry.registered_syntax_violated",
    "SvgPy.Registry.supports_iff"
   ],
   "note": "Registration and CSS.supports are proved in full. The code violates the rest: the registered syntax and inheritance are never looked at, values of registered properties are checked against *."
  },
  {
   "property": "C136",
   "status": "partial",
   "theorems": [
    "SvgPy.DomError.construct_spec",
    "SvgPy.DomError.construct_keyword",
    "SvgPy.DomError.code_partial",
    "SvgPy.DomError.code_deprecated_violated"
   ],
   "note": "Proved for all classes and arguments; the three deprecated names IndexSizeError, InvalidAccessError and TypeMismatchError have the code 0."
  },
  {
   "property": "C137",
   "status": "proved",
   "theorems": [
    "SvgPy.EllipsePoint.point_along",
    "SvgPy.EllipsePoint.point_on",
    "SvgPy.EllipsePoint.point_onto",
    "SvgPy.EllipsePoint.point_turn"
   ],
   "note": "Exact reals in place of floats."
  },
  {
   "property": "C14",
   "status": "partial",
   "theorems": [
    "SvgPy.PathGeom.normalize_draw_partial",
    "SvgPy.PathGeom.normalize_arc_violated",
    "SvgPy.PathGeom.normalize_smooth_violated",
    "SvgPy.PathGeom.normalize_mixed_violated"
   ],
   "note": "Proved for paths without arcs in which smooth segments follow a segment of their own family and bearings do not follow a curve; false otherwise (witnesses)."
  },
  {
   "property": "C15",
   "status": "partial",
   "theorems": [
    "SvgPy.PathGeom.transform_draw_partial",
    "SvgPy.PathGeom.transform_horizontal_violated",
    "SvgPy.PathGeom.transform_horizontal_error",
    "SvgPy.PathGeom.transform_arc_violated",
    "SvgPy.PathGeom.transformSeg_special"
   ],
   "note": "Proved for plane matrices and paths without arcs in which no relative segment or second H/V follows an absolute H/V; false otherwise."
  },
  {
   "property": "C16",
   "status": "proved",
   "theorems": [
    "SvgPy.Bezier.curve_bbox",
    "SvgPy.Bezier.tight_isBoundingBox",
    "SvgPy.Bezier.roots_complete",
    "SvgPy.Bezier.extremum"
   ],
   "note": "All control points over the reals: contains the whole curve and touches it on each side."
  },
  {
   "property": "C17",
   "status": "partial",
   "theorems": [
    "SvgPy.Bezier.bbox_contains_partial",
    "SvgPy.Bezier.bbox_contains_slanted",
    "SvgPy.Bezier.bbox_exact",
    "SvgPy.Bezier.bbox_flat_violated"
   ],
   "note": "bbox_exact says what is computed for every normalised path; strokes along a horizontal or vertical line may be lost, all others are contained."
  },
  {
   "property": "C18",
   "status": "proved",
   "theorems": [
    "SvgPy.CaseMap.run_outputs",
    "SvgPy.CaseMap.run_observe",
    "SvgPy.CaseMap.get_after_set"
   ],
   "note": "Any sequence of operations has the outputs and final contents of a plain map over lower-cased keys."
  },
  {
   "property": "C19",
   "status": "proved",
   "theorems": [
    "SvgPy.StyleText.styleToDict_dictToStyle",
    "SvgPy.StyleText.dictToStyle_perm",
    "SvgPy.StyleText.styleToDict_colon_dropped"
   ],
   "note": "Round trip for all dicts whose texts are trimmed and free of the separators; values containing a colon are dropped (also proved)."
  },
  {
   "property": "C20",
   "status": "partial",
   "theorems": [
    "SvgPy.QName.resolve_name",
    "SvgPy.QName.resolve_name_recovers_partial",
    "SvgPy.QName.resolve_name_injective_partial",
    "SvgPy.QName.resolve_brace_violated",
    "SvgPy.QName.resolve_prefixed",
    "SvgPy.QName.resolve_braced_conflict"
   ],
   "note": "Proved for namespaces without a closing brace; false with one."
  },
  {
   "property": "C21",
   "status": "proved",
   "theorems": [
    "SvgPy.CssEscape.readName_escape",
    "SvgPy.CssEscape.startsIdent_escape",
    "SvgPy.CssEscape.escape_injective",
    "SvgPy.CssEscape.escape_no_control"
   ],
   "note": "All strings of Unicode scalar values, against the identifier reader of CSS Syntax 3."
  },
  {
   "property": "C22",
   "status": "proved",
   "theorems": [
    "SvgPy.CssText.normalizeText_words",
    "SvgPy.CssText.normalizeText_canonical",
    "SvgPy.CssText.normalizeText_of_canonical",
    "SvgPy.CssText.normalizeText_idem"
   ],
   "note": "For all texts."
  },
  {
   "property": "C23",
   "status": "partial",
   "theorems": [
    "SvgPy.Url.base_partial",
    "SvgPy.Url.base_frame",
    "SvgPy.Url.base_violated"
   ],
   "note": "All URLs and bases: the base is unchanged unless the reference is resolved against it; then it is turned into the resolved URL and only protocol, user, host name and port are kept."
  },
  {
   "property": "C24",
   "status": "partial",
   "theorems": [
    "SvgPy.Url.href_partial",
    "SvgPy.Url.href_violated",
    "SvgPy.Url.href_fresh"
   ],
   "note": "Texts refused before the first assignment leave all components; an invalid port, host or path is noticed after earlier components were changed. What is read does not depend on the object assigned to."
  },
  {
   "property": "C25",
   "status": "partial",
   "theorems": [
    "SvgPy.Url.port_spec",
    "SvgPy.Url.host_spec",
    "SvgPy.Url.hostname_spec",
    "SvgPy.Url.host_partial",
    "SvgPy.Url.href_host",
    "SvgPy.Url.protocol_violated",
    "SvgPy.Url.hostname_violated",
    "SvgPy.Url.host_error_violated",
    "SvgPy.Url.read_violated"
   ],
   "note": "Assignments to port, host and hostname; a change of protocol, an IPv6 host name and a failed assignment break the relation."
  },
  {
   "property": "C26",
   "status": "partial",
   "theorems": [
    "SvgPy.MediaQuery.matchList_iff_partial",
    "SvgPy.MediaQuery.match_not_swaps",
    "SvgPy.MediaQuery.match_not_violated",
    "SvgPy.MediaQuery.match_not_or_violated"
   ],
   "note": "Proved for all trees whose negated conditions have one term; not(A and B), not(A or B) are evaluated wrongly (general description proved). Parsing of the text: C101."
  },
  {
   "property": "C27",
   "status": "partial",
   "theorems": [
    "SvgPy.MediaQuery.evalCompare_numeric_iff",
    "SvgPy.MediaQuery.evalCompare_aspect_iff_partial",
    "SvgPy.MediaQuery.evalCompare_aspect_eq_violated",
    "SvgPy.MediaQuery.evalCompare_aspect_lt_violated",
    "SvgPy.MediaQuery.plainOp_prefix",
    "SvgPy.MediaQuery.plainOp_plain"
   ],
   "note": "Proved for chains over numeric features; for aspect-ratio equality and < are wrong."
  },
  {
   "property": "C28",
   "status": "proved",
   "theorems": [
    "SvgPy.Style.flattenRules_spec"
   ],
   "note": "For all nestings; media matching is a parameter."
  },
  {
   "property": "C29",
   "status": "proved",
   "theorems": [
    "SvgPy.Style.getCssStyle_spec",
    "SvgPy.Style.getCssStyle_error_iff"
   ],
   "note": "Whenever the cascade returns; the only failure (an @namespace rule with a quoted string) is characterised. Selector matching is a parameter."
  },
  {
   "property": "C30",
   "status": "partial",
   "theorems": [
    "SvgPy.Style.inherited_nearest_partial",
    "SvgPy.Style.display_none_iff",
    "SvgPy.Style.inherited_returns",
    "SvgPy.Style.own_value_partial",
    "SvgPy.Style.own_rule_violated",
    "SvgPy.Style.own_mask_violated",
    "SvgPy.Style.display_override_violated",
    "SvgPy.Style.font_and_family_violated",
    "SvgPy.Style.font_system_violated",
    "SvgPy.Style.marker_violated"
   ],
   "note": "Proved for all inherited properties except longhands of a font shorthand in use, and for other properties given by attributes; rules and style attributes for properties that are not inherited, the initial mask, display overrides, font together with font-family, system fonts and marker are wrong in the code."
  },
  {
   "property": "C31",
   "status": "proved",
   "theorems": [
    "SvgPy.Decl.run_refines",
    "SvgPy.Decl.reads_refine",
    "SvgPy.Decl.step_raises_iff",
    "SvgPy.Decl.get_after_set",
    "SvgPy.Decl.readonly_unchanged",
    "SvgPy.Decl.lowerLike_ascii"
   ],
   "note": "All histories, including shorthands (which stand for their longhands), of a block that is not the inline style of an element. The parser/serialiser and the shorthand expansion are parameters."
  },
  {
   "property": "C32",
   "status": "proved",
   "theorems": [
    "SvgPy.Shorthand.wsGet_iff",
    "SvgPy.Shorthand.wsGet_undescribed",
    "SvgPy.Shorthand.wsSet_longhands",
    "SvgPy.Shorthand.wsSet_wide",
    "SvgPy.Shorthand.wsSet_other",
    "SvgPy.Shorthand.wsGet_wsSet",
    "SvgPy.Shorthand.wsGet_wsSet_wide",
    "SvgPy.Shorthand.wsSet_unknown"
   ],
   "note": "All keywords and all blocks; validity of a longhand value is a parameter."
  },
  {
   "property": "C33",
   "status": "partial",
   "theorems": [
    "SvgPy.MediaList.append_spec",
    "SvgPy.MediaList.append_append",
    "SvgPy.MediaList.delete_spec",
    "SvgPy.MediaList.delete_gone_partial",
    "SvgPy.MediaList.delete_append",
    "SvgPy.MediaList.history_set_partial",
    "SvgPy.MediaList.setText_getText_partial",
    "SvgPy.MediaList.getText_setText_getText",
    "SvgPy.MediaList.setText_duplicate_violated",
    "SvgPy.MediaList.append_empty_violated",
    "SvgPy.MediaList.insert_violated",
    "SvgPy.MediaList.insert_spec"
   ],
   "note": "Proved for histories of append/delete and for admissible entries; false for texts with repeated entries, the empty medium and insert with a comma."
  },
  {
   "property": "C34",
   "status": "partial",
   "theorems": [
    "SvgPy.Length.convertNumber_partial",
    "SvgPy.Length.convertNumber_mixed",
    "SvgPy.Length.roundtrip_partial",
    "SvgPy.Length.twoStep_partial",
    "SvgPy.Length.value_pixels",
    "SvgPy.Length.convert_partial",
    "SvgPy.Length.to_font_unit_violated",
    "SvgPy.Length.size_pos"
   ],
   "note": "Proved for all units except converting into ex/cap/ch/ic with a font present, which is wrong. Numbers are exact reals; parsing is not modelled."
  },
  {
   "property": "C35",
   "status": "partial",
   "theorems": [
    "SvgPy.Length.add_partial",
    "SvgPy.Length.sub_partial",
    "SvgPy.Length.add_absolute",
    "SvgPy.Length.add_no_context",
    "SvgPy.Length.scale_partial",
    "SvgPy.Length.neg_partial",
    "SvgPy.Length.divNum_partial",
    "SvgPy.Length.divNum_zero",
    "SvgPy.Length.scale_violated",
    "SvgPy.Length.add_percent_violated",
    "SvgPy.Length.agree_absolute",
    "SvgPy.Length.size_absolute"
   ],
   "note": "Proved whenever a copy of the length sees the same unit size (always so for absolute units or without a context); false otherwise."
  },
  {
   "property": "C36",
   "status": "partial",
   "theorems": [
    "SvgPy.Length.eq_iff",
    "SvgPy.Length.trichotomy",
    "SvgPy.Length.symm_partial",
    "SvgPy.Length.symm_units_partial",
    "SvgPy.Length.lt_asymm",
    "SvgPy.Length.symm_violated",
    "SvgPy.Length.eq_trans_violated"
   ],
   "note": "Trichotomy in full; symmetry for lengths in one unit or far enough apart; false otherwise."
  },
  {
   "property": "C37",
   "status": "partial",
   "theorems": [
    "SvgPy.Length.classes_partial",
    "SvgPy.Length.isabsolute_iff",
    "SvgPy.Length.cap_violated"
   ],
   "note": "All units except cap, which is in no class."
  },
  {
   "property": "C38",
   "status": "proved",
   "theorems": [
    "SvgPy.UnitValue.to_defined_iff",
    "SvgPy.UnitValue.to_quantity",
    "SvgPy.UnitValue.to_back",
    "SvgPy.UnitValue.to_to",
    "SvgPy.UnitValue.names"
   ],
   "note": "All units and values over the reals."
  },
  {
   "property": "C39",
   "status": "partial",
   "theorems": [
    "SvgPy.NumType.add_partial",
    "SvgPy.NumType.add_order",
    "SvgPy.NumType.add_comm_partial",
    "SvgPy.NumType.add_units_partial",
    "SvgPy.NumType.add_percent_violated",
    "SvgPy.NumType.add_comm_violated",
    "SvgPy.NumType.mul_partial",
    "SvgPy.NumType.mul_comm_partial",
    "SvgPy.NumType.mul_percent_violated"
   ],
   "note": "All types; sums are exactly as specified unless the operands differ in their percentages only (a number and a percentage are added); products lose the percentages of the second operand."
  },
  {
   "property": "C40",
   "status": "partial",
   "theorems": [
    "SvgPy.NumType.construct_partial",
    "SvgPy.NumType.invert_effect",
    "SvgPy.NumType.negate_type",
    "SvgPy.NumType.invert_violated"
   ],
   "note": "All heaps of values with shared type objects and all constructions; an inversion also inverts the types of its operand and of all values sharing the type object."
  },
  {
   "property": "C41",
   "status": "partial",
   "theorems": [
    "SvgPy.SumValue.sumValue_partial",
    "SvgPy.SumValue.sumValue_linear",
    "SvgPy.SumValue.sumValue_defined",
    "SvgPy.SumValue.product_powers",
    "SvgPy.SumValue.sumValue_violated"
   ],
   "note": "All expression trees and all positive unit sizes; proved for everything calc() allows and for all trees where terms with the same units have the same powers; the code merges terms whatever the powers."
  },
  {
   "property": "C42",
   "status": "partial",
   "theorems": [
    "SvgPy.SumValue.equals_iff",
    "SvgPy.SumValue.equals_symm",
    "SvgPy.SumValue.equals_refl_partial",
    "SvgPy.SumValue.equals_violated"
   ],
   "note": "Exact characterisation for all values; negations, inversions and clamps never equal themselves."
  },
  {
   "property": "C43",
   "status": "partial",
   "theorems": [
    "SvgPy.Unparsed.text_partial",
    "SvgPy.Unparsed.text_violated"
   ],
   "note": "All nested token lists whose var() functions are in lower case, without white space around the name and without empty fallback; an empty fallback is lost."
  },
  {
   "property": "C44",
   "status": "partial",
   "theorems": [
    "SvgPy.Unparsed.setItem_partial",
    "SvgPy.Unparsed.setItem_effect",
    "SvgPy.Unparsed.setItem_violated",
    "SvgPy.Unparsed.setItem_type",
    "SvgPy.Unparsed.extend_spec"
   ],
   "note": "Slices and construction in full; assignment to an index inserts instead of replacing (exact effect proved)."
  },
  {
   "property": "C45",
   "status": "partial",
   "theorems": [
    "SvgPy.Dataset.convertName_spec",
    "SvgPy.Dataset.convertName_injective_partial",
    "SvgPy.Dataset.convertKey_convertName_iff_partial",
    "SvgPy.Dataset.get_set_partial",
    "SvgPy.Dataset.keys_set_partial",
    "SvgPy.Dataset.keys_set_only_partial",
    "SvgPy.Dataset.get_spec",
    "SvgPy.Dataset.del_spec",
    "SvgPy.Dataset.roundtrip_violated",
    "SvgPy.Dataset.shared_name_violated",
    "SvgPy.Dataset.set_empty_violated"
   ],
   "note": "Round trip with an exact condition on the key; false outside it (witnesses). Case mapping is a parameter."
  },
  {
   "property": "C46",
   "status": "partial",
   "theorems": [
    "SvgPy.TokenList.tokens_setTokens",
    "SvgPy.TokenList.setTokens_none_iff",
    "SvgPy.TokenList.add_spec",
    "SvgPy.TokenList.remove_spec",
    "SvgPy.TokenList.inadmissible_error",
    "SvgPy.TokenList.replace_spec",
    "SvgPy.TokenList.toggle_spec",
    "SvgPy.TokenList.history_nodup_partial",
    "SvgPy.TokenList.membership_partial",
    "SvgPy.TokenList.toggle_returns_partial",
    "SvgPy.TokenList.remove_duplicate_violated",
    "SvgPy.TokenList.add_nbsp_violated"
   ],
   "note": "Proved for attributes without repeated tokens and tokens without any white space; false otherwise (witnesses)."
  },
  {
   "property": "C47",
   "status": "partial",
   "theorems": [
    "SvgPy.AttrMap.history_unique",
    "SvgPy.AttrMap.get_reads",
    "SvgPy.AttrMap.get_absent",
    "SvgPy.AttrMap.write_object",
    "SvgPy.AttrMap.write_element",
    "SvgPy.AttrMap.setItemStr_spec",
    "SvgPy.AttrMap.remove_keeps",
    "SvgPy.AttrMap.removeAttribute_keeps",
    "SvgPy.AttrMap.free_object",
    "SvgPy.AttrMap.set_object",
    "SvgPy.AttrMap.set_in_use",
    "SvgPy.AttrMap.toggle_spec",
    "SvgPy.AttrMap.other_attributes",
    "SvgPy.AttrMap.new_attr",
    "SvgPy.AttrMap.write_empty_violated",
    "SvgPy.AttrMap.owned_violated"
   ],
   "note": "All histories of attribute operations; an object removed by writing the empty string to it loses its value, and objects constructed with an owner element stay attached after removal."
  },
  {
   "property": "C48",
   "status": "partial",
   "theorems": [
    "SvgPy.Content.append_partial",
    "SvgPy.Content.append_text_violated",
    "SvgPy.Content.append_move_violated",
    "SvgPy.Content.prepend_partial",
    "SvgPy.Content.prepend_order_violated"
   ],
   "note": "Proved for new nodes and, for append, text after a node; text appended to an element with children goes before them, prepending several nodes to an element without children reverses them."
  },
  {
   "property": "C49",
   "status": "partial",
   "theorems": [
    "SvgPy.Content.textContent_partial",
    "SvgPy.Content.textContent_comment_violated",
    "SvgPy.Content.textContent_link_violated",
    "SvgPy.Content.textContent_other",
    "SvgPy.Content.setTextContent_spec"
   ],
   "note": "Proved for trees without comments and links inside; text after a comment and in links is dropped."
  },
  {
   "property": "C50",
   "status": "partial",
   "theorems": [
    "SvgPy.Aspect.parse_keyword_partial",
    "SvgPy.Aspect.parse_pair_partial",
    "SvgPy.Aspect.parse_unknown",
    "SvgPy.Aspect.parse_tostring_partial",
    "SvgPy.Aspect.xMinYMid_violated",
    "SvgPy.Aspect.none_slice_violated",
    "SvgPy.Aspect.zoom_roundtrip",
    "SvgPy.Aspect.zoom_default"
   ],
   "note": "All keywords but xMinYMid, all separators; round trip for all settings but none+slice."
  },
  {
   "property": "C51",
   "status": "partial",
   "theorems": [
    "SvgPy.Viewport.matrix_fits_partial",
    "SvgPy.Viewport.matrixNoBox_spec",
    "SvgPy.Viewport.matrix_units_violated",
    "SvgPy.Viewport.matrix_mixed_violated",
    "SvgPy.Viewport.matrix_uniform_violated"
   ],
   "note": "Proved when all lengths are plain numbers or px and the scales are equal or clearly different; false for mixed units."
  },
  {
   "property": "C52",
   "status": "partial",
   "theorems": [
    "SvgPy.Ancestors.lookups",
    "SvgPy.Ancestors.owner_outermost",
    "SvgPy.Ancestors.owner_partial",
    "SvgPy.Ancestors.owner_nested_violated",
    "SvgPy.Ancestors.viewBox_spec",
    "SvgPy.Ancestors.viewBox_own"
   ],
   "note": "All four lookups and the view box lookup are proved for all chains; owner and viewport element are wrong for elements that match themselves below the outermost one."
  },
  {
   "property": "C53",
   "status": "partial",
   "theorems": [
    "SvgPy.FontStyle.size_minimum",
    "SvgPy.FontStyle.relative_partial",
    "SvgPy.FontStyle.larger_partial",
    "SvgPy.FontStyle.smaller_partial",
    "SvgPy.FontStyle.own_violated",
    "SvgPy.FontStyle.mixed_violated",
    "SvgPy.FontStyle.style_violated"
   ],
   "note": "Minimum for all chains; the relation for text inside an element with a relative size, for chains that use one of the keywords; an element with a relative size itself has the size of its parent, and larger inside smaller is applied wrongly."
  },
  {
   "property": "C54",
   "status": "partial",
   "theorems": [
    "SvgPy.FontText.variant_partial",
    "SvgPy.FontText.variant_none",
    "SvgPy.FontText.variant_violated"
   ],
   "note": "All texts, word by word; functions with white space in the arguments and capital letters are not understood."
  },
  {
   "property": "C55",
   "status": "partial",
   "theorems": [
    "SvgPy.DocChildren.history_proper",
    "SvgPy.DocChildren.append_spec",
    "SvgPy.DocChildren.append_first",
    "SvgPy.DocChildren.prepend_partial",
    "SvgPy.DocChildren.insert_spec",
    "SvgPy.DocChildren.insertBefore_spec",
    "SvgPy.DocChildren.remove_partial",
    "SvgPy.DocChildren.replace_partial",
    "SvgPy.DocChildren.replace_root_partial",
    "SvgPy.DocChildren.remove_root_violated",
    "SvgPy.DocChildren.replace_root_violated",
    "SvgPy.DocChildren.prepend_violated"
   ],
   "note": "All documents and histories of operations; removing or replacing the root loses the comments around it, and prepending to an empty document reverses the nodes."
  },
  {
   "property": "C56",
   "status": "proved",
   "theorems": [
    "SvgPy.PathGeom.arc_on_ellipse",
    "SvgPy.PathGeom.arcCentre_some",
    "SvgPy.PathGeom.arcCentre_none_iff"
   ],
   "note": "All arcs over the reals, including radii that are too small."
  },
  {
   "property": "C57",
   "status": "proved",
   "theorems": [
    "SvgPy.Shorthand.fsGet_iff",
    "SvgPy.Shorthand.fsSet_longhands",
    "SvgPy.Shorthand.fsGet_fsSet",
    "SvgPy.Shorthand.fsGet_fsSet_wide"
   ],
   "note": "All token lists and all blocks; validity of a longhand value is a parameter."
  },
  {
   "property": "C58",
   "status": "partial",
   "theorems": [
    "SvgPy.Matrix.parts_2d",
    "SvgPy.Matrix.parts_3d_partial",
    "SvgPy.Matrix.parts_3d_scale",
    "SvgPy.Matrix.parts_3d_violated"
   ],
   "note": "In the plane in full; in space the angles are only right for one common scale factor."
  },
  {
   "property": "C59",
   "status": "partial",
   "theorems": [
    "SvgPy.TransformText.parse_calls",
    "SvgPy.TransformText.parse_adjacent_violated",
    "SvgPy.TransformText.parse_garbage_violated"
   ],
   "note": "Proved for functions with white space or a comma between them; functions written without anything between them are dropped."
  },
  {
   "property": "C60",
   "status": "partial",
   "theorems": [
    "SvgPy.PathText.parse_written_partial",
    "SvgPy.PathText.parse_close_violated",
    "SvgPy.PathText.parse_flags_violated"
   ],
   "note": "Closing letters must be followed by white space or the end, arc flags must be separated; otherwise commands are lost."
  },
  {
   "property": "C61",
   "status": "proved",
   "theorems": [
    "SvgPy.PathGeom.arc_extent"
   ],
   "note": "All arcs over the reals for which a centre is computed."
  },
  {
   "property": "C62",
   "status": "partial",
   "theorems": [
    "SvgPy.PathLength.totalLength_partial",
    "SvgPy.PathLength.totalLength_close_violated",
    "SvgPy.PathLength.strokeLength_cubic",
    "SvgPy.PathLength.strokeLength_quad",
    "SvgPy.PathLength.arcLength_spec"
   ],
   "note": "All path data with smooth curves after lines or their own family; numerical integrals are taken as exact; a smooth curve after a closing is measured with a stale control point."
  },
  {
   "property": "C63",
   "status": "proved",
   "theorems": [
    "SvgPy.PathLength.ellipse_length"
   ],
   "note": "All positive radii, starts and extents below a full turn, over the reals; the elliptic integral of SciPy is taken as exact."
  },
  {
   "property": "C64",
   "status": "partial",
   "theorems": [
    "SvgPy.Ancestors.screenCtm_partial",
    "SvgPy.Ancestors.ctm_partial",
    "SvgPy.Ancestors.ctm_none",
    "SvgPy.Ancestors.screenCtm_violated",
    "SvgPy.Ancestors.screenCtm_root_violated"
   ],
   "note": "Proved if all transforms stand inside the nearest viewport; transforms on or outside it are misplaced or lost (witnesses)."
  },
  {
   "property": "C65",
   "status": "partial",
   "theorems": [
    "SvgPy.Content.insertBefore_spec",
    "SvgPy.Content.insertBefore_self",
    "SvgPy.Content.insert_spec",
    "SvgPy.Content.remove_partial",
    "SvgPy.Content.remove_tail_violated",
    "SvgPy.Content.replace_partial",
    "SvgPy.Content.replace_self",
    "SvgPy.Content.replace_tail_violated"
   ],
   "note": "Insertions in full; removing and replacing a child also drops the text that follows it."
  },
  {
   "property": "C66",
   "status": "proved",
   "theorems": [
    "SvgPy.UnitValue.compare_spec",
    "SvgPy.UnitValue.eq_laws",
    "SvgPy.UnitValue.order_laws",
    "SvgPy.UnitValue.eq_not_transitive"
   ],
   "note": "All unit values over the reals; equality with the relative tolerance of the code, which is not transitive (witness)."
  },
  {
   "property": "C67",
   "status": "partial",
   "theorems": [
    "SvgPy.SumValue.to_partial",
    "SvgPy.SumValue.to_defined",
    "SvgPy.SumValue.to_power_violated",
    "SvgPy.SumValue.toSum_partial",
    "SvgPy.SumValue.toSum_order_violated",
    "SvgPy.SumValue.add_value"
   ],
   "note": "All linear expressions; powers of units are ignored by to, and to_sum fails unless the units are given in the order of the terms."
  },
  {
   "property": "C68",
   "status": "partial",
   "theorems": [
    "SvgPy.Unparsed.references",
    "SvgPy.Unparsed.members_partial",
    "SvgPy.Unparsed.members_violated"
   ],
   "note": "References for all token lists; single texts without other functions: each function splits the text after its arguments."
  },
  {
   "property": "C69",
   "status": "partial",
   "theorems": [
    "SvgPy.CachedText.text_partial",
    "SvgPy.CachedText.text_stale",
    "SvgPy.CachedText.text_violated",
    "SvgPy.CachedText.change_spec"
   ],
   "note": "All histories of changes to constructed values; parsed values keep the text they were parsed from for ever."
  },
  {
   "property": "C70",
   "status": "partial",
   "theorems": [
    "SvgPy.Url.path_partial",
    "SvgPy.Url.path_no_dots",
    "SvgPy.Url.path_violated"
   ],
   "note": "All paths without empty inner segments whose last segment is not a dot segment; no path keeps a dot segment."
  },
  {
   "property": "C71",
   "status": "partial",
   "theorems": [
    "SvgPy.Url.text_partial",
    "SvgPy.Url.authority_spec",
    "SvgPy.Url.ipv6_spec",
    "SvgPy.Url.text_port_violated",
    "SvgPy.Url.text_query_violated"
   ],
   "note": "All URLs in normal form; an explicit default port, duplicate query keys and equals signs in query values are lost."
  },
  {
   "property": "C72",
   "status": "partial",
   "theorems": [
    "SvgPy.Url.reference_partial",
    "SvgPy.Url.reference_text",
    "SvgPy.Url.reference_violated"
   ],
   "note": "All references with a relative path; references without path, with absolute path and query, with a host, and invalid URLs are resolved wrongly."
  },
  {
   "property": "C73",
   "status": "partial",
   "theorems": [
    "SvgPy.FontStyle.inherit_partial",
    "SvgPy.FontStyle.em_compounds",
    "SvgPy.FontStyle.inherit_violated"
   ],
   "note": "All chains whose inherited value is absolute; em and percentages are applied again for every descendant."
  },
  {
   "property": "C74",
   "status": "partial",
   "theorems": [
    "SvgPy.FontStyle.keywords_order",
    "SvgPy.FontStyle.keywords_medium",
    "SvgPy.FontStyle.keywords_factor",
    "SvgPy.FontStyle.keywords_default",
    "SvgPy.FontStyle.keywords_violated"
   ],
   "note": "All default sizes; medium differs from fractional default sizes in the range of the table."
  },
  {
   "property": "C75",
   "status": "partial",
   "theorems": [
    "SvgPy.FontStyle.weight_partial",
    "SvgPy.FontStyle.weight_order",
    "SvgPy.FontStyle.weight_violated"
   ],
   "note": "All chains of attributes with multiples of 100; an element with a relative weight itself has the weight of its parent, other numbers are interpolated."
  },
  {
   "property": "C76",
   "status": "partial",
   "theorems": [
    "SvgPy.FontStyle.line_partial",
    "SvgPy.FontStyle.line_violated"
   ],
   "note": "normal, percentages and pixels; numbers are taken for pixels, em refers to the parent."
  },
  {
   "property": "C77",
   "status": "partial",
   "theorems": [
    "SvgPy.FontText.font_partial",
    "SvgPy.FontText.font_system",
    "SvgPy.FontText.font_violated"
   ],
   "note": "All lists of keywords and of names that are quoted or one word; names of several words without quotes, spaces around the slash and families named like system fonts are misread."
  },
  {
   "property": "C78",
   "status": "partial",
   "theorems": [
    "SvgPy.FontText.family_quoted",
    "SvgPy.FontText.family_partial",
    "SvgPy.FontText.family_violated"
   ],
   "note": "Lists with quoted (double or single) and one-word names, or without any quotes; names of several words without quotes next to quoted ones and quoted commas are split wrongly."
  },
  {
   "property": "C79",
   "status": "partial",
   "theorems": [
    "SvgPy.FontText.features_partial",
    "SvgPy.FontText.features_violated"
   ],
   "note": "All lists of valid settings; a comma at the end raises IndexError, tags with spaces are ignored."
  },
  {
   "property": "C80",
   "status": "partial",
   "theorems": [
    "SvgPy.Shapes.circle_drawn",
    "SvgPy.Shapes.round_drawn",
    "SvgPy.Shapes.ellipse_drawn_partial",
    "SvgPy.Shapes.ellipse_auto_violated"
   ],
   "note": "All circles; all ellipses except those where one radius is a percentage and the other auto, which is violated."
  },
  {
   "property": "C81",
   "status": "proved",
   "theorems": [
    "SvgPy.Shapes.rect_drawn",
    "SvgPy.Shapes.rounded_drawn",
    "SvgPy.Shapes.square_drawn",
    "SvgPy.Shapes.used_size",
    "SvgPy.Shapes.rect_radii"
   ],
   "note": "Path data without normalisation."
  },
  {
   "property": "C82",
   "status": "proved",
   "theorems": [
    "SvgPy.Shapes.line_drawn",
    "SvgPy.Shapes.polyline_drawn",
    "SvgPy.Shapes.polygon_drawn"
   ],
   "note": "A line shorter than 1e-9 in both directions draws nothing."
  },
  {
   "property": "C83",
   "status": "partial",
   "theorems": [
    "SvgPy.ArcCurves.normalize_arcs_partial",
    "SvgPy.ArcCurves.round_normalized",
    "SvgPy.ArcCurves.rect_normalized",
    "SvgPy.ArcCurves.ellipse_violated"
   ],
   "note": "Arcs of circles, quarters and halves of unrotated ellipses (hence all basic shapes); for other arcs of ellipses the code uses directions as parameters and is off by more than 2%."
  },
  {
   "property": "C84",
   "status": "partial",
   "theorems": [
    "SvgPy.ShapeBox.round_box",
    "SvgPy.ShapeBox.circle_box",
    "SvgPy.ShapeBox.rect_box",
    "SvgPy.ShapeBox.rect_element_box",
    "SvgPy.ShapeBox.polyline_box_partial",
    "SvgPy.ShapeBox.line_box_violated"
   ],
   "note": "Circles, ellipses and rectangles whose size exceeds the tolerance of the code; polylines without horizontal and vertical lines, for which the box is wrong."
  },
  {
   "property": "C85",
   "status": "proved",
   "theorems": [
    "SvgPy.ShapeLength.circle_length",
    "SvgPy.ShapeLength.ellipse_length",
    "SvgPy.ShapeLength.rect_length",
    "SvgPy.ShapeLength.rect_length_none",
    "SvgPy.ShapeLength.line_length",
    "SvgPy.ShapeLength.polyline_length",
    "SvgPy.ShapeLength.polygon_length",
    "SvgPy.ShapeLength.circumference_circle"
   ],
   "note": "Sizes below the comparison tolerance of the code are taken for zero by it; the hypotheses (ClearArc) exclude them. The length is the exact integral: the rounding of the numeric quadrature is C62 and C63."
  },
  {
   "property": "C86",
   "status": "partial",
   "theorems": [
    "SvgPy.ElementBox.element_box_holds_partial",
    "SvgPy.ElementBox.element_box_partial",
    "SvgPy.ElementBox.group_box_partial",
    "SvgPy.ElementBox.root_box",
    "SvgPy.ElementBox.shape_box_violated",
    "SvgPy.ElementBox.use_transform_violated",
    "SvgPy.ElementBox.use_order_violated",
    "SvgPy.ElementBox.marker_box_violated",
    "SvgPy.ElementBox.turned_box_violated",
    "SvgPy.ElementBox.flat_box_violated"
   ],
   "note": "Holds for shapes, a/g/defs/symbol and use without transforms; violated for transforms of use elements, marker and pattern contents, boxes without area."
  },
  {
   "property": "C87",
   "status": "partial",
   "theorems": [
    "SvgPy.MathText.calc_partial",
    "SvgPy.MathText.operand_partial",
    "SvgPy.MathText.subtracted_product_violated",
    "SvgPy.MathText.max_operators_violated",
    "SvgPy.MathText.max_sum_violated",
    "SvgPy.MathText.parentheses_violated",
    "SvgPy.MathText.nested_sum_violated",
    "SvgPy.MathText.nested_minus_violated"
   ],
   "note": "Sums of products with operands that have operators of one level, unless a product is subtracted after a product. The rest is violated or refused by the code, see the findings."
  },
  {
   "property": "C88",
   "status": "partial",
   "theorems": [
    "SvgPy.MathPrint.text_partial",
    "SvgPy.MathPrint.plain_text_partial",
    "SvgPy.MathPrint.readsAs_unique",
    "SvgPy.MathPrint.parenless_text_violated",
    "SvgPy.MathPrint.parenless_minus_violated",
    "SvgPy.MathPrint.negate_text_violated"
   ],
   "note": "Holds for all values built of sums, differences, products, quotients and clamp(); inside min() and max() only if no parentheses are needed (the code writes none); negated values only where the sign can stand."
  },
  {
   "property": "C89",
   "status": "partial",
   "theorems": [
    "SvgPy.ViewportSize.viewport_partial",
    "SvgPy.ViewportSize.x_violated",
    "SvgPy.ViewportSize.vmax_violated",
    "SvgPy.ViewportSize.vw_violated",
    "SvgPy.ViewportSize.endless_violated",
    "SvgPy.ViewportSize.em_violated"
   ],
   "note": "Sizes in all units but vw, vh, vmin and vmax; positions that are no percentages; font units only for the innermost viewport. The rest is violated by the code (five witnesses)."
  },
  {
   "property": "C90",
   "status": "partial",
   "theorems": [
    "SvgPy.TextContent.normal_partial",
    "SvgPy.TextContent.first_partial",
    "SvgPy.TextContent.line_words_partial",
    "SvgPy.TextContent.pre_line_partial",
    "SvgPy.TextContent.pre_partial",
    "SvgPy.TextContent.other_partial",
    "SvgPy.TextContent.pieces_exist",
    "SvgPy.TextContent.inserted_violated",
    "SvgPy.TextContent.pre_violated",
    "SvgPy.TextContent.pre_after_violated",
    "SvgPy.TextContent.cr_violated",
    "SvgPy.TextContent.unescaped_violated"
   ],
   "note": "A text alone, without carriage returns. What is missing is violated by the code: text after another text, the first text with pre, CR LF with pre-line, text that looks like a character reference."
  },
  {
   "property": "C91",
   "status": "proved",
   "theorems": [
    "SvgPy.SearchParams.round_trip",
    "SvgPy.SearchParams.get_set",
    "SvgPy.SearchParams.get_del",
    "SvgPy.SearchParams.text_injective"
   ],
   "note": "Names and values are texts; `~` quoted or not depending on the version of Python."
  },
  {
   "property": "C92",
   "status": "partial",
   "theorems": [
    "SvgPy.SearchParams.query_partial",
    "SvgPy.SearchParams.plus_violated",
    "SvgPy.SearchParams.percent_violated",
    "SvgPy.SearchParams.name_violated",
    "SvgPy.SearchParams.setter_violated"
   ],
   "note": "Names and values without plus and percent signs, names without equals signs. The rest is violated by the code (four witnesses)."
  },
  {
   "property": "C93",
   "status": "proved",
   "theorems": [
    "SvgPy.Points.read_points",
    "SvgPy.Points.read_odd",
    "SvgPy.Points.write_read",
    "SvgPy.Points.write_read_exact"
   ],
   "note": "ASCII digits; floats are exact."
  },
  {
   "property": "C94",
   "status": "partial",
   "theorems": [
    "SvgPy.Components.td_set",
    "SvgPy.Components.td_order",
    "SvgPy.Components.td_round_trip_partial",
    "SvgPy.Components.td_wide",
    "SvgPy.Components.td_two_wides",
    "SvgPy.Components.td_garbage_violated",
    "SvgPy.Components.td_dropped_violated",
    "SvgPy.Components.td_case_violated"
   ],
   "note": "Values of lower-case words with one space between them; the code violates the rest: invalid values are not ignored and keywords are case-sensitive."
  },
  {
   "property": "C95",
   "status": "partial",
   "theorems": [
    "SvgPy.Components.fv_set",
    "SvgPy.Components.fv_order",
    "SvgPy.Components.fv_round_trip_partial",
    "SvgPy.Components.fv_normal_none",
    "SvgPy.Components.fv_wide",
    "SvgPy.Components.fv_split_violated",
    "SvgPy.Components.fv_mixed_violated",
    "SvgPy.Components.fv_garbage_violated"
   ],
   "note": "Values whose words of one longhand stand together; the code loses words otherwise."
  },
  {
   "property": "C96",
   "status": "partial",
   "theorems": [
    "SvgPy.Components.ov_set",
    "SvgPy.Components.ov_round_trip_partial",
    "SvgPy.Components.ov_wide",
    "SvgPy.Components.ov_three",
    "SvgPy.Components.ov_unknown_violated",
    "SvgPy.Components.ov_dropped_violated"
   ],
   "note": "The code raises KeyError for invalid values."
  },
  {
   "property": "C97",
   "status": "proved",
   "theorems": [
    "SvgPy.LengthText.read_length",
    "SvgPy.LengthText.read_number",
    "SvgPy.LengthText.write_read",
    "SvgPy.LengthText.write_read_number",
    "SvgPy.LengthText.write_read_exact",
    "SvgPy.LengthText.read_none"
   ],
   "note": "Decimal is exact; ASCII digits and letters; precision at least one."
  },
  {
   "property": "C98",
   "status": "partial",
   "theorems": [
    "SvgPy.LengthText.accepted_partial",
    "SvgPy.LengthText.refused",
    "SvgPy.LengthText.no_number",
    "SvgPy.LengthText.no_unit",
    "SvgPy.LengthText.space_violated",
    "SvgPy.LengthText.rest_violated"
   ],
   "note": "The code accepts anything behind the number and unit: `10 px` loses its unit."
  },
  {
   "property": "C99",
   "status": "partial",
   "theorems": [
    "SvgPy.TextChars.chars_ink_partial",
    "SvgPy.TextChars.chars_start_partial",
    "SvgPy.TextChars.chars_ok_partial",
    "SvgPy.TextChars.chars_of_partial",
    "SvgPy.TextChars.chars_of_none",
    "SvgPy.TextChars.comment_violated",
    "SvgPy.TextChars.empty_violated",
    "SvgPy.TextChars.link_violated",
    "SvgPy.TextChars.nested_violated"
   ],
   "note": "Elements with tspan elements only inside; the code violates the rest."
  }
 ]
}