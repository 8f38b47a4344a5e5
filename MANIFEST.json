{
 "claims": [
  {
   "property": "C01",
   "status": "proved",
   "theorems": [
    "Verif.Props.C01_creole2html_total",
    "Verif.Props.C01_only_typeError"
   ],
   "note": ""
  },
  {
   "property": "C02",
   "status": "proved",
   "theorems": [
    "Verif.Props.C02_safe",
    "Verif.Props.C02_safe_macros",
    "Verif.Props.C02_safe_silent"
   ],
   "note": ""
  },
  {
   "property": "C03",
   "status": "proved",
   "theorems": [
    "Verif.Props.C03_macro_error_unescaped",
    "Verif.Props.C03_toc_unescaped",
    "Verif.Props.C03_image_unescaped"
   ],
   "note": "refutation"
  },
  {
   "property": "C04",
   "status": "proved",
   "theorems": [
    "Verif.Props.C04_line_endings",
    "Verif.Props.C04_same_for_all_terminators"
   ],
   "note": ""
  },
  {
   "property": "C05",
   "status": "proved",
   "theorems": [
    "Verif.Props.C05_escape_reversible",
    "Verif.Props.C05_escape_injective",
    "Verif.Props.C05_attr_escape_reversible",
    "Verif.Props.C05_attr_escape_injective"
   ],
   "note": ""
  },
  {
   "property": "C06",
   "status": "proved",
   "theorems": [
    "Verif.Props.C06_paragraphs_blog"
   ],
   "note": ""
  },
  {
   "property": "C07",
   "status": "proved",
   "theorems": [
    "Verif.Props.C07_paragraphs_wiki"
   ],
   "note": ""
  },
  {
   "property": "C08",
   "status": "proved",
   "theorems": [
    "Verif.Props.C08_tilde",
    "Verif.Props.C08_not_tilde"
   ],
   "note": ""
  },
  {
   "property": "C09",
   "status": "proved",
   "theorems": [
    "Verif.Props.C09_nowiki"
   ],
   "note": ""
  },
  {
   "property": "C10",
   "status": "proved",
   "theorems": [
    "Verif.Props.C10_nowiki_block",
    "Verif.Props.C10_preLine",
    "Verif.Props.C10_leading_blank"
   ],
   "note": ""
  },
  {
   "property": "C100",
   "status": "proved",
   "theorems": [
    "Verif.Props.C100_words",
    "Verif.Props.C100_value",
    "Verif.Props.C100_arguments",
    "Verif.Props.C100_accepted"
   ],
   "note": "shlex.split and int() are modelled for CPython 3.11. How words are written and what values mean is specified in Spec/Arguments.lean."
  },
  {
   "property": "C101",
   "status": "proved",
   "theorems": [
    "Verif.Props.C101_from_html",
    "Verif.Props.C101_rest_begins",
    "Verif.Props.C101_from_creole",
    "Verif.Props.C101_around",
    "Verif.Props.C101_blank"
   ],
   "note": "That html2rest can leave white space at the beginning is shown by a witness."
  },
  {
   "property": "C102",
   "status": "proved",
   "theorems": [
    "Verif.Props.C102_document",
    "Verif.Props.C102_restored",
    "Verif.Props.C102_version",
    "Verif.Props.C102_version_fails"
   ],
   "note": "The methods of the base class in docutils are parameters (structure Base); what is assumed about them is the structure Usual, met by docutils 0.16 as far as known (docutils is not part of the repository). Nodes other than tables, field lists, the docinfo and block quotes append given pieces and leave the context alone."
  },
  {
   "property": "C103",
   "status": "proved",
   "theorems": [
    "Verif.Props.C103_settings",
    "Verif.Props.C103_rest2html",
    "Verif.Props.C103_allowed",
    "Verif.Props.C103_pypi"
   ],
   "note": "docutils is a parameter: the theorems are about the settings it is called with."
  },
  {
   "property": "C11",
   "status": "proved",
   "theorems": [
    "Verif.Props.C11_heading"
   ],
   "note": ""
  },
  {
   "property": "C12",
   "status": "proved",
   "theorems": [
    "Verif.Props.C12_typefaces",
    "Verif.Props.C12_inline"
   ],
   "note": ""
  },
  {
   "property": "C13",
   "status": "proved",
   "theorems": [
    "Verif.Props.C13_link",
    "Verif.Props.C13_link_text"
   ],
   "note": ""
  },
  {
   "property": "C14",
   "status": "proved",
   "theorems": [
    "Verif.Props.C14_image",
    "Verif.Props.C14_image_text",
    "Verif.Props.C14_image_size"
   ],
   "note": ""
  },
  {
   "property": "C15",
   "status": "proved",
   "theorems": [
    "Verif.Props.C15_list",
    "Verif.Props.C15_nested",
    "Verif.Props.C15_mixed_kinds",
    "Verif.Props.C15_continued",
    "Verif.Props.C15_two_marks"
   ],
   "note": ""
  },
  {
   "property": "C16",
   "status": "proved",
   "theorems": [
    "Verif.Props.C16_table",
    "Verif.Props.C16_row",
    "Verif.Props.C16_header_link"
   ],
   "note": ""
  },
  {
   "property": "C17",
   "status": "proved",
   "theorems": [
    "Verif.Props.C17_tag",
    "Verif.Props.C17_tag_text",
    "Verif.Props.C17_block",
    "Verif.Props.C57_document",
    "Verif.Props.callGives_unique"
   ],
   "note": "Calls in a line of text, calls with text, and block calls anywhere in a well-formed document; a macro is modelled as a function of its keyword arguments."
  },
  {
   "property": "C18",
   "status": "proved",
   "theorems": [
    "Verif.Props.C18_macro_failures_contained",
    "Verif.Props.C18_each_call",
    "Verif.Props.C18_with_toc",
    "Verif.Props.C17_tag",
    "Verif.Props.C17_tag_text",
    "Verif.Props.C17_block"
   ],
   "note": ""
  },
  {
   "property": "C19",
   "status": "proved",
   "theorems": [
    "Verif.Props.C19_toc_mirrors_levels"
   ],
   "note": ""
  },
  {
   "property": "C20",
   "status": "proved",
   "theorems": [
    "Verif.Props.C20_toc_html"
   ],
   "note": ""
  },
  {
   "property": "C21",
   "status": "proved",
   "theorems": [
    "Verif.Props.C21_toc_first_only"
   ],
   "note": ""
  },
  {
   "property": "C22",
   "status": "proved",
   "theorems": [
    "Verif.Props.C22_dict_unchanged",
    "Verif.Props.C22_stateless"
   ],
   "note": ""
  },
  {
   "property": "C23",
   "status": "proved",
   "theorems": [
    "Verif.Props.C23_shared_dict_leaks"
   ],
   "note": "refutation"
  },
  {
   "property": "C24",
   "status": "proved",
   "theorems": [
    "Verif.Props.C24_toc_depth_raises"
   ],
   "note": "refutation"
  },
  {
   "property": "C25",
   "status": "proved",
   "theorems": [
    "Verif.Props.C25_args_round_trip",
    "Verif.Props.C25_round_trip_limits"
   ],
   "note": ""
  },
  {
   "property": "C26",
   "status": "proved",
   "theorems": [
    "Verif.Props.C26_dict_or_valueError",
    "Verif.Props.C26_last_wins"
   ],
   "note": ""
  },
  {
   "property": "C27",
   "status": "proved",
   "theorems": [
    "Verif.Props.C27_texts_complete"
   ],
   "note": ""
  },
  {
   "property": "C28",
   "status": "proved",
   "theorems": [
    "Verif.Props.C28_stray_end_drops_rest"
   ],
   "note": "refutation"
  },
  {
   "property": "C29",
   "status": "proved",
   "theorems": [
    "Verif.Props.C29_levels_running",
    "Verif.Props.C29_wellformed_tree",
    "Verif.Props.C29_wellformed_needs_blocks"
   ],
   "note": ""
  },
  {
   "property": "C30",
   "status": "proved",
   "theorems": [
    "Verif.Props.C30_strip_html_solid",
    "Verif.Props.C30_strip_html_one_line",
    "Verif.Props.C30_words",
    "Verif.Props.C30_tab_glues"
   ],
   "note": "words: every text of words, white space and tags where white space beside inline tags contains a line end or begins and ends with a blank; the tabulator case is shown to fail"
  },
  {
   "property": "C31",
   "status": "proved",
   "theorems": [
    "Verif.Props.C31_deentity_escape",
    "Verif.Props.C31_deentity_html_escape"
   ],
   "note": ""
  },
  {
   "property": "C32",
   "status": "proved",
   "theorems": [
    "Verif.Props.C32_replaces_references",
    "Verif.Props.C32_decimal",
    "Verif.Props.C32_hexadecimal",
    "Verif.Props.C32_named",
    "Verif.Props.C32_only_bad_references_fail"
   ],
   "note": ""
  },
  {
   "property": "C33",
   "status": "proved",
   "theorems": [
    "Verif.Props.C33_areas_cut_out",
    "Verif.Props.C33_placeholder_resolves"
   ],
   "note": ""
  },
  {
   "property": "C34",
   "status": "proved",
   "theorems": [
    "Verif.Props.C34_known_tags",
    "Verif.Props.C34_unknown_tags_raise"
   ],
   "note": ""
  },
  {
   "property": "C35",
   "status": "proved",
   "theorems": [
    "Verif.Props.C35_transparent",
    "Verif.Props.C35_one_line",
    "Verif.Props.C35_macro",
    "Verif.Props.C35_escape"
   ],
   "note": ""
  },
  {
   "property": "C36",
   "status": "proved",
   "theorems": [
    "Verif.Props.C36_lists",
    "Verif.Props.C36_list_state_restored",
    "Verif.Props.C36_items"
   ],
   "note": ""
  },
  {
   "property": "C37",
   "status": "proved",
   "theorems": [
    "Verif.Props.C37_lists_of_one_kind",
    "Verif.Props.C37_wrong_marker_in_mixed_lists",
    "Verif.Props.C37_wrong_marker_html"
   ],
   "note": "refutation for mixed lists, proof for lists of one kind"
  },
  {
   "property": "C38",
   "status": "proved",
   "theorems": [
    "Verif.Props.C38_creole_table",
    "Verif.Props.C38_rest_table",
    "Verif.Props.C38_markdown_table",
    "Verif.Props.C38_markdown_empty_column"
   ],
   "note": ""
  },
  {
   "property": "C39",
   "status": "proved",
   "theorems": [
    "Verif.Props.C39_ragged_rows_truncated",
    "Verif.Props.C39_cell_lost"
   ],
   "note": ""
  },
  {
   "property": "C40",
   "status": "proved",
   "theorems": [
    "Verif.Props.C40_table_operations"
   ],
   "note": ""
  },
  {
   "property": "C41",
   "status": "proved",
   "theorems": [
    "Verif.Props.C41_table_lines",
    "Verif.Props.C41_div",
    "Verif.Props.C41_span",
    "Verif.Props.C41_markdown_breaks_line"
   ],
   "note": "proved for creole, textile and ReSt; refuted for markdown cells"
  },
  {
   "property": "C42",
   "status": "proved",
   "theorems": [
    "Verif.Props.C42_rest_headline",
    "Verif.Props.C42_rest_headline_document",
    "Verif.Props.C42_level_zero"
   ],
   "note": ""
  },
  {
   "property": "C43",
   "status": "proved",
   "theorems": [
    "Verif.Props.C43_one_url",
    "Verif.Props.C43_exception"
   ],
   "note": "for documents without a <document> tag, with links made of texts, typefaces and pictures; the exception is exact for complete nodes"
  },
  {
   "property": "C44",
   "status": "proved",
   "theorems": [
    "Verif.Props.C44_definitions",
    "Verif.Props.C44_paragraphs",
    "Verif.Props.C44_empty_url"
   ],
   "note": "for non-empty URLs; refuted for empty ones by C44_empty_url"
  },
  {
   "property": "C45",
   "status": "proved",
   "theorems": [
    "Verif.Props.C45_markdown_code"
   ],
   "note": ""
  },
  {
   "property": "C46",
   "status": "proved",
   "theorems": [
    "Verif.Props.C46_data_uri",
    "Verif.Props.C46_picture_text",
    "Verif.Props.C46_no_src"
   ],
   "note": ""
  },
  {
   "property": "C47",
   "status": "proved",
   "theorems": [
    "Verif.Props.C47_sizes_exchanged"
   ],
   "note": ""
  },
  {
   "property": "C48",
   "status": "proved",
   "theorems": [
    "Verif.Props.C48_typefaces"
   ],
   "note": ""
  },
  {
   "property": "C49",
   "status": "proved",
   "theorems": [
    "Verif.Props.C49_other_files",
    "Verif.Props.C49_result",
    "Verif.Props.C49_exception",
    "Verif.Props.C49_crash",
    "Verif.Props.C49_completes"
   ],
   "note": ""
  },
  {
   "property": "C50",
   "status": "proved",
   "theorems": [
    "Verif.Props.C50_in_place",
    "Verif.Props.C50_lost"
   ],
   "note": ""
  },
  {
   "property": "C51",
   "status": "proved",
   "theorems": [
    "Verif.Props.C51_rst",
    "Verif.Props.C51_markdown",
    "Verif.Props.C51_generated_rst",
    "Verif.Props.C51_generated_markdown"
   ],
   "note": ""
  },
  {
   "property": "C52",
   "status": "proved",
   "theorems": [
    "Verif.Props.C52_stale_prefix",
    "Verif.Props.C52_interrupted"
   ],
   "note": ""
  },
  {
   "property": "C53",
   "status": "proved",
   "theorems": [
    "Verif.Props.C53_shape",
    "Verif.Props.C53_white",
    "Verif.Props.C53_core",
    "Verif.Props.C53_idempotent"
   ],
   "note": ""
  },
  {
   "property": "C54",
   "status": "proved",
   "theorems": [
    "Verif.Props.C54_starttag"
   ],
   "note": "docutils' attribute encoder is a parameter"
  },
  {
   "property": "C55",
   "status": "proved",
   "theorems": [
    "Verif.Props.C55_accepts",
    "Verif.Props.C55_rejects",
    "Verif.Props.C55_pypi_rest2html",
    "Verif.Props.C55_relative"
   ],
   "note": "docutils parser and writer are parameters"
  },
  {
   "property": "C56",
   "status": "proved",
   "theorems": [
    "Verif.Props.C56_heading",
    "Verif.Props.C56_first_heading",
    "Verif.Props.C56_pre",
    "Verif.Props.C56_second_row",
    "Verif.Props.C56_list"
   ],
   "note": "refutations: witnesses"
  },
  {
   "property": "C57",
   "status": "proved",
   "theorems": [
    "Verif.Props.C57_document",
    "Verif.Props.C57_between"
   ],
   "note": ""
  },
  {
   "property": "C58",
   "status": "proved",
   "theorems": [
    "Verif.Props.C58_check_writes"
   ],
   "note": ""
  },
  {
   "property": "C59",
   "status": "proved",
   "theorems": [
    "Verif.Props.C59_never_converts",
    "Verif.Props.C59_reason",
    "Verif.Props.C59_when"
   ],
   "note": ""
  },
  {
   "property": "C60",
   "status": "proved",
   "theorems": [
    "Verif.Props.C60_parse_written",
    "Verif.Props.C60_parse_preformatted",
    "Verif.Props.C60_open_image"
   ],
   "note": "From the string: cutting out of pre areas, strip_html, tokenizer and tree construction. Documents without script/style, attribute values without quotes; pre areas between top-level elements, on lines of their own."
  },
  {
   "property": "C61",
   "status": "proved",
   "theorems": [
    "Verif.Props.C61_html2creole",
    "Verif.Props.C61_html2creole_pre"
   ],
   "note": "From the string to the string; _pre: with preformatted text among the blocks. Conditions: no macros, nothing empty, tables rectangular, headings of level 1 to 6."
  },
  {
   "property": "C62",
   "status": "proved",
   "theorems": [
    "Verif.Props.C62_there_and_back",
    "Verif.Props.C62_there_and_back_pre",
    "Verif.Props.C62_wiki"
   ],
   "note": "_pre: with preformatted blocks. Documents without macros, in the default (blog) mode without strict; C62_wiki: with wiki style line breaks."
  },
  {
   "property": "C63",
   "status": "proved",
   "theorems": [
    "Verif.Props.C63_unchanged",
    "Verif.Props.C63_unchanged_pre",
    "Verif.Props.C63_wiki",
    "Verif.Props.C63_wiki_line_breaks",
    "Verif.Props.C63_escapes_are_lost",
    "Verif.Props.C63_sizes_are_exchanged",
    "Verif.Props.C63_heading_and_list",
    "Verif.Props.C63_ends_are_lost",
    "Verif.Props.C63_pre_below_list"
   ],
   "note": ""
  },
  {
   "property": "C64",
   "status": "proved",
   "theorems": [
    "Verif.Props.C64_meaning_kept",
    "Verif.Props.C64_meaning_kept_pre",
    "Verif.Props.C64_wiki"
   ],
   "note": "_pre: with preformatted blocks; _wiki: with wiki style line breaks. Documents without macros whose text contains no literal markup after escapes are removed."
  },
  {
   "property": "C65",
   "status": "proved",
   "theorems": [
    "Verif.Props.C65_only_faulty_nodes_fail",
    "Verif.Props.C65_converts",
    "Verif.Props.C65_faulty_nodes_fail",
    "Verif.Props.C65_witnesses"
   ],
   "note": ""
  },
  {
   "property": "C66",
   "status": "proved",
   "theorems": [
    "Verif.Props.C66_parser_exceptions",
    "Verif.Props.C66_without_pre",
    "Verif.Props.C66_parses",
    "Verif.Props.C66_raw",
    "Verif.Props.C66_converter_exceptions",
    "Verif.Props.C66_witnesses"
   ],
   "note": "In general the condition is on the text after <pre> areas are cut out; for texts without <pre> on the text itself, up to white space."
  },
  {
   "property": "C67",
   "status": "proved",
   "theorems": [
    "Verif.Props.C67_address",
    "Verif.Props.C67_decodes",
    "Verif.Props.C67_unchanged",
    "Verif.Props.C67_percent_sign",
    "Verif.Props.C67_encoded_twice"
   ],
   "note": ""
  },
  {
   "property": "C68",
   "status": "proved",
   "theorems": [
    "Verif.Props.C68_html2creole",
    "Verif.Props.C68_html2textile",
    "Verif.Props.C68_html2markdown",
    "Verif.Props.C68_markdown_blank",
    "Verif.Props.C68_open_rule"
   ],
   "note": "From the string to the string, whatever the layout white space. Articles without preformatted text and macros; typefaces of the language; headings of level 1 to 6; tables rectangular (except textile); addresses well-formed (markdown)."
  },
  {
   "property": "C69",
   "status": "proved",
   "theorems": [
    "Verif.Props.C69_html2rest",
    "Verif.Props.C69_marks_of_the_inner_list",
    "Verif.Props.C69_one_text_two_addresses"
   ],
   "note": "From the string to the string. Articles without preformatted text; items on one line and visible; tables rectangular; addresses not empty."
  },
  {
   "property": "C70",
   "status": "proved",
   "theorems": [
    "Verif.Props.C70_letters_kept",
    "Verif.Props.C70_links_and_pictures",
    "Verif.Props.C70_sizes",
    "Verif.Props.C70_limits"
   ],
   "note": "Texts without <<; all options and macros. With links and images the addresses may be repeated, so the claim is a subsequence there."
  },
  {
   "property": "C71",
   "status": "proved",
   "theorems": [
    "Verif.Props.C71_text_kept",
    "Verif.Props.C71_words_same",
    "Verif.Props.C71_written_kept",
    "Verif.Props.C71_limits"
   ],
   "note": "Trees that are tidy in the sense of Spec/Shown; the conditions are needed (C71_limits)."
  },
  {
   "property": "C72",
   "status": "proved",
   "theorems": [
    "Verif.Props.C72_lines",
    "Verif.Props.C72_patch",
    "Verif.Props.C72_not_empty",
    "Verif.Props.C72_no_newline"
   ],
   "note": "The matching blocks of difflib.SequenceMatcher are a parameter of which only the documented properties are assumed; difflib.unified_diff itself is modelled. Applying the text of the diff needs final line feeds (C72_no_newline)."
  },
  {
   "property": "C73",
   "status": "proved",
   "theorems": [
    "Verif.Props.C73_blank_line",
    "Verif.Props.C73_parts",
    "Verif.Props.C73_conditions_needed"
   ],
   "note": "For the default line breaks (parser_kwargs blog_line_breaks); the first text is converted together with the blank line, because a line break at its very end is dropped there."
  },
  {
   "property": "C74",
   "status": "proved",
   "theorems": [
    "Verif.Props.C74_unknown_elements",
    "Verif.Props.C74_creole_unchanged",
    "Verif.Props.C74_limits"
   ],
   "note": "From the string to the string and back. In the default (blog) mode without strict; the creole text has to be well-formed in the sense of Spec/Creole, which excludes paragraphs that begin with an unknown tag; attributes in alphabetical order with printable ASCII values without the characters that are escaped."
  },
  {
   "property": "C75",
   "status": "proved",
   "theorems": [
    "Verif.Props.C75_calls_on_lines"
   ],
   "note": "The calls are those whose result is known (a string, an error, an unknown macro, wrong arguments), and no end tag of the call may follow in the document."
  },
  {
   "property": "C76",
   "status": "proved",
   "theorems": [
    "Verif.Props.C76_toc_of_document",
    "Verif.Props.C76_toc_in_place",
    "Verif.Props.C76_links",
    "Verif.Props.C76_limits"
   ],
   "note": "C20 is about the table for given headlines, C76 about documents from string to string. The depth has to be an integer and the arguments of the call key=value pairs."
  },
  {
   "property": "C77",
   "status": "proved",
   "theorems": [
    "Verif.Props.C77_any_blanks",
    "Verif.Props.C77_values_kept"
   ],
   "note": "C60 says exactly what is parsed if the blanks are in order; C77 has no condition on blanks, and says that only blanks may change. Tag names are lower case, without script, style and pre; attribute names are letters and values one line."
  },
  {
   "property": "C78",
   "status": "proved",
   "theorems": [
    "Verif.Props.C78_structured",
    "Verif.Props.C78_limit"
   ],
   "note": "C02 says that the HTML is safe in strict mode; C78 says what stands where, also in the default mode."
  },
  {
   "property": "C79",
   "status": "proved",
   "theorems": [
    "Verif.Props.C79_areas_read",
    "Verif.Props.C79_blanks_dropped",
    "Verif.Props.C79_needs_line_breaks"
   ],
   "note": "C33 says what is cut out of any text and how a placeholder is resolved, C60 reads documents whose blanks are in order; C79 has no condition on blanks."
  },
  {
   "property": "C80",
   "status": "proved",
   "theorems": [
    "Verif.Props.C80_converts_back",
    "Verif.Props.C80_creole_back",
    "Verif.Props.C80_exceptions",
    "Verif.Props.C80_not_the_same"
   ],
   "note": "Composition of C78 (structure of the HTML), C79 (how it is parsed) and C65 (which nodes cannot be converted). C62-C64 say exactly what comes back for certain documents."
  },
  {
   "property": "C81",
   "status": "proved",
   "theorems": [
    "Verif.Props.C81_nothing_lost",
    "Verif.Props.C81_same_words",
    "Verif.Props.C81_limits"
   ],
   "note": "C70 and C71 are about the two halves of the way; in between is the HTML parser, and C81 is about the whole way from string to string. The rows are counted in the HTML text (Spec/Grid)."
  },
  {
   "property": "C82",
   "status": "proved",
   "theorems": [
    "Verif.Props.C82_options",
    "Verif.Props.C82_limits"
   ],
   "note": "The option blog_line_breaks of the parser is not among them; it matters for every paragraph of several lines."
  },
  {
   "property": "C83",
   "status": "proved",
   "theorems": [
    "Verif.Props.C83_filled",
    "Verif.Props.C83_calls"
   ],
   "note": "C17 and C75 say what stands in the place of a call in well-formed documents; C83 is about all texts, and about macros with a state. Macros that change the dict of macros themselves are not modelled."
  },
  {
   "property": "C84",
   "status": "proved",
   "theorems": [
    "Verif.Props.C84_laid",
    "Verif.Props.C84_table",
    "Verif.Props.C84_raises"
   ],
   "note": "C76 says exactly what well-formed documents with a table of contents are converted to; C84 is about all texts. Dicts with an entry toc are the matter of C85."
  },
  {
   "property": "C85",
   "status": "proved",
   "theorems": [
    "Verif.Props.C85_shared",
    "Verif.Props.C85_own_toc"
   ],
   "note": "C22 and C23 are consequences for particular histories. A conversion that raises ends a history: what it leaves in the dict is not modelled."
  },
  {
   "property": "C86",
   "status": "proved",
   "theorems": [
    "Verif.Props.C86_tree",
    "Verif.Props.C86_tags",
    "Verif.Props.C86_written",
    "Verif.Props.C86_last_counts",
    "Verif.Props.C86_unknown_sorted"
   ],
   "note": "C86_tree is about document trees, C86_tags about what the tokenizer gives, C86_written about HTML text; in the last one the documents have their blanks in order, as in C60."
  },
  {
   "property": "C87",
   "status": "proved",
   "theorems": [
    "Verif.Props.C87_html2creole",
    "Verif.Props.C87_html2textile",
    "Verif.Props.C87_html2markdown",
    "Verif.Props.C87_html2rest",
    "Verif.Props.C87_rest_first_line"
   ],
   "note": "Extends C68 and C69. The blanks of the HTML are in order, as in C60. For ReStructuredText only \\n ends lines."
  },
  {
   "property": "C88",
   "status": "proved",
   "theorems": [
    "Verif.Props.C88_preformatted",
    "Verif.Props.C88_code_tags",
    "Verif.Props.C88_markdown_code",
    "Verif.Props.C88_markdown_kept",
    "Verif.Props.C88_markdown_empty"
   ],
   "note": "Documents that consist of one area. html2markdown loses code after an entity; the theorem says exactly what is left."
  },
  {
   "property": "C89",
   "status": "proved",
   "theorems": [
    "Verif.Props.C89_there_and_back",
    "Verif.Props.C89_settled",
    "Verif.Props.C89_same",
    "Verif.Props.C89_lost",
    "Verif.Props.C89_there_and_back_pre",
    "Verif.Props.C89_settled_pre",
    "Verif.Props.C89_same_pre",
    "Verif.Props.C89_lost_pre",
    "Verif.Props.C89_wiki",
    "Verif.Props.C89_wiki_lost"
   ],
   "note": "Articles as in C68, and those with preformatted text as in C87 (the theorems with _pre). In the default (blog) mode without strict, C89_wiki with wiki style line breaks; the condition Clear says that the creole text contains no accidental markup (needed: C89_lost)."
  },
  {
   "property": "C90",
   "status": "proved",
   "theorems": [
    "Verif.Props.C90_written",
    "Verif.Props.C90_tags",
    "Verif.Props.C90_tree",
    "Verif.Props.C90_markdown_blank",
    "Verif.Props.C90_comment_blank",
    "Verif.Props.C90_capital_x"
   ],
   "note": "C90_written is about HTML text, C90_tags about what the tokenizer gives, C90_tree about document trees. The blanks of the HTML are in order, as in C60 (a comment counts as an inline start tag; needed: C90_comment_blank). For markdown no blank stands alone between references or tags (needed: C90_markdown_blank)."
  },
  {
   "property": "C91",
   "status": "proved",
   "theorems": [
    "Verif.Props.C91_only_unknown",
    "Verif.Props.C91_supplied",
    "Verif.Props.C91_known",
    "Verif.Props.C91_replaced",
    "Verif.Props.C91_exceptions",
    "Verif.Props.C91_refused",
    "Verif.Props.C91_hidden"
   ],
   "note": "C34 and C35 are about the functions of the package. In the model the function sees the node, the kinds of its ancestors and the text of its children, which it can have emitted or not; it does not call other methods of the emitter."
  },
  {
   "property": "C92",
   "status": "proved",
   "theorems": [
    "Verif.Props.C92_plain",
    "Verif.Props.C92_highlighted",
    "Verif.Props.C92_language",
    "Verif.Props.C92_unknown_language",
    "Verif.Props.C92_no_language",
    "Verif.Props.C92_safe"
   ],
   "note": "Pygments is a parameter. What guess_lexer does with a function object is a parameter as well (in Pygments it raises)."
  },
  {
   "property": "C93",
   "status": "proved",
   "theorems": [
    "Verif.Props.C93_image",
    "Verif.Props.C93_image_unchanged",
    "Verif.Props.C93_sections"
   ],
   "note": "attval of docutils is a parameter that writes no >, as are the attributes. What docutils does with section_level is not modelled."
  },
  {
   "property": "C94",
   "status": "proved",
   "theorems": [
    "Verif.Props.C94_object",
    "Verif.Props.C94_quiet",
    "Verif.Props.C94_visible",
    "Verif.Props.C94_callable"
   ],
   "note": "Objects with a __getattr__ of their own or with attributes that cannot be set are not modelled. The value None for toc turns the table of contents off, which C94_object excludes."
  },
  {
   "property": "C95",
   "status": "proved",
   "theorems": [
    "Verif.Props.C95_one_after",
    "Verif.Props.C95_one_after_limits"
   ],
   "note": "two documents one after the other; C95_one_after_limits shows why html2rest, a list at the beginning and stray cells are excluded"
  },
  {
   "property": "C96",
   "status": "proved",
   "theorems": [
    "Verif.Props.C96_size",
    "Verif.Props.C96_size_quadratic",
    "Verif.Props.C96_size_limits"
   ],
   "note": "macros=None. The constants are not the best ones: the point is that the size is linear for a fixed depth of lists and quadratic at most."
  },
  {
   "property": "C97",
   "status": "proved",
   "theorems": [
    "Verif.Props.C97_default",
    "Verif.Props.C97_twice",
    "Verif.Props.C97_total",
    "Verif.Props.C97_safe",
    "Verif.Props.C97_letters_kept",
    "Verif.Props.C97_left_out",
    "Verif.Props.C97_elements",
    "Verif.Props.C97_limits"
   ],
   "note": "The rules are those of BlockRules, with its flags; regular expressions written by the user are not modelled. What a text needs is specified in Spec/Chosen.lean by its lines."
  },
  {
   "property": "C98",
   "status": "proved",
   "theorems": [
    "Verif.Props.C98_tables_in_tables",
    "Verif.Props.C98_headings_in_headings",
    "Verif.Props.C98_polynomial",
    "Verif.Props.C98_polynomial_plain",
    "Verif.Props.C98_polynomial_rest",
    "Verif.Props.C98_polynomial_rest_plain"
   ],
   "note": "The lower bounds are reached by the texts of Spec/Growth.lean, which are written out there. C98_polynomial and C98_polynomial_plain are the upper bounds; the number of nested tables is counted in the parsed document. C98_polynomial_rest and C98_polynomial_rest_plain are those of html2rest, for documents without a tag <document>: at such a tag the collected link definitions are written out, also inside of links, so that nested links and documents in a table cell could repeat texts as well."
  },
  {
   "property": "C99",
   "status": "proved",
   "theorems": [
    "Verif.Props.C99_exact",
    "Verif.Props.C99_files",
    "Verif.Props.C99_only_destination",
    "Verif.Props.C99_unique",
    "Verif.Props.C99_anywhere",
    "Verif.Props.C99_dashes",
    "Verif.Props.C99_help",
    "Verif.Props.C99_help_first"
   ],
   "note": "argparse of CPython 3.11.10 is modelled for the parser of cmdline.py. The words that ask for a conversion are specified in Spec/CommandLine.lean. What is printed is not modelled."
  }
 ]
}