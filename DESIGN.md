# Formal model of python-creole in Lean 4

The model lives in `lean/Verif`.  It is a shallow, executable, total model: Python functions become Lean
functions over `List Char`, `Nat`, `Int`, `Option` and structures, exceptions become values
(`Except PyErr`), and mutable objects become explicit state.  Every definition of the model cites the file and
lines of `/repo` it follows, and says where it simplifies.

## Layers

| Layer | Lean modules | Models |
|---|---|---|
| Python strings | `Verif/Py/Str`, `UniTables`, `Dict` | the `str` methods used by the code, the tables behind `\s`, `\w`, `\d`, `shlex.split`, `json.dumps`, `int()`, dicts in insertion order |
| Regular expressions | `Verif/Py/Re`, `ReParse` | a backtracking matcher with the priority semantics of `re`; every expression of the model is compared at build time (`#guard`) with the verbatim Python source, read by `ReParse` |
| Creole parser | `Verif/Creole/Tree`, `Rules`, `Parser` | `creol2html_rules.py`, `creol2html_parser.py`, `document_tree.py` |
| HTML emitter | `Verif/Creole/Emitter`, `ExampleMacros` | `creol2html_emitter.py` with `TableOfContent`, `creole2html`, `example_macros.py` |
| HTML parser | `Verif/Html/Tokenizer`, `Entities`, `Strip`, `Deentity`, `Parser` | `html.parser.HTMLParser` of CPython 3.11.10, `strip_html.py`, `deentity.py`, `html_parser.py` |
| Reverse emitters | `Verif/Emit/*` | `base_emitter.py`, the four `html2*_emitter.py`, `unknown_tags.py`, `markup_table.py`, `urlparse`/`quote`/`urlunparse` |
| Tools | `Verif/Tools/*` | `cmdline.py` (as a transition system with crash points; its argument parser, i.e. `argparse` of CPython 3.11.10 for this parser), `setup_utils.py`, `text_tools.py`, `clean_writer.py` (`starttag`, images, section levels, tables, settings), `pypi_rest2html.py` |
| Specifications | `Verif/Spec/*` | small definitions the theorems are stated with; they do not mention parsers or emitters |
| Theorems | `Verif/Props/*` | one group per property of `properties.jsonl` |
| Lemmas | `*Lemmas`, `*Scan`, `*Run`, `*Main`, `Block*`, `List*`, `TableRun`, `ReHead`, `PreText`, `Steps` | auxiliary theorems only |
| Tests | `Verif/Tests/*` | the expectations of the project's own tests, evaluated on the model; tests of the model, not proofs |

## How the parts are modelled

* **Regular expressions.**  `Py.Re` is an expression, `Py.results` the list of all results of matching it in
  priority order (a back tracking matcher lists results in exactly this order), and the match of Python is the
  first one.  Repetition of an empty match stops, as in CPython.  Groups keep the last value captured on the
  successful path.
* **Creole parser.**  `re.sub` with a function is a left fold over the matches (`scan`).  The tree is a zipper:
  the current node, the nodes above it, and the node that receives text.  A node is reachable from Python's
  `self.cur` exactly if it is in the zipper, and all changes happen there.  The recursion of `parse_inline` on
  the text inside markup uses a fuel that is the length of the text; C01 proves that it is never exhausted.
* **Emitters.**  Structural recursion over the tree; the attributes of the emitter objects are the state of a
  state-and-exception monad.  Macros are arbitrary functions from keyword arguments to results (a string,
  something else, or an exception), so the theorems quantify over all macros.  A macro may also have a state, which it may
  share with others: its result is then an arbitrary function of the list of all calls made so far.  An object with
  attributes given as `macros` is modelled by the dict of all its attributes, because the emitter uses it only to get an
  attribute by name, and to set `toc`.
* **HTML parser.**  `Tokenizer` gives the sequence of handler calls for a text, `Parser` folds the handlers over it.
  The theorems about the tree range over every sequence of events.
* **Tools.**  A file system is a function from paths to optional contents.  The command line is a step relation;
  a crash is a state that is reached and not left.

## Plan per property

The statements are in `properties.jsonl`; `MANIFEST.json` lists the theorems with notes.

* C01 totality: the parser and emitter are total with explicit errors; an invariant of the zipper (a document node
  at the bottom, levels and contents present where they are read) makes every error unreachable, and each inline
  recursion is on a strictly shorter text.
* C02 safety: induction over the tree; every branch of the emitter yields a word of the grammar `SafeHtml`.
* C03, C23, C24, C28, C37, C39, C47, C50, C52, C56, C58, C59: the code does not do what one would like; the
  behaviour is stated and proved, in general where it is general, otherwise with a witness evaluated by the kernel.
* C04 line endings: the normalisation is a fold; it maps every way of writing the same lines to the same text.
* C05 escapes: induction on the text.
* C06-C16, C56, C57 the language: an abstract syntax of inline markup (`Spec/Creole`), blocks and documents
  (`Spec/CreoleDoc`), a printer and the HTML meant; the modelled parser and emitter map the print to the meaning.
  The core is a theorem about what the expressions match first at each place of the print.
* C17, C18, C22 macros: case analysis of `macro_emit`, and the document theorems carry a context that says what
  calls give.
* C19-C21 toc: refinement of the list-of-lists builder to a specification, and a state machine for calls.
* C25, C26 arguments: `shlex` as a state machine; induction.
* C27-C29, C33 HTML parser: invariants over arbitrary sequences of events.
* C30-C32: results of the expressions, then induction along the scan.  `C30_words` describes a HTML text as a list of pieces (`Spec/Words.lean`), joins the lines piece by piece and follows the tags with the white space around them.
* C34-C36, C38-C46, C48: structural induction over trees and invariants of the emitters' state.
* C49-C52, C58: invariants of the transition system; file contents by induction over lines.
* C60-C63 round trip: written HTML is described by a small document type (`Spec/HtmlDoc`); what each expression of
  `strip_html` and the tokenizer do on it is proved by induction over the document, then the emitter is evaluated on the
  resulting tree; C62 to C64 compose this with C57. With wiki style line breaks the HTML is the one of the document with joined
  paragraphs (`joinedDoc`). Areas of preformatted text
  are cut out before parsing and put back: `Html/ReadPre` proves where the expression finds them (induction over the areas).
* C65, C66 exceptions: `Spec/Faults` lists what may be wrong with a node and `Spec/ParseFaults` what may be wrong with a
  text, each with the exception. A small Hoare logic for the emitter monad shows that nothing else raises; for the parser
  every exit of the tokenizer with an exception is traced back to the text in front of it.
* C67 addresses: `Spec/Url` gives the parts of an address, its text and percent-encoding; the model of `urlparse`,
  `quote` and `urlunparse` is evaluated on the text.
* C68 articles: `Spec/Article` has a small syntax of articles, the elements of their HTML and their text in three
  languages; the emitters are run on the elements by induction, and composed with C60 for the parser.
* C69 articles in ReStructuredText: `Spec/ArticleRest` gives the text with the links and images known so far as an
  explicit state; the emitter is run by induction with an invariant that relates its dictionaries to that state.
* C70 no text is lost: `Re.covers` decides that a rule captures all letters of what it matches, the scanners skip none,
  every handler adds the letters of its match to the tree (`Gains`), the emitter writes them (`Renders`).
* C71 no text is lost by the emitters from HTML: `Spec/Shown` gives the text of a tree and the tidy trees; a triple `Hol`
  relates the text of a node to what is written, with an invariant on the attributes of the emitter, for tables on the
  cells collected so far; induction over trees.
* C72: `Tools/Diff.lean` models `unified_diff` of `diff_utils.py` and `difflib.unified_diff` (opcodes, grouping with three
  lines of context, hunk headers); `Spec/Patch.lean` is an independent strict `patch`.  Induction over the matching blocks,
  the groups and the codes; `Matching` is what difflib documents about `get_matching_blocks`.
* C73: the block regular expression is shown to match before the blank line exactly as if nothing followed
  (`Creole/Local`, `BlockLocal`, `BlockCut`), and every handler of the parser is shown to commute with nodes put in front of
  the document (`Creole/Graft`), so the tree of the whole is the tree of the first text followed by the tree of the second.
* C74: a tree of unknown elements is flattened into text with calls of the macro (`Spec/Masked`); the round trip of C61-C63
  is proved again for such text (`Emit/Masked`, `Emit/MaskedDoc`) and C57 gives the way back.
* C75, C76: a call on a line of its own is read as a paragraph with one macro node (`Creole/PageRun`, with the simulation of
  C27-C29); for C76 the emitter state carries the table of contents (`Creole/PageToc`), and the placeholder is found at its
  place because the HTML before it contains no `<<` (`Creole/PageTags`).
* C77: documents are sequences of characters and tags; each step of `strip_html` (stripping, joining lines, replacing a tag
  with the blanks around it) is shown to change white space only (`Html/StripAny`), the sequence is read back as a document
  (`Html/ReadAny`), and a name that begins with `quot` is shown to be no other entity by a check of the whole table
  (`Html/AttrQuote`).
* C78: an invariant of the parser state says which kinds of nodes are nested in which ones, for every text (`Creole/Shape`,
  `Creole/ShapeBlock`); the emitter writes such a tree as a list of elements (`Creole/Render`) that has the structure of
  `Spec/Grammar`.
* C79: as C77; the areas are replaced by numbered places in two steps (`Html/ReadPreAny`: one lemma for each of the two
  regular expressions at an area), the places are tags like any others for `strip_html` and the tokenizer, and the events are
  run piece by piece between the places.
* C80: C78 gives a structured document; its areas of preformatted text are divided off and C79 says how it is parsed; by
  induction over the structure (`Html/FineRead`) no node of the tree is one of the faulty nodes of C65.
* C81: the tree that is parsed from a structured document is tidy (`Html/FineTidy`: rows and cells where they belong; the
  number of cells is read off the tags of the HTML text, `Html/FineGrid`), and it shows the text one reads in the HTML
  (`Html/FineText`); so C70 (creole to HTML), C79 (HTML to tree) and C71 (tree to text) fit together.
* C82: induction over the document tree: for another `verbose`, another dict of macros and, if there is no `<img src=` in
  the result, another `strict` the emitter returns the same text.
* C83: induction over the document tree: emitting a node is filling a list of texts and calls (`Creole/Holes`), for all
  macros at once; a call node is compared with the relation `Answers` case by case (`macroEmit_iff`).
* C84: as C83, with headings as places and the state of the table of contents beside the dict of macros (`Creole/Spots`).  That
  the parser's `used_macros` are the names of the macro nodes is an invariant of all its methods (`Creole/UsedNames`).  The
  table of contents for given headings is unique (`tocItems_unique`), so the conversion is described up to equality.
* C85: the theorem for C84 holds for any state left in the dict (`laid_shared`; that texts without `toc` do not touch it is one more
  instance of `Scheme`); then induction over the sequence of texts.
* C86: `Spec/Attrs` says which attributes matter and when two documents differ in others only.  An emitter method reads the used
  attributes by name, or sorts all of them (`sortKeys_eq`); then induction over trees, a simulation of the parser on two sequences of
  events, and C60's tokens of written documents.
* C87: `Spec/ArticlePre` says what the text of an article with areas is.  C60 gives the tree; every block and every area is
  emitted with a known text, whatever stands before it (`sec_emit`, `sec_rest`), and the line ends at the borders add up to the
  empty lines of the specification.
* C88: an area that is not a block is found by the second expression only (`cut_single`: the content is the shortest possible
  one, and no `</pre>` stands inside); for markdown the second run of the parser is C60's reading of the document `<code>`, whose
  first child is computed from the text (`first_piece`).
* C89: the article is translated to the structure of C61 (`Bl.rt`); its text is the one of C68 (`back_article`), the HTML of this
  structure has the elements of `Bl.again` (`again_doc`); then C57 as in C64, and C63 for the second round.
  With preformatted text (`Props/ThereBackPre.lean`) the same with the parts of C61 and the text of C87.
* C90: trees whose texts are divided differently give the same text (`emit_alike`, by induction over the relation `Alike`, with the
  emitter as a state relation `SameRun`); the parser makes such trees from such events (`run_alike`); the tokenizer gives such events
  (`read_tokens`, induction over maximal runs of plain characters).
* C91: the emitters again with `unknown_emit` as a parameter (`Emit/User.lean`); equal to the others for the functions of the
  package.  Agreement, exceptions (the triples of C65), refusal and hidden content by induction over the tree.
* C92: case analysis of the macro `code` with Pygments as a parameter; `replace` of one character is a `flatMap`; safety is C02
  for macros that return safe HTML.
* C93: ` />` occurs in the start tag of C54 only at its end, so `replace` changes one place; mutual induction over the document
  for the section levels.
* C94: a second emitter (`Creole/MacroSource.lean`) for any `macros` argument that records `stderr` and keeps the state when it
  raises; simulation by `emitNode` with the relation "the same macro under every name", and an invariant on what is written.
* C95: a relation between the attributes of the emitter (list markers, meaning of the last node for lists, table) that every method
  preserves and that determines its text (Emit/Apart.lean); then the two parts are joined after reading them with C60.
* C96: the groups of every match stand next to each other (`Creole/ReRoom.lean`, for all expressions), so the weight of the tree that
  the parser builds is linear in the text (`Creole/Weight.lean`); the emitter writes at most a constant times the depth for every unit
  of weight (`Creole/EmitSize.lean`).  The lower bound is a family of documents read with C15.
* C97: for any list of block rules (`Creole/Chosen.lean`) a match of the alternatives is a match of one of them, whose groups select
  the method (`chosen_hit`), so the invariants of C01, C02, C70 and C78 carry over rule by rule; a rule that never matches can be taken
  out of the alternatives (`subAll_idle`); each handler only makes nodes of the kinds of its rule (`Creole/ChosenKinds.lean`).
* C98: the conversion of the nested tables and headings of `Spec/Growth.lean` is computed by induction over the depth: the cells of an
  inner table go into the table that was begun last, and its text into a cell of the outer one.  The upper bound is an induction over the
  tree (`Emit/GrowNode.lean`, `GrowMeth.lean`): every method pays for its own text and for what it leaves in the table that was begun
  last, and a table pays for the padding of its columns.  The size of the tree is bounded by the handler calls (`GrowTree.lean`), these by
  the text (`GrowParse.lean`) after the preprocessing (`GrowCut.lean`), where the groups of the regular expressions are counted with `Creole/ReRoom.lean`.
  For ReStructuredText (`GrowRest.lean`) the collected definitions are counted apart, because they are only written out between the
  children of the root; text and definitions together are an invariant there.
* C99: each word is classified (`Tools/CliWords.lean`); the loop of argparse, which consumes names in groups, is shown to read one word
  after the other (`run_arg` in `Tools/CliLoop.lean`), and the sequences it accepts are those of `Spec/CommandLine.lean`.
  For the help text and the version only the classes of the words are followed (`Props/CommandHelp.lean`).
* C100: the states of `shlex` are read as parts of words by one induction over the text (`Py/Shlex.lean`); the value is the specified one by cases (`Props/Arguments.lean`).
* C101: the last step of each conversion strips the text, and the first step of reading HTML too; a creole text of white space is an article without blocks (`Props/Ends.lean`).
* C102: induction over the document: each node leaves the context of the writer as it was (`Props/CleanTables.lean`).
* C103: two versions of docutils that agree when both settings are off give the same result (`Props/RestSettings.lean`).
* C53-C55: induction over the text, the attributes, the links.

## Trusted base

1. **Lean's kernel** (4.33.0) and its elaborator as far as it produces the statements.  Mathlib is not imported.
2. **Axioms**: `propext`, `Classical.choice` and `Quot.sound`, listed below for every theorem of the manifest.
   No axiom is added, there is no `sorry`, no `native_decide`, no `bv_decide`, no `implemented_by`.  Witnesses are
   evaluated by `decide +kernel`, that is by the kernel.
3. **The model**: that the Lean definitions say what the Python code does.  They were written by hand from the
   source, function by function.  They were validated by evaluating them on the literal expectations of the
   project's tests (`Verif/Tests`), by comparing the regular expressions with the Python source text at build
   time, by comparing the tokenizer and the regular expression matcher with CPython's on many generated inputs,
   and by changing the model as a bug would (`seeded/LOG.jsonl`).
4. **The specifications** in `Verif/Spec`: that they say what the English statements say.

### What is not modelled

* Python strings with lone surrogates; `str.lower` outside ASCII (tag and attribute names).
* The recursion limit, memory, and time of the interpreter.
* `debug=True` and every debug method (`debug_tree`, `debug_groups`, `DebugList`, `HtmlParser.debug`,
  `MarkupTable.debug_msg`), the text of tracebacks written to `stderr`, warnings.
* regular expressions and flags of the user in `creole2html(block_rules=...)` (the rules of `BlockRules`, in any selection and order, are modelled: C97); macros that change the dict of macros, the emitter or the document during a conversion.
* Functions given as `unknown_emit` that call methods of the emitter other than `emit_children` (`Emit/User.lean`).
* Pygments: its lexers and the highlighter are parameters of the theorems.
* `_verify_rules` of `creol2html_rules.py` 213-239, which runs only when that file is executed.
* the texts that `cmdline.py` and argparse print (argparse itself is modelled for the parser of `cmdline.py`: C99); `publish.py`; printing in `diff_utils.py`; how `difflib.SequenceMatcher` finds matching blocks (a parameter).
* docutils and `markdown`: the parsers, writers and renderers are parameters of the theorems.  Of `clean_writer.py`
  all methods are modelled, with what the methods of docutils do as parameters (`Tools/Rest.lean`, `Tools/CleanWriter.lean`, `Tools/CleanTables.lean`), and the settings that docutils is called with (`Tools/RestSettings.lean`).
* Text codecs (files are modelled by their decoded text; universal newlines are modelled), file permissions,
  concurrent writers.
* The checks of `urlparse` on net locations (NFKC, bracketed hosts) are an abstract predicate `netlocOk`.
* The version of CPython is 3.11.10; the values of groups inside repetitions follow CPython 3.11 and later.

## Axioms of each theorem

P is `propext`, C is `Classical.choice`, Q is `Quot.sound`.

| Property | Theorem | Axioms |
|---|---|---|
| C01 | `Verif.Props.C01_creole2html_total` | P C Q |
| C01 | `Verif.Props.C01_only_typeError` | P C Q |
| C02 | `Verif.Props.C02_safe` | P C Q |
| C02 | `Verif.Props.C02_safe_macros` | P C Q |
| C02 | `Verif.Props.C02_safe_silent` | P C Q |
| C03 | `Verif.Props.C03_macro_error_unescaped` | P Q |
| C03 | `Verif.Props.C03_toc_unescaped` | P Q |
| C03 | `Verif.Props.C03_image_unescaped` | P Q |
| C04 | `Verif.Props.C04_line_endings` | P C Q |
| C04 | `Verif.Props.C04_same_for_all_terminators` | P C Q |
| C05 | `Verif.Props.C05_escape_reversible` | P |
| C05 | `Verif.Props.C05_escape_injective` | P |
| C05 | `Verif.Props.C05_attr_escape_reversible` | P Q |
| C05 | `Verif.Props.C05_attr_escape_injective` | P Q |
| C06 | `Verif.Props.C06_paragraphs_blog` | P C Q |
| C07 | `Verif.Props.C07_paragraphs_wiki` | P C Q |
| C08 | `Verif.Props.C08_tilde` | P C Q |
| C08 | `Verif.Props.C08_not_tilde` | P |
| C09 | `Verif.Props.C09_nowiki` | P C Q |
| C10 | `Verif.Props.C10_nowiki_block` | P C Q |
| C10 | `Verif.Props.C10_preLine` | P Q |
| C10 | `Verif.Props.C10_leading_blank` | P |
| C100 | `Verif.Props.C100_words` | P C Q |
| C100 | `Verif.Props.C100_value` | P C Q |
| C100 | `Verif.Props.C100_arguments` | P C Q |
| C100 | `Verif.Props.C100_accepted` | P C Q |
| C101 | `Verif.Props.C101_from_html` | P |
| C101 | `Verif.Props.C101_rest_begins` | P |
| C101 | `Verif.Props.C101_from_creole` | P Q |
| C101 | `Verif.Props.C101_around` | P Q |
| C101 | `Verif.Props.C101_blank` | P C Q |
| C102 | `Verif.Props.C102_document` | P Q |
| C102 | `Verif.Props.C102_restored` | P Q |
| C102 | `Verif.Props.C102_version` | none |
| C102 | `Verif.Props.C102_version_fails` | P Q |
| C103 | `Verif.Props.C103_settings` | P C Q |
| C103 | `Verif.Props.C103_rest2html` | P C Q |
| C103 | `Verif.Props.C103_allowed` | P C Q |
| C103 | `Verif.Props.C103_pypi` | none |
| C11 | `Verif.Props.C11_heading` | P C Q |
| C12 | `Verif.Props.C12_typefaces` | P C Q |
| C12 | `Verif.Props.C12_inline` | P C Q |
| C13 | `Verif.Props.C13_link` | P C Q |
| C13 | `Verif.Props.C13_link_text` | P C Q |
| C14 | `Verif.Props.C14_image` | P C Q |
| C14 | `Verif.Props.C14_image_text` | P C Q |
| C14 | `Verif.Props.C14_image_size` | P C Q |
| C15 | `Verif.Props.C15_list` | P C Q |
| C15 | `Verif.Props.C15_nested` | P C Q |
| C15 | `Verif.Props.C15_mixed_kinds` | P |
| C15 | `Verif.Props.C15_continued` | P |
| C15 | `Verif.Props.C15_two_marks` | P |
| C16 | `Verif.Props.C16_table` | P C Q |
| C16 | `Verif.Props.C16_row` | P C Q |
| C16 | `Verif.Props.C16_header_link` | P |
| C17 | `Verif.Props.C17_tag` | P C Q |
| C17 | `Verif.Props.C17_tag_text` | P C Q |
| C17 | `Verif.Props.C17_block` | P C Q |
| C17 | `Verif.Props.C57_document` | P C Q |
| C17 | `Verif.Props.callGives_unique` | P |
| C18 | `Verif.Props.C18_macro_failures_contained` | P C Q |
| C18 | `Verif.Props.C18_each_call` | P |
| C18 | `Verif.Props.C18_with_toc` | P C Q |
| C18 | `Verif.Props.C17_tag` | P C Q |
| C18 | `Verif.Props.C17_tag_text` | P C Q |
| C18 | `Verif.Props.C17_block` | P C Q |
| C19 | `Verif.Props.C19_toc_mirrors_levels` | P C Q |
| C20 | `Verif.Props.C20_toc_html` | P C Q |
| C21 | `Verif.Props.C21_toc_first_only` | P Q |
| C22 | `Verif.Props.C22_dict_unchanged` | P C Q |
| C22 | `Verif.Props.C22_stateless` | P C Q |
| C23 | `Verif.Props.C23_shared_dict_leaks` | P |
| C24 | `Verif.Props.C24_toc_depth_raises` | P |
| C25 | `Verif.Props.C25_args_round_trip` | P C Q |
| C25 | `Verif.Props.C25_round_trip_limits` | P |
| C26 | `Verif.Props.C26_dict_or_valueError` | P Q |
| C26 | `Verif.Props.C26_last_wins` | P C Q |
| C27 | `Verif.Props.C27_texts_complete` | P Q |
| C28 | `Verif.Props.C28_stray_end_drops_rest` | P Q |
| C29 | `Verif.Props.C29_levels_running` | P Q |
| C29 | `Verif.Props.C29_wellformed_tree` | P Q |
| C29 | `Verif.Props.C29_wellformed_needs_blocks` | P |
| C30 | `Verif.Props.C30_strip_html_solid` | P C Q |
| C30 | `Verif.Props.C30_strip_html_one_line` | P C Q |
| C30 | `Verif.Props.C30_words` | P C Q |
| C30 | `Verif.Props.C30_tab_glues` | none |
| C31 | `Verif.Props.C31_deentity_escape` | P C Q |
| C31 | `Verif.Props.C31_deentity_html_escape` | P C Q |
| C32 | `Verif.Props.C32_replaces_references` | P C Q |
| C32 | `Verif.Props.C32_decimal` | P C Q |
| C32 | `Verif.Props.C32_hexadecimal` | P C Q |
| C32 | `Verif.Props.C32_named` | P C Q |
| C32 | `Verif.Props.C32_only_bad_references_fail` | P C Q |
| C33 | `Verif.Props.C33_areas_cut_out` | P C Q |
| C33 | `Verif.Props.C33_placeholder_resolves` | P C Q |
| C34 | `Verif.Props.C34_known_tags` | P |
| C34 | `Verif.Props.C34_unknown_tags_raise` | P Q |
| C35 | `Verif.Props.C35_transparent` | P Q |
| C35 | `Verif.Props.C35_one_line` | P |
| C35 | `Verif.Props.C35_macro` | P Q |
| C35 | `Verif.Props.C35_escape` | P Q |
| C36 | `Verif.Props.C36_lists` | P Q |
| C36 | `Verif.Props.C36_list_state_restored` | P Q |
| C36 | `Verif.Props.C36_items` | P Q |
| C37 | `Verif.Props.C37_lists_of_one_kind` | P C Q |
| C37 | `Verif.Props.C37_wrong_marker_in_mixed_lists` | P |
| C37 | `Verif.Props.C37_wrong_marker_html` | P |
| C38 | `Verif.Props.C38_creole_table` | P C Q |
| C38 | `Verif.Props.C38_rest_table` | P C Q |
| C38 | `Verif.Props.C38_markdown_table` | P C Q |
| C38 | `Verif.Props.C38_markdown_empty_column` | none |
| C39 | `Verif.Props.C39_ragged_rows_truncated` | P C Q |
| C39 | `Verif.Props.C39_cell_lost` | none |
| C40 | `Verif.Props.C40_table_operations` | P Q |
| C41 | `Verif.Props.C41_table_lines` | P Q |
| C41 | `Verif.Props.C41_div` | P Q |
| C41 | `Verif.Props.C41_span` | P Q |
| C41 | `Verif.Props.C41_markdown_breaks_line` | P |
| C42 | `Verif.Props.C42_rest_headline` | P Q |
| C42 | `Verif.Props.C42_rest_headline_document` | P Q |
| C42 | `Verif.Props.C42_level_zero` | P Q |
| C43 | `Verif.Props.C43_one_url` | P C Q |
| C43 | `Verif.Props.C43_exception` | P C Q |
| C44 | `Verif.Props.C44_definitions` | P C Q |
| C44 | `Verif.Props.C44_paragraphs` | P C Q |
| C44 | `Verif.Props.C44_empty_url` | P |
| C45 | `Verif.Props.C45_markdown_code` | P Q |
| C46 | `Verif.Props.C46_data_uri` | P C Q |
| C46 | `Verif.Props.C46_picture_text` | P C Q |
| C46 | `Verif.Props.C46_no_src` | P Q |
| C47 | `Verif.Props.C47_sizes_exchanged` | P C Q |
| C48 | `Verif.Props.C48_typefaces` | P Q |
| C49 | `Verif.Props.C49_other_files` | P Q |
| C49 | `Verif.Props.C49_result` | P Q |
| C49 | `Verif.Props.C49_exception` | P Q |
| C49 | `Verif.Props.C49_crash` | P Q |
| C49 | `Verif.Props.C49_completes` | P |
| C50 | `Verif.Props.C50_in_place` | P Q |
| C50 | `Verif.Props.C50_lost` | P Q |
| C51 | `Verif.Props.C51_rst` | P C Q |
| C51 | `Verif.Props.C51_markdown` | P C Q |
| C51 | `Verif.Props.C51_generated_rst` | P Q |
| C51 | `Verif.Props.C51_generated_markdown` | P Q |
| C52 | `Verif.Props.C52_stale_prefix` | P C Q |
| C52 | `Verif.Props.C52_interrupted` | P C Q |
| C53 | `Verif.Props.C53_shape` | P C Q |
| C53 | `Verif.Props.C53_white` | P C Q |
| C53 | `Verif.Props.C53_core` | P C Q |
| C53 | `Verif.Props.C53_idempotent` | P C Q |
| C54 | `Verif.Props.C54_starttag` | P C Q |
| C55 | `Verif.Props.C55_accepts` | P C Q |
| C55 | `Verif.Props.C55_rejects` | P C Q |
| C55 | `Verif.Props.C55_pypi_rest2html` | P C Q |
| C55 | `Verif.Props.C55_relative` | P C Q |
| C56 | `Verif.Props.C56_heading` | P |
| C56 | `Verif.Props.C56_first_heading` | P |
| C56 | `Verif.Props.C56_pre` | P |
| C56 | `Verif.Props.C56_second_row` | P |
| C56 | `Verif.Props.C56_list` | P |
| C57 | `Verif.Props.C57_document` | P C Q |
| C57 | `Verif.Props.C57_between` | P |
| C58 | `Verif.Props.C58_check_writes` | P |
| C59 | `Verif.Props.C59_never_converts` | P Q |
| C59 | `Verif.Props.C59_reason` | P C Q |
| C59 | `Verif.Props.C59_when` | P Q |
| C60 | `Verif.Props.C60_parse_written` | P C Q |
| C60 | `Verif.Props.C60_parse_preformatted` | P C Q |
| C60 | `Verif.Props.C60_open_image` | P |
| C61 | `Verif.Props.C61_html2creole` | P C Q |
| C61 | `Verif.Props.C61_html2creole_pre` | P C Q |
| C62 | `Verif.Props.C62_there_and_back` | P C Q |
| C62 | `Verif.Props.C62_there_and_back_pre` | P C Q |
| C62 | `Verif.Props.C62_wiki` | P C Q |
| C63 | `Verif.Props.C63_unchanged` | P C Q |
| C63 | `Verif.Props.C63_unchanged_pre` | P C Q |
| C63 | `Verif.Props.C63_wiki` | P C Q |
| C63 | `Verif.Props.C63_wiki_line_breaks` | P |
| C63 | `Verif.Props.C63_escapes_are_lost` | P |
| C63 | `Verif.Props.C63_sizes_are_exchanged` | P |
| C63 | `Verif.Props.C63_heading_and_list` | P |
| C63 | `Verif.Props.C63_ends_are_lost` | P |
| C63 | `Verif.Props.C63_pre_below_list` | P |
| C64 | `Verif.Props.C64_meaning_kept` | P C Q |
| C64 | `Verif.Props.C64_meaning_kept_pre` | P C Q |
| C64 | `Verif.Props.C64_wiki` | P C Q |
| C65 | `Verif.Props.C65_only_faulty_nodes_fail` | P C Q |
| C65 | `Verif.Props.C65_converts` | P C Q |
| C65 | `Verif.Props.C65_faulty_nodes_fail` | P Q |
| C65 | `Verif.Props.C65_witnesses` | P |
| C66 | `Verif.Props.C66_parser_exceptions` | P Q |
| C66 | `Verif.Props.C66_without_pre` | P C Q |
| C66 | `Verif.Props.C66_parses` | P C Q |
| C66 | `Verif.Props.C66_raw` | P Q |
| C66 | `Verif.Props.C66_converter_exceptions` | P C Q |
| C66 | `Verif.Props.C66_witnesses` | P |
| C67 | `Verif.Props.C67_address` | P C Q |
| C67 | `Verif.Props.C67_decodes` | P Q |
| C67 | `Verif.Props.C67_unchanged` | P C Q |
| C67 | `Verif.Props.C67_percent_sign` | P |
| C67 | `Verif.Props.C67_encoded_twice` | P |
| C68 | `Verif.Props.C68_html2creole` | P C Q |
| C68 | `Verif.Props.C68_html2textile` | P C Q |
| C68 | `Verif.Props.C68_html2markdown` | P C Q |
| C68 | `Verif.Props.C68_markdown_blank` | P |
| C68 | `Verif.Props.C68_open_rule` | P |
| C69 | `Verif.Props.C69_html2rest` | P C Q |
| C69 | `Verif.Props.C69_marks_of_the_inner_list` | P |
| C69 | `Verif.Props.C69_one_text_two_addresses` | P |
| C70 | `Verif.Props.C70_letters_kept` | P C Q |
| C70 | `Verif.Props.C70_links_and_pictures` | P C Q |
| C70 | `Verif.Props.C70_sizes` | P C Q |
| C70 | `Verif.Props.C70_limits` | P Q |
| C71 | `Verif.Props.C71_text_kept` | P C Q |
| C71 | `Verif.Props.C71_words_same` | P C Q |
| C71 | `Verif.Props.C71_written_kept` | P C Q |
| C71 | `Verif.Props.C71_limits` | P |
| C72 | `Verif.Props.C72_lines` | P C Q |
| C72 | `Verif.Props.C72_patch` | P C Q |
| C72 | `Verif.Props.C72_not_empty` | P C Q |
| C72 | `Verif.Props.C72_no_newline` | P |
| C73 | `Verif.Props.C73_blank_line` | P C Q |
| C73 | `Verif.Props.C73_parts` | P C Q |
| C73 | `Verif.Props.C73_conditions_needed` | P |
| C74 | `Verif.Props.C74_unknown_elements` | P C Q |
| C74 | `Verif.Props.C74_creole_unchanged` | P C Q |
| C74 | `Verif.Props.C74_limits` | P |
| C75 | `Verif.Props.C75_calls_on_lines` | P C Q |
| C76 | `Verif.Props.C76_toc_of_document` | P C Q |
| C76 | `Verif.Props.C76_toc_in_place` | P C Q |
| C76 | `Verif.Props.C76_links` | P C Q |
| C76 | `Verif.Props.C76_limits` | P |
| C77 | `Verif.Props.C77_any_blanks` | P C Q |
| C77 | `Verif.Props.C77_values_kept` | P |
| C78 | `Verif.Props.C78_structured` | P C Q |
| C78 | `Verif.Props.C78_limit` | P |
| C79 | `Verif.Props.C79_areas_read` | P C Q |
| C79 | `Verif.Props.C79_blanks_dropped` | P Q |
| C79 | `Verif.Props.C79_needs_line_breaks` | none |
| C80 | `Verif.Props.C80_converts_back` | P C Q |
| C80 | `Verif.Props.C80_creole_back` | P C Q |
| C80 | `Verif.Props.C80_exceptions` | P |
| C80 | `Verif.Props.C80_not_the_same` | P |
| C81 | `Verif.Props.C81_nothing_lost` | P C Q |
| C81 | `Verif.Props.C81_same_words` | P C Q |
| C81 | `Verif.Props.C81_limits` | P |
| C82 | `Verif.Props.C82_options` | P C Q |
| C82 | `Verif.Props.C82_limits` | P |
| C83 | `Verif.Props.C83_filled` | P C Q |
| C83 | `Verif.Props.C83_calls` | P C Q |
| C84 | `Verif.Props.C84_laid` | P C Q |
| C84 | `Verif.Props.C84_table` | P C Q |
| C84 | `Verif.Props.C84_raises` | P C Q |
| C85 | `Verif.Props.C85_shared` | P C Q |
| C85 | `Verif.Props.C85_own_toc` | P C Q |
| C86 | `Verif.Props.C86_tree` | P C Q |
| C86 | `Verif.Props.C86_tags` | P C Q |
| C86 | `Verif.Props.C86_written` | P C Q |
| C86 | `Verif.Props.C86_last_counts` | P |
| C86 | `Verif.Props.C86_unknown_sorted` | P |
| C87 | `Verif.Props.C87_html2creole` | P C Q |
| C87 | `Verif.Props.C87_html2textile` | P C Q |
| C87 | `Verif.Props.C87_html2markdown` | P C Q |
| C87 | `Verif.Props.C87_html2rest` | P C Q |
| C87 | `Verif.Props.C87_rest_first_line` | P |
| C88 | `Verif.Props.C88_preformatted` | P C Q |
| C88 | `Verif.Props.C88_code_tags` | P C Q |
| C88 | `Verif.Props.C88_markdown_code` | P C Q |
| C88 | `Verif.Props.C88_markdown_kept` | P Q |
| C88 | `Verif.Props.C88_markdown_empty` | P C Q |
| C89 | `Verif.Props.C89_there_and_back` | P C Q |
| C89 | `Verif.Props.C89_settled` | P C Q |
| C89 | `Verif.Props.C89_same` | P C Q |
| C89 | `Verif.Props.C89_lost` | P |
| C89 | `Verif.Props.C89_there_and_back_pre` | P C Q |
| C89 | `Verif.Props.C89_settled_pre` | P C Q |
| C89 | `Verif.Props.C89_same_pre` | P C Q |
| C89 | `Verif.Props.C89_lost_pre` | P |
| C89 | `Verif.Props.C89_wiki` | P C Q |
| C89 | `Verif.Props.C89_wiki_lost` | P |
| C90 | `Verif.Props.C90_written` | P C Q |
| C90 | `Verif.Props.C90_tags` | P C Q |
| C90 | `Verif.Props.C90_tree` | P C Q |
| C90 | `Verif.Props.C90_markdown_blank` | P |
| C90 | `Verif.Props.C90_comment_blank` | P |
| C90 | `Verif.Props.C90_capital_x` | P |
| C91 | `Verif.Props.C91_only_unknown` | P |
| C91 | `Verif.Props.C91_supplied` | P Q |
| C91 | `Verif.Props.C91_known` | P Q |
| C91 | `Verif.Props.C91_replaced` | P Q |
| C91 | `Verif.Props.C91_exceptions` | P C Q |
| C91 | `Verif.Props.C91_refused` | P Q |
| C91 | `Verif.Props.C91_hidden` | P Q |
| C92 | `Verif.Props.C92_plain` | P Q |
| C92 | `Verif.Props.C92_highlighted` | P C Q |
| C92 | `Verif.Props.C92_language` | P C Q |
| C92 | `Verif.Props.C92_unknown_language` | P Q |
| C92 | `Verif.Props.C92_no_language` | P Q |
| C92 | `Verif.Props.C92_safe` | P C Q |
| C93 | `Verif.Props.C93_image` | P C Q |
| C93 | `Verif.Props.C93_image_unchanged` | P Q |
| C93 | `Verif.Props.C93_sections` | P |
| C94 | `Verif.Props.C94_object` | P C Q |
| C94 | `Verif.Props.C94_quiet` | P Q |
| C94 | `Verif.Props.C94_visible` | P Q |
| C94 | `Verif.Props.C94_callable` | P C Q |
| C95 | `Verif.Props.C95_one_after` | P C Q |
| C95 | `Verif.Props.C95_one_after_limits` | P |
| C96 | `Verif.Props.C96_size` | P C Q |
| C96 | `Verif.Props.C96_size_quadratic` | P C Q |
| C96 | `Verif.Props.C96_size_limits` | P C Q |
| C97 | `Verif.Props.C97_default` | P Q |
| C97 | `Verif.Props.C97_twice` | P Q |
| C97 | `Verif.Props.C97_total` | P C Q |
| C97 | `Verif.Props.C97_safe` | P C Q |
| C97 | `Verif.Props.C97_letters_kept` | P C Q |
| C97 | `Verif.Props.C97_left_out` | P C Q |
| C97 | `Verif.Props.C97_elements` | P C Q |
| C97 | `Verif.Props.C97_limits` | P Q |
| C98 | `Verif.Props.C98_tables_in_tables` | P C Q |
| C98 | `Verif.Props.C98_headings_in_headings` | P C Q |
| C98 | `Verif.Props.C98_polynomial` | P C Q |
| C98 | `Verif.Props.C98_polynomial_plain` | P C Q |
| C98 | `Verif.Props.C98_polynomial_rest` | P C Q |
| C98 | `Verif.Props.C98_polynomial_rest_plain` | P C Q |
| C99 | `Verif.Props.C99_exact` | P C Q |
| C99 | `Verif.Props.C99_files` | P C Q |
| C99 | `Verif.Props.C99_only_destination` | P C Q |
| C99 | `Verif.Props.C99_unique` | P C Q |
| C99 | `Verif.Props.C99_anywhere` | P C Q |
| C99 | `Verif.Props.C99_dashes` | P C Q |
| C99 | `Verif.Props.C99_help` | P Q |
| C99 | `Verif.Props.C99_help_first` | P C Q |

## Which definition models which function

Generated from the citations in the comments; a function without an entry is in the list of what is not modelled above, or is a one-line method inside a `match` of the named dispatcher (`emitNode` for `creol2html_emitter.py`, `runMeth` for the emitters from HTML).

| Function | Lines | Definitions |
|---|---|---|
| `creole/cmdline.py` `CreoleCLI.__init__` | 17-43 | `Tools/CliArgs.parseArgs`, `Tools/CliArgs.RunsTo`, `Tools/CliArgs.optionStrings` |
| `creole/cmdline.py` `CreoleCLI.convert` | 45-56 | `Tools/CliArgs.RunsTo`, `Tools/Cli.Step` |
| `creole/cmdline.py` `cli_html2creole` | 63-64 | `Tools/CliArgs.RunsTo` |
| `creole/cmdline.py` `cli_html2rest` | 67-68 | `Tools/CliArgs.RunsTo` |
| `creole/cmdline.py` `cli_html2textile` | 71-72 | `Tools/CliArgs.RunsTo` |
| `creole/setup_utils.py` `should_raise_errors` | 36-47 | `Tools/Setup.shouldRaiseErrors` |
| `creole/setup_utils.py` `get_long_description` | 50-104 | `Tools/Setup.getLongDescription` |
| `creole/setup_utils.py` `_generate_rst_readme` | 107-126 | `Tools/Setup.generateRst` |
| `creole/setup_utils.py` `_generate_markdown_readme` | 129-144 | `Tools/Setup.generateMarkdown` |
| `creole/setup_utils.py` `update_rst_readme` | 147-191 | `Tools/Setup.updateReadme`, `Tools/Setup.changed`, `Tools/Setup.newContent`, `Tools/Setup.noteText` |
| `creole/setup_utils.py` `update_markdown_readme` | 194-239 | `Tools/Setup.changed`, `Tools/Setup.newContent`, `Tools/Setup.noteText` |
| `creole/setup_utils.py` `assert_rst_readme` | 242-256 | `Tools/Setup.assertReadme` |
| `creole/shared/base_emitter.py` `BaseEmitter.__init__` | 23-36 | `Emit/User.UserFn`, `Emit/Emitter.ESt` |
| `creole/shared/base_emitter.py` `BaseEmitter.entityref_emit` | 49-64 | `Emit/Emitter.entityrefText` |
| `creole/shared/base_emitter.py` `BaseEmitter.charref_emit` | 66-78 | `Emit/Emitter.charrefText` |
| `creole/shared/base_emitter.py` `BaseEmitter.li_emit` | 98-100 | `Emit/Emitter.baseLi` |
| `creole/shared/base_emitter.py` `BaseEmitter._list_emit` | 102-123 | `Emit/Emitter.baseList`, `Emit/Emitter.startNewline` |
| `creole/shared/base_emitter.py` `BaseEmitter.table_emit` | 127-135 | `Emit/Emitter.tableEmit` |
| `creole/shared/base_emitter.py` `BaseEmitter._escape_linebreaks` | 142-149 | `Emit/Emitter.escapeLinebreaks` |
| `creole/shared/base_emitter.py` `BaseEmitter.th_emit` | 151-155 | `Emit/Emitter.cellText` |
| `creole/shared/base_emitter.py` `BaseEmitter.td_emit` | 157-161 | `Emit/Emitter.cellText` |
| `creole/shared/base_emitter.py` `BaseEmitter._emit_content` | 165-170 | `Emit/Emitter.emitContent` |
| `creole/shared/base_emitter.py` `BaseEmitter.span_emit` | 175-176 | `Emit/Emitter.restMethods` |
| `creole/shared/base_emitter.py` `BaseEmitter.emit_children` | 184-186 | `Emit/Emitter.emitNodes`, `Emit/User.emitNodesWith` |
| `creole/shared/base_emitter.py` `BaseEmitter.emit_children_list` | 188-196 | `Emit/Emitter.emitNodes`, `Emit/User.emitNodesWith` |
| `creole/shared/base_emitter.py` `BaseEmitter.emit_node` | 198-224 | `Emit/Emitter.emitNode`, `Emit/User.emitNodeWith`, `Emit/Emitter.methodOf`, `Emit/User.runNodeWith`, `Emit/Emitter.runNode`, `Emit/User.runUser`, `Emit/User.UserFn` |
| `creole/shared/diff_utils.py` `unified_diff` | 9-34 | `Tools/Diff.unifiedDiff`, `Tools/Diff.diffNames`, `Tools/Diff.diffLines`, `Tools/Diff.addDiffLine` |
| `creole/shared/document_tree.py` `DocNode.__init__` | 23-36 | `Html/Parser.HInfo`, `Creole/Tree.Info`, `Creole/Parser.PS.leaf` |
| `creole/shared/document_tree.py` `DocNode.get_attrs_as_string` | 38-50 | `Emit/Emitter.attrText` |
| `creole/shared/example_macros.py` `html` | 25-30 | `Creole/ExampleMacros.htmlMacro` |
| `creole/shared/example_macros.py` `pre` | 33-38 | `Creole/ExampleMacros.preMacro` |
| `creole/shared/example_macros.py` `code` | 41-66 | `Creole/ExampleMacros.codeMacro`, `Creole/ExampleMacros.codeMacroP`, `Creole/ExampleMacros.sourceType`, `Creole/ExampleMacros.codeText` |
| `creole/shared/markup_table.py` `MarkupTable.__init__` | 7-18 | `Emit/Table.Table` |
| `creole/shared/markup_table.py` `MarkupTable.add_tr` | 23-26 | `Emit/Table.Table.addTr` |
| `creole/shared/markup_table.py` `MarkupTable.add_th` | 28-30 | `Emit/Table.Table.addTh` |
| `creole/shared/markup_table.py` `MarkupTable.add_td` | 32-37 | `Emit/Table.Table.addTd` |
| `creole/shared/markup_table.py` `MarkupTable._get_preformat_info` | 39-56 | `Emit/Table.Table.preformat`, `Emit/Table.preformatCell` |
| `creole/shared/markup_table.py` `MarkupTable.get_table_markup` | 58-77 | `Emit/Table.Table.markup` |
| `creole/shared/markup_table.py` `MarkupTable.get_rest_table` | 79-100 | `Emit/Table.Table.rest`, `Emit/Table.restLines` |
| `creole/shared/markup_table.py` `MarkupTable.get_markdown_table` | 102-117 | `Emit/Table.Table.markdown`, `Emit/Table.mdLines` |
| `creole/shared/unknown_tags.py` `_mask_content` | 14-33 | `Emit/Emitter.maskContent`, `Emit/Emitter.attrText` |
| `creole/shared/unknown_tags.py` `raise_unknown_node` | 36-45 | `Emit/User.supplied`, `Emit/Emitter.unknownEmit` |
| `creole/shared/unknown_tags.py` `use_html_macro` | 48-54 | `Emit/User.supplied`, `Emit/Emitter.unknownEmit` |
| `creole/shared/unknown_tags.py` `preformat_unknown_nodes` | 57-63 | `Emit/User.supplied`, `Emit/Emitter.unknownEmit` |
| `creole/shared/unknown_tags.py` `escape_unknown_nodes` | 66-89 | `Emit/User.supplied`, `Emit/Emitter.unknownEmit`, `Emit/Emitter.escapeUnknown` |
| `creole/shared/unknown_tags.py` `transparent_unknown_nodes` | 92-99 | `Emit/User.supplied`, `Emit/Emitter.unknownEmit` |
| `creole/shared/utils.py` `string2dict` | 30-60 | `Py/Dict.string2dict`, `Py/Dict.partsDict`, `Py/Dict.argVal` |
| `creole/shared/utils.py` `dict2string` | 63-79 | `Py/Dict.dict2string` |
| `creole/shared/utils.py` `get_pygments_lexer` | 89-96 | `Creole/ExampleMacros.Pygments.lexer` |
| `creole/parser/creol2html_parser.py` `CreoleParser.__init__` | 61-80 | `Creole/Parser.PS`, `Creole/Parser.PS.init`, `Creole/Chosen.creole2htmlRules`, `Creole/Rules.blockRe`, `Creole/Chosen.chosenRe` |
| `creole/parser/creol2html_parser.py` `CreoleParser.cleanup_break` | 84-96 | `Creole/Parser.PS.cleanupBreak` |
| `creole/parser/creol2html_parser.py` `CreoleParser._upto` | 98-108 | `Creole/Parser.PS.upto`, `Creole/Parser.climb` |
| `creole/parser/creol2html_parser.py` `CreoleParser._upto_block` | 110-111 | `Creole/Parser.PS.uptoBlock` |
| `creole/parser/creol2html_parser.py` `CreoleParser._text_repl` | 117-139 | `Creole/Parser.textRepl`, `Creole/Parser.breakKinds` |
| `creole/parser/creol2html_parser.py` `CreoleParser._url_repl` | 143-156 | `Creole/Parser.urlRepl`, `Creole/Parser.PS.addChars` |
| `creole/parser/creol2html_parser.py` `CreoleParser._link_repl` | 161-171 | `Creole/Parser.linkRepl` |
| `creole/parser/creol2html_parser.py` `CreoleParser._add_macro` | 177-196 | `Creole/Parser.addMacro`, `Creole/Tree.Info` |
| `creole/parser/creol2html_parser.py` `CreoleParser._macro_block_repl` | 198-214 | `Creole/Parser.macroBlockRepl` |
| `creole/parser/creol2html_parser.py` `CreoleParser._macro_tag_repl` | 219-229 | `Creole/Parser.macroTagRepl` |
| `creole/parser/creol2html_parser.py` `CreoleParser._macro_inline_repl` | 233-243 | `Creole/Parser.macroInlineRepl` |
| `creole/parser/creol2html_parser.py` `CreoleParser._image_repl` | 250-256 | `Creole/Parser.imageRepl` |
| `creole/parser/creol2html_parser.py` `CreoleParser._separator_repl` | 260-262 | `Creole/Parser.separatorRepl` |
| `creole/parser/creol2html_parser.py` `CreoleParser._item_repl` | 264-295 | `Creole/Parser.itemRepl`, `Creole/Parser.findList` |
| `creole/parser/creol2html_parser.py` `CreoleParser._list_repl` | 299-301 | `Creole/Parser.listRepl` |
| `creole/parser/creol2html_parser.py` `CreoleParser._head_repl` | 303-307 | `Creole/Parser.headRepl` |
| `creole/parser/creol2html_parser.py` `CreoleParser._table_repl` | 311-333 | `Creole/Parser.tableRepl`, `Creole/Parser.cellRepl` |
| `creole/parser/creol2html_parser.py` `CreoleParser._pre_block_repl` | 335-345 | `Creole/Parser.preBlockRepl`, `Creole/Parser.removeTilde` |
| `creole/parser/creol2html_parser.py` `CreoleParser._line_repl` | 350-353 | `Creole/Parser.lineRepl` |
| `creole/parser/creol2html_parser.py` `CreoleParser._pre_inline_repl` | 355-358 | `Creole/Parser.preInlineRepl` |
| `creole/parser/creol2html_parser.py` `CreoleParser._inline_mark` | 364-372 | `Creole/Parser.inlineMark` |
| `creole/parser/creol2html_parser.py` `CreoleParser._emphasis_repl` | 376-377 | `Creole/Parser.inlineRepl` |
| `creole/parser/creol2html_parser.py` `CreoleParser._strong_repl` | 380-381 | `Creole/Parser.inlineRepl` |
| `creole/parser/creol2html_parser.py` `CreoleParser._monospace_repl` | 384-385 | `Creole/Parser.inlineRepl` |
| `creole/parser/creol2html_parser.py` `CreoleParser._superscript_repl` | 388-389 | `Creole/Parser.inlineRepl` |
| `creole/parser/creol2html_parser.py` `CreoleParser._subscript_repl` | 392-393 | `Creole/Parser.inlineRepl` |
| `creole/parser/creol2html_parser.py` `CreoleParser._underline_repl` | 396-397 | `Creole/Parser.inlineRepl` |
| `creole/parser/creol2html_parser.py` `CreoleParser._small_repl` | 400-401 | `Creole/Parser.inlineRepl` |
| `creole/parser/creol2html_parser.py` `CreoleParser._delete_repl` | 404-405 | `Creole/Parser.inlineRepl` |
| `creole/parser/creol2html_parser.py` `CreoleParser._linebreak_repl` | 410-412 | `Creole/Parser.linebreakRepl` |
| `creole/parser/creol2html_parser.py` `CreoleParser._escape_repl` | 414-417 | `Creole/Parser.escapeRepl`, `Creole/Parser.PS.addChars` |
| `creole/parser/creol2html_parser.py` `CreoleParser._char_repl` | 420-423 | `Creole/Parser.charRepl`, `Creole/Parser.PS.addChars` |
| `creole/parser/creol2html_parser.py` `CreoleParser._replace` | 427-444 | `Creole/Parser.blockRepl`, `Creole/Parser.inlineRepl`, `Creole/Parser.leafRepl`, `Creole/Parser.dispatch` |
| `creole/parser/creol2html_parser.py` `CreoleParser.parse_inline` | 446-448 | `Creole/Parser.parseInlineN` |
| `creole/parser/creol2html_parser.py` `CreoleParser.parse_block` | 450-452 | `Creole/Parser.parseBlock`, `Creole/Chosen.parseRules` |
| `creole/parser/creol2html_parser.py` `CreoleParser.parse` | 454-462 | `Creole/Chosen.parseRules`, `Creole/Parser.parse`, `Creole/Parser.normNewlines` |
| `creole/parser/creol2html_rules.py` `BlockRules.__init__` | 153-166 | `Creole/Chosen.BRule`, `Creole/Chosen.BRule.re`, `Creole/Rules.textRule`, `Creole/Chosen.BRule.defaults`, `Creole/Rules.blockRules` |
| `creole/parser/html_parser.py` `HtmlParser.__init__` | 78-95 | `Html/Parser.PSt` |
| `creole/parser/html_parser.py` `HtmlParser._pre_cut` | 97-104 | `Html/Parser.preCut` |
| `creole/parser/html_parser.py` `HtmlParser._pre_pre_inline_cut` | 106-107 | `Html/Parser.preCutOut` |
| `creole/parser/html_parser.py` `HtmlParser._pre_pre_block_cut` | 109-110 | `Html/Parser.preCutOut` |
| `creole/parser/html_parser.py` `HtmlParser._pre_pass_block_cut` | 112-114 | `Html/Parser.preCutOut` |
| `creole/parser/html_parser.py` `HtmlParser._pre_cut_out` | 118-125 | `Html/Parser.preCutOut` |
| `creole/parser/html_parser.py` `HtmlParser.feed` | 129-158 | `Html/Parser.parseHtml`, `Html/Parser.parseRaw`, `Html/Parser.preprocess` |
| `creole/parser/html_parser.py` `HtmlParser._upto` | 162-173 | `Html/Parser.uptoFrames` |
| `creole/parser/html_parser.py` `HtmlParser._go_up` | 175-178 | `Html/Parser.PSt.goUp`, `Html/Parser.upKinds` |
| `creole/parser/html_parser.py` `HtmlParser.handle_starttag` | 182-205 | `Html/Parser.handleStart`, `Html/Parser.handle`, `Html/Parser.headlineLevel` |
| `creole/parser/html_parser.py` `HtmlParser.handle_data` | 207-210 | `Html/Parser.handle` |
| `creole/parser/html_parser.py` `HtmlParser.handle_charref` | 212-214 | `Html/Parser.handle` |
| `creole/parser/html_parser.py` `HtmlParser.handle_entityref` | 216-218 | `Html/Parser.handle` |
| `creole/parser/html_parser.py` `HtmlParser.handle_startendtag` | 220-233 | `Html/Parser.handle`, `Html/Parser.handleStartEnd`, `Html/Parser.placeholderNode` |
| `creole/parser/html_parser.py` `HtmlParser.handle_endtag` | 235-252 | `Html/Parser.handle`, `Html/Parser.handleEnd` |
| `creole/rest_tools/clean_writer.py` `CleanHTMLTranslator.starttag` | 70-114 | `Tools/Rest.starttag`, `Tools/Rest.attrParts` |
| `creole/rest_tools/clean_writer.py` `CleanHTMLTranslator.visit_section` | 116-117 | `Tools/Rest.starttag`, `Tools/CleanWriter.walkPart` |
| `creole/rest_tools/clean_writer.py` `CleanHTMLTranslator.depart_section` | 119-120 | `Tools/Rest.starttag`, `Tools/CleanWriter.walkPart` |
| `creole/rest_tools/clean_writer.py` `CleanHTMLTranslator.depart_document` | 130-134 | `Tools/CleanTables.departDocument` |
| `creole/rest_tools/clean_writer.py` `CleanHTMLTranslator.visit_table` | 144-148 | `Tools/CleanTables.visitTable`, `Tools/CleanTables.Base.newer` |
| `creole/rest_tools/clean_writer.py` `CleanHTMLTranslator.visit_field_list` | 153-156 | `Tools/CleanTables.visitFieldList` |
| `creole/rest_tools/clean_writer.py` `CleanHTMLTranslator.depart_field_list` | 158-160 | `Tools/CleanTables.departFieldList` |
| `creole/rest_tools/clean_writer.py` `CleanHTMLTranslator.visit_docinfo` | 162-163 | `Tools/CleanTables.visitDocinfo` |
| `creole/rest_tools/clean_writer.py` `CleanHTMLTranslator.depart_docinfo` | 165-166 | `Tools/CleanTables.departDocinfo` |
| `creole/rest_tools/clean_writer.py` `CleanHTMLTranslator.visit_image` | 173-187 | `Tools/CleanWriter.visitImage`, `Tools/CleanWriter.ImageNode.alignment` |
| `creole/rest_tools/clean_writer.py` `rest2html` | 190-223 | `Tools/RestSettings.rest2html`, `Tools/RestSettings.rest2htmlSettings` |
| `creole/rest_tools/pypi_rest2html.py` `pypi_rest2html` | 35-79 | `Tools/Rest.pypiRest2html`, `Tools/RestSettings.pypiRest2htmlWith`, `Tools/RestSettings.pypiSettings`, `Tools/Rest.checkLinks` |
| `creole/emitter/creol2html_emitter.py` `TableOfContent.__init__` | 19-23 | `Creole/Emitter.Toc` |
| `creole/emitter/creol2html_emitter.py` `TableOfContent.__call__` | 25-34 | `Creole/Emitter.Toc.call` |
| `creole/emitter/creol2html_emitter.py` `TableOfContent.add_headline` | 36-41 | `Creole/Emitter.Toc.addHeadline` |
| `creole/emitter/creol2html_emitter.py` `TableOfContent.flat_list2nest_list` | 43-62 | `Creole/Emitter.flatToNest`, `Creole/Emitter.nestStep` |
| `creole/emitter/creol2html_emitter.py` `TableOfContent.nested_headlines2html` | 64-76 | `Creole/Emitter.nestHtml` |
| `creole/emitter/creol2html_emitter.py` `TableOfContent.emit` | 78-90 | `Creole/Emitter.Toc.emit` |
| `creole/emitter/creol2html_emitter.py` `HtmlEmitter.__init__` | 99-139 | `Creole/Emitter.Env`, `Creole/Emitter.emitDoc`, `Creole/MacroSource.emitDocW`, `Creole/MacroSource.MacrosArg.world`, `Creole/Emitter.Opts` |
| `creole/emitter/creol2html_emitter.py` `HtmlEmitter.get_text` | 141-146 | `Creole/Emitter.getText` |
| `creole/emitter/creol2html_emitter.py` `HtmlEmitter.html_escape` | 148-149 | `Creole/Emitter.htmlEscape` |
| `creole/emitter/creol2html_emitter.py` `HtmlEmitter.attr_escape` | 151-152 | `Creole/Emitter.attrEscape` |
| `creole/emitter/creol2html_emitter.py` `HtmlEmitter._list_emit` | 168-188 | `Creole/Emitter.listEmit` |
| `creole/emitter/creol2html_emitter.py` `HtmlEmitter._typeface` | 213-217 | `Creole/Emitter.typeface` |
| `creole/emitter/creol2html_emitter.py` `HtmlEmitter.header_emit` | 246-254 | `Creole/Emitter.headerEmit`, `Creole/MacroSource.headerEmitW` |
| `creole/emitter/creol2html_emitter.py` `HtmlEmitter.image_emit` | 268-283 | `Creole/Emitter.imageEmit`, `Creole/Emitter.imageSize` |
| `creole/emitter/creol2html_emitter.py` `HtmlEmitter.macro_emit` | 285-364 | `Creole/Emitter.macroEmit`, `Creole/MacroSource.macroEmitW`, `Creole/MacroSource.World.get`, `Creole/Emitter.callMacro`, `Creole/MacroSource.callMacroW` |
| `creole/emitter/creol2html_emitter.py` `HtmlEmitter.break_emit` | 368-374 | `Creole/Emitter.breakEmit` |
| `creole/emitter/creol2html_emitter.py` `HtmlEmitter.emit_children` | 391-393 | `Creole/Emitter.emitNodes`, `Creole/MacroSource.emitNodesW` |
| `creole/emitter/creol2html_emitter.py` `HtmlEmitter.emit_node` | 395-399 | `Creole/Emitter.emitNode`, `Creole/MacroSource.emitNodeW` |
| `creole/emitter/creol2html_emitter.py` `HtmlEmitter.error` | 409-422 | `Creole/Emitter.errorText`, `Creole/MacroSource.errorW` |
| `creole/emitter/html2creole_emitter.py` `CreoleEmitter.emit` | 29-31 | `Emit/Emitter.emit`, `Emit/User.emitWith` |
| `creole/emitter/html2creole_emitter.py` `CreoleEmitter.blockdata_pre_emit` | 35-37 | `Emit/Emitter.blockPreEmit` |
| `creole/emitter/html2creole_emitter.py` `CreoleEmitter.inlinedata_pre_emit` | 39-41 | `Emit/Emitter.inlinePreEmit` |
| `creole/emitter/html2creole_emitter.py` `CreoleEmitter.headline_emit` | 60-61 | `Emit/Emitter.headlineEmit` |
| `creole/emitter/html2creole_emitter.py` `CreoleEmitter.strong_emit` | 65-66 | `Emit/Emitter.creoleMethods` |
| `creole/emitter/html2creole_emitter.py` `CreoleEmitter.i_emit` | 70-71 | `Emit/Emitter.creoleMethods` |
| `creole/emitter/html2creole_emitter.py` `CreoleEmitter.tt_emit` | 74-75 | `Emit/Emitter.creoleMethods` |
| `creole/emitter/html2creole_emitter.py` `CreoleEmitter.sup_emit` | 77-78 | `Emit/Emitter.creoleMethods` |
| `creole/emitter/html2creole_emitter.py` `CreoleEmitter.sub_emit` | 80-81 | `Emit/Emitter.creoleMethods` |
| `creole/emitter/html2creole_emitter.py` `CreoleEmitter.u_emit` | 83-84 | `Emit/Emitter.creoleMethods` |
| `creole/emitter/html2creole_emitter.py` `CreoleEmitter.small_emit` | 86-87 | `Emit/Emitter.creoleMethods` |
| `creole/emitter/html2creole_emitter.py` `CreoleEmitter.del_emit` | 89-90 | `Emit/Emitter.creoleMethods` |
| `creole/emitter/html2creole_emitter.py` `CreoleEmitter.a_emit` | 98-108 | `Emit/Emitter.creoleLink` |
| `creole/emitter/html2creole_emitter.py` `CreoleEmitter.img_emit` | 110-132 | `Emit/Emitter.creoleImg`, `Emit/Emitter.imgSrc`, `Emit/Emitter.imgText`, `Emit/Emitter.truthy` |
| `creole/emitter/html2creole_emitter.py` `CreoleEmitter.ul_emit` | 136-137 | `Emit/Emitter.creoleMethods` |
| `creole/emitter/html2creole_emitter.py` `CreoleEmitter.ol_emit` | 139-140 | `Emit/Emitter.creoleMethods` |
| `creole/emitter/html2creole_emitter.py` `CreoleEmitter.div_emit` | 144-145 | `Emit/Emitter.creoleMethods` |
| `creole/emitter/html2creole_emitter.py` `CreoleEmitter.span_emit` | 147-148 | `Emit/Emitter.creoleMethods` |
| `creole/emitter/html2markdown_emitter.py` `quote_link` | 19-29 | `Emit/QuoteLink.quoteLink` |
| `creole/emitter/html2markdown_emitter.py` `MarkdownEmitter.emit` | 42-44 | `Emit/Emitter.emit`, `Emit/User.emitWith` |
| `creole/emitter/html2markdown_emitter.py` `MarkdownEmitter.table_emit` | 47-51 | `Emit/Emitter.tableEmit` |
| `creole/emitter/html2markdown_emitter.py` `MarkdownEmitter.th_emit` | 58-60 | `Emit/Emitter.cellText` |
| `creole/emitter/html2markdown_emitter.py` `MarkdownEmitter.td_emit` | 62-64 | `Emit/Emitter.cellText` |
| `creole/emitter/html2markdown_emitter.py` `MarkdownEmitter.blockdata_pre_emit` | 67-69 | `Emit/Emitter.blockPreEmit` |
| `creole/emitter/html2markdown_emitter.py` `MarkdownEmitter.inlinedata_pre_emit` | 71-90 | `Emit/Emitter.inlinePreEmit`, `Emit/Emitter.mdInlinePre`, `Emit/Emitter.codeLanguage` |
| `creole/emitter/html2markdown_emitter.py` `MarkdownEmitter.headline_emit` | 103-107 | `Emit/Emitter.headlineEmit` |
| `creole/emitter/html2markdown_emitter.py` `MarkdownEmitter.strong_emit` | 111-112 | `Emit/Emitter.markdownMethods` |
| `creole/emitter/html2markdown_emitter.py` `MarkdownEmitter.i_emit` | 117-118 | `Emit/Emitter.markdownMethods` |
| `creole/emitter/html2markdown_emitter.py` `MarkdownEmitter.tt_emit` | 122-123 | `Emit/Emitter.markdownMethods` |
| `creole/emitter/html2markdown_emitter.py` `MarkdownEmitter._typeface_html` | 125-126 | `Emit/Emitter.markdownMethods` |
| `creole/emitter/html2markdown_emitter.py` `MarkdownEmitter.sup_emit` | 128-129 | `Emit/Emitter.markdownMethods` |
| `creole/emitter/html2markdown_emitter.py` `MarkdownEmitter.sub_emit` | 131-132 | `Emit/Emitter.markdownMethods` |
| `creole/emitter/html2markdown_emitter.py` `MarkdownEmitter.u_emit` | 134-135 | `Emit/Emitter.markdownMethods` |
| `creole/emitter/html2markdown_emitter.py` `MarkdownEmitter.small_emit` | 137-138 | `Emit/Emitter.markdownMethods` |
| `creole/emitter/html2markdown_emitter.py` `MarkdownEmitter.del_emit` | 140-141 | `Emit/Emitter.markdownMethods` |
| `creole/emitter/html2markdown_emitter.py` `MarkdownEmitter.a_emit` | 150-159 | `Emit/Emitter.mdLink` |
| `creole/emitter/html2markdown_emitter.py` `MarkdownEmitter.img_emit` | 161-169 | `Emit/Emitter.mdImg` |
| `creole/emitter/html2markdown_emitter.py` `MarkdownEmitter.list_emit` | 173-177 | `Emit/Emitter.mdList`, `Emit/Emitter.markdownMethods` |
| `creole/emitter/html2markdown_emitter.py` `MarkdownEmitter.li_emit` | 182-197 | `Emit/Emitter.mdLi` |
| `creole/emitter/html2markdown_emitter.py` `MarkdownEmitter.code_emit` | 207-214 | `Emit/Emitter.mdCode`, `Emit/Emitter.markdownMethods` |
| `creole/emitter/html2markdown_emitter.py` `MarkdownEmitter.div_emit` | 218-219 | `Emit/Emitter.markdownMethods` |
| `creole/emitter/html2markdown_emitter.py` `MarkdownEmitter.span_emit` | 221-222 | `Emit/Emitter.markdownMethods` |
| `creole/emitter/html2rest_emitter.py` `ReStructuredTextEmitter.__init__` | 34-43 | `Emit/Emitter.ESt`, `Creole/Tree.html2rest` |
| `creole/emitter/html2rest_emitter.py` `ReStructuredTextEmitter._get_block_data` | 45-54 | `Emit/Emitter.getBlockData` |
| `creole/emitter/html2rest_emitter.py` `ReStructuredTextEmitter.blockdata_pre_emit` | 58-62 | `Emit/Emitter.blockPreEmit`, `Emit/Emitter.restPre` |
| `creole/emitter/html2rest_emitter.py` `ReStructuredTextEmitter.inlinedata_pre_emit` | 64-66 | `Emit/Emitter.inlinePreEmit` |
| `creole/emitter/html2rest_emitter.py` `ReStructuredTextEmitter.emit` | 77-79 | `Emit/Emitter.emit`, `Emit/User.emitWith` |
| `creole/emitter/html2rest_emitter.py` `ReStructuredTextEmitter.document_emit` | 81-89 | `Emit/Emitter.restDocument` |
| `creole/emitter/html2rest_emitter.py` `ReStructuredTextEmitter.emit_node` | 91-97 | `Emit/Emitter.emitNode`, `Emit/User.emitNodeWith`, `Emit/Emitter.flushSubst` |
| `creole/emitter/html2rest_emitter.py` `ReStructuredTextEmitter.headline_emit` | 111-126 | `Emit/Emitter.headlineEmit`, `Emit/Emitter.restHeadline` |
| `creole/emitter/html2rest_emitter.py` `ReStructuredTextEmitter.strong_emit` | 133-134 | `Emit/Emitter.restMethods` |
| `creole/emitter/html2rest_emitter.py` `ReStructuredTextEmitter.b_emit` | 136-137 | `Emit/Emitter.restMethods` |
| `creole/emitter/html2rest_emitter.py` `ReStructuredTextEmitter.i_emit` | 140-141 | `Emit/Emitter.restMethods` |
| `creole/emitter/html2rest_emitter.py` `ReStructuredTextEmitter.em_emit` | 143-144 | `Emit/Emitter.restMethods` |
| `creole/emitter/html2rest_emitter.py` `ReStructuredTextEmitter.tt_emit` | 146-147 | `Emit/Emitter.restMethods` |
| `creole/emitter/html2rest_emitter.py` `ReStructuredTextEmitter.small_emit` | 149-151 | `Emit/Emitter.restMethods` |
| `creole/emitter/html2rest_emitter.py` `ReStructuredTextEmitter._should_do_substitution` | 175-184 | `Emit/Emitter.shouldSubst` |
| `creole/emitter/html2rest_emitter.py` `ReStructuredTextEmitter._get_old_substitution` | 186-202 | `Emit/Emitter.oldSubst` |
| `creole/emitter/html2rest_emitter.py` `ReStructuredTextEmitter.a_emit` | 204-224 | `Emit/Emitter.restLink` |
| `creole/emitter/html2rest_emitter.py` `ReStructuredTextEmitter.img_emit` | 226-250 | `Emit/Emitter.restImg`, `Emit/Emitter.imgSrc`, `Emit/Emitter.imgText` |
| `creole/emitter/html2rest_emitter.py` `ReStructuredTextEmitter.code_emit` | 254-255 | `Emit/Emitter.restMethods` |
| `creole/emitter/html2rest_emitter.py` `ReStructuredTextEmitter.li_emit` | 259-262 | `Emit/Emitter.restMethods`, `Emit/Emitter.restLi` |
| `creole/emitter/html2rest_emitter.py` `ReStructuredTextEmitter._list_emit` | 264-273 | `Emit/Emitter.restMethods`, `Emit/Emitter.restList` |
| `creole/emitter/html2rest_emitter.py` `ReStructuredTextEmitter.ul_emit` | 275-276 | `Emit/Emitter.restMethods` |
| `creole/emitter/html2rest_emitter.py` `ReStructuredTextEmitter.ol_emit` | 278-279 | `Emit/Emitter.restMethods` |
| `creole/emitter/html2rest_emitter.py` `ReStructuredTextEmitter.table_emit` | 281-292 | `Emit/Emitter.tableEmit` |
| `creole/emitter/html2textile_emitter.py` `TextileEmitter.emit` | 28-30 | `Emit/Emitter.emit`, `Emit/User.emitWith` |
| `creole/emitter/html2textile_emitter.py` `TextileEmitter.blockdata_pre_emit` | 34-36 | `Emit/Emitter.blockPreEmit` |
| `creole/emitter/html2textile_emitter.py` `TextileEmitter.inlinedata_pre_emit` | 38-40 | `Emit/Emitter.inlinePreEmit` |
| `creole/emitter/html2textile_emitter.py` `TextileEmitter.headline_emit` | 50-51 | `Emit/Emitter.headlineEmit` |
| `creole/emitter/html2textile_emitter.py` `TextileEmitter.strong_emit` | 58-59 | `Emit/Emitter.textileMethods` |
| `creole/emitter/html2textile_emitter.py` `TextileEmitter.b_emit` | 61-62 | `Emit/Emitter.textileMethods` |
| `creole/emitter/html2textile_emitter.py` `TextileEmitter.i_emit` | 65-66 | `Emit/Emitter.textileMethods` |
| `creole/emitter/html2textile_emitter.py` `TextileEmitter.em_emit` | 68-69 | `Emit/Emitter.textileMethods` |
| `creole/emitter/html2textile_emitter.py` `TextileEmitter.sup_emit` | 71-72 | `Emit/Emitter.textileMethods` |
| `creole/emitter/html2textile_emitter.py` `TextileEmitter.sub_emit` | 74-75 | `Emit/Emitter.textileMethods` |
| `creole/emitter/html2textile_emitter.py` `TextileEmitter.del_emit` | 77-78 | `Emit/Emitter.textileMethods` |
| `creole/emitter/html2textile_emitter.py` `TextileEmitter.cite_emit` | 80-81 | `Emit/Emitter.textileMethods` |
| `creole/emitter/html2textile_emitter.py` `TextileEmitter.ins_emit` | 83-84 | `Emit/Emitter.textileMethods` |
| `creole/emitter/html2textile_emitter.py` `TextileEmitter.span_emit` | 86-87 | `Emit/Emitter.textileMethods` |
| `creole/emitter/html2textile_emitter.py` `TextileEmitter.code_emit` | 89-90 | `Emit/Emitter.textileMethods` |
| `creole/emitter/html2textile_emitter.py` `TextileEmitter.a_emit` | 97-100 | `Emit/Emitter.textileLink` |
| `creole/emitter/html2textile_emitter.py` `TextileEmitter.img_emit` | 102-118 | `Emit/Emitter.textileImg`, `Emit/Emitter.imgSrc`, `Emit/Emitter.imgText` |
| `creole/emitter/html2textile_emitter.py` `TextileEmitter.ul_emit` | 122-123 | `Emit/Emitter.textileMethods` |
| `creole/emitter/html2textile_emitter.py` `TextileEmitter.ol_emit` | 125-126 | `Emit/Emitter.textileMethods` |
| `creole/html_tools/deentity.py` `Deentity.replace_number` | 45-48 | `Html/Deentity.replaceNumber` |
| `creole/html_tools/deentity.py` `Deentity.replace_hex` | 50-53 | `Html/Deentity.replaceHex` |
| `creole/html_tools/deentity.py` `Deentity.replace_named` | 55-62 | `Html/Deentity.replaceNamed` |
| `creole/html_tools/deentity.py` `Deentity.replace_all` | 64-76 | `Html/Deentity.replaceAll`, `Html/Deentity.replaceEntity` |
| `creole/html_tools/strip_html.py` `strip_html` | 31-101 | `Html/Strip.stripHtml`, `Html/Strip.stripTag`, `Html/Strip.joinStripped` |
| `creole/html_tools/text_tools.py` `clean_whitespace` | 17-48 | `Tools/Text.cleanWhitespace`, `Tools/Text.cleanup` |
