{"id": "C01", "title": "creole2html never raises on a document without a toc macro", "statement": "creole2html(s) with macros=None and verbose <= 2 returns a string and raises nothing, for every str s that does not call a macro named toc (no '<<' is followed by blanks and 'toc'); in particular the recursion over inline markup always terminates.", "quantifier": "every markup string, both line-break modes, strict on/off, verbose 0..2", "why_tests_cant": "The parser is a stack of regexes and index operations (bullet[-1], .parent, groups[...]) that could fail on some untested input; only a proof over all strings excludes it.", "anchors": ["creole/parser/creol2html_parser.py:CreoleParser", "creole/emitter/creol2html_emitter.py:HtmlEmitter", "creole/__init__.py:creole2html"]}
{"id": "C02", "title": "creole2html output is well-formed, whitelisted HTML", "statement": "If the markup contains no '<<' (so no macro can fire) and strict=True, the output is a well-nested sequence of text (with no raw '<' or '>') and elements from the fixed creole tag set, and no attribute value contains a raw '\"', '<' or '>'.", "quantifier": "every markup string without '<<', both line-break modes", "why_tests_cant": "An injection needs one untested combination of markup; tests only sample combinations.", "anchors": ["creole/emitter/creol2html_emitter.py:HtmlEmitter.html_escape,attr_escape,link_emit,image_emit", "creole/parser/creol2html_parser.py"]}
{"id": "C03", "title": "The HTML-safety guarantee does not extend to macros, toc or sized images", "statement": "Even with macros=None there are documents whose raw text reaches the output unescaped: malformed macro arguments in the error message, headlines in the table of contents and its anchors, and the image target when a size is given without a title.", "quantifier": "existential over markup strings (a refutation of the unrestricted safety claim)", "why_tests_cant": "The shipped tests never feed hostile text to these paths, and they assert one of the outputs.", "anchors": ["creole/emitter/creol2html_emitter.py:HtmlEmitter.macro_emit,header_emit,image_emit", "creole/emitter/creol2html_emitter.py:TableOfContent.nested_headlines2html"]}
{"id": "C04", "title": "Line endings do not matter", "statement": "Converting a document with LF, CRLF or CR line endings (or any mixture) gives the same HTML.", "quantifier": "every markup string and every choice of line ending per line", "why_tests_cant": "Mixtures of line endings are combinatorial; the test tries three two-line strings.", "anchors": ["creole/parser/creol2html_parser.py:CreoleParser.parse"]}
{"id": "C05", "title": "Text is escaped reversibly", "statement": "The escaping applied to text is injective and inverted by decoding &amp; &lt; &gt;, and escaped text contains no '<' and no '>'; attribute escaping moreover contains no '\"'.", "quantifier": "every string", "why_tests_cant": "Universal over strings.", "anchors": ["creole/emitter/creol2html_emitter.py:HtmlEmitter.html_escape,attr_escape,text_emit"]}
{"id": "C06", "title": "Plain paragraphs (blog line breaks)", "statement": "A document made of paragraphs of plain lines separated by one or more blank lines becomes one <p> per paragraph, lines joined by '<br />\\n', text escaped, in order, nothing added or lost.", "quantifier": "every list of paragraphs, every list of lines of text without markup characters", "why_tests_cant": "Unbounded number of paragraphs/lines/characters.", "anchors": ["creole/parser/creol2html_parser.py:CreoleParser._text_repl,_line_repl,_upto_block,cleanup_break", "creole/parser/creol2html_rules.py:BlockRules"]}
{"id": "C07", "title": "Plain paragraphs (wiki line breaks)", "statement": "With blog_line_breaks=False the same documents give one <p> per paragraph with the lines joined by a single space.", "quantifier": "every list of paragraphs of plain lines", "why_tests_cant": "Unbounded sizes.", "anchors": ["creole/parser/creol2html_parser.py:CreoleParser._text_repl", "creole/parser/creol2html_rules.py:BlockRules.__init__"]}
{"id": "C08", "title": "Tilde escapes any character", "statement": "Writing '~' in front of every non-blank character (other than '~' itself) of a line makes creole2html reproduce the line literally (HTML-escaped) in one paragraph, whatever the characters are.", "quantifier": "every line of characters other than '~'", "why_tests_cant": "Every combination of markup characters must be neutralised.", "anchors": ["creole/parser/creol2html_parser.py:CreoleParser._escape_repl", "creole/parser/creol2html_rules.py:InlineRules.escape"]}
{"id": "C09", "title": "Inline nowiki is verbatim", "statement": "{{{text}}} in a line yields <code>escaped text</code> with no markup interpreted inside, for every single-line text that does not contain '}}}' (nor end in '}').", "quantifier": "every text", "why_tests_cant": "The text may contain any markup.", "anchors": ["creole/parser/creol2html_parser.py:CreoleParser._pre_inline_repl", "creole/parser/creol2html_rules.py:InlineRules.pre_inline"]}
{"id": "C10", "title": "Nowiki block is verbatim", "statement": "A {{{ ... }}} block yields <pre> with exactly the (escaped) lines between the braces, whatever markup they contain, as long as no line starts with '}}}' and the first line is not blank; a line '~}}}' (blanks around) stands for '}}}'.", "quantifier": "every list of lines", "why_tests_cant": "The lines may contain any markup; lists are unbounded.", "anchors": ["creole/parser/creol2html_parser.py:CreoleParser._pre_block_repl", "creole/parser/creol2html_rules.py:BlockRules.pre_block"]}
{"id": "C11", "title": "Headings", "statement": "A line of n>=1 '=' followed by a title (optionally closed by '=' and spaces) yields <hn>escaped title</hn>; no inline markup is interpreted inside the title.", "quantifier": "every n >= 1 and every title line", "why_tests_cant": "Unbounded n and titles.", "anchors": ["creole/parser/creol2html_parser.py:CreoleParser._head_repl", "creole/emitter/creol2html_emitter.py:HtmlEmitter.header_emit", "creole/parser/creol2html_rules.py:BlockRules.head"]}
{"id": "C12", "title": "Inline typefaces nest", "statement": "Bold, italics, monospace, superscript, subscript, underline, small and strike-through markup around any nested combination of plain text and other typefaces yields the corresponding correctly nested tags.", "quantifier": "every inline expression tree whose typefaces on any path are distinct", "why_tests_cant": "Trees are unbounded in depth and width.", "anchors": ["creole/parser/creol2html_parser.py:CreoleParser._inline_mark,parse_inline", "creole/emitter/creol2html_emitter.py:HtmlEmitter._typeface", "creole/parser/creol2html_rules.py:InlineRules"]}
{"id": "C13", "title": "Links", "statement": "[[target|text]] yields <a href=\"escaped target\">escaped text</a> and [[target]] uses the target as text; the target is never interpreted as markup.", "quantifier": "every target and text free of the bracket/pipe delimiters", "why_tests_cant": "Targets are arbitrary strings.", "anchors": ["creole/parser/creol2html_parser.py:CreoleParser._link_repl", "creole/emitter/creol2html_emitter.py:HtmlEmitter.link_emit", "creole/parser/creol2html_rules.py:InlineRules.link"]}
{"id": "C14", "title": "Images", "statement": "{{target|text}} yields an img element whose src, title and alt are the attribute-escaped target and text; in non-strict mode 'text|WxH' becomes width and height.", "quantifier": "every target/text free of delimiters, every pair of numbers", "why_tests_cant": "Unbounded strings and numbers.", "anchors": ["creole/parser/creol2html_parser.py:CreoleParser._image_repl", "creole/emitter/creol2html_emitter.py:HtmlEmitter.image_emit"]}
{"id": "C15", "title": "Lists keep every item, in order, at its depth", "statement": "For a list block, every item line becomes exactly one <li>, in source order, in the innermost open list of its level if that is of its kind, otherwise in a new list inside the previous item; when every item has one mark for each list around it the nesting mirrors the marks.", "quantifier": "every sequence of item levels and kinds", "why_tests_cant": "Sequences are unbounded and arbitrarily interleaved.", "anchors": ["creole/parser/creol2html_parser.py:CreoleParser._item_repl,_list_repl", "creole/emitter/creol2html_emitter.py:HtmlEmitter._list_emit"]}
{"id": "C16", "title": "Tables", "statement": "With blog line breaks consecutive rows |a|b| become one table with one tr per row and one td (or th for '=') per cell, in order, with trimmed text.", "quantifier": "every list of rows of plain cells", "why_tests_cant": "Unbounded rows and columns.", "anchors": ["creole/parser/creol2html_parser.py:CreoleParser._table_repl", "creole/parser/creol2html_rules.py:SpecialRules.cell"]}
{"id": "C17", "title": "Macro dispatch", "statement": "A macro call inserts the string returned by the macro of that name verbatim (block macros add one newline), called with the parsed keyword arguments and text.", "quantifier": "every macro function, name, argument dict and text", "why_tests_cant": "Macros are user supplied functions.", "anchors": ["creole/emitter/creol2html_emitter.py:HtmlEmitter.macro_emit"]}
{"id": "C18", "title": "Macro failures are contained", "statement": "With verbose <= 2 an unknown macro, malformed arguments, a macro that raises an Exception or returns a non-string never makes creole2html raise: it inserts '[Error: ...]\\n' when verbose >= 1 and nothing when verbose = 0.", "quantifier": "every macro table, every macro outcome, every argument string", "why_tests_cant": "Macros and argument strings are unbounded.", "anchors": ["creole/emitter/creol2html_emitter.py:HtmlEmitter.macro_emit,error"]}
{"id": "C19", "title": "Table of contents mirrors the headline levels", "statement": "The nested list built for the toc, read in document order, contains exactly the headlines in order and each at nesting depth equal to its level.", "quantifier": "every sequence of (level>=1, title)", "why_tests_cant": "Sequences are unbounded and levels may jump arbitrarily.", "anchors": ["creole/emitter/creol2html_emitter.py:TableOfContent.flat_list2nest_list"]}
{"id": "C20", "title": "The toc HTML is balanced and linear in the headlines", "statement": "The HTML produced for a nested toc has matching <ul>/</ul> tags and one list entry per headline in order.", "quantifier": "every nested list", "why_tests_cant": "Unbounded nesting.", "anchors": ["creole/emitter/creol2html_emitter.py:TableOfContent.nested_headlines2html"]}
{"id": "C21", "title": "Only the first toc is expanded", "statement": "A toc object answers the placeholder on its first call and the escaped literal on every later call; headlines deeper than the depth given so far are dropped and others recorded in order.", "quantifier": "every sequence of toc calls and headlines", "why_tests_cant": "Histories are unbounded.", "anchors": ["creole/emitter/creol2html_emitter.py:TableOfContent.__call__,add_headline"]}
{"id": "C22", "title": "creole2html is stateless unless a macros dict is shared with a toc", "statement": "Any sequence of conversions with macros=None, or with a macros dict and documents without toc, gives for each document the same result as a fresh call and leaves the dict unchanged.", "quantifier": "every history of calls", "why_tests_cant": "Histories are unbounded.", "anchors": ["creole/emitter/creol2html_emitter.py:HtmlEmitter.__init__"]}
{"id": "C23", "title": "A shared macros dict leaks toc state between documents", "statement": "Converting a toc document stores the toc object in the caller's macros dict; converting a second toc document with the same dict does not give the fresh result.", "quantifier": "existential over histories (refutation of unconditional statelessness)", "why_tests_cant": "Needs two calls sharing a dict; no test does that.", "anchors": ["creole/emitter/creol2html_emitter.py:HtmlEmitter.__init__", "creole/emitter/creol2html_emitter.py:TableOfContent"]}
{"id": "C24", "title": "A toc depth that is not a number makes creole2html raise", "statement": "There is a document on which creole2html with default arguments raises TypeError (toc with a string depth followed by a headline).", "quantifier": "existential (refutation of unconditional totality)", "why_tests_cant": "Tests only use numeric depths.", "anchors": ["creole/emitter/creol2html_emitter.py:TableOfContent.add_headline", "creole/shared/utils.py:string2dict"]}
{"id": "C25", "title": "Macro argument strings round-trip", "statement": "string2dict(dict2string(d)) == d for every dict whose keys are plain words and whose values are integers, booleans-free printable-ASCII strings that do not look like a number or keyword.", "quantifier": "every such dict", "why_tests_cant": "Unbounded dicts and strings.", "anchors": ["creole/shared/utils.py:string2dict,dict2string"]}
{"id": "C26", "title": "string2dict only fails with ValueError and later keys win", "statement": "For every string, string2dict returns a dict with unique keys or raises ValueError; when a key is repeated the last value wins.", "quantifier": "every string", "why_tests_cant": "All strings incl. unbalanced quotes.", "anchors": ["creole/shared/utils.py:string2dict"]}
{"id": "C27", "title": "HTML text is never lost or reordered while end tags are matched", "statement": "If no end tag closes more than what is open, the document tree contains every text, character reference and entity reference event in document order.", "quantifier": "every event sequence (start, end, startend, data, charref, entityref) in which the tree cursor never leaves the root", "why_tests_cant": "Event sequences are unbounded.", "anchors": ["creole/parser/html_parser.py:HtmlParser.handle_starttag,handle_endtag,handle_data"]}
{"id": "C28", "title": "A stray inline end tag discards the rest of the document", "statement": "After an end tag that moves above the root, no later event changes the document: everything that follows is silently dropped.", "quantifier": "every event sequence after such an end tag", "why_tests_cant": "All continuations.", "anchors": ["creole/parser/html_parser.py:HtmlParser.handle_endtag,_upto"]}
{"id": "C29", "title": "List nesting level is tracked correctly", "statement": "While ul/ol start and end tags are balanced every li/ul/ol node carries as level the number of enclosing list elements that are open.", "quantifier": "every event sequence", "why_tests_cant": "Unbounded nesting.", "anchors": ["creole/parser/html_parser.py:HtmlParser.handle_starttag,handle_endtag"]}
{"id": "C30", "title": "strip_html only touches whitespace", "statement": "strip_html(s) and s contain the same non-whitespace characters in the same order, and the result is one line. In a text of words, white space and tags, no two words are put together and none is taken apart (white space beside an inline tag has to contain a line end or to begin and end with a blank: a tabulator there is lost).", "quantifier": "every string; for the words every sequence of characters, white space and tags", "why_tests_cant": "All strings; look-around in the regular expression and four kinds of tags decide which blanks are kept.", "anchors": ["creole/html_tools/strip_html.py:strip_html"]}
{"id": "C31", "title": "Entity decoding inverts HTML escaping", "statement": "Deentity.replace_all(escape(s)) == s for every string s.", "quantifier": "every string", "why_tests_cant": "All strings, e.g. texts that already contain entities.", "anchors": ["creole/html_tools/deentity.py:Deentity.replace_all"]}
{"id": "C32", "title": "Numeric entities decode to the code point", "statement": "Decimal and hexadecimal references to the same code point decode to the same character; replace_all raises only for an unknown name or a number that is no code point, and otherwise replaces exactly the references of the text, once, from left to right.", "quantifier": "every code point and every string", "why_tests_cant": "All numbers/strings.", "anchors": ["creole/html_tools/deentity.py:Deentity.replace_number,replace_hex,replace_all"]}
{"id": "C33", "title": "Preformatted areas survive the HTML parser", "statement": "Cutting <pre> areas out of the HTML stores their content verbatim and in order and the placeholder of area i resolves to the content of area i.", "quantifier": "every html string", "why_tests_cant": "Any number of pre areas with arbitrary content.", "anchors": ["creole/parser/html_parser.py:HtmlParser._pre_cut,_pre_cut_out,feed,handle_startendtag"]}
{"id": "C34", "title": "Unknown-tag policy only affects unknown tags", "statement": "For a document tree without unknown tags the result of every converter is the same whatever unknown_emit is; and raise_unknown_node raises NotImplementedError whenever the tree contains an unknown tag and nothing else failed first.", "quantifier": "every document tree and policy", "why_tests_cant": "All trees.", "anchors": ["creole/shared/unknown_tags.py", "creole/shared/base_emitter.py:BaseEmitter.emit_node"]}
{"id": "C35", "title": "Transparent policy yields exactly the children", "statement": "The default policy replaces an unknown inline tag by its (line-break escaped) content; escape and html-macro policies wrap the content between the textual start and end tag.", "quantifier": "every node", "why_tests_cant": "All nodes/attributes.", "anchors": ["creole/shared/unknown_tags.py:transparent_unknown_nodes,escape_unknown_nodes,_mask_content"]}
{"id": "C36", "title": "List markers follow the nesting in html2creole/html2textile", "statement": "Each list item is emitted on its own line prefixed by one marker character per enclosing list, outermost first, '*' for ul and '#' for ol; the emitter's list state is restored after each list.", "quantifier": "every document tree", "why_tests_cant": "Unbounded nesting.", "anchors": ["creole/shared/base_emitter.py:BaseEmitter._list_emit,li_emit"]}
{"id": "C37", "title": "html2rest uses the wrong marker in mixed nested lists", "statement": "There is a document (ul inside ol) where html2rest prefixes the numbered outer item with the bullet marker; for lists of a single kind the marker is right.", "quantifier": "existential plus all single-kind list trees", "why_tests_cant": "No test mixes kinds.", "anchors": ["creole/emitter/html2rest_emitter.py:ReStructuredTextEmitter.li_emit,_list_emit"]}
{"id": "C38", "title": "Table rendering is aligned and complete for rectangular tables", "statement": "For rows of equal length, the creole and ReSt renderings contain every cell text in order, and all rendered lines have the same length. The same holds for the markdown rendering, where the separator behind the header row has this length unless a column is empty.", "quantifier": "every rectangular table", "why_tests_cant": "Unbounded tables.", "anchors": ["creole/shared/markup_table.py:MarkupTable"]}
{"id": "C39", "title": "Ragged tables lose cells", "statement": "When rows differ in length the auto-width renderings drop every cell beyond the shortest row.", "quantifier": "every table (with an existential witness of loss)", "why_tests_cant": "No test has ragged rows.", "anchors": ["creole/shared/markup_table.py:MarkupTable._get_preformat_info"]}
{"id": "C40", "title": "Table building by operations", "statement": "Any sequence of add_tr/add_th/add_td yields the rows one expects: cells appended to the last row, a first row created on demand, header flag iff some th was added.", "quantifier": "every operation sequence", "why_tests_cant": "Histories are unbounded.", "anchors": ["creole/shared/markup_table.py:MarkupTable.add_tr,add_th,add_td"]}
{"id": "C41", "title": "Cell content never breaks a table line", "statement": "In html2creole, html2textile and html2rest the text put into a table cell or produced by div/span emission contains no newline, whatever the cell contains; in html2markdown a line break in a cell does break the table line (witness).", "quantifier": "every cell content", "why_tests_cant": "All strings.", "anchors": ["creole/shared/base_emitter.py:BaseEmitter._escape_linebreaks"]}
{"id": "C42", "title": "ReSt headlines are underlined to the exact length", "statement": "html2rest emits a headline's text with an underline (and overline for levels 1-2) of exactly the text's length and clamps levels above 6.", "quantifier": "every headline text and level 1..9", "why_tests_cant": "All texts.", "anchors": ["creole/emitter/html2rest_emitter.py:ReStructuredTextEmitter.headline_emit"]}
{"id": "C43", "title": "ReSt link targets are unambiguous", "statement": "If html2rest succeeds, every link text (and image text) was used with only one URL; otherwise, if no node lacks what it needs, it raises Html2restException.", "quantifier": "every document tree whose links contain texts, typefaces and images, without an element named document", "why_tests_cant": "All sequences of links.", "anchors": ["creole/emitter/html2rest_emitter.py:ReStructuredTextEmitter._get_old_substitution,a_emit,img_emit"]}
{"id": "C44", "title": "ReSt substitution definitions are all flushed", "statement": "Every substitution definition recorded while converting a document (images, and links first used in a table cell) appears in the output, exactly once and in order of creation, if the URLs are not empty; with an empty URL the definition is repeated (witness).", "quantifier": "every document tree whose links contain texts, typefaces and images, without an element named document", "why_tests_cant": "All sequences of links.", "anchors": ["creole/emitter/html2rest_emitter.py:ReStructuredTextEmitter._get_block_data,emit_node,document_emit"]}
{"id": "C45", "title": "Markdown inline code never violates its assertion", "statement": "html2markdown's code emission never trips its newline assertion and uses a double back-tick fence exactly when the code contains a back-tick.", "quantifier": "every document tree", "why_tests_cant": "All code contents.", "anchors": ["creole/emitter/html2markdown_emitter.py:MarkdownEmitter.code_emit"]}
{"id": "C46", "title": "data: image URIs are never emitted", "statement": "html2creole, html2textile and html2rest emit nothing for an img whose src has the data scheme; otherwise the picture text is the longer of alt and title, or the file name.", "quantifier": "every attribute map", "why_tests_cant": "All attribute maps.", "anchors": ["creole/emitter/html2creole_emitter.py:CreoleEmitter.img_emit", "creole/emitter/html2textile_emitter.py:TextileEmitter.img_emit", "creole/emitter/html2rest_emitter.py:ReStructuredTextEmitter.img_emit"]}
{"id": "C47", "title": "html2creole swaps image width and height", "statement": "html2creole writes height x width; feeding its output to creole2html exchanges the two for every pair of distinct sizes.", "quantifier": "every pair of distinct sizes", "why_tests_cant": "The shipped test asserts the swapped value.", "anchors": ["creole/emitter/html2creole_emitter.py:CreoleEmitter.img_emit", "creole/emitter/creol2html_emitter.py:HtmlEmitter.image_emit"]}
{"id": "C48", "title": "Typeface emission wraps children", "statement": "Each supported inline tag is emitted as its markup delimiter, the emission of its children and the same delimiter, in all four converters.", "quantifier": "every paragraph made of texts and nested typeface elements", "why_tests_cant": "All trees.", "anchors": ["creole/emitter/html2creole_emitter.py", "creole/emitter/html2textile_emitter.py", "creole/emitter/html2rest_emitter.py", "creole/emitter/html2markdown_emitter.py"]}
{"id": "C49", "title": "Command line conversion", "statement": "The command line tool writes exactly convert(content) to the destination and leaves every other file alone; when the conversion raises, the destination has already been truncated.", "quantifier": "every file system state, converter and pair of distinct paths, every crash point", "why_tests_cant": "Crash points and converters are unbounded.", "anchors": ["creole/cmdline.py:CreoleCLI.convert"]}
{"id": "C50", "title": "In-place command line conversion destroys the input", "statement": "If source and destination are the same file the tool converts the empty string.", "quantifier": "every file content and converter", "why_tests_cant": "Not tested.", "anchors": ["creole/cmdline.py:CreoleCLI.convert"]}
{"id": "C51", "title": "README update followed by the check", "statement": "After update_rst_readme rewrites the file, assert_rst_readme accepts it, whatever the generated text (unless it contains a carriage return, which text mode translates), and another update changes nothing; a rewrite happens iff some line in the common prefix of lines differs; no other file changes. The same holds for the markdown functions.", "quantifier": "every old file content and generated text", "why_tests_cant": "All contents.", "anchors": ["creole/setup_utils.py:update_rst_readme,assert_rst_readme"]}
{"id": "C52", "title": "README update misses pure extensions", "statement": "If the existing file is a prefix (line-wise) of the new text, update does not rewrite it, and the check afterwards fails; in particular an update interrupted after whole lines were written is never repaired.", "quantifier": "existential / every such pair", "why_tests_cant": "Not tested.", "anchors": ["creole/setup_utils.py:update_rst_readme"]}
{"id": "C53", "title": "clean_whitespace is idempotent and keeps the core text", "statement": "clean_whitespace(clean_whitespace(t)) == clean_whitespace(t) and the non-whitespace core of t is unchanged.", "quantifier": "every string", "why_tests_cant": "All strings.", "anchors": ["creole/html_tools/text_tools.py:clean_whitespace"]}
{"id": "C54", "title": "Clean ReSt writer drops presentational attributes", "statement": "Start tags written for rest2html never contain the ignored attributes or ignored tags and list the remaining attributes sorted by name.", "quantifier": "every attribute map", "why_tests_cant": "All attribute maps.", "anchors": ["creole/rest_tools/clean_writer.py:CleanHTMLTranslator.starttag"]}
{"id": "C55", "title": "PyPI check rejects exactly the documents with a disallowed link scheme", "statement": "pypi_rest2html accepts a document iff every refuri/uri (refuri takes precedence) can be parsed and has an allowed scheme, and raises TransformError iff the first offending link parses but its scheme is not allowed; relative links are never accepted.", "quantifier": "every list of document nodes", "why_tests_cant": "Unbounded documents.", "anchors": ["creole/rest_tools/pypi_rest2html.py:pypi_rest2html"]}
{"id": "C56", "title": "Wiki line breaks disable blocks", "statement": "With blog_line_breaks=False a heading, preformatted block or list behind a blank line or another block, and the second row of a table, are rendered as paragraphs (witnesses).", "quantifier": "existential", "why_tests_cant": "The shipped tests only cover blog mode for these.", "anchors": ["creole/parser/creol2html_rules.py", "creole/parser/creol2html_parser.py"]}
{"id": "C57", "title": "Documents are the concatenation of their blocks", "statement": "The HTML of a document is the HTML of its blocks (paragraphs, headings, rules, preformatted blocks, lists, tables) in order, with nothing but newlines between them, whatever the line terminators are.", "quantifier": "every sequence of blocks that may follow each other", "why_tests_cant": "Block interaction is unbounded.", "anchors": ["creole/parser/creol2html_parser.py:CreoleParser", "creole/emitter/creol2html_emitter.py:HtmlEmitter"]}
{"id": "C58", "title": "Checking the markdown README writes a file", "statement": "assert_markdown_readme, although a check, leaves README.html behind with the HTML of the source, and changes nothing else.", "quantifier": "every file system state", "why_tests_cant": "Not tested.", "anchors": ["creole/setup_utils.py:_generate_markdown_readme,assert_markdown_readme"]}
{"id": "C59", "title": "get_long_description never converts", "statement": "For every README get_long_description raises (raise_errors) or returns '[Error: ...]' followed by the unconverted text, because it calls html2rest with a keyword argument that does not exist; should_raise_errors is true iff there are no arguments or one of the listed ones.", "quantifier": "every README content, every argument vector", "why_tests_cant": "Needs all contents.", "anchors": ["creole/setup_utils.py:get_long_description,should_raise_errors", "creole/__init__.py:html2rest"]}
{"id": "C60", "title": "Written HTML is parsed to its own tree", "statement": "A document whose tags are properly nested and whose blanks are in order (single blanks in text, none at the edges inside inline elements) is parsed to exactly the tree it was written from: layout white space around block tags and at both ends of the document has no effect, escaped characters come back as entity nodes and nothing else is changed. <br> and <img> mean the same with and without the slash; but the blank after an <img> without a slash is lost (witness). An area of preformatted text on lines of its own becomes one node with the text between its tags, untouched, wherever it stands between the top-level elements.", "quantifier": "every document built from text, layout white space, elements with attributes and empty elements, nested arbitrarily, and any number of preformatted areas between the top-level elements", "why_tests_cant": "Unbounded nesting and text; regular expressions with look-around decide where blanks are removed.", "anchors": ["creole/parser/html_parser.py:HtmlParser.feed", "creole/html_tools/strip_html.py:strip_html"]}
{"id": "C61", "title": "html2creole on written documents", "statement": "html2creole of HTML made of paragraphs, headings, rules, nested lists, tables and preformatted text returns their creole text: a line per paragraph line, list item (with one mark per list around it) and table row (columns aligned), the lines of preformatted text unchanged, with the documented empty lines between blocks, independent of the layout white space of the HTML.", "quantifier": "every such document, with arbitrary inline markup and nesting; the tags of preformatted text stand on lines of their own", "why_tests_cant": "Unbounded nesting; the result depends on the tokenizer, the tree, the emitter state and the final clean-up together.", "anchors": ["creole/__init__.py:html2creole", "creole/emitter/html2creole_emitter.py:CreoleEmitter", "creole/parser/html_parser.py:HtmlParser.feed"]}
{"id": "C62", "title": "creole2html followed by html2creole", "statement": "html2creole(creole2html(text)) succeeds and is the canonical creole text of the document (escapes removed, links and images in long form, tables aligned), whatever the line terminators, gaps and blanks of the original text were. With wiki style line breaks (blog_line_breaks=False) the same holds with the lines of every paragraph joined to one line.", "quantifier": "every well-formed creole document of paragraphs, headings, rules, lists, tables and preformatted blocks, the latter not directly below a list", "why_tests_cant": "Unbounded documents; two parsers and two emitters interact.", "anchors": ["creole/__init__.py:creole2html,html2creole"]}
{"id": "C63", "title": "Canonical creole text round-trips unchanged", "statement": "A creole document written the way html2creole writes (no escapes, links and images in long form, aligned tables, canonical gaps) is a fixed point: html2creole(creole2html(text)) == text. Escaped text, image sizes, the gap between a heading and a list, an escaped end of preformatted text and preformatted text directly below a list are not fixed points (witnesses). With wiki style line breaks it is a fixed point if its paragraphs have one line each (a forced line break is lost).", "quantifier": "every canonically written document", "why_tests_cant": "Unbounded documents; two parsers and two emitters interact.", "anchors": ["creole/__init__.py:creole2html,html2creole"]}
{"id": "C64", "title": "Round trip keeps the meaning", "statement": "creole2html(html2creole(creole2html(text))) has the same blocks as creole2html(text): only the newlines between blocks may differ. This holds although html2creole(creole2html(text)) need not be the text itself.", "quantifier": "every well-formed creole document whose canonical form is again well-formed", "why_tests_cant": "Unbounded documents; two parsers and two emitters interact three times.", "anchors": ["creole/__init__.py:creole2html,html2creole"]}
{"id": "C65", "title": "The converters fail only for faulty nodes", "statement": "If html2creole/html2textile/html2markdown/html2rest raise for a parsed document, the document contains a node that accounts for exactly that exception (an unknown tag under raise_unknown_node, a character reference that stands for no character, a table row or cell outside of any table, a link without href, an image without src, a bad URL, ...), and a document without such nodes is converted; most of these nodes make the conversion fail wherever they are.", "quantifier": "every document tree, converter and unknown-tag policy", "why_tests_cant": "All trees; the absence of an exception cannot be tested.", "anchors": ["creole/emitter/", "creole/shared/base_emitter.py:BaseEmitter"]}
{"id": "C66", "title": "The HTML parser fails only for three kinds of text", "statement": "parse_html raises only if the cleaned text contains a marked section '<![', a character reference with more than 4300 digits, or one of the parser's own placeholder tags; any other text is parsed, however ill-formed, so an exception of a converter is due to one of these or to a faulty node.", "quantifier": "every string", "why_tests_cant": "All strings; the absence of an exception cannot be tested.", "anchors": ["creole/parser/html_parser.py:HtmlParser.feed", "creole/__init__.py:parse_html"]}
{"id": "C67", "title": "html2markdown percent-encodes the path of a link and nothing else", "statement": "In the links and images of html2markdown the path of an address is percent-encoded (UTF-8, upper-case hex, letters, digits and _.-~/ kept) while scheme, host, query and fragment are kept; decoding the new path gives the old one back, and a path of unreserved characters is unchanged. A '%' is encoded again, so an address that is already encoded is encoded twice (witness).", "quantifier": "every address built from scheme, host, path, query and fragment", "why_tests_cant": "All addresses, all characters.", "anchors": ["creole/emitter/html2markdown_emitter.py:MarkdownEmitter", "creole/emitter/html2markdown_emitter.py:quote_link"]}
{"id": "C68", "title": "html2creole, html2textile and html2markdown on whole articles", "statement": "The converters return, for HTML made of paragraphs, headings, rules, nested lists and tables whose text contains typefaces, links, images, code and line breaks, exactly the markup of that article in the chosen language (marks of the items, aligned columns, underlined heading rows in markdown, empty lines between blocks), independent of the layout white space of the HTML. In markdown a blank standing alone between two elements is lost, and a <hr> without slash swallows what follows (witnesses).", "quantifier": "every article, with arbitrary nesting of lists and inline markup, every way to lay out its HTML, and the three target languages", "why_tests_cant": "Unbounded nesting; the result depends on the tokenizer, the tree, the emitter state and the final clean-up together.", "anchors": ["creole/__init__.py:html2creole,html2textile,html2markdown", "creole/emitter/html2creole_emitter.py:CreoleEmitter", "creole/emitter/html2textile_emitter.py:TextileEmitter", "creole/emitter/html2markdown_emitter.py:MarkdownEmitter", "creole/parser/html_parser.py:HtmlParser.feed"]}
{"id": "C69", "title": "html2rest on whole articles", "statement": "html2rest returns, for HTML made of paragraphs, headings, rules, nested lists and tables with typefaces, links, images, code and line breaks, exactly the ReStructuredText of that article: headings with their lines, items separated by empty lines, grid tables, a link with its address at the first use of its text (below the table if that is in a cell) and as a mere reference later, images defined below the block of their first use; it raises Html2restException exactly if one text is used for two addresses. Items take the marks of a list inside of them (witness: a bullet list becomes a numbered one).", "quantifier": "every article, with arbitrary nesting of lists and inline markup, and every way to lay out its HTML", "why_tests_cant": "Unbounded nesting; what is written depends on all links and images before.", "anchors": ["creole/__init__.py:html2rest", "creole/emitter/html2rest_emitter.py:ReStructuredTextEmitter", "creole/parser/html_parser.py:HtmlParser.feed"]}
{"id": "C70", "title": "creole2html loses no text", "statement": "For every text without '<<' creole2html succeeds, and if the HTML contains no link and no image one reads in it exactly the characters of the text, in the same order, apart from white space and the characters markup is made of: nothing is lost, invented, repeated or moved, however ill-formed the markup is. With links and images every character can still be read in order (in text or attribute values); by default the size of an image is the only exception, for texts without quotes. Witnesses: the 'x' of a size, unknown macros, and an image address with quotes that spoils the HTML behind it.", "quantifier": "every string without '<<', all options, all macros", "why_tests_cant": "All strings; every rule of the parser is involved.", "anchors": ["creole/__init__.py:creole2html", "creole/parser/creol2html_parser.py:CreoleParser", "creole/parser/creol2html_rules.py", "creole/emitter/creol2html_emitter.py:HtmlEmitter"]}
{"id": "C71", "title": "The converters from HTML lose no text", "statement": "If html2creole, html2textile, html2markdown or html2rest succeed, every character of the text of the document tree (texts, references, preformatted text) except blanks and backslashes is in the result, in the same order, whatever the policy for unknown tags; and if the tree has only elements that are written with markup characters (no links, images, ...), the result has exactly the same characters apart from blanks and markup characters: nothing is lost, invented, repeated or moved. The tree must be tidy: no children of empty elements, tables not nested, with rows and cells only and, except in textile, rows of the same length. Witnesses show that each of these conditions is needed, and that the rest of a table after </thead> is lost.", "quantifier": "every document tree, converter and unknown-tag policy; every written document", "why_tests_cant": "All trees; the emitters keep state between nodes.", "anchors": ["creole/__init__.py:html2creole,html2textile,html2markdown,html2rest", "creole/emitter/html2creole_emitter.py:CreoleEmitter", "creole/emitter/html2textile_emitter.py:TextileEmitter", "creole/emitter/html2markdown_emitter.py:MarkdownEmitter", "creole/emitter/html2rest_emitter.py:ReStructuredTextEmitter", "creole/shared/markup_table.py:MarkupTable"]}
{"id": "C72", "title": "The diff of the README check is a diff of the two texts", "statement": "The unified diff that assert_rst_readme and assert_markdown_readme raise for an outdated file is a correct one: applied (with all positions and counts checked) to the lines of the old text it gives exactly the lines of the new text, it is never empty for different texts, and as a text it can be applied if the lines of both texts end in line feeds. If a text does not end in a line feed, which is the case the project uses it for, the message about it is glued to the line (a typo), and the text of the diff cannot be applied any more (witness).", "quantifier": "every pair of texts, file name, and every choice of matching blocks by difflib.SequenceMatcher", "why_tests_cant": "All pairs of texts; hunks of any number and size.", "anchors": ["creole/shared/diff_utils.py:unified_diff", "creole/setup_utils.py:assert_rst_readme,assert_markdown_readme"]}
{"id": "C73", "title": "A blank line separates", "statement": "Markup cannot leak across a blank line: if nothing is open at the end of a text (no macro call, no line '{{{', and the last line is not blank, does not begin with '|' and has characters other than '=', '*', '#') and the next text does not begin with a blank line and does not ask for a table of contents, then creole2html of both with a blank line between them is the HTML of the first, white space and the HTML of the second; the macros are called as for the second alone, an exception of the second is an exception of the whole. So a document of such parts is converted part by part. Witnesses show what each of the conditions is for.", "quantifier": "every pair of strings, every list of strings that meet the conditions, all macros and options with the default line breaks", "why_tests_cant": "All strings; a regular expression with look-around and optional white space decides where a block ends, and the parser keeps state between blocks.", "anchors": ["creole/__init__.py:creole2html", "creole/parser/creol2html_parser.py:CreoleParser", "creole/parser/creol2html_rules.py:BlockRules", "creole/emitter/creol2html_emitter.py:HtmlEmitter"]}
{"id": "C74", "title": "Unknown elements survive a round trip", "statement": "html2creole with unknown_emit=use_html_macro puts each tag of an inline element that creole does not have into a call of the macro 'html' and leaves everything else as it is: for HTML of blocks whose paragraphs and lists contain such elements at any depth (with attributes, nested in each other and in typefaces), the creole text is the text of the blocks with '<<html>>tag<</html>>' in the place of every such tag, whatever the white space between the blocks. creole2html of this text, with the macro 'html' of creole.shared.example_macros, gives the same blocks back, byte for byte, and html2creole of that gives the same creole text. Witnesses show the limits: a paragraph that begins with such a tag, escaped characters in an attribute, empty elements.", "quantifier": "every document of blocks with unknown elements in the text (nested to any depth, any simple attributes), all macros that contain 'html', all white space between the blocks", "why_tests_cant": "All trees of elements; two different parsers and emitters and a macro have to agree about every tag.", "anchors": ["creole/emitter/html2creole_emitter.py:CreoleEmitter", "creole/shared/unknown_tags.py:use_html_macro", "creole/shared/example_macros.py:html", "creole/emitter/creol2html_emitter.py:HtmlEmitter", "creole/__init__.py:html2creole"]}
{"id": "C75", "title": "Calls of macros on lines of their own", "statement": "A call <<name args>> without a text, alone on a line, is a paragraph: in a document of blocks and such calls, separated by any blank lines, creole2html replaces the call in the paragraph by what the macro returns (or by the error line), at its place among the blocks; the blocks around it are converted as if the call were a paragraph of text; the dict of macros is left as it is.", "quantifier": "every document of blocks and calls on lines of their own, every string that gives its lines (with any line endings), all options and dicts of macros", "why_tests_cant": "All documents, arguments and macros; the rules for a macro with a text, for a macro block and for a macro tag compete for the same characters, up to the end of the document.", "anchors": ["creole/__init__.py:creole2html", "creole/parser/creol2html_rules.py:InlineRules.macro_tag,InlineRules.macro_inline,BlockRules.macro_block", "creole/emitter/creol2html_emitter.py:HtmlEmitter.macro_emit"]}
{"id": "C76", "title": "The table of contents of a document", "statement": "In a document with a call <<toc>> or <<toc depth=n>> on a line of its own creole2html succeeds, all headings become anchors, and the first call is replaced by a table of contents: nested lists with one entry for each heading before the call and each heading of level at most n behind it, in order, as deep as the level says; further calls give the text of the call. The table stands in the place of the call if no macro returns a text with '<<' or with a '<' at the end. Each entry links to the anchor around its heading if the title contains none of the characters & < > \". Witness for the limits: a title '<b>' is put into the table unescaped.", "quantifier": "every document of blocks and calls on lines of their own, with headings of any level anywhere, every depth, all options and dicts of macros without a macro 'toc'", "why_tests_cant": "All documents; the table is put in after everything else is emitted, by searching the text of the page for a placeholder.", "anchors": ["creole/__init__.py:creole2html", "creole/emitter/creol2html_emitter.py:HtmlEmitter,TableOfContent", "creole/html_tools/text_tools.py"]}
{"id": "C77", "title": "The parser copes with any white space", "statement": "A document whose tags are properly nested is parsed to its own tree whatever white space stands in its texts, between its tags and around it: no tag, attribute or other character is added, lost or moved. Only white space changes. Values of attributes may contain quotes, and are read as they were unless a semicolon follows a quote.", "quantifier": "all properly nested HTML documents, with any white space", "why_tests_cant": "Tests contain a few layouts; the white space is moved by regular expressions that see only the neighbourhood of each tag.", "anchors": ["creole/html_tools/strip_html.py:strip_html", "creole/parser/html_parser.py:HtmlParser.feed"]}
{"id": "C78", "title": "The HTML of creole2html is well structured", "statement": "For every text without '<<', however ill-formed, creole2html succeeds and its HTML has the structure of a document: at the top only paragraphs, headings, lists, tables, rules and preformatted texts; in lists only items, in tables only rows of cells; in running text only the eight typefaces, links, pictures, line breaks and code, with exactly the attributes they should have; text nowhere else, and block elements never inside of inline ones. By default this needs that no picture has a size without a title (then its address is used as title unescaped, witness), or that the text has none of the characters & < > \", or that there is no picture.", "quantifier": "every string without '<<', all options, all macros", "why_tests_cant": "All strings; every rule of the parser can open and close nodes in any state.", "anchors": ["creole/__init__.py:creole2html", "creole/parser/creol2html_parser.py:CreoleParser", "creole/parser/creol2html_rules.py", "creole/emitter/creol2html_emitter.py:HtmlEmitter"]}
{"id": "C79", "title": "The parser finds every preformatted area", "statement": "A properly nested HTML document with any number of areas <pre>...</pre> between its top-level elements, with any white space, is parsed to the tree in which each area is exactly one node at its place whose content is the text of the area as it is written (markup and line breaks untouched), and the rest is the tree of a document that differs in white space only. An area at the beginning of a line is a block and loses its leading blank lines and nothing else; any other area is inline and complete. The texts of the areas begin and end with a line break, and a line break follows each end tag, unless it is the end of the document: witness that otherwise two areas and the text between them become one.", "quantifier": "all documents with any number (up to 10^4300) of areas, all texts of areas that begin and end with line breaks, all white space", "why_tests_cant": "Areas are cut out by two regular expressions one after the other, numbered, and put back by number while the tags are read; tests have one or two areas.", "anchors": ["creole/parser/html_parser.py:HtmlParser.feed,_pre_cut_out", "creole/html_tools/strip_html.py:strip_html"]}
{"id": "C80", "title": "What was made from creole can be converted back", "statement": "For every text without '<<', however ill-formed, the HTML of creole2html can be converted by html2creole and by html2textile: they raise no exception, unless unknown tags are to raise. The only exceptions are: NotImplementedError if unknown tags are to raise (inline code in html2creole, e.g.); ValueError in html2markdown for an address it cannot parse; Html2restException in html2rest for links or pictures in conflict. Each of them does occur (witnesses). By default this needs the condition of C78.", "quantifier": "every string without '<<' whose HTML is not longer than 10^4300 characters, all options, all macros, all four converters, all ways to handle unknown tags", "why_tests_cant": "All strings; the text passes two parsers and two emitters, with regular expressions, numbered placeholders and assertions in between.", "anchors": ["creole/__init__.py:creole2html,html2creole,html2textile,html2markdown,html2rest", "creole/parser/html_parser.py:HtmlParser", "creole/shared/base_emitter.py:BaseEmitter"]}
{"id": "C81", "title": "The text survives the way through HTML", "statement": "For every text without '<<', however ill-formed, whose HTML has no links and no pictures and whose tables have rows of equal length: if creole2html and then html2creole, html2textile, html2markdown or html2rest convert it, all characters of the text except blanks and markup characters are in the result, in the same order. On the way back to creole (unknown tags left out) the conversion always succeeds, and apart from blanks and markup the text is exactly the same: nothing is lost, added, repeated or moved. For textile the rows may have any length. Witnesses: in other languages cells of longer rows are lost; escaped markup is markup on the way back.", "quantifier": "every string without '<<' whose HTML is not longer than 10^4300 characters, all options, all macros, all four converters, all ways to handle unknown tags", "why_tests_cant": "All strings; the text passes two parsers and two emitters, and is escaped and unescaped in between.", "anchors": ["creole/__init__.py:creole2html,html2creole,html2textile,html2markdown,html2rest", "creole/parser/creol2html_parser.py:CreoleParser", "creole/emitter/creol2html_emitter.py:HtmlEmitter", "creole/parser/html_parser.py:HtmlParser", "creole/emitter/html2creole_emitter.py:CreoleEmitter"]}
{"id": "C82", "title": "What the options of creole2html are about", "statement": "The HTML of a text without '<<' depends neither on verbose nor on the macros, and the dict of macros is left as it is; if there is no picture in it, it does not depend on strict either. Witnesses: pictures depend on strict, macros on verbose.", "quantifier": "every string without '<<', all pairs of values of the options and dicts of macros", "why_tests_cant": "All strings and dicts of macros; the options are kept in the emitter and read in the middle of the conversion.", "anchors": ["creole/__init__.py:creole2html", "creole/emitter/creol2html_emitter.py:HtmlEmitter.__init__,image_emit,macro_emit,error"]}
{"id": "C83", "title": "Macros are called once each, from left to right", "statement": "For every text that does not call toc the conversion is this: there is a text with places for calls of macros, which depends only on the text, blog_line_breaks and strict, and the places are filled from left to right, each by exactly one call, each macro being in the state in which the calls before left it. The answer of a call (the string, or an error line, or nothing) stands at its place. The conversion raises exactly if a call raises what is not caught. So which calls are made, how often and in which order does not depend on what the macros do, and macros with a state (counters, footnotes) see exactly these calls. Only macros are called whose name follows '<<' in the text.", "quantifier": "every string without a call of toc, all options, all dicts of macros, with any state shared between them in any way", "why_tests_cant": "All strings, all macros and all histories of their calls.", "anchors": ["creole/emitter/creol2html_emitter.py:HtmlEmitter.macro_emit,emit_node,emit_children,emit,error", "creole/parser/creol2html_parser.py:CreoleParser"]}
{"id": "C84", "title": "What every text with headings, macros and a table of contents is converted to", "statement": "For every text, however ill-formed: there is a text with places for headings and calls of macros, which depends only on the text, blog_line_breaks and strict, and the conversion fills the places from left to right. If none of the calls is a call of toc, the headings are plain. Otherwise every heading is an anchor; the first call of toc with proper arguments leaves a mark, and every further one its own text in escaped form; at the end the table of contents takes the place of the first paragraph that consists of the mark, or else of the first mark. The table mentions, whatever the macros do, all headings before the first proper call and those behind it within the depth of this call, each inside as many lists as its level, no list being empty or directly behind another one. The other calls are as in C83. With verbose <= 2 and macros that raise nothing but Exceptions, the conversion raises exactly if a heading follows the first proper call of toc and its depth is a string.", "quantifier": "every string, all options, all dicts of macros without an entry toc, with any state shared between the macros in any way", "why_tests_cant": "All strings, all macros and all histories of calls and headings; whether headings are anchors depends on what follows anywhere behind them.", "anchors": ["creole/emitter/creol2html_emitter.py:TableOfContent,HtmlEmitter.__init__,header_emit,macro_emit,emit", "creole/parser/creol2html_parser.py:CreoleParser._add_macro,_head_repl"]}
{"id": "C85", "title": "What conversions that share a dict of macros give", "statement": "When texts are converted one after the other with the same dict of macros, every conversion is the filling of the places of its text, from left to right, and all depends on the texts, the macros and one object: the table of contents made for the first text that calls toc stays in the dict and is used again, with its headings, its depth and the fact that it has been placed, by all later texts that call toc (and by no others). A caller's own macro named toc makes the conversion of every text that calls toc fail.", "quantifier": "every sequence of texts of any length, all options, all dicts of macros without an entry toc, with any state; for the last sentence all dicts with an own entry toc", "why_tests_cant": "All histories of conversions of all texts.", "anchors": ["creole/emitter/creol2html_emitter.py:HtmlEmitter.__init__,header_emit,macro_emit,emit", "creole/emitter/creol2html_emitter.py:TableOfContent", "creole/__init__.py:creole2html"]}
{"id": "C86", "title": "Attributes that do not matter", "statement": "If two HTML documents differ only in attributes that the converter does not use, or in the order of attributes, they are converted to the same text, or both conversions fail with the same exception. Used are: href of a (for markdown also title), src, alt and title of img (for creole, unless strict, also width and height), and all attributes of unknown tags if these are to be written out. If an attribute is given twice the last one counts. Attributes of unknown tags are written sorted by name.", "quantifier": "all documents of properly written tags with any text and attributes, all sequences of tags, all document trees; all four converters, all ways to handle unknown tags", "why_tests_cant": "All documents and all sets of attributes; attributes travel through a regular expression, a tokenizer, a dict and an emitter.", "anchors": ["creole/parser/html_parser.py:HtmlParser.handle_starttag,handle_startendtag", "creole/emitter/html2creole_emitter.py:CreoleEmitter.a_emit,img_emit", "creole/shared/base_emitter.py:BaseEmitter.emit_node", "creole/shared/unknown_tags.py", "creole/shared/document_tree.py:DocNode.get_attrs_as_string"]}
{"id": "C87", "title": "Articles with preformatted text", "statement": "If an article of headings, paragraphs, lists, tables and rules has areas of preformatted text between its blocks, each converter from HTML writes every block as without them and every area with its lines as they are: between {{{ and }}} in creole, between <pre> and </pre> in textile, between ``` lines in markdown, indented below :: in ReStructuredText (there without the blanks at the ends of the area). Which empty lines separate the parts is fixed by their kinds. How the HTML is laid out has no influence. With blog_line_breaks=False the same holds for articles without line breaks in paragraphs whose headings and preformatted text stand at the beginning only (witnesses for the others).", "quantifier": "all articles (as in the properties on articles), all numbers of areas, all texts in the areas whose first line is not blank, all ways to lay out the HTML", "why_tests_cant": "All texts, all orders of blocks and areas; areas are cut out by a regular expression and put back through numbered placeholders, between blocks that carry state.", "anchors": ["creole/parser/html_parser.py:HtmlParser.feed,_pre_cut,handle_startendtag", "creole/emitter/html2creole_emitter.py:CreoleEmitter.blockdata_pre_emit", "creole/emitter/html2textile_emitter.py:TextileEmitter.blockdata_pre_emit", "creole/emitter/html2markdown_emitter.py:MarkdownEmitter.blockdata_pre_emit", "creole/emitter/html2rest_emitter.py:ReStructuredTextEmitter.blockdata_pre_emit"]}
{"id": "C88", "title": "A block of code", "statement": "A document that is one <pre> whose text does not start on a line of its own is converted to exactly this text (entities replaced) between the delimiters of the language: {{{ }}}, ``` ``` or <pre> </pre>. If it is the usual <pre><code class=\"language-x\">, then creole, textile and ReStructuredText show the <code> tag as a part of the text; markdown gives the language followed by the code, but only the part of the code before its first &, < or > (or just lt, gt, amp if it begins with one), so exactly code without these characters is kept; for an empty code markdown fails with an IndexError.", "quantifier": "all texts, all classes without quotes and line breaks, all white space around", "why_tests_cant": "All codes with all placements of the three characters; the loss happens in the tree of a second parser run.", "anchors": ["creole/emitter/html2markdown_emitter.py:MarkdownEmitter.inlinedata_pre_emit", "creole/emitter/html2creole_emitter.py:CreoleEmitter.inlinedata_pre_emit", "creole/emitter/html2textile_emitter.py:TextileEmitter.inlinedata_pre_emit", "creole/emitter/html2rest_emitter.py:ReStructuredTextEmitter.inlinedata_pre_emit", "creole/parser/html_parser.py:HtmlParser.feed,_pre_cut_out"]}
{"id": "C89", "title": "From HTML to creole and back", "statement": "If an article of headings, paragraphs, lists, tables and rules is converted to creole and the result to HTML again, the blocks come back in the same order and with the same texts, unless its texts contain something that creole reads as markup. Typefaces come back as the element that creole has for them, but as plain marks in headings and inside of links; links come back without titles, pictures with one text as title and alternative text (those with data: addresses not at all), code as plain text. A second conversion gives the same creole text again. An article without the things mentioned comes back with exactly the same elements. Preformatted text between the blocks comes back at its place with the lines it had, unless one of them is }}} or ~}}} (with blanks around it or not). How the HTML is laid out has no influence.", "quantifier": "all articles of any length and nesting whose creole text is unambiguous, all ways to lay out the HTML; all macros and all options except blog_line_breaks=False and strict", "why_tests_cant": "All articles; four programs (HTML parser, creole emitter, creole parser, HTML emitter) have to agree on every construct.", "anchors": ["creole/__init__.py:html2creole,creole2html", "creole/emitter/html2creole_emitter.py:CreoleEmitter", "creole/parser/creol2html_parser.py:CreoleParser", "creole/emitter/creol2html_emitter.py:HtmlEmitter", "creole/parser/html_parser.py:HtmlParser"]}
{"id": "C90", "title": "How characters are written", "statement": "If two HTML documents consist of the same characters and tags, they are converted to the same text, or both conversions fail with the same exception, no matter which characters are written as themselves, by a name like &eacute; or by a number like &#233; or &#xe9;, where comments stand, whether <br> and <img> have a slash, and how the documents are laid out. Exceptions: html2markdown drops a blank that stands alone between two references or tags; white space around a comment between blocks leaves a blank; a hexadecimal number after a capital X (&#X41;) raises a ValueError.", "quantifier": "all documents of properly written tags, characters, references, comments and layout, all sequences of tags and texts, all document trees; all four converters, all ways to handle unknown tags", "why_tests_cant": "All texts and all ways to write each of their characters; references split a text into several nodes, which are handled one by one.", "anchors": ["creole/parser/html_parser.py:HtmlParser.handle_data,handle_charref,handle_entityref", "creole/html_tools/deentity.py:Deentity", "creole/html_tools/strip_html.py:strip_html", "creole/shared/base_emitter.py:BaseEmitter.data_emit,entityref_emit,charref_emit", "creole/emitter/html2markdown_emitter.py:MarkdownEmitter.data_emit"]}
{"id": "C91", "title": "A function of the user for unknown tags works on unknown tags only, and its result is used as it is", "statement": "html2creole, html2textile, html2markdown and html2rest take any function as unknown_emit. The result of a conversion depends on the function only through what it does with the elements of the document which the converter does not know: two functions that treat these alike give the same text or the same exception, whatever else they do, and for a document of known tags the function has no effect. An unknown element is replaced by exactly the text the function returns. An exception of the conversion is caused by a known element (as without the function), or is the one that the function raised for an unknown element of the document, or is AssertionError because the function returned something that is no text. If the function always converts what is in an element, but never returns a text for some unknown element of the document, then the conversion raises. What is in unknown elements that the function discards has no effect at all on the result.", "quantifier": "all functions (with any effect on the emitter for the first part; without an effect of their own on the emitter for the others), all HTML texts or document trees, all four languages", "why_tests_cant": "Tests use the functions of the package and one or two own functions on short documents; the claim is about every function on every document.", "anchors": ["creole/shared/base_emitter.py: BaseEmitter.__init__, emit_node, emit_children", "creole/shared/unknown_tags.py", "creole/__init__.py: html2creole, html2textile, html2markdown, html2rest"]}
{"id": "C92", "title": "The example macros show the text they are given", "statement": "The macros of creole.shared.example_macros. Without Pygments, pre and code return the text escaped in <pre>. With Pygments, if the language given as ext is known, code returns a text for every text: the highlighted one with <br /> at the end of its lines, and if highlighting fails in any way the escaped lines in <pre>. The language is the word in ext, or what follows its first dot up to the next one, without blanks around it. If Pygments does not know the language it is asked to guess it from the macro function, not from the text: if that raises then so does the macro, for every text, and the text is not shown. An ext that is a number, True, False or None raises TypeError. Creole texts that use pre and code (without Pygments) are converted to safe HTML in strict mode without error messages.", "quantifier": "all texts and arguments; Pygments is a parameter: any lexers, any highlighter, failing or not", "why_tests_cant": "Tests highlight one short text with a known language and never make Pygments fail.", "anchors": ["creole/shared/example_macros.py: html, pre, code", "creole/shared/utils.py: get_pygments_lexer, get_pygments_formatter"]}
{"id": "C93", "title": "The clean HTML writer: alignment of images, levels of headings", "statement": "When ReStructuredText is converted with the clean writer, an image that has an alignment, or that is in a figure with an alignment, is written as without it but with the attribute align at the end of its tag, exactly once, whatever its other attributes contain; what was written before it is not changed. Images without alignment (or with an empty one), and images that docutils does not write as <img>, are written as docutils writes them. The level of the heading of every section is computed from the number of the sections around its title, however they are nested in other nodes, and is restored at the end of the document.", "quantifier": "all attributes, alignments and parents of an image; all documents", "why_tests_cant": "Tests convert a handful of images and documents with two levels of sections.", "anchors": ["creole/rest_tools/clean_writer.py: CleanHTMLTranslator.visit_image, visit_section, depart_section, starttag"]}
{"id": "C94", "title": "Macros as attributes of an object, and what is written to stderr", "statement": "An object such as a module may be given to creole2html in the place of a dict of macros: if its attributes (its own or inherited ones) are the macros of the dict then the HTML or the exception is the same for every text, and afterwards its attributes are again those of the dict. A name with the value None is a name that does not exist. A callable given as macros is refused for every text. Nothing is written to stderr unless verbose is greater than 1, whatever the text and the macros do and even if the conversion raises; and if a traceback is written to stderr then there is an error message in the HTML.", "quantifier": "all texts, options, dicts and objects with any macros (also with a state)", "why_tests_cant": "Tests use one module and a few dicts, and look at stderr for one failing macro.", "anchors": ["creole/emitter/creol2html_emitter.py: HtmlEmitter.__init__, macro_emit, error, emit", "creole/__init__.py: creole2html"]}
{"id": "C95", "title": "HTML documents one after the other", "statement": "For html2creole, html2textile and html2markdown: when a well-formed HTML document (ending in an element) is followed by another one, the result is the result of the first, white space, and the result of the second; an error of either is the error of the whole. After a paragraph, heading, table, list or rule the white space contains a line break. The second must not begin with a list (html2creole, html2textile) and has no rows or cells outside of tables. None of the exceptions can be dropped: html2rest omits the target of a link that was given before, a list at the beginning is laid out differently, and a stray cell is an error except after a table.", "quantifier": "all pairs of well-formed HTML documents of any size and nesting, all treatments of unknown tags, and white space between them", "why_tests_cant": "the emitters keep attributes (list markers, table, last node) across the whole document; that nothing leaks from one part into the next is about all pairs of documents", "anchors": ["creole/shared/base_emitter.py: BaseEmitter", "creole/emitter/html2creole_emitter.py", "creole/emitter/html2textile_emitter.py", "creole/emitter/html2markdown_emitter.py"]}
{"id": "C96", "title": "How large the HTML becomes", "statement": "Without a table of contents the HTML of a text has at most 1920 * (m + 1) * (n + 1) characters, where n is the length of the text and m the largest number of list marks (* and #) in a row. For every text, also with tables of contents and with any error messages, it has at most 13184 * (n + 1)^2 characters. More cannot be promised: there are texts of at most 4 * n + 7 characters without a table of contents whose HTML has at least n * n characters (a deep item with many line breaks).", "quantifier": "all texts of any length and nesting, all options, without macros of the user", "why_tests_cant": "a bound on the output is about all inputs at once; tests convert texts of a few lines, and the growth comes from combinations (indentation times line breaks, nested tables of contents, error messages)", "anchors": ["creole/__init__.py: creole2html", "creole/parser/creol2html_parser.py: CreoleParser", "creole/emitter/creol2html_emitter.py: HtmlEmitter"]}
{"id": "C97", "title": "Converting with chosen block rules", "statement": "creole2html(markup, block_rules=...) with any of the rules of BlockRules in any order. With the rules of BlockRules(blog_line_breaks=...) it is the usual conversion. If a rule is given twice every conversion raises re.error, and this is raised in no other case. Otherwise no text raises an exception unless it calls toc, and without << the HTML is safe in strict mode and structured, and every element at its top stems from one of the rules (no headings without the rule for headings, no paragraphs without the text rule, and so on). If the text rule is among the rules, nothing of the text is lost: the markup of the missing rules is shown as text. A rule that the text does not need (no line begins with its mark) may be left out or added at any place without a change. Without the text rule text is lost, and the order of the rules matters.", "quantifier": "all selections and orders of the block rules, all texts, options and macros", "why_tests_cant": "there are more than a hundred thousand selections and orders; tests use the two default ones", "anchors": ["creole/__init__.py: creole2html", "creole/parser/creol2html_parser.py: CreoleParser", "creole/parser/creol2html_rules.py: BlockRules"]}
{"id": "C98", "title": "How fast the text converted from HTML can grow", "statement": "The size of the result of html2creole, html2textile, html2markdown and html2rest is not bounded by any polynomial in the size of the HTML. For every n there is an HTML text of 33 * n + 34 characters (a letter in n + 1 nested tables) which is converted without an error and whose result contains the one letter 2^n times; and one of 9 * n + 10 characters (a letter in n + 1 nested headings) for which the result of html2rest has at least 3^(n + 1) characters. Nested tables are the only cause for html2creole, html2textile and html2markdown: if at most d tables are around each other in the parsed document then a result has at most (300 * (n + 1))^(3 * (d + 2)) characters, n being the number of characters of the HTML, whatever else it contains; and at most (25000 * (n + 1))^(d + 2) if there is no <pre>. For html2rest the causes are tables, headings and outermost lists: if at most d of them are around each other, and there is no tag <document>, then a result has at most (300 * (n + 1))^(3 * (d + 3)) characters, or (25000 * (n + 1))^(d + 3) without <pre>.", "quantifier": "all depths of nesting, all emitters, all treatments of unknown tags; for the upper bound all HTML texts that are converted", "why_tests_cant": "tests nest tables not at all; the growth is seen only for all depths together", "anchors": ["creole/shared/base_emitter.py: BaseEmitter.table_emit, td_emit", "creole/emitter/html2rest_emitter.py: ReStructuredTextEmitter.headline_emit", "creole/shared/markup_table.py: MarkupTable"]}
{"id": "C99", "title": "What a command line asks for", "statement": "The tools creole2html, html2creole, html2rest and html2textile convert a file s to a file d with the encoding e exactly if the words after the name of the tool say so: the two names in this order, and before, between and behind them any number of options --encoding e or --encoding=e, also abbreviated down to --e, of which the last one counts (utf-8 if there is none); a name does not begin with - unless it is -, or a negative number or contains a blank and is no option, or stands behind a --. (Behind a -- a further -- is forgotten, unless it follows directly and no name stands before; a -- without a name between it and the last option is an error.) With all other words no file is touched: nothing is read as a different conversion, and a command line has one meaning at most. No file but the destination ever changes. A tool ends without an error and without a conversion only if a word before any -- asks for the help text or for the version, and always if the first one does and no later one begins with --=.", "quantifier": "all lists of words of any length with any characters, all file systems, converters and codecs, all moments of a run", "why_tests_cant": "the words can be combined in infinitely many ways, and the argument parser consumes them in groups; tests call the tools with two names", "anchors": ["creole/cmdline.py: CreoleCLI.__init__, CreoleCLI.convert"]}
{"id": "C100", "title": "What the arguments of a macro mean", "statement": "The text of the arguments of a macro is split into words at blanks, tabs and line ends; quotes and backslashes protect them: between single quotes everything stands for itself, between double quotes everything but a backslash before a double quote or a backslash, and outside of quotes a backslash protects the next character. The arguments are accepted exactly if the text can be read so and each word contains a =. The key is what is before the first =, and its value is that of the last word with this key: True, False and None are those constants, a decimal number of at most 4300 digits (with a sign, single underscores between its digits, and spaces and quotes around it) is that number, and everything else is the text behind the =. No other keys are in the dictionary.", "quantifier": "all texts of any length with any characters", "why_tests_cant": "the words, quotes, escapes and digits can be combined in infinitely many ways; tests check a few texts", "anchors": ["creole/shared/utils.py: string2dict"]}
{"id": "C101", "title": "White space at the ends", "statement": "The texts that html2creole, html2textile and html2markdown give neither begin nor end with white space, and those of html2rest do not end with it (they can begin with it). The HTML that creole2html gives neither begins nor ends with white space, whatever its macros give, with or without a table of contents. White space around HTML has no influence on any of the four conversions. A text of nothing but white space becomes the empty text in all directions.", "quantifier": "all HTML and creole texts, all ways to treat unknown tags, all macros, all white space around", "why_tests_cant": "texts, macros and kinds of white space can be combined in infinitely many ways; tests strip their expected texts", "anchors": ["creole/parser/html_parser.py: HtmlParser.feed", "creole/emitter/html2creole_emitter.py: CreoleEmitter.emit", "creole/emitter/html2rest_emitter.py: ReStructuredTextEmitter.emit", "creole/emitter/html2textile_emitter.py: TextileEmitter.emit", "creole/emitter/html2markdown_emitter.py: MarkdownEmitter.emit", "creole/emitter/creol2html_emitter.py: HtmlEmitter.emit"]}
{"id": "C102", "title": "The clean HTML writer: tables", "statement": "Whatever tables, field lists, document infos, block quotes and other nodes are in each other, rest2html writes the document without a failing assertion: each table, field list and document info is a table element without attributes and with its end tag; columns, heads, bodies of tables and block quotes have no tags; nothing else is changed. What is remembered about compact paragraphs is restored behind each node. The version of docutils is compared as a text, so that 0.9 counts as newer than 0.10.", "quantifier": "all documents of docutils, nested to any depth, all states of the writer before a node", "why_tests_cant": "nodes can be nested in infinitely many ways; the tests have single tables", "anchors": ["creole/rest_tools/clean_writer.py: CleanHTMLTranslator.visit_table, visit_field_list, depart_field_list, visit_docinfo, depart_docinfo, depart_document"]}
{"id": "C103", "title": "Raw HTML and access to files are switched off for docutils", "statement": "rest2html calls docutils with the settings of the user; for the names the user does not give, raw HTML, access to files and the promotion of a lone title are switched off. So, unless the user asks for it, the result does not depend on what docutils would do with raw HTML or files. pypi_rest2html always calls the parser and the writer of docutils with both switched off, and so that warnings raise exceptions.", "quantifier": "all texts, all settings of the user, all behaviours of docutils", "why_tests_cant": "that something is never asked for cannot be seen from the results of finitely many calls", "anchors": ["creole/rest_tools/clean_writer.py: rest2html", "creole/rest_tools/pypi_rest2html.py: pypi_rest2html"]}
