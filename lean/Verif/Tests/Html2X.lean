import Verif.Emit.Emitter

/-!
# The expectations of the project's tests for the emitters from HTML, evaluated on the model

Generated from the literal arguments of the `assert_html2...`, `cross_compare_...` and `cross_compare` calls in
`/repo/creole/tests/`.  These are tests of the model, not proofs.
-/

namespace Verif.Emit.Tests

open Verif Py Emit

def run (lang : Lang) (policy : Policy) (strict : Bool) (src : String) : Option String :=
  match convert { lang, policy, strict } src.toList with
  | .ok s => some (String.ofList s)
  | .error _ => none

-- test_cross_compare_all.py:31
#guard run .creole .transparent false
  "<p><strong>bold</strong> <i>italics</i><br />\n<i>italics and <strong>bold</strong>.</i><br />\n<strong>bold and <i>italics</i>.</strong></p>"
  == some "**bold** //italics//\n//italics and **bold**.//\n**bold and //italics//.**"

-- test_cross_compare_all.py:43
#guard run .textile .transparent false
  "<p><strong>bold</strong> <i>italics</i><br />\n\n<i>italics and <strong>bold</strong>.</i><br />\n\n<strong>bold and <i>italics</i>.</strong></p>"
  == some "*bold* __italics__\n__italics and *bold*.__\n*bold and __italics__.*"

-- test_cross_compare_all.py:58
#guard run .rest .transparent false
  "<p><strong>bold</strong> <em>italics</em></p>"
  == some "**bold** *italics*"

-- test_cross_compare_all.py:68
#guard run .creole .transparent false
  "<p><strong><i>bold italics</i></strong><br />\n<i><strong>bold italics</strong></i><br />\n<i>This is <strong>also</strong> good.</i></p>"
  == some "**//bold italics//**\n//**bold italics**//\n//This is **also** good.//"

-- test_cross_compare_all.py:80
#guard run .textile .transparent false
  "<p><strong><i>bold italics</i></strong><br />\n\n<i><strong>bold italics</strong></i><br />\n\n<i>This is <strong>also</strong> good.</i></p>"
  == some "*__bold italics__*\n__*bold italics*__\n__This is *also* good.__"

-- test_cross_compare_all.py:96
#guard run .creole .transparent false
  "<h1>Section Title 1</h1>\n\n<h2>Section Title 2</h2>\n\n<h3>Section Title 3</h3>\n\n<h4>Section Title 4</h4>\n\n<h5>Section Title 5</h5>\n\n<h6>Section Title 6</h6>"
  == some "= Section Title 1\n\n== Section Title 2\n\n=== Section Title 3\n\n==== Section Title 4\n\n===== Section Title 5\n\n====== Section Title 6"

-- test_cross_compare_all.py:96
#guard run .textile .transparent false
  "<h1>Section Title 1</h1>\n\n<h2>Section Title 2</h2>\n\n<h3>Section Title 3</h3>\n\n<h4>Section Title 4</h4>\n\n<h5>Section Title 5</h5>\n\n<h6>Section Title 6</h6>"
  == some "h1. Section Title 1\n\nh2. Section Title 2\n\nh3. Section Title 3\n\nh4. Section Title 4\n\nh5. Section Title 5\n\nh6. Section Title 6"

-- test_cross_compare_all.py:137
#guard run .rest .transparent false
  "<h1>Section Title 1</h1>\n<h2>Section Title 2</h2>\n<h3>Section Title 3</h3>\n<h4>Section Title 4</h4>\n<h5>Section Title 5</h5>\n<h6>Section Title 6</h6>"
  == some "===============\nSection Title 1\n===============\n\n---------------\nSection Title 2\n---------------\n\nSection Title 3\n===============\n\nSection Title 4\n---------------\n\nSection Title 5\n```````````````\n\nSection Title 6\n'''''''''''''''"

-- test_cross_compare_all.py:198
#guard run .creole .transparent false
  "<p>X <a href=\"http://domain.tld\">link B</a> test.</p>"
  == some "X [[http://domain.tld|link B]] test."

-- test_cross_compare_all.py:198
#guard run .textile .transparent false
  "<p>X <a href=\"http://domain.tld\">link B</a> test.</p>"
  == some "X \"link B\":http://domain.tld test."

-- test_cross_compare_all.py:198
#guard run .rest .transparent false
  "<p>X <a href=\"http://domain.tld\">link B</a> test.</p>"
  == some "X `link B <http://domain.tld>`_ test."

-- test_cross_compare_all.py:214
#guard run .creole .transparent false
  "<p><a href=\"http://www.pylucid.org\">http://www.pylucid.org</a></p>"
  == some "[[http://www.pylucid.org]]"

-- test_cross_compare_all.py:214
#guard run .textile .transparent false
  "<p><a href=\"http://www.pylucid.org\">http://www.pylucid.org</a></p>"
  == some "\"http://www.pylucid.org\":http://www.pylucid.org"

-- test_cross_compare_all.py:214
#guard run .rest .transparent false
  "<p><a href=\"http://www.pylucid.org\">http://www.pylucid.org</a></p>"
  == some "`http://www.pylucid.org <http://www.pylucid.org>`_"

-- test_cross_compare_all.py:230
#guard run .creole .transparent false
  "<p>X <a href=\"foo://bar\">unknown protocol</a> Y</p>"
  == some "X [[foo://bar|unknown protocol]] Y"

-- test_cross_compare_all.py:230
#guard run .rest .transparent false
  "<p>X <a href=\"foo://bar\">unknown protocol</a> Y</p>"
  == some "X `unknown protocol <foo://bar>`_ Y"

-- test_cross_compare_all.py:247
#guard run .creole .transparent false
  "<p>X <a href=\"http://de.wikipedia.org/wiki/Creole_(Markup)\">Creole@wikipedia</a></p>"
  == some "X [[http://de.wikipedia.org/wiki/Creole_(Markup)|Creole@wikipedia]]"

-- test_cross_compare_all.py:255
#guard run .rest .transparent false
  "<p>X <a href=\"http://de.wikipedia.org/wiki/Creole_(Markup)\">Creole&#64;wikipedia</a></p>"
  == some "X `Creole@wikipedia <http://de.wikipedia.org/wiki/Creole_(Markup)>`_"

-- test_cross_compare_all.py:263
#guard run .textile .transparent false
  "<p>X <a href=\"http://domain.tld\">foo@domain</a></p>"
  == some "X \"foo@domain\":http://domain.tld"

-- test_cross_compare_all.py:273
#guard run .creole .transparent false
  "<p>a <img src=\"/image.jpg\" title=\"JPG pictures\" alt=\"JPG pictures\" /> and<br />\na <img src=\"/image.jpeg\" title=\"JPEG pictures\" alt=\"JPEG pictures\" /> and<br />\na <img src=\"/image.gif\" title=\"GIF pictures\" alt=\"GIF pictures\" /> and<br />\na <img src=\"/image.png\" title=\"PNG pictures\" alt=\"PNG pictures\" /> !<br />\n<img src=\"/path1/path2/image\" title=\"Image without files ext?\" alt=\"Image without files ext?\" /></p>"
  == some "a {{/image.jpg|JPG pictures}} and\na {{/image.jpeg|JPEG pictures}} and\na {{/image.gif|GIF pictures}} and\na {{/image.png|PNG pictures}} !\n{{/path1/path2/image|Image without files ext?}}"

-- test_cross_compare_all.py:289
#guard run .textile .transparent false
  "<p>a <img alt=\"JPG pictures\" src=\"/image.jpg\" title=\"JPG pictures\" /> and<br />\n\na <img alt=\"JPEG pictures\" src=\"/image.jpeg\" title=\"JPEG pictures\" /> and<br />\n\na <img alt=\"GIF pictures\" src=\"/image.gif\" title=\"GIF pictures\" /> and<br />\n\na <img alt=\"PNG pictures\" src=\"/image.png\" title=\"PNG pictures\" /> !<br />\n\n<img alt=\"Image without files ext?\" src=\"/path1/path2/image\" title=\"Image without files ext?\" /></p>"
  == some "a !/image.jpg(JPG pictures)! and\na !/image.jpeg(JPEG pictures)! and\na !/image.gif(GIF pictures)! and\na !/image.png(PNG pictures)! !\n!/path1/path2/image(Image without files ext?)!"

-- test_cross_compare_all.py:309
#guard run .rest .transparent false
  "<p>1 <img alt=\"JPG pictures\" src=\"/image.jpg\" /> one</p>\n<p>2 <img alt=\"JPEG pictures\" src=\"/image.jpeg\" /> two</p>\n<p>3 <img alt=\"GIF pictures\" src=\"/image.gif\" /> tree</p>\n<p>4 <img alt=\"PNG pictures\" src=\"/image.png\" /> four</p>\n<p>5 <img alt=\"Image without files ext?\" src=\"/path1/path2/image\" /> five</p>"
  == some "1 |JPG pictures| one\n\n.. |JPG pictures| image:: /image.jpg\n\n2 |JPEG pictures| two\n\n.. |JPEG pictures| image:: /image.jpeg\n\n3 |GIF pictures| tree\n\n.. |GIF pictures| image:: /image.gif\n\n4 |PNG pictures| four\n\n.. |PNG pictures| image:: /image.png\n\n5 |Image without files ext?| five\n\n.. |Image without files ext?| image:: /path1/path2/image"

-- test_cross_compare_all.py:342
#guard run .creole .transparent false
  "<p>Linked <a href=\"http://example.com/\"><img src=\"myimage.jpg\" title=\"example site\" alt=\"example site\" /> image</a></p>"
  == some "Linked [[http://example.com/|{{myimage.jpg|example site}} image]]"

-- test_cross_compare_all.py:350
#guard run .textile .transparent false
  "<p>Linked <a href=\"http://example.com/\"><img alt=\"example site\" src=\"myimage.jpg\" title=\"example site\" /> image</a></p>"
  == some "Linked \"!myimage.jpg(example site)! image\":http://example.com/"

-- test_cross_compare_all.py:373
#guard run .creole .transparent false
  "<pre>\n* no list\n</pre>"
  == some "{{{\n* no list\n}}}"

-- test_cross_compare_all.py:373
#guard run .textile .transparent false
  "<pre>\n* no list\n</pre>"
  == some "<pre>\n* no list\n</pre>"

-- test_cross_compare_all.py:389
#guard run .rest .transparent false
  "<p>Preformatting text:</p>\n<pre>\nHere some performatting with\nno `link &lt;http://domain.tld&gt;`_ here.\ntext... end.\n</pre>\n<p>Under pre block</p>"
  == some "Preformatting text:\n\n::\n\n    Here some performatting with\n    no `link <http://domain.tld>`_ here.\n    text... end.\n\nUnder pre block"

-- test_cross_compare_all.py:445
#guard run .creole .transparent false
  "<pre>\n# Closing braces in nowiki:\nif (x != NULL) {\n  for (i = 0) {\n    if (x = 1) {\n      x[i]--;\n  }}}\n</pre>"
  == some "{{{\n# Closing braces in nowiki:\nif (x != NULL) {\n  for (i = 0) {\n    if (x = 1) {\n      x[i]--;\n  }}}\n}}}"

-- test_cross_compare_all.py:445
#guard run .textile .transparent false
  "<pre>\n# Closing braces in nowiki:\nif (x != NULL) {\n  for (i = 0) {\n    if (x = 1) {\n      x[i]--;\n  }}}\n</pre>"
  == some "<pre>\n# Closing braces in nowiki:\nif (x != NULL) {\n  for (i = 0) {\n    if (x = 1) {\n      x[i]--;\n  }}}\n</pre>"

-- test_cross_compare_all.py:445
#guard run .rest .transparent false
  "<pre>\n# Closing braces in nowiki:\nif (x != NULL) {\n  for (i = 0) {\n    if (x = 1) {\n      x[i]--;\n  }}}\n</pre>"
  == some "::\n\n    # Closing braces in nowiki:\n    if (x != NULL) {\n      for (i = 0) {\n        if (x = 1) {\n          x[i]--;\n      }}}"

-- test_cross_compare_all.py:489
#guard run .creole .transparent false
  "<ul>\n  <li><strong>bold</strong> item</li>\n  <li><i>italic</i> item</li>\n</ul>\n<ol>\n  <li>item about a <a href=\"/foo/bar\">certain_page</a></li>\n</ol>"
  == some "* **bold** item\n* //italic// item\n\n# item about a [[/foo/bar|certain_page]]"

-- test_cross_compare_all.py:489
#guard run .textile .transparent false
  "<ul>\n  <li><strong>bold</strong> item</li>\n  <li><i>italic</i> item</li>\n</ul>\n<ol>\n  <li>item about a <a href=\"/foo/bar\">certain_page</a></li>\n</ol>"
  == some "* *bold* item\n* __italic__ item\n\n# item about a \"certain_page\":/foo/bar"

-- test_cross_compare_all.py:515
#guard run .creole .transparent false
  "<table>\n<tr>\n    <th>Headline 1</th>\n    <th>Headline 2</th>\n</tr>\n<tr>\n    <td>cell one</td>\n    <td>cell two</td>\n</tr>\n</table>"
  == some "|= Headline 1 |= Headline 2 |\n| cell one    | cell two    |"

-- test_cross_compare_all.py:515
#guard run .textile .transparent false
  "<table>\n<tr>\n    <th>Headline 1</th>\n    <th>Headline 2</th>\n</tr>\n<tr>\n    <td>cell one</td>\n    <td>cell two</td>\n</tr>\n</table>"
  == some "|_. Headline 1|_. Headline 2|\n|cell one|cell two|"

-- test_cross_compare_all.py:539
#guard run .rest .transparent false
  "<table>\n<colgroup>\n<col width=\"50%\" />\n<col width=\"50%\" />\n</colgroup>\n<tr><th>Headline 1</th>\n<th>Headline 2</th>\n</tr>\n<tr><td>cell one</td>\n<td>cell two</td>\n</tr>\n</table>"
  == some "+------------+------------+\n| Headline 1 | Headline 2 |\n+============+============+\n| cell one   | cell two   |\n+------------+------------+"

-- test_cross_compare_creole.py:26
#guard run .creole .transparent false
  "<p>basics:<br />\n<strong><i>bold italics</i></strong><br />\n<i><strong>bold italics</strong></i><br />\n<i>This is <strong>also</strong> good.</i></p>\n\n<p>Creole 1.0 optional:<br />\nThis is <tt>monospace</tt> text.<br />\nThis is <sup>superscripted</sup> text.<br />\nThis is <sub>subscripted</sub> text.<br />\nThis is <u>underlined</u> text.</p>\n\n<p>own additions:<br />\nThis is <small>small</small> and this <del>strikeout</del> ;)</p>"
  == some "basics:\n**//bold italics//**\n//**bold italics**//\n//This is **also** good.//\n\nCreole 1.0 optional:\nThis is ##monospace## text.\nThis is ^^superscripted^^ text.\nThis is ,,subscripted,, text.\nThis is __underlined__ text.\n\nown additions:\nThis is --small-- and this ~~strikeout~~ ;)"

-- test_cross_compare_creole.py:64
#guard run .creole .transparent false
  "<p>Bold and italics should <i>be<br />\nable</i> to <strong>cross<br />\nlines.</strong></p>"
  == some "Bold and italics should //be\nable// to **cross\nlines.**"

-- test_cross_compare_creole.py:78
#guard run .creole .transparent false
  "<p>no -- small<br />\nno // italics<br />\nno ** bold<br />\nno ## monospace<br />\nno ^^ superscripted<br />\nno ,, subscripted<br />\nno __ underline</p>"
  == some "no -- small\nno // italics\nno ** bold\nno ## monospace\nno ^^ superscripted\nno ,, subscripted\nno __ underline"

-- test_cross_compare_creole.py:101
#guard run .creole .transparent false
  "<p>this is <a href=\"/a internal\">/a internal</a> link.<br />\n1 <a href=\"internal links\">link A</a> test.</p>"
  == some "this is [[/a internal]] link.\n1 [[internal links|link A]] test."

-- test_cross_compare_creole.py:113
#guard run .creole .transparent false
  "<p><i><a href=\"a internal\">a internal</a></i><br />\n<strong><a href=\"Shortcut2\">a page2</a></strong><br />\n<i><strong><a href=\"Shortcut3\">a page3</a></strong></i></p>"
  == some "//[[a internal]]//\n**[[Shortcut2|a page2]]**\n//**[[Shortcut3|a page3]]**//"

-- test_cross_compare_creole.py:127
#guard run .creole .transparent false
  "<h3>Closing braces in nowiki:</h3>\n\n<pre>\nif (x != NULL) {\n  for (i = 0; i &lt; size; i++) {\n    if (x[i] &gt; 0) {\n      x[i]--;\n  }}}\n</pre>"
  == some "=== Closing braces in nowiki:\n\n{{{\nif (x != NULL) {\n  for (i = 0; i < size; i++) {\n    if (x[i] > 0) {\n      x[i]--;\n  }}}\n}}}"

-- test_cross_compare_creole.py:152
#guard run .creole .transparent false
  "<p>111</p>\n\n<pre>\n//This// does **not** get [[formatted]]\n</pre>\n<p>222</p>\n\n<p>one</p>\n\n<pre>\nfoo\n\nbar\n</pre>\n<p>two</p>"
  == some "111\n\n{{{\n//This// does **not** get [[formatted]]\n}}}\n222\n\none\n\n{{{\nfoo\n\nbar\n}}}\ntwo"

-- test_cross_compare_creole.py:187
#guard run .creole .transparent false
  "<p>start</p>\n\n<pre>\n* no list\n&lt;html escaped&gt;\n</pre>\n<p>end</p>"
  == some "start\n\n{{{\n* no list\n<html escaped>\n}}}\nend"

-- test_cross_compare_creole.py:206
#guard run .creole .transparent false
  "<p>this is <tt><strong>strong</strong> Teletyper</tt> ;)</p>"
  == some "this is ##**strong** Teletyper## ;)"

-- test_cross_compare_creole.py:213
#guard run .creole .transparent false
  "<h1>Headline</h1>\n\n<h3>**not** //parsed//</h3>\n\n<p>No == headline == or?</p>"
  == some "= Headline\n\n=== **not** //parsed//\n\nNo == headline == or?"

-- test_cross_compare_creole.py:231
#guard run .creole .transparent false
  "<p>one</p>\n\n<hr />\n\n<p>two</p>"
  == some "one\n\n----\n\ntwo"

-- test_cross_compare_creole.py:246
#guard run .creole .transparent false
  "<ul>\n    <li>Item 1\n    <ul>\n        <li>Item 1.1</li>\n        <li>a <strong>bold</strong> Item 1.2</li>\n    </ul></li>\n    <li>Item 2\n    <ul>\n        <li>Item 2.1\n        <ul>\n            <li><a href=\"a link Item 3.1\">a link Item 3.1</a></li>\n            <li>Force<br />\n            linebreak 3.2</li>\n            <li>item 3.3</li>\n            <li>item 3.4</li>\n        </ul></li>\n    </ul></li>\n</ul>\n<p>up to five levels</p>\n\n<ul>\n    <li>1\n    <ul>\n        <li>2\n        <ul>\n            <li>3\n            <ul>\n                <li>4\n                <ul>\n                    <li>5</li>\n                </ul></li>\n            </ul></li>\n        </ul></li>\n    </ul></li>\n</ul>"
  == some "* Item 1\n** Item 1.1\n** a **bold** Item 1.2\n* Item 2\n** Item 2.1\n*** [[a link Item 3.1]]\n*** Force\\\\linebreak 3.2\n*** item 3.3\n*** item 3.4\n\nup to five levels\n\n* 1\n** 2\n*** 3\n**** 4\n***** 5"

-- test_cross_compare_creole.py:303
#guard run .creole .transparent false
  "<ol>\n    <li>Item 1\n    <ol>\n        <li>Item 1.1</li>\n        <li>a <strong>bold</strong> Item 1.2</li>\n    </ol></li>\n    <li>Item 2\n    <ol>\n        <li>Item 2.1\n        <ol>\n            <li><a href=\"a link Item 3.1\">a link Item 3.1</a></li>\n            <li>Force<br />\n            linebreak 3.2</li>\n            <li>item 3.3</li>\n            <li>item 3.4</li>\n        </ol></li>\n    </ol></li>\n</ol>\n<p>up to five levels</p>\n\n<ol>\n    <li>1\n    <ol>\n        <li>2\n        <ol>\n            <li>3\n            <ol>\n                <li>4\n                <ol>\n                    <li>5</li>\n                </ol></li>\n            </ol></li>\n        </ol></li>\n    </ol></li>\n</ol>"
  == some "# Item 1\n## Item 1.1\n## a **bold** Item 1.2\n# Item 2\n## Item 2.1\n### [[a link Item 3.1]]\n### Force\\\\linebreak 3.2\n### item 3.3\n### item 3.4\n\nup to five levels\n\n# 1\n## 2\n### 3\n#### 4\n##### 5"

-- test_cross_compare_creole.py:362
#guard run .creole .transparent false
  "<p>A Table...</p>\n\n<table>\n<tr>\n    <th>Headline</th>\n    <th>a other<br />\n        headline</th>\n    <th>the <strong>big end</strong></th>\n</tr>\n<tr>\n    <td>a cell</td>\n    <td>a <strong>big</strong> cell</td>\n    <td><strong><i>bold italics</i></strong></td>\n</tr>\n<tr>\n    <td>next<br />\n        line</td>\n    <td>No == headline == or?</td>\n    <td></td>\n</tr>\n<tr>\n    <td>link test:</td>\n    <td>a <a href=\"/url/\">link</a> in</td>\n    <td>a cell.</td>\n</tr>\n<tr>\n    <td></td>\n    <td></td>\n    <td>empty cells</td>\n</tr>\n</table>\n<p>...end</p>"
  == some "A Table...\n\n|= Headline  |= a other\\\\headline    |= the **big end**     |\n| a cell     | a **big** cell        | **//bold italics//** |\n| next\\\\line | No == headline == or? |                      |\n| link test: | a [[/url/|link]] in   | a cell.              |\n|            |                       | empty cells          |\n...end"

-- test_cross_compare_creole.py:414
#guard run .creole .htmlMacro false
  "<p>111 <x>foo</x> 222<br />\n333<x foo1=\"bar1\">foobar</x>444</p>\n\n<p>555<x />666</p>"
  == some "111 <<html>><x><</html>>foo<<html>></x><</html>> 222\n333<<html>><x foo1=\"bar1\"><</html>>foobar<<html>></x><</html>>444\n\n555<<html>><x /><</html>>666"

-- test_cross_compare_creole.py:432
#guard run .creole .transparent false
  "<p>less-than sign: &lt;<br />\ngreater-than sign: &gt;</p>"
  == some "less-than sign: <\ngreater-than sign: >"

-- test_cross_compare_markdown.py:46
#guard run .markdown .transparent false
  "<p><a href=\"https//test.internal/foo/bar\">This is a Link</a></p>"
  == some "[This is a Link](https//test.internal/foo/bar)"

-- test_cross_compare_markdown.py:50
#guard run .markdown .transparent false
  "<p><a href=\"https//test.internal/\" title=\"Title\">A Link</a></p>"
  == some "[A Link](https//test.internal/ \"Title\")"

-- test_cross_compare_markdown.py:56
#guard run .markdown .transparent false
  "<p><img alt=\"Alt text\" src=\"/path/to/img.jpg\" /></p>"
  == some "![Alt text](/path/to/img.jpg)"

-- test_cross_compare_markdown.py:60
#guard run .markdown .transparent false
  "<p><img alt=\"Alt text\" src=\"/path/to/img.jpg\" title=\"Title\" /></p>"
  == some "![Alt text](/path/to/img.jpg \"Title\")"

-- test_cross_compare_markdown.py:66
#guard run .markdown .transparent false
  "<p><a href=\"/uri\"><img alt=\"image\" src=\"image.jpg\" /></a></p>"
  == some "[![image](image.jpg)](/uri)"

-- test_cross_compare_markdown.py:70
#guard run .markdown .transparent false
  "<p><a href=\"/uri\" title=\"Link Title\"><img alt=\"image\" src=\"image.jpg\" title=\"Image Title\" /></a></p>"
  == some "[![image](image.jpg \"Image Title\")](/uri \"Link Title\")"

-- test_cross_compare_markdown.py:80
#guard run .markdown .transparent false
  "<hr />"
  == some "----"

-- test_cross_compare_markdown.py:105
#guard run .markdown .transparent false
  "<p><em>emphasis</em></p>"
  == some "_emphasis_"

-- test_cross_compare_markdown.py:109
#guard run .markdown .transparent false
  "<p><strong>double asterisks</strong></p>"
  == some "**double asterisks**"

-- test_cross_compare_markdown.py:113
#guard run .markdown .transparent false
  "<p>This is <strong>markdown <em>markup</em></strong>!</p>"
  == some "This is **markdown _markup_**!"

-- test_cross_compare_markdown.py:119
#guard run .markdown .transparent false
  "<p>Use the <code>print()</code> function.</p>"
  == some "Use the `print()` function."

-- test_cross_compare_markdown.py:124
#guard run .markdown .transparent false
  "<p>backtick in: <code>print(\"`\")</code> function.</p>"
  == some "backtick in: ``print(\"`\")`` function."

-- test_cross_compare_rest.py:21
#guard run .rest .transparent false
  "<p>less-than sign: &lt;</p>\n<p>greater-than sign: &gt;</p>"
  == some "less-than sign: <\n\ngreater-than sign: >"

-- test_cross_compare_rest.py:35
#guard run .rest .transparent false
  "<ul>\n<li>item 1</li>\n<li>item 2</li>\n<li>item 3</li>\n</ul>"
  == some "* item 1\n\n* item 2\n\n* item 3"

-- test_cross_compare_rest.py:54
#guard run .rest .transparent false
  "<ol>\n<li><p>item 1</p>\n</li>\n<li><p>item 2</p>\n<ol>\n<li>item 2.1</li>\n<li>a <a href=\"/url/\">link in</a> list item 2.2</li>\n</ol>\n</li>\n<li><p>item 3</p>\n</li>\n</ol>"
  == some "#. item 1\n\n#. item 2\n\n    #. item 2.1\n\n    #. a `link in </url/>`_ list item 2.2\n\n#. item 3"

-- test_cross_compare_rest.py:84
#guard run .rest .transparent false
  "<p>A nested bullet lists:</p>\n<ul>\n<li><p>item 1</p>\n<ul>\n<li><p>A <strong>bold subitem 1.1</strong> here.</p>\n<ul>\n<li>subsubitem 1.1.1</li>\n<li>subsubitem 1.1.2 with inline <img alt=\"substitution text\" src=\"/url/to/image.png\" /> image.</li>\n</ul>\n</li>\n<li><p>subitem 1.2</p>\n</li>\n</ul>\n</li>\n<li><p>item 2</p>\n<ul>\n<li>subitem 2.1</li>\n<li><em>bold 2.2</em></li>\n</ul>\n</li>\n</ul>\n<p>Text under list.</p>"
  == some "A nested bullet lists:\n\n* item 1\n\n    * A **bold subitem 1.1** here.\n\n        * subsubitem 1.1.1\n\n        * subsubitem 1.1.2 with inline |substitution text| image.\n\n    * subitem 1.2\n\n* item 2\n\n    * subitem 2.1\n\n    * *bold 2.2*\n\n.. |substitution text| image:: /url/to/image.png\n\nText under list."

-- test_cross_compare_rest.py:139
#guard run .rest .transparent false
  "<p><em>emphasis</em> <strong>strong</strong></p>"
  == some "*emphasis* **strong**"

-- test_cross_compare_rest.py:149
#guard run .rest .transparent false
  "<p>A inline <img alt=\"substitution text\" src=\"/url/to/image.png\" /> image.</p>\n<p>...and some text below.</p>"
  == some "A inline |substitution text| image.\n\n.. |substitution text| image:: /url/to/image.png\n\n...and some text below."

-- test_cross_compare_rest.py:164
#guard run .rest .transparent false
  "<p>before table.</p>\n<table>\n<colgroup>\n<col width=\"100%\" />\n</colgroup>\n<tr><td>table item</td>\n</tr>\n</table>\n<p>After table.</p>"
  == some "before table.\n\n+------------+\n| table item |\n+------------+\n\nAfter table."

-- test_cross_compare_rest.py:188
#guard run .rest .transparent false
  "<table>\n<colgroup>\n<col width=\"100%\" />\n</colgroup>\n<tr><td><a href=\"foo/bar\">table item</a></td>\n</tr>\n</table>"
  == some "+---------------+\n| `table item`_ |\n+---------------+\n\n.. _table item: foo/bar"

-- test_cross_compare_rest.py:208
#guard run .rest .transparent false
  "<table>\n<colgroup>\n<col width=\"100%\" />\n</colgroup>\n<tr><td>foo <a href=\"foo/bar\">table item</a> bar</td>\n</tr>\n</table>"
  == some "+-----------------------+\n| foo `table item`_ bar |\n+-----------------------+\n\n.. _table item: foo/bar"

-- test_cross_compare_rest.py:228
#guard run .rest .transparent false
  "<table>\n<colgroup>\n<col width=\"100%\" />\n</colgroup>\n<tr><td><ul>\n<li>foo <a href=\"foo/bar/1/\">table item 1</a> bar 1</li>\n</ul>\n</td>\n</tr>\n<tr><td><ul>\n<li>foo <a href=\"foo/bar/2/\">table item 2</a> bar 2</li>\n</ul>\n</td>\n</tr>\n</table>"
  == some "+-----------------------------+\n| * foo `table item 1`_ bar 1 |\n+-----------------------------+\n| * foo `table item 2`_ bar 2 |\n+-----------------------------+\n\n.. _table item 1: foo/bar/1/\n.. _table item 2: foo/bar/2/"

-- test_cross_compare_rest.py:259
#guard run .rest .transparent false
  "<table>\n<colgroup>\n<col width=\"100%\" />\n</colgroup>\n<tr><td><a href=\"foo/bar/1/\">table item 1</a></td>\n</tr>\n<tr><td><a href=\"foo/bar/2/\">table item 2</a></td>\n</tr>\n</table>\n<p>Text after table.</p>"
  == some "+-----------------+\n| `table item 1`_ |\n+-----------------+\n| `table item 2`_ |\n+-----------------+\n\n.. _table item 1: foo/bar/1/\n.. _table item 2: foo/bar/2/\n\nText after table."

-- test_cross_compare_rest.py:288
#guard run .rest .transparent false
  "<table>\n<colgroup>\n<col width=\"100%\" />\n</colgroup>\n<tr><td>this is <a href=\"foo/bar/\">foo bar</a> first time.</td>\n</tr>\n<tr><td>and here <a href=\"foo/bar/\">foo bar</a> again.</td>\n</tr>\n</table>\n<p>Text after table.</p>"
  == some "+--------------------------------+\n| this is `foo bar`_ first time. |\n+--------------------------------+\n| and here `foo bar`_ again.     |\n+--------------------------------+\n\n.. _foo bar: foo/bar/\n\nText after table."

-- test_cross_compare_rest.py:316
#guard run .rest .transparent false
  "<table>\n<colgroup>\n<col width=\"100%\" />\n</colgroup>\n<tr><td>this is <a href=\"foo/bar/\">foo bar</a> first time.</td>\n</tr>\n</table>\n<p>and here <a href=\"foo/bar/\">foo bar</a> again, after table.</p>"
  == some "+--------------------------------+\n| this is `foo bar`_ first time. |\n+--------------------------------+\n\n.. _foo bar: foo/bar/\n\nand here `foo bar`_ again, after table."

-- test_cross_compare_rest.py:340
#guard run .rest .transparent false
  "<table>\n<colgroup>\n<col width=\"100%\" />\n</colgroup>\n<tr><td>first <img alt=\"image\" src=\"/picture.png\" /> here</td>\n</tr>\n<tr><td>second <img alt=\"image\" src=\"/picture.png\" /> there</td>\n</tr>\n</table>"
  == some "+----------------------+\n| first |image| here   |\n+----------------------+\n| second |image| there |\n+----------------------+\n\n.. |image| image:: /picture.png"

-- test_cross_compare_rest.py:365
#guard run .rest .transparent false
  "<table>\n<colgroup>\n<col width=\"100%\" />\n</colgroup>\n<tr><td>a <img alt=\"same\" src=\"/image.png\" /> image here</td>\n</tr>\n<tr><td>a <a href=\"/url/foo/\">same</a> link there</td>\n</tr>\n</table>\n<p>again: the <img alt=\"same\" src=\"/image.png\" /> image and <a href=\"/url/foo/\">same</a> link!</p>"
  == some "+----------------------+\n| a |same| image here  |\n+----------------------+\n| a `same`_ link there |\n+----------------------+\n\n.. |same| image:: /image.png\n.. _same: /url/foo/\n\nagain: the |same| image and `same`_ link!"

-- test_cross_compare_textile.py:24
#guard run .textile .transparent false
  "<p><em>emphasis</em><br />\n\n<strong>strong</strong><br />\n\n<i>italic</i><br />\n\n<b>bold</b><br />\n\n<cite>citation</cite><br />\n\n<del>deleted text</del><br />\n\n<ins>inserted text</ins><br />\n\n<sup>superscript</sup><br />\n\n<sub>subscript</sub><br />\n\n<span>span</span><br />\n\n<code>code</code></p>"
  == some "_emphasis_\n*strong*\n__italic__\n**bold**\n??citation??\n-deleted text-\n+inserted text+\n^superscript^\n~subscript~\n%span%\n@code@"

-- test_cross_compare_textile.py:64
#guard run .textile .transparent false
  "<pre>\n&lt;html escaped&gt;\n</pre>"
  == some "<pre>\n<html escaped>\n</pre>"

-- test_html2creole.py:43
#guard run .creole .transparent false
  "<p><b>Bold text</b><br />\n<big>Big text</big><br />\n<em>em tag</em><br />\n<i>italic</i></p>"
  == some "**Bold text**\n**Big text**\n//em tag//\n//italic//"

-- test_html2creole.py:73
#guard run .creole .htmlMacro false
  "<p>111 <unknown>foo</unknown> 222<br />\n333<unknown foo1=\"bar1\" foo2=\"bar2\">foobar</unknown>444</p>\n\n<p>555<unknown />666</p>"
  == some "111 <<html>><unknown><</html>>foo<<html>></unknown><</html>> 222\n333<<html>><unknown foo1=\"bar1\" foo2=\"bar2\"><</html>>foobar<<html>></unknown><</html>>444\n\n555<<html>><unknown /><</html>>666"

-- test_html2creole.py:92
#guard run .creole .escape false
  "<p>111 <unknown>foo</unknown> 222<br />\n333<unknown foo1=\"bar1\" foo2=\"bar2\">foobar</unknown>444</p>\n\n<p>555<unknown />666</p>"
  == some "111 &lt;unknown&gt;foo&lt;/unknown&gt; 222\n333&lt;unknown foo1=\"bar1\" foo2=\"bar2\"&gt;foobar&lt;/unknown&gt;444\n\n555&lt;unknown /&gt;666"

-- test_html2creole.py:111
#guard run .creole .escape false
  "<script>\nvar js_sha_link='<p>***</p>';\n</script>"
  == some "&lt;script&gt;var js_sha_link='<p>***</p>';&lt;/script&gt;"

-- test_html2creole.py:127
#guard run .creole .transparent false
  "<form class=\"foo\" id=\"bar\"><label><em>baz</em></label>, <strong>quux</strong></form>"
  == some "//baz//, **quux**"

-- test_html2creole.py:139
#guard run .creole .transparent false
  "<p>FOO <script>var a='<em>STRONG</em>';</script> BAR</p>"
  == some "FOO var a='<em>STRONG</em>'; BAR"

-- test_html2creole.py:150
#guard run .creole .transparent false
  "<div><em>baz</em>,</div> <fieldset><strong>quux</strong></fieldset>\n<span>spam, </span><label>ham, </label>and eggs"
  == some "//baz//,\n\n**quux**\n\nspam, ham, and eggs"

-- test_html2creole.py:173
#guard run .creole .transparent false
  "<ul>\n<li>less-than sign: &lt; &#60; &#x3C;</li>\n<li>greater-than sign: &gt; &#62; &#x3E;</li>\n<li>copyright sign: &#169; &#xA9;</li>\n<li>box drawing: &#9580; &#x256C;</li>\n<li>german umlauts: &auml; &ouml; &uuml;</li>\n</ul>"
  == some "* less-than sign: < < <\n* greater-than sign: > > >\n* copyright sign: © ©\n* box drawing: ╬ ╬\n* german umlauts: ä ö ü"

-- test_html2creole.py:191
#guard run .creole .transparent false
  "<p>a non braking space: [&nbsp;] !</p>"
  == some "a non braking space: [ ] !"

-- test_html2creole.py:198
#guard run .creole .transparent false
  "<pre><code>&#x7B;% lucidTag RSS url=\"http url\" %&#x7D;</code></pre>"
  == some "{{{<code>{% lucidTag RSS url=\"http url\" %}</code>}}}"

-- test_html2creole.py:209
#guard run .creole .transparent false
  "<p>copy&paste</p>"
  == some "copy&paste"

-- test_html2creole.py:214
#guard run .creole .transparent false
  "<a href=\"/url/\">Search & Destroy</a>"
  == some "[[/url/|Search & Destroy]]"

-- test_html2creole.py:221
#guard run .creole .transparent false
  "<p>Ignore 'tbody' tag in tables:</p>\n<table>\n<tbody>\n<tr>\n    <th>Headline 1</th>\n    <th>Headline 2</th>\n</tr>\n<tr>\n    <td>cell one</td>\n    <td>cell two</td>\n</tr>\n</tbody>\n</table>\n<p>end</p>"
  == some "Ignore 'tbody' tag in tables:\n\n|= Headline 1 |= Headline 2 |\n| cell one    | cell two    |\nend"

-- test_html2creole.py:246
#guard run .creole .transparent false
  "<table>\n<tr>\n    <td><p>cell one</p></td>\n    <td><p>cell two</p><p>new line</p><p></p></td>\n</tr>\n</table>"
  == some "| cell one | cell two\\\\new line |"

-- test_html2creole.py:259
#guard run .creole .transparent false
  "<p><img src=\"foobar1.jpg\" /><br />\n<img src=\"/foobar2.jpg\" /><br />\n<img src=\"/path1/path2/foobar3.jpg\" /><br />\n<img src=\"/foobar4.jpg\" alt=\"It's foobar 4\" /><br />\n<img src=\"/foobar5.jpg\" title=\"It's foobar 5\" /><br />\n<img src=\"/foobar6.jpg\" alt=\"short name\" title=\"a long picture title\" /><br />\n<img src=\"data:image/png;base64,iVBORw0KGgoAAAANSUhEUgAAAAUA\nAAAFCAYAAACNbyblAAAAHElEQVQI12P4//8/w38GIAXDIBKE0DHxgljNBAAO\n9TXL0Y4OHwAAAABJRU5ErkJggg==\" alt=\"data uri should be disallowed\" /></p>"
  == some "{{foobar1.jpg|foobar1.jpg}}\n{{/foobar2.jpg|foobar2.jpg}}\n{{/path1/path2/foobar3.jpg|foobar3.jpg}}\n{{/foobar4.jpg|It's foobar 4}}\n{{/foobar5.jpg|It's foobar 5}}\n{{/foobar6.jpg|a long picture title}}"

-- test_html2creole.py:280
#guard run .creole .transparent false
  "<p><img src=\"foobar1.jpg\" /><br />\n<img src=\"foobar2.jpg\" width=\"160\" height=\"90\" /><br />\n<img src=\"foobar3.jpg\" width=\"160\" /></p>"
  == some "{{foobar1.jpg|foobar1.jpg}}\n{{foobar2.jpg|foobar2.jpg|90x160}}\n{{foobar3.jpg|foobar3.jpg}}"

-- test_html2creole.py:292
#guard run .creole .transparent true
  "<p><img src=\"foobar1.jpg\" /><br />\n<img src=\"foobar2.jpg\" width=\"160\" height=\"90\" /><br />\n<img src=\"foobar3.jpg\" width=\"160\" /></p>"
  == some "{{foobar1.jpg|foobar1.jpg}}\n{{foobar2.jpg|foobar2.jpg}}\n{{foobar3.jpg|foobar3.jpg}}"

-- test_html2creole.py:303
#guard run .creole .transparent false
  "<p>one<br>\ntwo</p>"
  == some "one\ntwo"

-- test_html2creole.py:312
#guard run .creole .transparent false
  "<p>one<br></br>\ntwo</p>"
  == some "one\ntwo"

-- test_html2creole.py:324
#guard run .creole .transparent false
  "<b>foo</b><ul><li>one</li></ul>"
  == some "**foo**\n\n* one"

-- test_html2creole.py:333
#guard run .creole .transparent false
  "<div class=\"foo\" id=\"bar\"><span><em>baz</em></span>, <strong>quux</strong></div>"
  == some "//baz//, **quux**"

-- test_html2creole.py:340
#guard run .creole .transparent false
  "<ul>\n    <li><p>item 1</p>\n        <ul>\n            <li><p>subitem 1.1</p>\n                <ul>\n                    <li>subsubitem 1.1.1</li>\n                    <li>subsubitem 1.1.2</li>\n                </ul>\n            </li>\n                <li><p>subitem 1.2</p></li>\n        </ul>\n    </li>\n    <li><p>item 2</p>\n        <ul>\n            <li>subitem 2.1</li>\n        </ul>\n    </li>\n</ul>"
  == some "* item 1\n** subitem 1.1\n*** subsubitem 1.1.1\n*** subsubitem 1.1.2\n** subitem 1.2\n* item 2\n** subitem 2.1"

-- test_html2creole.py:371
#guard run .creole .transparent false
  "<ol class=gbtc><li>foo</li></ol>"
  == some "# foo"

-- test_html2creole.py:379
#guard run .creole .transparent false
  "<a class=\"foo\">bar</a>"
  == some "bar"

-- test_html2creole.py:386
#guard run .creole .transparent false
  "<h1>Headline news</h1>\n\n<p><a href=\"http://google.com\">The googlezor</a> is a big bad mother.</p>"
  == some "= Headline news\n\n[[http://google.com|The googlezor]] is a big bad mother."

-- test_html2creole.py:397
#guard run .creole .transparent false
  "<p>test link: '<a href=\"internal links\">link A</a>' 1 and<br />\ntest link: '<a href=\"http://domain.tld\">link B</a>' 2.</p>"
  == some "test link: '[[internal links|link A]]' 1 and\ntest link: '[[http://domain.tld|link B]]' 2."

-- test_html2creole.py:406
#guard run .creole .transparent false
  "<p>one</p>\n<hr />\n<p>two</p>"
  == some "one\n\n----\n\ntwo"

-- test_html2creole.py:419
#guard run .creole .transparent false
  "<p>TEST</p>"
  == some "TEST"

-- test_html2creole.py:420
#guard run .creole .transparent false
  "<bar><p>TEST</p></bar>"
  == some "TEST"

-- test_html2creole.py:421
#guard run .creole .transparent false
  "<foo><bar><p>TEST</p></bar></foo>"
  == some "TEST"

-- test_html2markdown.py:35
#guard run .markdown .transparent false
  "<p>This is <del>Strikethrough</del></p>"
  == some "This is ~~Strikethrough~~"

-- test_html2markdown.py:40
#guard run .markdown .transparent false
  "<p>This is <sub>Subscript</sub></p>"
  == some "This is <sub>Subscript</sub>"

-- test_html2markdown.py:45
#guard run .markdown .transparent false
  "<p>This is <sup>Superscript</sup></p>"
  == some "This is <sup>Superscript</sup>"

-- test_html2markdown.py:50
#guard run .markdown .transparent false
  "<p><strong>This text is <em>extremely</em> important</strong></p>"
  == some "**This text is _extremely_ important**"

-- test_html2rest.py:25
#guard run .rest .transparent false
  "<p>first block, line 1\nand line 2</p>\n<p>second block, line 1\nand line 2</p>"
  == some "first block, line 1 and line 2\n\nsecond block, line 1 and line 2"

-- test_html2rest.py:41
#guard run .rest .transparent false
  "<p>A inline <img src=\"/url/to/image.png\" /> image.</p>\n<p>...and some text below.</p>"
  == some "A inline |image.png| image.\n\n.. |image.png| image:: /url/to/image.png\n\n...and some text below."

-- test_html2rest.py:56
#guard run .rest .transparent false
  "<p>A inline <img title=\"foo bar\" src=\"/url/to/image.png\" /> image.</p>\n<p>...and some text below.</p>"
  == some "A inline |foo bar| image.\n\n.. |foo bar| image:: /url/to/image.png\n\n...and some text below."

-- test_html2rest.py:71
#guard run .rest .transparent false
  "<img src=\"/url/to/image.png\" />"
  == some "|image.png|\n\n.. |image.png| image:: /url/to/image.png"

-- test_html2rest.py:83
#guard run .rest .transparent false
  "<p>Text line</p>\n<pre>\n&gt;&gt;&gt; from creole import creole2html\n&gt;&gt;&gt; creole2html(&quot;This is **creole //markup//**&quot;)\n'&lt;p&gt;This is &lt;strong&gt;creole &lt;i&gt;markup&lt;/i&gt;&lt;/strong&gt;&lt;/p&gt;'\n</pre>"
  == some "Text line\n\n::\n\n    >>> from creole import creole2html\n    >>> creole2html(\"This is **creole //markup//**\")\n    '<p>This is <strong>creole <i>markup</i></strong></p>'"

-- test_html2rest.py:104
#guard run .rest .transparent false
  "<ul>\n<li>Use &lt;tt&gt; when {{{ ... }}} is inline and not &lt;pre&gt;, or not?</li>\n</ul>"
  == some "* Use <tt> when {{{ ... }}} is inline and not <pre>, or not?"

-- test_html2rest.py:116
#guard run .rest .transparent false
  "<ul>\n<p>This text is an example of <tt>inline literals</tt>.</p>\n</ul>"
  == some "This text is an example of ``inline literals``."

-- test_html2rest.py:128
#guard run .rest .transparent false
  "<p>A nested bullet lists:</p>\n<ul>\n    <li>item 1 without p-tag\n        <ul>\n            <li>A <strong><a href=\"/1.1/url/\">subitem 1.1</a> link</strong> here.\n                <ul>\n                    <li>subsubitem 1.1.1</li>\n                    <li>subsubitem 1.1.2</li>\n                </ul>\n            </li>\n            <li>subitem 1.2</li>\n        </ul>\n    </li>\n    <li>item 2 without p-tag\n        <ul>\n            <li>subitem 2.1</li>\n        </ul>\n    </li>\n</ul>\n<p>Text under list.</p>"
  == some "A nested bullet lists:\n\n* item 1 without p-tag\n\n    * A **`subitem 1.1 </1.1/url/>`_ link** here.\n\n        * subsubitem 1.1.1\n\n        * subsubitem 1.1.2\n\n    * subitem 1.2\n\n* item 2 without p-tag\n\n    * subitem 2.1\n\nText under list."

-- test_html2rest.py:173
#guard run .rest .transparent false
  "<table>\n<tr><th>head 1</th><th>head 2</th>\n</tr>\n<tr><td>item 1</td><td>item 2</td>\n</tr>\n</table>"
  == some "+--------+--------+\n| head 1 | head 2 |\n+========+========+\n| item 1 | item 2 |\n+--------+--------+"

-- test_html2rest.py:192
#guard run .rest .transparent false
  "<table>\n<tr><td>item 1</td><td>item 2</td>\n</tr>\n<tr><td>item 3</td><td>item 4</td>\n</tr>\n</table>"
  == some "+--------+--------+\n| item 1 | item 2 |\n+--------+--------+\n| item 3 | item 4 |\n+--------+--------+"

-- test_html2textile.py:25
#guard run .textile .transparent false
  "<p>less-than sign: &lt;<br />\ngreater-than sign: &gt;</p>"
  == some "less-than sign: <\ngreater-than sign: >"

-- test_html2textile.py:41
#guard run .textile .preformat false
  "<p>111 <x>foo</x> 222<br />\n333<x foo1=\"bar1\">foobar</x>444</p>\n\n<p>555<x />666</p>"
  == some "111 <<pre>><x><</pre>>foo<<pre>></x><</pre>> 222\n333<<pre>><x foo1=\"bar1\"><</pre>>foobar<<pre>></x><</pre>>444\n\n555<<pre>><x /><</pre>>666"

-- test_html2textile.py:64
#guard run .textile .transparent false
  "<p>111 <x>foo</x> 222<br />\n333<x foo1=\"bar1\">foobar</x>444</p>\n\n<p>555<x />666</p>"
  == some "111 foo 222\n333foobar444\n\n555666"

end Verif.Emit.Tests
