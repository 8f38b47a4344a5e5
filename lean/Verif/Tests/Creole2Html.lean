import Verif.Creole.ExampleMacros

/-!
# The expectations of the project's tests, evaluated on the model

Generated from the literal arguments of `assert_creole2html`, `cross_compare_creole` and `cross_compare` in
`/repo/creole/tests/`.  The comparison is the one of `tests/utils/base_unittest.py` 79-125.  These are tests of
the model, not proofs.
-/

namespace Verif.Creole.Tests

open Verif Py Creole

/-- `tests/test_macros.py` -/
def testMacros : Macros := [
  (c!"unittest_macro1", .fn fun kw => .ret (c!"[test macro1 - kwargs: " ++
    join c!"," ((sortKeys kw).map fun (k, v) => k ++ '=' :: jsonVal v) ++ c!"]")),
  (c!"unittest_macro2", .fn fun kw =>
    match dictGet c!"char" kw, dictGet c!"text" kw with
    | some (.str ch), some (.str t) =>
      .ret (join ch (((splitChar ' ' (t.map fun c => if isSpace c then ' ' else c))).filter (· ≠ [])))
    | _, _ => .typeError [])]

def stripLines (s : Str) : Str :=
  join c!"\n" (((splitChar '\n' s).filter (· ≠ [])).map (stripP fun c => c == ' ' || c == '\t'))

def run (o : Opts) (ms : Macros) (strip : Bool) (src : String) : Option String :=
  match creole2htmlM o ms src.toList with
  | .ok (s, _) => some (String.ofList (if strip then stripLines s else replace c!"\t" c!"    " s))
  | .error _ => none

def want (strip : Bool) (s : String) : Option String :=
  some (if strip then String.ofList (stripLines s.toList) else s)

-- test_creole2html.py:207
#guard run {  } exampleMacros false
  "Here a simple code macro test:\n<<code ext=\".py\">>\nfor i in xrange(10):\n    print('hello world')\n<</code>>"
  == want false "<p>Here a simple code macro test:</p>\n<pre>for i in xrange(10):\n    print('hello world')</pre>"

-- test_creole2html.py:226
#guard run {  } exampleMacros false
  "<<code ext=\".py\">>\nprint('This >>should<< be escaped!')\n<</code>>"
  == want false "<pre>print('This &gt;&gt;should&lt;&lt; be escaped!')</pre>"

-- test_creole2html.py:258
#guard run {  } [] false
  "Force\\\\linebreak"
  == want false "<p>Force<br />\nlinebreak</p>"

-- test_creole2html.py:266
#guard run {  } [] false
  "This is a normal Text block witch would\nescape html chars like < and > ;)\n\nSo you can't insert <html> directly.\n\n<p>This escaped, too.</p>"
  == want false "<p>This is a normal Text block witch would<br />\nescape html chars like &lt; and &gt; ;)</p>\n\n<p>So you can't insert &lt;html&gt; directly.</p>\n\n<p>&lt;p&gt;This escaped, too.&lt;/p&gt;</p>"

-- test_creole2html.py:283
#guard run {  } [] false
  "~#1\nhttp://domain.tld/~bar/\n~http://domain.tld/\n[[Link]]\n~[[Link]]"
  == want false "<p>#1<br />\n<a href=\"http://domain.tld/~bar/\">http://domain.tld/~bar/</a><br />\nhttp://domain.tld/<br />\n<a href=\"Link\">Link</a><br />\n[[Link]]</p>"

-- test_creole2html.py:298
#guard run {  } [] false
  "Bold and italics should //not be...\n\n...able// to **cross\n\nparagraphs.**"
  == want false "<p>Bold and italics should //not be...</p>\n\n<p>...able// to **cross</p>\n\n<p>paragraphs.**</p>"

-- test_creole2html.py:316
#guard run {  } [] false
  "* Item 1\n** Item 1.1\n ** Item 1.2\n    ** Item 1.3\n        * Item2\n\n    # one\n  ## two"
  == want false "<ul>\n    <li>Item 1\n    <ul>\n        <li>Item 1.1</li>\n        <li>Item 1.2</li>\n        <li>Item 1.3</li>\n    </ul></li>\n    <li>Item2</li>\n</ul>\n<ol>\n    <li>one\n    <ol>\n        <li>two</li>\n    </ol></li>\n</ol>"

-- test_creole2html.py:347
#guard run {  } testMacros false
  "There exist three different macro types:\nA <<unittest_macro1 args=\"foo1\">>bar1<</unittest_macro1>> in a line...\n...a single <<unittest_macro1 foo=\"bar\">> tag,\nor: <<unittest_macro1 a=1 b=2 />> closed...\n\na macro block:\n<<unittest_macro2 char=\"|\">>\nthe\ntext\n<</unittest_macro2>>\nthe end"
  == want false "<p>There exist three different macro types:<br />\nA [test macro1 - kwargs: args=\"foo1\",text=\"bar1\"] in a line...<br />\n...a single [test macro1 - kwargs: foo=\"bar\",text=null] tag,<br />\nor: [test macro1 - kwargs: a=1,b=2,text=null] closed...</p>\n\n<p>a macro block:</p>\nthe|text\n<p>the end</p>"

-- test_creole2html.py:373
#guard run {  } exampleMacros false
  "html macro:\n<<html>>\n<p><<this is broken 'html', but it will be pass throu>></p>\n<</html>>\n\ninline: <<html>>&#x7B;...&#x7D;<</html>> code"
  == want false "<p>html macro:</p>\n<p><<this is broken 'html', but it will be pass throu>></p>\n\n<p>inline: &#x7B;...&#x7D; code</p>"

-- test_creole2html.py:421
#guard run {  } [] false
  "wrong macro line:\n<<summary>Some funky page summary.<</summary>>"
  == want false "<p>wrong macro line:<br />\n[Error: Wrong macro arguments: \">Some funky page summary.<</summary\" for macro 'summary' (maybe wrong macro tag syntax?)]\n</p>"

-- test_creole2html.py:437
#guard run { verbose := 0 } [] false
  "macro block:\n<<notexists>>\nfoo bar\n<</notexists>>\n\ninline macro:\n<<notexisttoo foo=\"bar\">>"
  == want false "<p>macro block:</p>\n\n<p>inline macro:<br />\n</p>"

-- test_creole2html.py:457
#guard run {  } [] false
  "<<toc>>\n= Headline"
  == want false "<ul>\n    <li><a href=\"#Headline\">Headline</a></li>\n</ul>\n<a name=\"Headline\"><h1>Headline</h1></a>"

-- test_creole2html.py:468
#guard run {  } [] false
  "Between text and toc must be a newline.\n\n<<toc>>\n= Headline 1\n== Sub-Headline 1.1\n== Sub-Headline 1.2\n= Headline 2\n== Sub-Headline 2.1\n== Sub-Headline 2.2"
  == want false "<p>Between text and toc must be a newline.</p>\n\n<ul>\n    <li><a href=\"#Headline 1\">Headline 1</a></li>\n    <ul>\n        <li><a href=\"#Sub-Headline 1.1\">Sub-Headline 1.1</a></li>\n        <li><a href=\"#Sub-Headline 1.2\">Sub-Headline 1.2</a></li>\n    </ul>\n    <li><a href=\"#Headline 2\">Headline 2</a></li>\n    <ul>\n        <li><a href=\"#Sub-Headline 2.1\">Sub-Headline 2.1</a></li>\n        <li><a href=\"#Sub-Headline 2.2\">Sub-Headline 2.2</a></li>\n    </ul>\n</ul>\n<a name=\"Headline 1\"><h1>Headline 1</h1></a>\n<a name=\"Sub-Headline 1.1\"><h2>Sub-Headline 1.1</h2></a>\n<a name=\"Sub-Headline 1.2\"><h2>Sub-Headline 1.2</h2></a>\n<a name=\"Headline 2\"><h1>Headline 2</h1></a>\n<a name=\"Sub-Headline 2.1\"><h2>Sub-Headline 2.1</h2></a>\n<a name=\"Sub-Headline 2.2\"><h2>Sub-Headline 2.2</h2></a>"

-- test_creole2html.py:502
#guard run {  } [] false
  "<<toc>>\n= level 1\n=== level 3\n== level 2\n==== level 4\n= level 1"
  == want false "<ul>\n    <li><a href=\"#level 1\">level 1</a></li>\n    <ul>\n        <ul>\n            <li><a href=\"#level 3\">level 3</a></li>\n        </ul>\n        <li><a href=\"#level 2\">level 2</a></li>\n        <ul>\n            <ul>\n                <li><a href=\"#level 4\">level 4</a></li>\n            </ul>\n        </ul>\n    </ul>\n    <li><a href=\"#level 1\">level 1</a></li>\n</ul>\n<a name=\"level 1\"><h1>level 1</h1></a>\n<a name=\"level 3\"><h3>level 3</h3></a>\n<a name=\"level 2\"><h2>level 2</h2></a>\n<a name=\"level 4\"><h4>level 4</h4></a>\n<a name=\"level 1\"><h1>level 1</h1></a>"

-- test_creole2html.py:533
#guard run {  } [] false
  "<<toc depth=1>>\n= Headline 1\n== Sub-Headline 1.1\n=== Sub-Sub-Headline 1.1.1\n=== Sub-Sub-Headline 1.1.2\n== Sub-Headline 1.2\n= Headline 2\n== Sub-Headline 2.1\n== Sub-Headline 2.2\n=== Sub-Sub-Headline 2.2.1"
  == want false "<ul>\n    <li><a href=\"#Headline 1\">Headline 1</a></li>\n    <li><a href=\"#Headline 2\">Headline 2</a></li>\n</ul>\n<a name=\"Headline 1\"><h1>Headline 1</h1></a>\n<a name=\"Sub-Headline 1.1\"><h2>Sub-Headline 1.1</h2></a>\n<a name=\"Sub-Sub-Headline 1.1.1\"><h3>Sub-Sub-Headline 1.1.1</h3></a>\n<a name=\"Sub-Sub-Headline 1.1.2\"><h3>Sub-Sub-Headline 1.1.2</h3></a>\n<a name=\"Sub-Headline 1.2\"><h2>Sub-Headline 1.2</h2></a>\n<a name=\"Headline 2\"><h1>Headline 2</h1></a>\n<a name=\"Sub-Headline 2.1\"><h2>Sub-Headline 2.1</h2></a>\n<a name=\"Sub-Headline 2.2\"><h2>Sub-Headline 2.2</h2></a>\n<a name=\"Sub-Sub-Headline 2.2.1\"><h3>Sub-Sub-Headline 2.2.1</h3></a>"

-- test_creole2html.py:561
#guard run {  } [] false
  "<<toc depth=2>>\n= Headline 1\n== Sub-Headline 1.1\n=== Sub-Sub-Headline 1.1.1\n=== Sub-Sub-Headline 1.1.2\n== Sub-Headline 1.2\n= Headline 2\n== Sub-Headline 2.1\n== Sub-Headline 2.2\n=== Sub-Sub-Headline 2.2.1"
  == want false "<ul>\n    <li><a href=\"#Headline 1\">Headline 1</a></li>\n    <ul>\n        <li><a href=\"#Sub-Headline 1.1\">Sub-Headline 1.1</a></li>\n        <li><a href=\"#Sub-Headline 1.2\">Sub-Headline 1.2</a></li>\n    </ul>\n    <li><a href=\"#Headline 2\">Headline 2</a></li>\n    <ul>\n        <li><a href=\"#Sub-Headline 2.1\">Sub-Headline 2.1</a></li>\n        <li><a href=\"#Sub-Headline 2.2\">Sub-Headline 2.2</a></li>\n    </ul>\n</ul>\n<a name=\"Headline 1\"><h1>Headline 1</h1></a>\n<a name=\"Sub-Headline 1.1\"><h2>Sub-Headline 1.1</h2></a>\n<a name=\"Sub-Sub-Headline 1.1.1\"><h3>Sub-Sub-Headline 1.1.1</h3></a>\n<a name=\"Sub-Sub-Headline 1.1.2\"><h3>Sub-Sub-Headline 1.1.2</h3></a>\n<a name=\"Sub-Headline 1.2\"><h2>Sub-Headline 1.2</h2></a>\n<a name=\"Headline 2\"><h1>Headline 2</h1></a>\n<a name=\"Sub-Headline 2.1\"><h2>Sub-Headline 2.1</h2></a>\n<a name=\"Sub-Headline 2.2\"><h2>Sub-Headline 2.2</h2></a>\n<a name=\"Sub-Sub-Headline 2.2.1\"><h3>Sub-Sub-Headline 2.2.1</h3></a>"

-- test_creole2html.py:597
#guard run {  } [] false
  "<<toc depth=3>>\n= Headline 1\n== Sub-Headline 1.1\n=== Sub-Sub-Headline 1.1.1\n=== Sub-Sub-Headline 1.1.2\n== Sub-Headline 1.2\n= Headline 2\n== Sub-Headline 2.1\n== Sub-Headline 2.2\n=== Sub-Sub-Headline 2.2.1"
  == want false "<ul>\n    <li><a href=\"#Headline 1\">Headline 1</a></li>\n    <ul>\n        <li><a href=\"#Sub-Headline 1.1\">Sub-Headline 1.1</a></li>\n        <ul>\n            <li><a href=\"#Sub-Sub-Headline 1.1.1\">Sub-Sub-Headline 1.1.1</a></li>\n            <li><a href=\"#Sub-Sub-Headline 1.1.2\">Sub-Sub-Headline 1.1.2</a></li>\n        </ul>\n        <li><a href=\"#Sub-Headline 1.2\">Sub-Headline 1.2</a></li>\n    </ul>\n    <li><a href=\"#Headline 2\">Headline 2</a></li>\n    <ul>\n        <li><a href=\"#Sub-Headline 2.1\">Sub-Headline 2.1</a></li>\n        <li><a href=\"#Sub-Headline 2.2\">Sub-Headline 2.2</a></li>\n        <ul>\n            <li><a href=\"#Sub-Sub-Headline 2.2.1\">Sub-Sub-Headline 2.2.1</a></li>\n        </ul>\n    </ul>\n</ul>\n<a name=\"Headline 1\"><h1>Headline 1</h1></a>\n<a name=\"Sub-Headline 1.1\"><h2>Sub-Headline 1.1</h2></a>\n<a name=\"Sub-Sub-Headline 1.1.1\"><h3>Sub-Sub-Headline 1.1.1</h3></a>\n<a name=\"Sub-Sub-Headline 1.1.2\"><h3>Sub-Sub-Headline 1.1.2</h3></a>\n<a name=\"Sub-Headline 1.2\"><h2>Sub-Headline 1.2</h2></a>\n<a name=\"Headline 2\"><h1>Headline 2</h1></a>\n<a name=\"Sub-Headline 2.1\"><h2>Sub-Headline 2.1</h2></a>\n<a name=\"Sub-Headline 2.2\"><h2>Sub-Headline 2.2</h2></a>\n<a name=\"Sub-Sub-Headline 2.2.1\"><h3>Sub-Sub-Headline 2.2.1</h3></a>"

-- test_creole2html.py:640
#guard run {  } [] false
  "<<toc>>\n= This is the Headline\nUse {{{<<toc>>}}} to insert a table of contents."
  == want false "<ul>\n    <li><a href=\"#This is the Headline\">This is the Headline</a></li>\n</ul>\n<a name=\"This is the Headline\"><h1>This is the Headline</h1></a>\n<p>Use <code>&lt;&lt;toc&gt;&gt;</code> to insert a table of contents.</p>"

-- test_creole2html.py:656
#guard run {  } [] false
  "Not here:\n{{{\nprint(\"<<toc>>\")\n}}}\n\nand onle the first:\n\n<<toc>>\n\n<<toc>>\n<<toc>>\n= Headline\n== Sub-Headline"
  == want false "<p>Not here:</p>\n<pre>\nprint(\"&lt;&lt;toc&gt;&gt;\")\n</pre>\n\n<p>and onle the first:</p>\n\n<ul>\n    <li><a href=\"#Headline\">Headline</a></li>\n    <ul>\n        <li><a href=\"#Sub-Headline\">Sub-Headline</a></li>\n    </ul>\n</ul>\n\n<p>&lt;&lt;toc&gt;&gt;<br />\n&lt;&lt;toc&gt;&gt;</p>\n<a name=\"Headline\"><h1>Headline</h1></a>\n<a name=\"Sub-Headline\"><h2>Sub-Headline</h2></a>"

-- test_creole2html.py:692
#guard run {  } [] false
  "= headline\n== sub headline\n\n<<toc>>\n\nok?"
  == want false "<a name=\"headline\"><h1>headline</h1></a>\n<a name=\"sub headline\"><h2>sub headline</h2></a>\n\n<ul>\n    <li><a href=\"#headline\">headline</a></li>\n    <ul>\n        <li><a href=\"#sub headline\">sub headline</a></li>\n    </ul>\n</ul>\n\n<p>ok?</p>"

-- test_creole2html.py:715
#guard run {  } [] false
  "{{foobar1.jpg}}\n{{/path1/path2/foobar2.jpg}}\n{{/path1/path2/foobar3.jpg|foobar3.jpg}}"
  == want false "<p><img src=\"foobar1.jpg\" title=\"foobar1.jpg\" alt=\"foobar1.jpg\" /><br />\n<img src=\"/path1/path2/foobar2.jpg\" title=\"/path1/path2/foobar2.jpg\" alt=\"/path1/path2/foobar2.jpg\" /><br />\n<img src=\"/path1/path2/foobar3.jpg\" title=\"foobar3.jpg\" alt=\"foobar3.jpg\" /></p>"

-- test_creole2html.py:727
#guard run {  } [] false
  "{{/path1/path2/foobar3.jpg|foo|160x90}}\n{{/path1/path2/foobar3.jpg|foo| 160 x 90 }}\n{{/path1/path2/foobar3.jpg|foo|160}}\n{{/path1/path2/foobar3.jpg||160x90}}\n{{/path1/path2/foobar3.jpg|foo|}}"
  == want false "<p><img src=\"/path1/path2/foobar3.jpg\" title=\"foo\" alt=\"foo\" width=\"160\" height=\"90\" /><br />\n<img src=\"/path1/path2/foobar3.jpg\" title=\"foo\" alt=\"foo\" width=\"160\" height=\"90\" /><br />\n<img src=\"/path1/path2/foobar3.jpg\" title=\"foo|160\" alt=\"foo|160\" /><br />\n<img src=\"/path1/path2/foobar3.jpg\" title=\"/path1/path2/foobar3.jpg\" alt=\"/path1/path2/foobar3.jpg\" width=\"160\" height=\"90\" /><br />\n<img src=\"/path1/path2/foobar3.jpg\" title=\"foo|\" alt=\"foo|\" /></p>"

-- test_creole2html.py:743
#guard run { strict := true } [] false
  "{{/path1/path2/foobar3.jpg|foo|160x90}}\n{{/path1/path2/foobar3.jpg|foo|160}}"
  == want false "<p><img src=\"/path1/path2/foobar3.jpg\" title=\"foo|160x90\" alt=\"foo|160x90\" /><br />\n<img src=\"/path1/path2/foobar3.jpg\" title=\"foo|160\" alt=\"foo|160\" /></p>"

-- test_creole2html.py:752
#guard run {  } [] false
  "# {{/path/to/image.ext|image ext}} one\n# {{/no/extension|no extension}} two\n# {{/image.xyz}} tree"
  == want false "<ol>\n    <li><img src=\"/path/to/image.ext\" title=\"image ext\" alt=\"image ext\" /> one</li>\n    <li><img src=\"/no/extension\" title=\"no extension\" alt=\"no extension\" /> two</li>\n    <li><img src=\"/image.xyz\" title=\"/image.xyz\" alt=\"/image.xyz\" /> tree</li>\n</ol>"

-- test_creole2html.py:765
#guard run {  } [] false
  "[[/foobar/Creole_(Markup)]]\n[[http://de.wikipedia.org/wiki/Creole_(Markup)|Creole@wikipedia]]"
  == want false "<p><a href=\"/foobar/Creole_(Markup)\">/foobar/Creole_(Markup)</a><br />\n<a href=\"http://de.wikipedia.org/wiki/Creole_(Markup)\">Creole@wikipedia</a></p>"

-- test_creole2html.py:774
#guard run {  } [] false
  "a link to the http://www.pylucid.org page."
  == want false "<p>a link to the <a href=\"http://www.pylucid.org\">http://www.pylucid.org</a> page.</p>"

-- test_creole2html.py:861
#guard run {  } [] false
  "inline {{{<escaped>}}} and {{{ **not strong** }}}...\n...and ##**strong** Teletyper## ;)"
  == want false "<p>inline <code>&lt;escaped&gt;</code> and <code> **not strong** </code>...<br />\n...and <tt><strong>strong</strong> Teletyper</tt> ;)</p>"

-- test_creole2html.py:873
#guard run {  } [] false
  "My Server ([[ftp://foo/bar]]) is ok."
  == want false "<p>My Server (<a href=\"ftp://foo/bar\">ftp://foo/bar</a>) is ok.</p>"

-- test_creole2html.py:878
#guard run {  } [] false
  "My Server (ftp://foo/bar) is ok."
  == want false "<p>My Server (ftp://foo/bar) is ok.</p>"

-- test_creole2html.py:885
#guard run {  } [] false
  "A http://en.wikipedia.org/wiki/Uri_(Island) link."
  == want false "<p>A <a href=\"http://en.wikipedia.org/wiki/Uri_(Island)\">http://en.wikipedia.org/wiki/Uri_(Island)</a> link.</p>"

-- test_creole2html.py:892
#guard run {  } [] false
  "~ftp://ok"
  == want false "<p>ftp://ok</p>"

-- test_creole2html.py:897
#guard run {  } [] false
  "ftp:"
  == want false "<p>ftp:</p>"

-- test_creole2html.py:902
#guard run {  } [] false
  "ftp:/"
  == want false "<p>ftp:/</p>"

-- test_creole2html.py:907
#guard run {  } [] false
  "missing space.ftp://ok"
  == want false "<p>missing space.ftp://ok</p>"

-- test_cross_compare_all.py:31
#guard run {  } [] false
  "**bold** //italics//\n//italics and **bold**.//\n**bold and //italics//.**"
  == want false "<p><strong>bold</strong> <i>italics</i><br />\n<i>italics and <strong>bold</strong>.</i><br />\n<strong>bold and <i>italics</i>.</strong></p>"

-- test_cross_compare_all.py:68
#guard run {  } [] false
  "**//bold italics//**\n//**bold italics**//\n//This is **also** good.//"
  == want false "<p><strong><i>bold italics</i></strong><br />\n<i><strong>bold italics</strong></i><br />\n<i>This is <strong>also</strong> good.</i></p>"

-- test_cross_compare_all.py:96
#guard run {  } [] false
  "= Section Title 1\n\n== Section Title 2\n\n=== Section Title 3\n\n==== Section Title 4\n\n===== Section Title 5\n\n====== Section Title 6"
  == want false "<h1>Section Title 1</h1>\n\n<h2>Section Title 2</h2>\n\n<h3>Section Title 3</h3>\n\n<h4>Section Title 4</h4>\n\n<h5>Section Title 5</h5>\n\n<h6>Section Title 6</h6>"

-- test_cross_compare_all.py:198
#guard run {  } [] false
  "X [[http://domain.tld|link B]] test."
  == want false "<p>X <a href=\"http://domain.tld\">link B</a> test.</p>"

-- test_cross_compare_all.py:214
#guard run {  } [] false
  "[[http://www.pylucid.org]]"
  == want false "<p><a href=\"http://www.pylucid.org\">http://www.pylucid.org</a></p>"

-- test_cross_compare_all.py:230
#guard run {  } [] false
  "X [[foo://bar|unknown protocol]] Y"
  == want false "<p>X <a href=\"foo://bar\">unknown protocol</a> Y</p>"

-- test_cross_compare_all.py:247
#guard run {  } [] false
  "X [[http://de.wikipedia.org/wiki/Creole_(Markup)|Creole@wikipedia]]"
  == want false "<p>X <a href=\"http://de.wikipedia.org/wiki/Creole_(Markup)\">Creole@wikipedia</a></p>"

-- test_cross_compare_all.py:273
#guard run {  } [] false
  "a {{/image.jpg|JPG pictures}} and\na {{/image.jpeg|JPEG pictures}} and\na {{/image.gif|GIF pictures}} and\na {{/image.png|PNG pictures}} !\n{{/path1/path2/image|Image without files ext?}}"
  == want false "<p>a <img src=\"/image.jpg\" title=\"JPG pictures\" alt=\"JPG pictures\" /> and<br />\na <img src=\"/image.jpeg\" title=\"JPEG pictures\" alt=\"JPEG pictures\" /> and<br />\na <img src=\"/image.gif\" title=\"GIF pictures\" alt=\"GIF pictures\" /> and<br />\na <img src=\"/image.png\" title=\"PNG pictures\" alt=\"PNG pictures\" /> !<br />\n<img src=\"/path1/path2/image\" title=\"Image without files ext?\" alt=\"Image without files ext?\" /></p>"

-- test_cross_compare_all.py:342
#guard run {  } [] false
  "Linked [[http://example.com/|{{myimage.jpg|example site}} image]]"
  == want false "<p>Linked <a href=\"http://example.com/\"><img src=\"myimage.jpg\" title=\"example site\" alt=\"example site\" /> image</a></p>"

-- test_cross_compare_all.py:373
#guard run {  } [] false
  "{{{\n* no list\n}}}"
  == want false "<pre>\n* no list\n</pre>"

-- test_cross_compare_all.py:445
#guard run {  } [] false
  "{{{\n# Closing braces in nowiki:\nif (x != NULL) {\n  for (i = 0) {\n    if (x = 1) {\n      x[i]--;\n  }}}\n}}}"
  == want false "<pre>\n# Closing braces in nowiki:\nif (x != NULL) {\n  for (i = 0) {\n    if (x = 1) {\n      x[i]--;\n  }}}\n</pre>"

-- test_cross_compare_all.py:489
#guard run {  } [] true
  "* **bold** item\n* //italic// item\n\n# item about a [[/foo/bar|certain_page]]"
  == want true "<ul>\n  <li><strong>bold</strong> item</li>\n  <li><i>italic</i> item</li>\n</ul>\n<ol>\n  <li>item about a <a href=\"/foo/bar\">certain_page</a></li>\n</ol>"

-- test_cross_compare_all.py:515
#guard run {  } [] true
  "|= Headline 1 |= Headline 2 |\n| cell one    | cell two    |"
  == want true "<table>\n<tr>\n    <th>Headline 1</th>\n    <th>Headline 2</th>\n</tr>\n<tr>\n    <td>cell one</td>\n    <td>cell two</td>\n</tr>\n</table>"

-- test_cross_compare_creole.py:26
#guard run {  } [] false
  "basics:\n**//bold italics//**\n//**bold italics**//\n//This is **also** good.//\n\nCreole 1.0 optional:\nThis is ##monospace## text.\nThis is ^^superscripted^^ text.\nThis is ,,subscripted,, text.\nThis is __underlined__ text.\n\nown additions:\nThis is --small-- and this ~~strikeout~~ ;)"
  == want false "<p>basics:<br />\n<strong><i>bold italics</i></strong><br />\n<i><strong>bold italics</strong></i><br />\n<i>This is <strong>also</strong> good.</i></p>\n\n<p>Creole 1.0 optional:<br />\nThis is <tt>monospace</tt> text.<br />\nThis is <sup>superscripted</sup> text.<br />\nThis is <sub>subscripted</sub> text.<br />\nThis is <u>underlined</u> text.</p>\n\n<p>own additions:<br />\nThis is <small>small</small> and this <del>strikeout</del> ;)</p>"

-- test_cross_compare_creole.py:78
#guard run {  } [] false
  "no -- small\nno // italics\nno ** bold\nno ## monospace\nno ^^ superscripted\nno ,, subscripted\nno __ underline"
  == want false "<p>no -- small<br />\nno // italics<br />\nno ** bold<br />\nno ## monospace<br />\nno ^^ superscripted<br />\nno ,, subscripted<br />\nno __ underline</p>"

-- test_cross_compare_creole.py:101
#guard run {  } [] false
  "this is [[/a internal]] link.\n1 [[internal links|link A]] test."
  == want false "<p>this is <a href=\"/a internal\">/a internal</a> link.<br />\n1 <a href=\"internal links\">link A</a> test.</p>"

-- test_cross_compare_creole.py:113
#guard run {  } [] false
  "//[[a internal]]//\n**[[Shortcut2|a page2]]**\n//**[[Shortcut3|a page3]]**//"
  == want false "<p><i><a href=\"a internal\">a internal</a></i><br />\n<strong><a href=\"Shortcut2\">a page2</a></strong><br />\n<i><strong><a href=\"Shortcut3\">a page3</a></strong></i></p>"

-- test_cross_compare_creole.py:127
#guard run {  } [] false
  "=== Closing braces in nowiki:\n\n{{{\nif (x != NULL) {\n  for (i = 0; i < size; i++) {\n    if (x[i] > 0) {\n      x[i]--;\n  }}}\n}}}"
  == want false "<h3>Closing braces in nowiki:</h3>\n\n<pre>\nif (x != NULL) {\n  for (i = 0; i &lt; size; i++) {\n    if (x[i] &gt; 0) {\n      x[i]--;\n  }}}\n</pre>"

-- test_cross_compare_creole.py:152
#guard run {  } [] false
  "111\n\n{{{\n//This// does **not** get [[formatted]]\n}}}\n222\n\none\n\n{{{\nfoo\n\nbar\n}}}\ntwo"
  == want false "<p>111</p>\n\n<pre>\n//This// does **not** get [[formatted]]\n</pre>\n<p>222</p>\n\n<p>one</p>\n\n<pre>\nfoo\n\nbar\n</pre>\n<p>two</p>"

-- test_cross_compare_creole.py:187
#guard run {  } [] false
  "start\n\n{{{\n* no list\n<html escaped>\n}}}\nend"
  == want false "<p>start</p>\n\n<pre>\n* no list\n&lt;html escaped&gt;\n</pre>\n<p>end</p>"

-- test_cross_compare_creole.py:206
#guard run {  } [] false
  "this is ##**strong** Teletyper## ;)"
  == want false "<p>this is <tt><strong>strong</strong> Teletyper</tt> ;)</p>"

-- test_cross_compare_creole.py:213
#guard run {  } [] false
  "= Headline\n\n=== **not** //parsed//\n\nNo == headline == or?"
  == want false "<h1>Headline</h1>\n\n<h3>**not** //parsed//</h3>\n\n<p>No == headline == or?</p>"

-- test_cross_compare_creole.py:231
#guard run {  } [] false
  "one\n\n----\n\ntwo"
  == want false "<p>one</p>\n\n<hr />\n\n<p>two</p>"

-- test_cross_compare_creole.py:246
#guard run {  } [] false
  "* Item 1\n** Item 1.1\n** a **bold** Item 1.2\n* Item 2\n** Item 2.1\n*** [[a link Item 3.1]]\n*** Force\\\\linebreak 3.2\n*** item 3.3\n*** item 3.4\n\nup to five levels\n\n* 1\n** 2\n*** 3\n**** 4\n***** 5"
  == want false "<ul>\n    <li>Item 1\n    <ul>\n        <li>Item 1.1</li>\n        <li>a <strong>bold</strong> Item 1.2</li>\n    </ul></li>\n    <li>Item 2\n    <ul>\n        <li>Item 2.1\n        <ul>\n            <li><a href=\"a link Item 3.1\">a link Item 3.1</a></li>\n            <li>Force<br />\n            linebreak 3.2</li>\n            <li>item 3.3</li>\n            <li>item 3.4</li>\n        </ul></li>\n    </ul></li>\n</ul>\n<p>up to five levels</p>\n\n<ul>\n    <li>1\n    <ul>\n        <li>2\n        <ul>\n            <li>3\n            <ul>\n                <li>4\n                <ul>\n                    <li>5</li>\n                </ul></li>\n            </ul></li>\n        </ul></li>\n    </ul></li>\n</ul>"

-- test_cross_compare_creole.py:303
#guard run {  } [] false
  "# Item 1\n## Item 1.1\n## a **bold** Item 1.2\n# Item 2\n## Item 2.1\n### [[a link Item 3.1]]\n### Force\\\\linebreak 3.2\n### item 3.3\n### item 3.4\n\nup to five levels\n\n# 1\n## 2\n### 3\n#### 4\n##### 5"
  == want false "<ol>\n    <li>Item 1\n    <ol>\n        <li>Item 1.1</li>\n        <li>a <strong>bold</strong> Item 1.2</li>\n    </ol></li>\n    <li>Item 2\n    <ol>\n        <li>Item 2.1\n        <ol>\n            <li><a href=\"a link Item 3.1\">a link Item 3.1</a></li>\n            <li>Force<br />\n            linebreak 3.2</li>\n            <li>item 3.3</li>\n            <li>item 3.4</li>\n        </ol></li>\n    </ol></li>\n</ol>\n<p>up to five levels</p>\n\n<ol>\n    <li>1\n    <ol>\n        <li>2\n        <ol>\n            <li>3\n            <ol>\n                <li>4\n                <ol>\n                    <li>5</li>\n                </ol></li>\n            </ol></li>\n        </ol></li>\n    </ol></li>\n</ol>"

-- test_cross_compare_creole.py:362
#guard run {  } [] false
  "A Table...\n\n|= Headline  |= a other\\\\headline    |= the **big end**     |\n| a cell     | a **big** cell        | **//bold italics//** |\n| next\\\\line | No == headline == or? |                      |\n| link test: | a [[/url/|link]] in   | a cell.              |\n|            |                       | empty cells          |\n...end"
  == want false "<p>A Table...</p>\n\n<table>\n<tr>\n    <th>Headline</th>\n    <th>a other<br />\n        headline</th>\n    <th>the <strong>big end</strong></th>\n</tr>\n<tr>\n    <td>a cell</td>\n    <td>a <strong>big</strong> cell</td>\n    <td><strong><i>bold italics</i></strong></td>\n</tr>\n<tr>\n    <td>next<br />\n        line</td>\n    <td>No == headline == or?</td>\n    <td></td>\n</tr>\n<tr>\n    <td>link test:</td>\n    <td>a <a href=\"/url/\">link</a> in</td>\n    <td>a cell.</td>\n</tr>\n<tr>\n    <td></td>\n    <td></td>\n    <td>empty cells</td>\n</tr>\n</table>\n<p>...end</p>"

-- test_cross_compare_creole.py:414
#guard run {  } exampleMacros false
  "111 <<html>><x><</html>>foo<<html>></x><</html>> 222\n333<<html>><x foo1=\"bar1\"><</html>>foobar<<html>></x><</html>>444\n\n555<<html>><x /><</html>>666"
  == want false "<p>111 <x>foo</x> 222<br />\n333<x foo1=\"bar1\">foobar</x>444</p>\n\n<p>555<x />666</p>"

-- test_cross_compare_creole.py:432
#guard run {  } [] false
  "less-than sign: <\ngreater-than sign: >"
  == want false "<p>less-than sign: &lt;<br />\ngreater-than sign: &gt;</p>"

-- test_creole2html.py 240-255, 781-858
#guard run {  } [] false
  "first\nsecond"
  == want false "<p>first<br />\nsecond</p>"

#guard run {  } [] false
  "first\rsecond"
  == want false "<p>first<br />\nsecond</p>"

#guard run {  } [] false
  "first\r\nsecond"
  == want false "<p>first<br />\nsecond</p>"

#guard run { blog := false } [] false
  "wiki style\nlinebreaks\n\n...and not blog styled."
  == want false "<p>wiki style linebreaks</p>\n\n<p>...and not blog styled.</p>"

#guard run { blog := false } [] false
  "**one**\n//two//\n\n* one\n* two"
  == want false "<p><strong>one</strong> <i>two</i></p>\n\n<ul>\n    <li>one</li>\n    <li>two</li>\n</ul>"

#guard run { blog := false } [] false
  "with blog line breaks, every line break would be convertet into<br />\nwith wiki style not.\n\nThis is the first line,\\\\and this is the second.\n\nnew line\nblock 1\n\nnew line\nblock 2\n\nend"
  == want false "<p>with blog line breaks, every line break would be convertet into&lt;br /&gt; with wiki style not.</p>\n\n<p>This is the first line,<br />\nand this is the second.</p>\n\n<p>new line block 1</p>\n\n<p>new line block 2</p>\n\n<p>end</p>"

#guard run {  } [] false
  "== Headline1 == \n== Headline2== "
  == want false "<h2>Headline1</h2>\n<h2>Headline2</h2>"

#guard run {} exampleMacros false
  "<<html>><p>foo</p><</html>><bar?>"
  == want false "<p>foo</p>\n<p>&lt;bar?&gt;</p>"

#guard run {} exampleMacros false
  "<<html>>{{{&lt;nocode&gt;}}}<</html>>"
  == want false "{{{&lt;nocode&gt;}}}"

#guard run {} exampleMacros false
  "<<html>>1<</html>><<html>>2<</html>>"
  == want false "1\n2"

-- test_creole2html.py 913-957
#guard (string2dict "key1=\"value1\" key2=\"value2\"".toList).toOption ==
  some [(c!"key1", .str c!"value1"), (c!"key2", .str c!"value2")]
#guard (string2dict "A=\"B\" C=1 D=1.1 E=True F=False G=None".toList).toOption ==
  some [(c!"A", .str c!"B"), (c!"C", .int 1), (c!"D", .str c!"1.1"), (c!"E", .bool true), (c!"F", .bool false),
    (c!"G", .none)]
#guard (string2dict "key1=\"'1'\" key2='\"2\"' key3=\"\"\"'3'\"\"\" ".toList).toOption ==
  some [(c!"key1", .int 1), (c!"key2", .int 2), (c!"key3", .int 3)]
#guard dict2string [(c!"no", .str c!"ABC"), (c!"foo", .str c!"bar")] == "foo=\"bar\" no=\"ABC\"".toList
#guard dict2string [(c!"foo", .str c!"bar"), (c!"no", .int 123)] == "foo=\"bar\" no=123".toList

end Verif.Creole.Tests
