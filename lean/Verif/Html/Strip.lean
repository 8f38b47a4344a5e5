import Verif.Py.ReParse

/-!
# `strip_html`

Models `/repo/creole/html_tools/strip_html.py` and `/repo/creole/parser/html_parser_config.py`.
-/

namespace Verif.Html

open Verif Py Re

/-- html_parser_config.py 12-20: `BLOCK_TAGS` -/
def blockTags : List Str := [
  c!"address", c!"blockquote", c!"center", c!"dir", c!"div", c!"dl", c!"fieldset",
  c!"form",
  c!"h1", c!"h2", c!"h3", c!"h4", c!"h5", c!"h6",
  c!"hr", c!"ins", c!"isindex", c!"men", c!"noframes", c!"noscript",
  c!"ul", c!"ol", c!"li", c!"table", c!"th", c!"tr", c!"td",
  c!"p", c!"pre",
  c!"br"]

/-- html_parser_config.py 21: `IGNORE_TAGS` -/
def ignoreTags : List Str := [c!"tbody"]

/-- groups of `strip_html_regex` -/
inductive SG where
  | end_ | tag | startend
  deriving DecidableEq, Repr

def SG.ofName : String → Option SG
  | "end" => some .end_
  | "tag" => some .tag
  | "startend" => some .startend
  | _ => none

/-- strip_html.py 16-28: `strip_html_regex` -/
def stripRe : Re SG := cat [.star true (.cls .space), .cls (.chr '<'), .grp .end_ (opt (.cls (.chr '/'))),
  .grp .tag (plus true (.cls (.compl (.union (.chr ' ') (.chr '>'))))), .star false (.cls .dot),
  .grp .startend (opt (.cls (.chr '/'))), .cls (.chr '>'), .star true (.cls .space)]

#guard ReParse.sameAs { verbose := true, multi := true, name := SG.ofName } r#"
        \s*
        <
            (?P<end>/{0,1})       # end tag e.g.: </end>
            (?P<tag>[^ >]+)       # tag name
            .*?
            (?P<startend>/{0,1})  # closed tag e.g.: <closed />
        >
        \s*
    "# stripRe

/-- strip_html.py 58-96: `strip_tag` -/
def stripTag (m : Match SG) : Str :=
  let block := m.text
  let endTag := m.get .end_ = some c!"/"
  let startendTag := m.get .startend = some c!"/"
  let tag := (m.get .tag).getD []
  if blockTags.contains tag then strip block
  else
    let spaceStart := block.head? = some ' '
    let spaceEnd := block.getLast? = some ' '
    let result := strip block
    if endTag then (if spaceStart || spaceEnd then result ++ c!" " else result)
    else if startendTag then
      let result := if spaceStart then ' ' :: result else result
      if spaceEnd then result ++ c!" " else result
    else if spaceStart || spaceEnd then ' ' :: result
    else result

/-- strip_html.py 99: every line stripped, the lines joined with blanks -/
def joinStripped (data : Str) : Str := join c!" " ((splitChar '\n' data).map strip)

/-- strip_html.py 31-101: `strip_html` -/
def stripHtml (s : Str) : Str := stripRe.sub stripTag (joinStripped (strip s))

#guard stripHtml c!" <p>  one  \n two  </p>" = c!"<p>one two</p>"
#guard stripHtml c!"<p><strong><i>bold italics</i></strong></p>" = c!"<p><strong><i>bold italics</i></strong></p>"
#guard stripHtml c!"<li>  Force  <br /> \n linebreak </li>" = c!"<li>Force<br />linebreak</li>"
#guard stripHtml c!"one  <i>two \n <strong>   \n  three  \n  </strong></i>" = c!"one <i>two <strong>three</strong> </i>"
#guard stripHtml c!"<p>a <unknown tag /> foobar  </p>" = c!"<p>a <unknown tag /> foobar</p>"
#guard stripHtml c!"<p>a <pre> preformated area </pre> foo </p>" = c!"<p>a<pre>preformated area</pre>foo</p>"
#guard stripHtml c!"<p>a <img src=\"/image.jpg\" /> image.</p>" = c!"<p>a <img src=\"/image.jpg\" /> image.</p>"

end Verif.Html
