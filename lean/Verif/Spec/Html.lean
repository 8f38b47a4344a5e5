import Verif.Py.Str

/-!
# Specification: safe HTML

A small grammar, independent of the converter, of the HTML a wiki may pass on to a browser: text without raw
`<`, `>` or `&`, character entities, elements without attributes from a fixed list, properly nested, links and
images whose attribute values contain no raw quote or angle bracket.
-/

namespace Verif.Spec

open Verif

/-- elements without attributes (`a` and `img` are treated separately) -/
def plainTags : List Str := [c!"p", c!"ul", c!"ol", c!"li", c!"table", c!"tr", c!"td", c!"th", c!"i", c!"strong",
  c!"tt", c!"sup", c!"sub", c!"u", c!"small", c!"del", c!"pre", c!"code"]

/-- `h` followed by decimal digits -/
def IsHeadingTag (t : Str) : Prop := ∃ ds, t = 'h' :: ds ∧ ds ≠ [] ∧ ∀ d ∈ ds, d.isDigit = true

/-- the value of an attribute, written between double quotes -/
def IsAttrValue (v : Str) : Prop := '"' ∉ v ∧ '<' ∉ v ∧ '>' ∉ v

inductive SafeHtml : Str → Prop where
  | nil : SafeHtml []
  | char {c : Char} {s : Str} : c ≠ '<' → c ≠ '>' → c ≠ '&' → SafeHtml s → SafeHtml (c :: s)
  | entity {e s : Str} : e ∈ [c!"&amp;", c!"&lt;", c!"&gt;"] → SafeHtml s → SafeHtml (e ++ s)
  | void {e s : Str} : e ∈ [c!"<hr />", c!"<br />"] → SafeHtml s → SafeHtml (e ++ s)
  | elem {tag a b : Str} : tag ∈ plainTags ∨ IsHeadingTag tag → SafeHtml a → SafeHtml b →
      SafeHtml (c!"<" ++ tag ++ c!">" ++ a ++ c!"</" ++ tag ++ c!">" ++ b)
  | link {href a b : Str} : IsAttrValue href → SafeHtml a → SafeHtml b →
      SafeHtml (c!"<a href=\"" ++ href ++ c!"\">" ++ a ++ c!"</a>" ++ b)
  | image {src text b : Str} : IsAttrValue src → IsAttrValue text → SafeHtml b →
      SafeHtml (c!"<img src=\"" ++ src ++ c!"\" title=\"" ++ text ++ c!"\" alt=\"" ++ text ++ c!"\" />" ++ b)

/-- decoding of the three entities used in text -/
def unescape : Str → Str
  | '&' :: 'a' :: 'm' :: 'p' :: ';' :: s => '&' :: unescape s
  | '&' :: 'l' :: 't' :: ';' :: s => '<' :: unescape s
  | '&' :: 'g' :: 't' :: ';' :: s => '>' :: unescape s
  | c :: s => c :: unescape s
  | [] => []

/-- the same with the entity for the double quote (which the converter writes without a semicolon) -/
def unescapeAttr : Str → Str
  | '&' :: 'q' :: 'u' :: 'o' :: 't' :: s => '"' :: unescapeAttr s
  | '&' :: 'a' :: 'm' :: 'p' :: ';' :: s => '&' :: unescapeAttr s
  | '&' :: 'l' :: 't' :: ';' :: s => '<' :: unescapeAttr s
  | '&' :: 'g' :: 't' :: ';' :: s => '>' :: unescapeAttr s
  | c :: s => c :: unescapeAttr s
  | [] => []

end Verif.Spec
