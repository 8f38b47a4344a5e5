import Verif.Spec.Shown
import Verif.Spec.HtmlDoc

/-!
# Specification: how the characters of HTML are written

A character of an HTML text can be written as itself, by its name (`&eacute;`) or by its number (`&#233;`, `&#xe9;`), and
comments (`<!-- ... -->`) may stand anywhere between.  What a document consists of, no matter how it is written.
-/

namespace Verif.Spec.Sg

open Verif Html Emit Hd

/-! ## Trees and tags -/

/-- the characters that a node without children stands for -/
inductive Leaf (i : HInfo) : Str → Prop
  | text (t : Str) : i.kind = c!"data" → i.content = some t → Leaf i t
  | name (n : Str) (c : Char) : i.kind = c!"entityref" → i.content = some n → Sh.named n = some c → Leaf i [c]
  | number (n : Str) (c : Char) : i.kind = c!"charref" → i.content = some n → Denotes n c → Leaf i [c]

/-- Text that a converter takes as it is.  There is no empty text.  The converters look for a line end at the end of the text
before a list.  A text that is nothing but a blank is dropped by the converter to markdown. -/
def clearText (cfg : Cfg) (i : HInfo) : Bool :=
  match i.content with
  | none => false
  | some t => t.getLast? ≠ some '\n' && (i.kind ≠ c!"data" || (!t.isEmpty && (cfg.lang ≠ .markdown || t ≠ c!" ")))

/-- leaves that stand for a text together -/
inductive Run (cfg : Cfg) : List HNode → Str → Prop
  | nil : Run cfg [] []
  | cons {i : HInfo} {t : Str} {ns : List HNode} {u : Str} :
      Leaf i t → clearText cfg i = true → Run cfg ns u → Run cfg (.mk i [] :: ns) (t ++ u)

/-- two sequences of trees that differ only in how their text is divided and written -/
inductive Alike (cfg : Cfg) : List HNode → List HNode → Prop
  | nil : Alike cfg [] []
  | node (i : HInfo) {ch ch' ns ns' : List HNode} :
      Alike cfg ch ch' → Alike cfg ns ns' → Alike cfg (.mk i ch :: ns) (.mk i ch' :: ns')
  | run {a b ns ns' : List HNode} {t : Str} :
      Run cfg a t → Run cfg b t → t ≠ [] → Alike cfg ns ns' → Alike cfg (a ++ ns) (b ++ ns')

/-- what a sequence of tags and texts consists of -/
inductive Part where
  | chr (c : Char)
  /-- a start tag, an end tag or a tag `<tag />` -/
  | tag (e : Event)

/-- the texts and references among the events of the tokenizer -/
def isText : Event → Bool
  | .data _ | .entityref _ | .charref _ => true
  | _ => false

/-- the parts of a sequence of tags and texts; the texts are such that a converter takes them as they are -/
inductive View (cfg : Cfg) : List Event → List Part → Prop
  | nil : View cfg [] []
  | text {d : Str} {es : List Event} {ps : List Part} :
      clearText cfg { kind := c!"data", content := some d } = true → View cfg es ps → View cfg (.data d :: es) (d.map .chr ++ ps)
  | name {n : Str} {c : Char} {es : List Event} {ps : List Part} :
      Sh.named n = some c → n.getLast? ≠ some '\n' → View cfg es ps → View cfg (.entityref n :: es) (.chr c :: ps)
  | number {n : Str} {c : Char} {es : List Event} {ps : List Part} :
      Denotes n c → n.getLast? ≠ some '\n' → View cfg es ps → View cfg (.charref n :: es) (.chr c :: ps)
  | tag {e : Event} {es : List Event} {ps : List Part} : isText e = false → View cfg es ps → View cfg (e :: es) (.tag e :: ps)

/-! ## Written documents -/

/-- a piece of a written document -/
inductive Tok where
  /-- a character; `&`, `<` and `>` are written `&amp;`, `&lt;` and `&gt;` -/
  | chr (c : Char)
  /-- the character `c`, written by its name: `&name;` -/
  | name (n : Str) (c : Char)
  /-- the character `c`, written by its number: `&#number;` -/
  | number (n : Str) (c : Char)
  /-- a comment `<!--text-->` -/
  | note (s : Str)
  /-- white space that only serves to lay out the document -/
  | white (s : Str)
  /-- a start tag `<tag name="value">` -/
  | start (tag : Str) (attrs : List (Str × Str))
  /-- an end tag `</tag>` -/
  | stop (tag : Str)
  /-- a tag `<tag name="value" />` -/
  | void (tag : Str) (attrs : List (Str × Str))

/-- how a piece is written -/
def Tok.text : Tok → Str
  | .chr c => Cr.textChar c
  | .name n _ => '&' :: n ++ c!";"
  | .number n _ => c!"&#" ++ n ++ c!";"
  | .note s => c!"<!--" ++ s ++ c!"-->"
  | .white s => s
  | .start tag attrs => tagStart tag attrs ++ c!">"
  | .stop tag => c!"</" ++ tag ++ c!">"
  | .void tag attrs => tagStart tag attrs ++ c!" />"

def text (l : List Tok) : Str := l.flatMap Tok.text

/-- Names and numbers are those of the character.  A comment is one line without `<` and `>`. -/
def Tok.ok : Tok → Prop
  | .chr _ => True
  | .name n c => (n.head?).any Sh.isLetter = true ∧ (∀ d ∈ n, (Sh.isLetter d || d.isDigit) = true) ∧ Sh.named n = some c
  | .number n c => Denotes n c
  | .note s => ∀ d ∈ s, d ≠ '<' ∧ d ≠ '>' ∧ d ≠ '\n'
  | .white s => s.all Py.isSpace = true
  | .start tag attrs => tagOk tag = true ∧ attrs.all attrOk = true
  | .stop tag => tagOk tag = true
  | .void tag attrs => tagOk tag = true ∧ attrs.all attrOk = true

/-- a piece as far as blanks are concerned: a comment is like the start tag of an inline element -/
def Tok.bit : Tok → Bit
  | .chr c => .chr c
  | .white s => .white s
  | .note s => .tag .opening (Tok.note s).text
  | .start tag attrs => .tag (if isBlock tag then .block else .opening) (Tok.start tag attrs).text
  | .stop tag => .tag (if isBlock tag then .block else .closing) (Tok.stop tag).text
  | .void tag attrs => .tag (if isBlock tag then .block else .single) (Tok.void tag attrs).text
  | .name n c => .ref (Tok.name n c).text
  | .number n c => .ref (Tok.number n c).text

/-- a written document whose blanks are in order -/
def neatly (l : List Tok) : Prop :=
  (∀ x ∈ l, x.ok) ∧ spaced .block (l.map Tok.bit) = true ∧ bareEdges (l.map Tok.bit) = true

/-- what a written document consists of -/
inductive Atom where
  | chr (c : Char)
  | start (tag : Str) (attrs : List (Str × Str))
  | stop (tag : Str)
  | void (tag : Str) (attrs : List (Str × Str))
  deriving DecidableEq, Repr

/-- Comments and layout are nothing.  `<br>` and `<img>` have no end tags. -/
def Tok.pieces : Tok → List Atom
  | .chr c | .name _ c | .number _ c => [.chr c]
  | .note _ | .white _ => []
  | .start tag attrs => [if tag = c!"br" ∨ tag = c!"img" then .void tag attrs else .start tag attrs]
  | .stop tag => [.stop tag]
  | .void tag attrs => [.void tag attrs]

def pieces (l : List Tok) : List Atom := l.flatMap Tok.pieces

/-- a character that is written as itself -/
def Tok.plain : Tok → Bool
  | .chr c => c ≠ '&' && c ≠ '<' && c ≠ '>'
  | _ => false

def Tok.isWhite : Tok → Bool
  | .white _ => true
  | _ => false

/-- a document without its layout -/
def tidy (l : List Tok) : List Tok := l.filter fun x => !x.isWhite

/-- no blank stands alone between things that are not characters written as themselves; `b`: such a character precedes -/
def noLonely : Bool → List Tok → Bool
  | _, [] => true
  | b, .chr c :: l => (c ≠ ' ' || b || (l.head?).any Tok.plain) && noLonely (Tok.chr c).plain l
  | _, _ :: l => noLonely false l

end Verif.Spec.Sg
