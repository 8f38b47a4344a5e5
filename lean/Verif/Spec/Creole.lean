import Verif.Py.Re

/-!
# Specification: creole markup and its meaning

A small abstract syntax of creole texts, how it is written (`print`), which texts are written unambiguously
(`wf`) and the HTML it stands for (`html`).  Nothing here mentions the parser or the emitter.
-/

namespace Verif.Spec.Cr

open Verif

/-! ## Escaping -/

/-- a character of HTML text -/
def textChar (c : Char) : Str :=
  if c = '&' then c!"&amp;" else if c = '<' then c!"&lt;" else if c = '>' then c!"&gt;" else [c]

/-- HTML text -/
def textHtml (s : Str) : Str := s.flatMap textChar

/-- the value of an attribute; the entity of the quote is written without its semicolon, as the converter does -/
def attrHtml (s : Str) : Str := s.flatMap fun c => if c = '"' then c!"&quot" else textChar c

/-! ## Inline markup -/

/-- the eight typefaces -/
inductive Face where
  | strong | emphasis | monospace | superscript | subscript | underline | small | delete
  deriving DecidableEq, Repr

/-- the character that is written twice before and after the text -/
def Face.char : Face → Char
  | .strong => '*' | .emphasis => '/' | .monospace => '#' | .superscript => '^'
  | .subscript => ',' | .underline => '_' | .small => '-' | .delete => '~'

/-- the HTML element -/
def Face.tag : Face → Str
  | .strong => c!"strong" | .emphasis => c!"i" | .monospace => c!"tt" | .superscript => c!"sup"
  | .subscript => c!"sub" | .underline => c!"u" | .small => c!"small" | .delete => c!"del"

/-! ## Macros -/

/-- a call of a macro: its name, its arguments as they are written, the text it is called with (if there is one), and
whether it is called by a block -/
structure Call where
  name : Str
  args : Str
  text : Option Str
  block : Bool
  deriving DecidableEq, Repr

/-- What documents are read with: is `strict` set, which text each call of a macro gives, and are the headings anchors
(they are if there is a table of contents)?  Calls for which nothing is given here must not occur in a document. -/
structure Ctx where
  strict : Bool := false
  mac : Call → Option Str := fun _ => none
  anchors : Bool := false

/-- the text of a call -/
def Ctx.call (cx : Ctx) (c : Call) : Str := (cx.mac c).getD []

/-- a character of a name -/
def nameChar (c : Char) : Bool := Py.isWord c

/-- the name of a macro other than the table of contents -/
def nameOk (s : Str) : Bool := !s.isEmpty && s.all nameChar && s != c!"toc"

/-- an end tag `<</name>>`, with blanks around the name or without them, stands here -/
def endTag (name s : Str) : Bool :=
  (c!"<</").isPrefixOf s &&
    name.isPrefixOf ((s.drop 3).dropWhile Py.isSpace) &&
    (c!">>").isPrefixOf ((((s.drop 3).dropWhile Py.isSpace).drop name.length).dropWhile Py.isSpace)

/-- an end tag stands somewhere -/
def hasEnd (name : Str) : Str → Bool
  | [] => false
  | c :: s => endTag name (c :: s) || hasEnd name s

/-- the part of a text before the slashes at its end -/
def dropSlashes (s : Str) : Str := (s.reverse.dropWhile (· == '/')).reverse

/-- a piece of inline markup -/
inductive Inl where
  /-- a character that stands for itself -/
  | chr (c : Char)
  /-- `~c` -/
  | esc (c : Char)
  /-- `**text**`, `//text//`, ... -/
  | face (f : Face) (l : List Inl)
  /-- `[[target]]` and `[[target|text]]` -/
  | link (target : Str) (text : List Inl)
  /-- `{{target}}` and `{{target|title}}` -/
  | image (target : Str) (title : Str)
  /-- `{{target|title|WxH}}` -/
  | sized (target : Str) (title : Str) (w h : Nat)
  /-- `{{{text}}}` -/
  | nowiki (s : Str)
  /-- two backslashes -/
  | br
  /-- a bare link -/
  | url (s : Str)
  /-- a bare link that is not to become one -/
  | escUrl (s : Str)
  /-- `<<name args>>` and `<<name args />>`; `args` is everything between the name and `>>` -/
  | mac (name args : Str)
  /-- `<<name args>>text<</name>>` -/
  | macText (name args text : Str)

/-- a decimal number -/
def decimal (n : Nat) : Str := Nat.toDigits 10 n

mutual
/-- how a piece is written -/
def Inl.print : Inl → Str
  | .chr c => [c]
  | .esc c => ['~', c]
  | .face f l => [f.char, f.char] ++ prints l ++ [f.char, f.char]
  | .link t [] => c!"[[" ++ t ++ c!"]]"
  | .link t (i :: l) => c!"[[" ++ t ++ c!"|" ++ (i.print ++ prints l) ++ c!"]]"
  | .image t [] => c!"{{" ++ t ++ c!"}}"
  | .image t (c :: s) => c!"{{" ++ t ++ c!"|" ++ (c :: s) ++ c!"}}"
  | .sized t s w h => c!"{{" ++ t ++ c!"|" ++ s ++ c!"|" ++ decimal w ++ c!"x" ++ decimal h ++ c!"}}"
  | .nowiki s => c!"{{{" ++ s ++ c!"}}}"
  | .br => c!"\\\\"
  | .url s => s
  | .escUrl s => '~' :: s
  | .mac n a => c!"<<" ++ n ++ a ++ c!">>"
  | .macText n a t => c!"<<" ++ n ++ a ++ c!">>" ++ t ++ c!"<</" ++ n ++ c!">>"
def prints : List Inl → Str
  | [] => []
  | i :: l => i.print ++ prints l
end

/-- an image element -/
def imgHtml (target title size : Str) : Str :=
  c!"<img src=\"" ++ attrHtml target ++ c!"\" title=\"" ++ attrHtml title ++ c!"\" alt=\"" ++ attrHtml title ++
    c!"\"" ++ size ++ c!" />"

/-- a link element -/
def linkHtml (target inner : Str) : Str := c!"<a href=\"" ++ attrHtml target ++ c!"\">" ++ inner ++ c!"</a>"

mutual
/-- the HTML of a piece; `br` is what a line break gives at this place -/
def Inl.html (cx : Ctx) (br : Str) : Inl → Str
  | .chr c => textHtml [c]
  | .esc c => textHtml [c]
  | .face f l => c!"<" ++ f.tag ++ c!">" ++ htmls cx c!"<br />\n" l ++ c!"</" ++ f.tag ++ c!">"
  | .link t [] => linkHtml t (textHtml t)
  | .link t (i :: l) => linkHtml t (i.html cx c!"<br />\n" ++ htmls cx c!"<br />\n" l)
  | .image t [] => imgHtml t t []
  | .image t (c :: s) => imgHtml t (c :: s) []
  | .sized t s w h =>
    if cx.strict then imgHtml t (s ++ c!"|" ++ decimal w ++ c!"x" ++ decimal h) []
    else imgHtml t s (c!" width=\"" ++ decimal w ++ c!"\" height=\"" ++ decimal h ++ c!"\"")
  | .nowiki s => c!"<code>" ++ textHtml s ++ c!"</code>"
  | .br => br
  | .url s => linkHtml s (textHtml s)
  | .escUrl s => textHtml s
  | .mac n a => cx.call ⟨n, Py.strip (dropSlashes a), none, false⟩
  | .macText n a t => cx.call ⟨n, Py.strip a, some (Py.strip t), false⟩
def htmls (cx : Ctx) (br : Str) : List Inl → Str
  | [] => []
  | i :: l => i.html cx br ++ htmls cx br l
end

/-! ## Unambiguous markup -/

/-- does `p` occur in `s`? -/
def occurs (p : Str) : Str → Bool
  | [] => p.isEmpty
  | c :: s => p.isPrefixOf (c :: s) || occurs p s

/-- a non-empty text of one line, without blanks at its ends -/
def trimmed (s : Str) : Bool :=
  match s with
  | [] => false
  | c :: t => !Py.isSpace c && !(((c :: t).getLast?).any Py.isSpace) && !(c :: t).contains '\n'

/-- the protocols of bare links -/
def protocols : List Str := [c!"http", c!"https", c!"ftp", c!"nntp", c!"news", c!"mailto", c!"telnet", c!"file", c!"irc"]

/-- the beginning of a line or after a blank -/
def atWord (prev : Option Char) : Bool := prev.all Py.isSpace

/-- `s` begins with a protocol and `://` -/
def startsUrl (s : Str) : Bool := protocols.any fun p => (p ++ c!"://").isPrefixOf s

/-- a bare link, possibly escaped, begins here -/
def urlHere (prev : Option Char) (s : Str) : Bool :=
  atWord prev && (startsUrl s || match s with
    | '~' :: t => startsUrl t
    | _ => false)

/-- characters that begin markup when written twice (the tilde begins markup always) -/
def doubled : Str := c!"[<{*/#_^,-\\"

/-- two equal characters that could begin markup; slashes after a colon do not -/
def pairHere (prev : Option Char) (c : Char) (next : Str) : Bool :=
  doubled.contains c && next.head? == some c && !(c == '/' && prev == some ':')

/-- the closing mark of a typeface occurs in `s` (slashes after a colon do not close italics) -/
def closes (f : Face) (prev : Option Char) : Str → Bool
  | [] => false
  | c :: s => (c == f.char && s.head? == some c && !(f == .emphasis && prev == some ':')) || closes f (some c) s

/-- the inside of a typeface: not empty, the first closing mark is the one that is meant -/
def faceText (f : Face) (s : Str) : Bool :=
  match s with
  | [] => false
  | c :: t => !closes f (some c) (t ++ [f.char]) && !(f == .emphasis && (c :: t).getLast? == some ':') &&
      !(c :: t).contains '\n'

/-- the target of a link or image with the closing character `d` -/
def targetOk (d : Char) (s : Str) : Bool :=
  !s.isEmpty && !s.contains '|' && !s.contains '\n' && !((s.getLast?).any Py.isSpace) && !occurs [d, d] (s ++ [d])

/-- the target of an image -/
def imageTarget (s : Str) : Bool := targetOk '}' s && trimmed s && s.head? != some '{'

/-- the text after the `|` -/
def barText (d : Char) (s : Str) : Bool := trimmed s && !occurs [d, d] (s ++ [d])

/-- a bare link -/
def isUrl (s : Str) : Bool :=
  protocols.any fun p => (p ++ c!"://").isPrefixOf s && (s.drop (p.length + 3)).all (fun c => !Py.isSpace c && c != '$')
    && !(s.drop (p.length + 3)).isEmpty

/-- a bare link ends here -/
def urlEnd (next : Str) : Bool := (next.head?).all fun c => Py.isSpace c || c == '$'

/-- the size of an image: Python reads at most 4300 digits -/
def sizeOk (n : Nat) : Bool := (decimal n).length ≤ 4300

/-- the text of a link: characters, images and line breaks -/
def linkParts : List Inl → Bool
  | [] => true
  | .chr c :: l => c != '\n' && !((c == '{' || c == '\\') && (prints l).head? == some c) && linkParts l
  | .image t s :: l => imageTarget t && (s.isEmpty || (barText '}' s && !s.contains '|')) && linkParts l
  | .sized t s w h :: l => imageTarget t && barText '}' s && !s.contains '|' && sizeOk w && sizeOk h && linkParts l
  | .br :: l => linkParts l
  | _ => false

/-- not a line break -/
def Inl.notBr : Inl → Bool
  | .br => false
  | _ => true

/-- what stands between the name of a macro and `>>` -/
def argsOk (s : Str) : Bool := !((s.head?).any nameChar) && !s.contains '\n' && !occurs c!">>" (s ++ c!">")

mutual
/-- a piece written between the character `prev` and the text `next` is read as this piece -/
def Inl.wf (cx : Ctx) (prev : Option Char) (next : Str) : Inl → Bool
  | .chr c => c != '\n' && c != '~' && !pairHere prev c next && !urlHere prev (c :: next)
  | .esc c => !Py.isSpace c && c != '~' && !urlHere prev ('~' :: c :: next)
  | .face f l => wfs cx none l && faceText f (prints l) && (l.getLast?).all Inl.notBr &&
      !(f == .emphasis && prev == some ':')
  | .link t l => targetOk ']' t && (l.isEmpty || barText ']' (prints l)) && linkParts l
  | .image t s => imageTarget t && (s.isEmpty || (barText '}' s && !s.contains '|'))
  | .sized t s w h => imageTarget t && barText '}' s && !s.contains '|' && sizeOk w && sizeOk h
  | .nowiki s => !occurs c!"}}}" (s ++ c!"}}") && !s.contains '\n'
  | .br => true
  | .url s => isUrl s && atWord prev && urlEnd next
  | .escUrl s => isUrl s && atWord prev && urlEnd next
  | .mac n a => nameOk n && argsOk a && (cx.mac ⟨n, Py.strip (dropSlashes a), none, false⟩).isSome &&
      (List.range n.length).all (fun k => !hasEnd (n.take (k + 1)) next)
  | .macText n a t => nameOk n && argsOk a && (cx.mac ⟨n, Py.strip a, some (Py.strip t), false⟩).isSome &&
      !t.contains '\n' && !hasEnd n t
/-- a sequence of pieces written after the character `prev` is read as these pieces -/
def wfs (cx : Ctx) (prev : Option Char) : List Inl → Bool
  | [] => true
  | i :: l => i.wf cx prev (prints l) && wfs cx (i.print.getLast?) l
end

end Verif.Spec.Cr
