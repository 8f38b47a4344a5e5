import Verif.Spec.Creole
import Verif.Spec.HtmlTree

/-!
# Specification: written HTML

A small abstract syntax of HTML documents, how they are written and the elements they consist of.  Nothing here uses the
parser.
-/

namespace Verif.Spec.Hd

open Verif Cr

/-- a piece of HTML -/
inductive Ht where
  /-- text -/
  | text (s : Str)
  /-- white space that only serves to lay out the document -/
  | white (s : Str)
  /-- an element `<tag name="value">children</tag>` -/
  | el (tag : Str) (attrs : List (Str × Str)) (children : List Ht)
  /-- an element `<tag name="value" />` -/
  | void (tag : Str) (attrs : List (Str × Str))
  /-- an element `<br>` or `<img name="value">`, without a slash -/
  | bare (tag : Str) (attrs : List (Str × Str))

/-! ## How it is written -/

/-- how an attribute is written -/
def attrPrint (a : Str × Str) : Str := ' ' :: a.1 ++ c!"=\"" ++ attrHtml a.2 ++ c!"\""

/-- the beginning of a tag -/
def tagStart (tag : Str) (attrs : List (Str × Str)) : Str := '<' :: tag ++ attrs.flatMap attrPrint

mutual
/-- how a piece is written -/
def Ht.print : Ht → Str
  | .text s => textHtml s
  | .white s => s
  | .el tag attrs ch => tagStart tag attrs ++ c!">" ++ written ch ++ c!"</" ++ tag ++ c!">"
  | .void tag attrs => tagStart tag attrs ++ c!" />"
  | .bare tag attrs => tagStart tag attrs ++ c!">"
def written : List Ht → Str
  | [] => []
  | x :: xs => x.print ++ written xs
end

/-! ## What it consists of -/

/-- the name of the entity of a character that cannot be written in HTML text -/
def entityOf (c : Char) : Option Str :=
  if c = '&' then some c!"amp" else if c = '<' then some c!"lt" else if c = '>' then some c!"gt" else none

/-- a character before other elements: text is not divided -/
def addChar (c : Char) (l : List El) : List El :=
  match entityOf c with
  | some name => .entity name :: l
  | none =>
    match l with
    | .text d :: l => .text (c :: d) :: l
    | l => .text [c] :: l

mutual
/-- the elements of a piece and of what follows it -/
def Ht.els : Ht → List El → List El
  | .text s, l => s.foldr addChar l
  | .white _, l => l
  | .el tag attrs ch, l =>
    (if tag = c!"tbody" ∧ attrs = [] then .tbody (elsL ch) else .elem tag (attrs.map fun a => (a.1, some a.2)) (elsL ch)) :: l
  | .void tag attrs, l => .void tag (attrs.map fun a => (a.1, some a.2)) :: l
  | .bare tag attrs, l => .void tag (attrs.map fun a => (a.1, some a.2)) :: l
def elsL : List Ht → List El
  | [] => []
  | x :: xs => x.els (elsL xs)
end

/-! ## Names and attributes -/

/-- a lower case letter -/
def letter (c : Char) : Bool := 'a' ≤ c && c ≤ 'z'

/-- names of tags: lower case letters and digits; `script` and `style` are special in HTML, and preformatted text is
treated elsewhere -/
def tagOk (tag : Str) : Bool :=
  (tag.head?).any letter && tag.all (fun c => letter c || c.isDigit) && tag != c!"script" && tag != c!"style" &&
    tag != c!"pre"

/-- Attributes: the name consists of lower case letters, the value is one line.  A quote in the value would have to be
written as an entity. -/
def attrOk (a : Str × Str) : Bool := !a.1.isEmpty && a.1.all letter && !a.2.contains '"' && !a.2.contains '\n'

mutual
def Ht.ok : Ht → Bool
  | .text _ => true
  | .white s => s.all Py.isSpace
  | .el tag attrs ch => tagOk tag && attrs.all attrOk && okL ch
  | .void tag attrs => tagOk tag && attrs.all attrOk
  | .bare tag attrs => (tag == c!"br" || tag == c!"img") && attrs.all attrOk
def okL : List Ht → Bool
  | [] => true
  | x :: xs => x.ok && okL xs
end

/-! ## Blanks

Blanks around the tags of block elements mean nothing.  Around the tags of inline elements they are moved out of the
element, and several of them become one. -/

inductive TagKind where
  /-- the start or end tag of a block element, or a block element without content -/
  | block
  /-- the start tag of an inline element (`<img>` counts as one, it has no end tag) -/
  | opening
  /-- the end tag of an inline element -/
  | closing
  /-- an inline element without content -/
  | single
  deriving DecidableEq, Repr

/-- a document as a sequence -/
inductive Bit where
  | chr (c : Char)
  | white (s : Str)
  | tag (k : TagKind) (text : Str)
  /-- a reference to a character -/
  | ref (text : Str)
  deriving DecidableEq, Repr

def Bit.text : Bit → Str
  | .chr c => textChar c
  | .white s => s
  | .tag _ s => s
  | .ref s => s

def isBlock (tag : Str) : Bool := blockNames.contains tag

mutual
def Ht.bits : Ht → List Bit
  | .text s => s.map .chr
  | .white s => [.white s]
  | .el tag attrs ch =>
    .tag (if isBlock tag then .block else .opening) (tagStart tag attrs ++ c!">") ::
      (bitsL ch ++ [.tag (if isBlock tag then .block else .closing) (c!"</" ++ tag ++ c!">")])
  | .void tag attrs => [.tag (if isBlock tag then .block else .single) (tagStart tag attrs ++ c!" />")]
  | .bare tag attrs => [.tag (if isBlock tag then .block else .opening) (tagStart tag attrs ++ c!">")]
def bitsL : List Ht → List Bit
  | [] => []
  | x :: xs => x.bits ++ bitsL xs
end

/-- what stands before a place: the tag of a block element; something after which there must be no blank; a character; or
the end of an inline element -/
inductive Before where
  | block | tight | solid | closed
  deriving DecidableEq, Repr

/-- something that may follow a blank: a character, or a tag that may have a blank before it -/
def afterBlank : List Bit → Bool
  | .chr c :: _ => !Py.isSpace c
  | .tag .opening _ :: _ | .tag .single _ :: _ | .ref _ :: _ => true
  | _ => false

/-- the tag of a block element, perhaps after white space -/
def atBlock : List Bit → Bool
  | .tag .block _ :: _ => true
  | .white _ :: l => atBlock l
  | _ => false

/-- The blanks of the text are single ones, stand between characters or inline elements, and not at the edges inside an
inline element.  White space stands after a tag of a block element, or between a character and such a tag. -/
def spaced : Before → List Bit → Bool
  | _, [] => true
  | b, .chr c :: l =>
    if Py.isSpace c then c == ' ' && (b == .solid || b == .closed) && afterBlank l && spaced .tight l else spaced .solid l
  | b, .white _ :: l => (b == .block || (b == .solid && atBlock l)) && spaced b l
  | _, .tag .block _ :: l => spaced .block l
  | _, .tag .opening _ :: l => spaced .tight l
  | _, .tag .closing _ :: l => spaced .closed l
  | _, .tag .single _ :: l => spaced .closed l
  | _, .ref _ :: l => spaced .solid l

def Bit.isWhite : Bit → Bool
  | .white _ => true
  | _ => false

/-- a document does not begin or end with white space -/
def bareEdges (l : List Bit) : Bool := !(l.head?).any Bit.isWhite && !(l.getLast?).any Bit.isWhite

/-- a document whose blanks are in order -/
def neat (l : List Ht) : Bool := okL l && spaced .block (bitsL l) && bareEdges (bitsL l)

end Verif.Spec.Hd
