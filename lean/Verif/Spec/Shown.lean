import Verif.Spec.HtmlDoc
import Verif.Spec.Faults

/-!
# Specification: the text of an HTML document tree

What a reader sees of a document tree, and the trees of which the converters lose nothing.  Nothing here uses the
converters; the table of entity names is shared with the model.  The values of digits are those of C32.
-/

namespace Verif.Spec.Sh

open Verif Html Emit

/-! ## References -/

/-- the character with a number between `&#` and `;` -/
def numbered : Str → Option Char
  | 'x' :: hs => if hs ≠ [] ∧ hs.all Props.isHexDigit then some (Char.ofNat (Props.hexValue hs)) else none
  | ds => if ds ≠ [] ∧ ds.all (fun c => (Py.decimal? c).isSome) then some (Char.ofNat (Props.decValue ds)) else none

/-- The character with a name between `&` and `;`.  A blank that is not broken is taken for a blank. -/
def named (name : Str) : Option Char :=
  if name = c!"nbsp" then some ' ' else (name2codepointTable.lookup (strKey name)).map Char.ofNat

/-- an ASCII letter -/
def isLetter (c : Char) : Bool := ('a' ≤ c && c ≤ 'z') || ('A' ≤ c && c ≤ 'Z')

/-- what `&ref;` stands for -/
def referred : Str → Option Char
  | '#' :: n => numbered n
  | name => if name ≠ [] ∧ name.all isLetter then named name else none

/-- a text with all its references replaced; `n` is at least the length of the text -/
def unrefAux : Nat → Str → Str
  | 0, _ => []
  | _, [] => []
  | n + 1, '&' :: s =>
    match referred (s.takeWhile (· ≠ ';')), s.dropWhile (· ≠ ';') with
    | some c, ';' :: rest => c :: unrefAux n rest
    | _, _ => '&' :: unrefAux n s
  | n + 1, c :: s => c :: unrefAux n s

def unref (s : Str) : Str := unrefAux s.length s

/-! ## The text of a tree -/

/-- the text of a node without its children -/
def own (i : HInfo) : Str :=
  match i.content with
  | none => []
  | some t =>
    if i.kind = c!"data" ∨ i.kind = c!"blockdata_pass" then t
    else if i.kind = c!"entityref" then
      match named t with
      | some c => [c]
      | none => '&' :: t
    else if i.kind = c!"charref" then (numbered t).toList
    else if i.kind = c!"blockdata_pre" ∨ i.kind = c!"inlinedata_pre" then unref t
    else []

mutual
/-- the text of a tree, in document order -/
def shown : HNode → Str
  | .mk i ch => own i ++ shownL ch
def shownL : List HNode → Str
  | [] => []
  | n :: ns => shown n ++ shownL ns
end

mutual
/-- the text of a written piece of HTML -/
def seen : Hd.Ht → Str
  | .text s => s
  | .white _ => []
  | .el _ _ ch => seenL ch
  | .void _ _ => []
  | .bare _ _ => []
def seenL : List Hd.Ht → Str
  | [] => []
  | x :: xs => seen x ++ seenL xs
end

/-- a text without blanks and backslashes -/
def letters (s : Str) : Str := s.filter fun c => !Py.isSpace c && c ≠ '\\'

/-- the characters of the markup -/
def markChars : Str := c!"*/#^,_-~=|{}?+%@.:`'"

/-- a text without blanks, backslashes and the characters of the markup -/
def words (s : Str) : Str := (letters s).filter fun c => !markChars.contains c

/-! ## Trees that are converted completely -/

/-- blanks between the parts of a table -/
def isGap : HNode → Bool
  | .mk i ch => i.kind = c!"data" && (i.content.getD []).all Py.isSpace && ch.isEmpty

def isCell : HNode → Bool
  | .mk i _ => i.kind = c!"th" || i.kind = c!"td"

def isRow : HNode → Bool
  | .mk i _ => i.kind = c!"tr"

/-- `<thead>`, `<tbody>`, `<tfoot>` -/
def isPart : HNode → Bool
  | .mk i _ => i.kind = c!"thead" || i.kind = c!"tbody" || i.kind = c!"tfoot"

mutual
/-- the number of cells of a row, or of the rows of a part of a table -/
def rowSize : HNode → List Nat
  | .mk i ch =>
    if isRow (.mk i ch) then [(ch.filter isCell).length] else if isPart (.mk i ch) then rowSizes ch else []
/-- the numbers of cells of the rows in a table or a part of it -/
def rowSizes : List HNode → List Nat
  | [] => []
  | n :: ns => rowSize n ++ rowSizes ns
end

/-- all numbers are the same -/
def allSame : List Nat → Bool
  | [] => true
  | n :: ns => ns.all (· = n)

/-- where a node stands -/
inductive Place where
  /-- outside of any table -/
  | free
  /-- in a cell -/
  | cell
  /-- in a row -/
  | row
  /-- in a part of a table -/
  | part
  /-- in a table -/
  | table
  deriving DecidableEq, Repr

mutual
/-- Pictures, rules, line breaks and texts have no children.  Tables are not nested.  In a table there are parts and
rows; in a part, rows; in a row, cells; everything else is inside of cells.  The rows of a table have equally many cells,
except in textile.  In markdown, preformatted text inside of a line does not end in `</code>`. -/
def tidy (lang : Lang) (p : Place) : HNode → Bool
  | .mk i ch =>
    match p with
    | .table => isGap (.mk i ch) || isRow (.mk i ch) && tidyL lang .row ch || isPart (.mk i ch) && tidyL lang .part ch
    | .part => isGap (.mk i ch) || isRow (.mk i ch) && tidyL lang .row ch
    | .row => isGap (.mk i ch) || isCell (.mk i ch) && tidyL lang .cell ch
    | _ =>
      if leafKinds.contains i.kind then
        ch.isEmpty && !(lang = .markdown && i.kind = c!"inlinedata_pre" && c!"</code>".isSuffixOf (i.content.getD []))
      else if i.kind = c!"table" then
        p = .free && tidyL lang .table ch && (lang = .textile || allSame (rowSizes ch))
      else !isRow (.mk i ch) && !isCell (.mk i ch) && tidyL lang p ch
def tidyL (lang : Lang) (p : Place) : List HNode → Bool
  | [] => true
  | n :: ns => tidy lang p n && tidyL lang p ns
end

/-! ## Trees for which only markup is added -/

/-- elements for which words are added: addresses, names of pictures, `h1.`, `<pre>`, `1.`, `<sup>` -/
def wordyKinds : Lang → List Str
  | .creole => [c!"a", c!"img"]
  | .textile => [c!"a", c!"img", c!"headline", c!"blockdata_pre", c!"inlinedata_pre"]
  | .markdown => [c!"a", c!"img", c!"ol", c!"sup", c!"sub"]
  | .rest => [c!"a", c!"img", c!"inlinedata_pre"]

/-- Only markup is added for the node.  (The HTML parser creates no charref without a number and no blockdata_pass without a
content, unless there are tags of these names.) -/
def bare (cfg : Cfg) (i : HInfo) : Bool :=
  !(wordyKinds cfg.lang).contains i.kind && (cfg.policy = .transparent || (knownKinds cfg.lang).contains i.kind) &&
    (i.kind ≠ c!"charref" || (numbered (i.content.getD [])).isSome) &&
    ((i.kind ≠ c!"blockdata_pass" && i.kind ≠ c!"entityref") || i.content.isSome)

end Verif.Spec.Sh
