import Verif.Spec.HtmlDoc

/-!
# Specification: the structure of converted documents

Which elements may stand in which ones in an HTML document that was made from creole.
-/

namespace Verif.Spec.Gr

open Verif Hd

/-- where something stands -/
inductive Ctx where
  /-- at the top of the document -/
  | doc
  /-- in `<ul>` or `<ol>` -/
  | list
  /-- in `<li>` -/
  | item
  /-- in `<table>` -/
  | table
  /-- in `<tr>` -/
  | row
  /-- in `<p>`, `<td>`, `<th>` or a typeface -/
  | line
  /-- in `<a>` -/
  | link
  /-- in `<pre>`, `<code>` or a heading -/
  | plain
  deriving DecidableEq, Repr

/-- the eight typefaces -/
def faces : List Str := [c!"i", c!"strong", c!"tt", c!"sup", c!"sub", c!"u", c!"small", c!"del"]

/-- the tags of running text and where they lead -/
def running (tag : Str) (names : List Str) : Option Ctx :=
  if tag = c!"a" then if names = [c!"href"] then some .link else none
  else if names ≠ [] then none
  else if faces.contains tag then some .line
  else if tag = c!"code" then some .plain
  else none

/-- the tag of a heading: `h` and its level, which is not 0 -/
def isHeading : Str → Bool
  | 'h' :: d => !d.isEmpty && d.all Char.isDigit && d.head? != some '0'
  | _ => false

/-- where the content of an element stands; `none` if the element must not stand there -/
def inside : Ctx → Str → List Str → Option Ctx
  | .doc, tag, names =>
    if names ≠ [] then none
    else if tag = c!"p" then some .line
    else if tag = c!"ul" ∨ tag = c!"ol" then some .list
    else if tag = c!"table" then some .table
    else if tag = c!"pre" ∨ isHeading tag = true then some .plain
    else none
  | .list, tag, names => if tag = c!"li" ∧ names = [] then some .item else none
  | .item, tag, names => if (tag = c!"ul" ∨ tag = c!"ol") ∧ names = [] then some .list else running tag names
  | .table, tag, names => if tag = c!"tr" ∧ names = [] then some .row else none
  | .row, tag, names => if (tag = c!"td" ∨ tag = c!"th") ∧ names = [] then some .line else none
  | .line, tag, names => running tag names
  | .link, _, _ => none
  | .plain, _, _ => none

/-- elements without content -/
def single : Ctx → Str → List Str → Bool
  | .doc, tag, names => tag = c!"hr" && names = []
  | .item, tag, names | .line, tag, names | .link, tag, names =>
    tag = c!"br" && names = [] || tag = c!"img" && (names = [c!"src", c!"title", c!"alt"] ||
      names = [c!"src", c!"title", c!"alt", c!"width", c!"height"])
  | _, _, _ => false

/-- where text may stand -/
def takesText : Ctx → Bool
  | .item | .line | .link | .plain => true
  | _ => false

/-- the values of attributes are single lines -/
def lines (attrs : List (Str × Str)) : Bool := attrs.all fun a => !a.2.contains '\n'

mutual
/-- a piece that may stand in a place -/
def fine (c : Ctx) : Ht → Bool
  | .text s => takesText c || s.all Py.isSpace
  | .white s => s.all Py.isSpace
  | .el tag attrs ch =>
    match inside c tag (attrs.map (·.1)) with
    | some c' => lines attrs && fineL c' ch
    | none => false
  | .void tag attrs => single c tag (attrs.map (·.1)) && lines attrs
  | .bare _ _ => false
def fineL (c : Ctx) : List Ht → Bool
  | [] => true
  | x :: xs => fine c x && fineL c xs
end

/-- The structure of a document: at the top there are paragraphs, headings, lists, tables, rules and preformatted texts; in
lists, items; in tables, rows of cells; in running text, typefaces, links, pictures, line breaks and `<code>`; and text
stands nowhere else. -/
def Structured (html : Str) : Prop := ∃ l, html = written l ∧ fineL .doc l = true

end Verif.Spec.Gr
