import Verif.Spec.CreoleDoc

/-!
# Specification: lines without markup
-/

namespace Verif.Spec.Cr

open Verif

/-- A text that contains no markup: no tilde and none of `[<{*/#_^,-\` twice in a row. -/
def plainText (s : Str) : Bool :=
  !s.contains '\n' && !s.contains '~' && doubled.all fun c => !occurs [c, c] s

/-- the first character that is not a blank begins neither a heading nor a list nor a table -/
def plainHead (s : Str) : Bool := !((s.dropWhile Py.isSpace).head?).any (c!"=*#|").contains

/-- A line of plain text. -/
def plainLine (s : Str) : Bool :=
  !s.all Py.isSpace && plainText s && plainHead s && s.getLast? != some '\\'

/-- the lines of a paragraph, `nl` between them -/
def plainLines (nl : Str) : List Str → Str
  | [] => []
  | [l] => textHtml l
  | l :: m :: ls => textHtml l ++ nl ++ plainLines nl (m :: ls)

/-- A paragraph with the blank lines before it. -/
structure Para where
  gap : List Str
  lines : List Str

def Para.all (p : Para) : List Str := p.gap ++ p.lines

/-- one `<p>` -/
def Para.html (nl : Str) (p : Para) : Str := c!"<p>" ++ plainLines nl p.lines ++ c!"</p>"

/-- the lines between two paragraphs of the output: one empty line, or two of them if the gap has at least two lines
of which the last one is empty -/
def Para.sep (p : Para) : Str := if p.gap.length ≥ 2 ∧ p.gap.getLast? = some [] then c!"\n\n\n" else c!"\n\n"

def parasHtml (nl : Str) : List Para → Str
  | [] => []
  | [p] => p.html nl
  | p :: q :: ps => p.html nl ++ q.sep ++ parasHtml nl (q :: ps)

/-- a paragraph has lines, and they are plain; the gap before it consists of blank lines -/
def Para.ok (p : Para) : Bool := p.gap.all blank && !p.lines.isEmpty && p.lines.all plainLine

/-- paragraphs separated by blank lines -/
def parasOk : List Para → Bool
  | [] => true
  | p :: ps => p.ok && ps.all (fun q => q.ok && !q.gap.isEmpty)

/-- a tilde before every character that is not a blank -/
def tildes (s : Str) : Str := s.flatMap fun c => if Py.isSpace c then [c] else ['~', c]

end Verif.Spec.Cr
