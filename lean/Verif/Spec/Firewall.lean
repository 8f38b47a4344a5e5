import Verif.Spec.Lines
import Verif.Spec.TocFree

/-!
# Specification: texts that end at a blank line

The conditions under which the text before a blank line can have nothing to do with what follows: no markup that may go
on behind a blank line is open at its end.
-/

namespace Verif.Spec

open Verif Py

/-- a line of white space -/
def blankLine (l : Str) : Bool := l.all isSpace

/-- the line `{{{`, behind which everything up to a line `}}}` is preformatted -/
def opensPre (l : Str) : Bool := c!"{{{".isPrefixOf l && blankLine (l.drop 3)

/-- the line is blank, begins a row of a table or consists of the characters of headings and lists: the blanks that may follow
such markup may be line breaks -/
def mayContinue (l : Str) : Bool :=
  (l.dropWhile isSpace).head? == some '|' || l.all fun c => isSpace c || c = '=' || c = '*' || c = '#'

def firstLine (s : Str) : Str := (textLines s).headD []
def lastLine (s : Str) : Str := (textLines s).getLastD []

/-- a text without calls of macros in which nothing is open at the end -/
structure Complete (a : Str) : Prop where
  macros : ¬ c!"<<" <:+: a
  pre : ∀ l ∈ textLines a, opensPre l = false
  last : mayContinue (lastLine a) = false

/-- the texts `xs` one after another, with white space between them and behind them -/
inductive Spaced : List Str → Str → Prop
  | nil : Spaced [] []
  | cons (x w t : Str) (xs : List Str) : (∀ c ∈ w, isSpace c = true) → Spaced xs t → Spaced (x :: xs) (x ++ w ++ t)

end Verif.Spec
