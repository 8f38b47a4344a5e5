import Verif.Creole.Chosen
import Verif.Spec.Lines
import Verif.Spec.Grammar

/-!
# Specification: which rules a text needs
-/

namespace Verif.Creole

/-- The name of a rule (the attribute of `BlockRules` and the group of its expression).  The text rules for both kinds of line
breaks have the same name. -/
def BRule.name : BRule → G
  | .macro_block => .macro_block
  | .line => .line
  | .head => .head
  | .separator => .separator
  | .pre_block => .pre_block
  | .list => .list
  | .table => .table
  | .text _ => .text

end Verif.Creole

namespace Verif.Spec.Ch

open Verif Creole

/-- a line begins with `w`, after blanks -/
def after (w line : Str) : Bool := w.isPrefixOf (line.dropWhile Py.isSpace)

/-- The text has what the rule is made for: `<<` for the macro blocks, otherwise a certain line: a blank one, one that begins with
`=`, one with `----`, one that consists of `{{{`, one with a bullet, with a bar, or any line that is not empty. -/
def Needs : BRule → Str → Prop
  | .macro_block, markup => c!"<<" <:+: markup
  | .line, markup => ∃ l ∈ textLines markup, l.all Py.isSpace = true
  | .head, markup => ∃ l ∈ textLines markup, c!"=".isPrefixOf l = true
  | .separator, markup => ∃ l ∈ textLines markup, after c!"----" l = true
  | .pre_block, markup => ∃ l ∈ textLines markup, ∃ w, l = c!"{{{" ++ w ∧ w.all Py.isSpace = true
  | .list, markup => ∃ l ∈ textLines markup, after c!"*" l = true ∨ after c!"#" l = true
  | .table, markup => ∃ l ∈ textLines markup, after c!"|" l = true
  | .text _, markup => ∃ l ∈ textLines markup, l ≠ []

/-- the elements a rule makes -/
def makes : BRule → Str → Bool
  | .head, tag => Gr.isHeading tag
  | .separator, tag => tag = c!"hr"
  | .pre_block, tag => tag = c!"pre"
  | .list, tag => tag = c!"ul" || tag = c!"ol"
  | .table, tag => tag = c!"table"
  | .text _, tag => tag = c!"p"
  | .macro_block, _ | .line, _ => false

/-- a piece of the document stems from one of the rules -/
def From (rules : List BRule) : Hd.Ht → Prop
  | .el tag _ _ | .void tag _ => ∃ r ∈ rules, makes r tag = true
  | .text s | .white s => s.all Py.isSpace = true
  | .bare _ _ => False

end Verif.Spec.Ch
