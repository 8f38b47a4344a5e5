import Verif.Spec.Creole

/-!
# Specification: pictures without a title

`{{picture.png||10x20}}` is a picture of the given size without a title; then the title is the name of the picture, and it
is not escaped.
-/

namespace Verif.Spec

open Verif

/-- a bar behind a bar or a brace, with nothing but blanks between them -/
def BarAfter (s : Str) : Prop := ∃ c w, (c = '|' ∨ c = '{') ∧ (∀ d ∈ w, Py.isSpace d = true) ∧ (c :: (w ++ ['|'])) <:+: s

/-- a text that may contain a picture whose title is empty -/
def MayLackTitle (s : Str) : Prop := c!"{{" <:+: s ∧ BarAfter s

/-- a character that cannot be written as it is in HTML -/
def marked (c : Char) : Bool := c = '&' || c = '<' || c = '>' || c = '"'

end Verif.Spec
