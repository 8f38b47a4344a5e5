import Verif.Py.Re

/-!
# Specification: the characters that are not markup

Nothing here uses the parser or the emitter.
-/

namespace Verif.Spec.Kp

open Verif

/-- the characters creole markup is made of (except for macros) -/
def markChars : Str := c!"*/#_^,-~\\[]{}|="

/-- a visible character that is not markup -/
def keeps (c : Char) : Bool := !Py.isSpace c && !markChars.contains c

/-- what is left of a text without blanks and markup characters -/
def letters (s : Str) : Str := s.filter keeps

/-- the characters of the size of an image, as in `{{a.png|text|90x160}}` -/
def ofSize (c : Char) : Bool := c == 'x' || c == '+' || (Py.decimal? c).isSome

/-- … also without the characters of sizes -/
def lettersNoSize (s : Str) : Str := s.filter fun c => keeps c && !ofSize c

/-! ## Reading HTML -/

/-- where one is in a HTML text: between tags, in a tag, in the value of an attribute -/
inductive Where where
  | text
  | tag
  | value

/-- what is outside of tags, and the values of attributes -/
def visible : Where → Str → Str
  | _, [] => []
  | .text, c :: s => if c = '<' then visible .tag s else c :: visible .text s
  | .tag, c :: s => if c = '>' then visible .text s else if c = '"' then visible .value s else visible .tag s
  | .value, c :: s => if c = '"' then visible .tag s else c :: visible .value s

/-- The entities are replaced by the characters they stand for; the next `n` characters are dropped.  (The end of `&quot;` is
not needed.) -/
def decode : Nat → Str → Str
  | _, [] => []
  | n + 1, _ :: s => decode n s
  | 0, c :: s =>
    if c = '&' then
      if c!"amp;" <+: s then '&' :: decode 4 s
      else if c!"lt;" <+: s then '<' :: decode 3 s
      else if c!"gt;" <+: s then '>' :: decode 3 s
      else if c!"quot" <+: s then '"' :: decode 4 s
      else '&' :: decode 0 s
    else c :: decode 0 s

/-- what one reads in a HTML text, with the values of attributes -/
def reading (html : Str) : Str := decode 0 (visible .text html)

example : letters c!"a **b//c**: [[x.y|Z & 1]]" = c!"abc:x.yZ&1" := by decide +kernel
example : lettersNoSize c!"{{a|text|9x16}}" = c!"atet" := by decide +kernel
example : reading c!"<p>a <b>&lt;b&gt;</b> <a href=\"x?a&amp;b\">AT&amp;T</a></p>" = c!"a <b> x?a&bAT&T" := by decide +kernel

end Verif.Spec.Kp
