import Verif.Spec.Plain

/-!
# Specification: nested typefaces
-/

namespace Verif.Spec.Cr

open Verif

/-- text or text in a typeface -/
inductive Span where
  | text (s : Str)
  | face (f : Face) (l : List Span)

mutual
def Span.print : Span → Str
  | .text s => s
  | .face f l => [f.char, f.char] ++ spansPrint l ++ [f.char, f.char]
def spansPrint : List Span → Str
  | [] => []
  | x :: l => x.print ++ spansPrint l
end

mutual
def Span.html : Span → Str
  | .text s => textHtml s
  | .face f l => c!"<" ++ f.tag ++ c!">" ++ spansHtml l ++ c!"</" ++ f.tag ++ c!">"
def spansHtml : List Span → Str
  | [] => []
  | x :: l => x.html ++ spansHtml l
end

/-- a text of one line without the characters that are used in markup; slashes behind a colon are part of a URL -/
def cleanText (s : Str) : Bool :=
  !s.isEmpty && s.all (fun c => !(c!"*/#_^,-~[{<\\\n").contains c) && s.getLast? != some ':'

def Span.isText : Span → Bool
  | .text _ => true
  | .face _ _ => false

mutual
/-- a typeface is used only once on every way from the outside to the inside; `used` are those outside; a text is
followed by a typeface -/
def Span.ok (used : List Face) : Span → Bool
  | .text s => cleanText s
  | .face f l => !used.contains f && !l.isEmpty && spansOk (f :: used) l
def spansOk (used : List Face) : List Span → Bool
  | [] => true
  | x :: l => x.ok used && !(x.isText && (l.head?).any Span.isText) && spansOk used l
end

end Verif.Spec.Cr
