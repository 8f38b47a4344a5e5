import Verif.Spec.ArticleRest
import Verif.Spec.HtmlPre

/-!
# Specification: articles with preformatted text

Articles (`Verif.Spec.Article`) with areas of preformatted text between their blocks: their text in creole, textile, markdown
and ReStructuredText.  Nothing here uses the converters.
-/

namespace Verif.Spec.Ar

open Verif Hd

/-- a block of an article, or an area of preformatted text -/
inductive Sec where
  | block (b : Bl)
  | pre (lines : List Str)

/-- an article: the blocks before the first area, and every area with the blocks after it -/
def secs (head : List Bl) (areas : List (List Str × List Bl)) : List Sec :=
  head.map .block ++ areas.flatMap fun x => .pre x.1 :: x.2.map .block

/-- written HTML stands for such an article -/
structure StandsForSecs (first : List Ht) (l : List Area) (head : List Bl) (areas : List (List Str × List Bl)) : Prop where
  first : elsL first = head.map Bl.el
  areas : l.map (fun a => (a.lines, elsL a.after)) = areas.map fun x => (x.1, x.2.map Bl.el)

/-! ## Creole, textile and markdown -/

/-- the lines before and after preformatted text -/
def fence : To → Str × Str
  | .creole => (c!"{{{", c!"}}}")
  | .textile => (c!"<pre>", c!"</pre>")
  | .markdown => (c!"```", c!"```")

/-- the lines of preformatted text are left as they are -/
def Sec.lines (to : To) : Sec → List Str
  | .block b => b.lines to
  | .pre ls => (fence to).1 :: ls ++ [(fence to).2]

/-- The empty lines between two parts.  There is none before preformatted text in markdown, and none after it in creole and
textile. -/
def secGap : To → Sec → Sec → List Str
  | to, .block a, .block b => gap to a b
  | .markdown, _, .pre _ => []
  | .markdown, .pre _, .block (.list _ _) => [[], []]
  | .markdown, .pre _, .block _ => [[]]
  | _, .block (.table _), .pre _ => []
  | _, .block _, .pre _ => [[]]
  | _, .pre _, _ => []

def secsLines (to : To) : List Sec → List Str
  | [] => []
  | [x] => x.lines to
  | x :: y :: l => x.lines to ++ secGap to x y ++ secsLines to (y :: l)

/-- the text of an article; there are no blanks and no empty lines at its ends -/
def secsText (to : To) (l : List Sec) : Str := Py.strip (joinLines c!"\n" (secsLines to l))

/-! ## ReStructuredText -/

/-- four blanks at the beginning of every line -/
def indented (s : Str) : Str := c!"    " ++ s.flatMap fun c => if c = '\n' then c!"\n    " else [c]

/-- Preformatted text is indented, below two colons.  The blanks at its ends are left out: also those at the beginning of its
first line. -/
def Sec.rest : Sec → Refs → Option (List Str × Refs)
  | .block b, r => b.rest r
  | .pre ls, r => some ([c!"::", [], indented (Py.strip (joinLines c!"\n" ls))], r)

def secsRest : List Sec → Refs → Option (List Str)
  | [], _ => some []
  | [x], r => (x.rest r).map fun (lines, r) => lines ++ below r.waiting
  | x :: y :: l, r => (x.rest r).bind fun (lines, r) =>
      (secsRest (y :: l) { r with waiting := [] }).map fun more => lines ++ below r.waiting ++ [[]] ++ more

/-- the text of an article; there is none if one text is used for two addresses -/
def secsRestText (l : List Sec) : Option Str := (secsRest l {}).map fun lines => Py.rstrip (joinLines c!"\n" lines)

/-- the characters that end a line in Python, except for `\n` -/
def otherLineEnd (c : Char) : Bool :=
  ['\u000b', '\u000c', '\r', '\u001c', '\u001d', '\u001e', '\u0085', '\u2028', '\u2029'].contains c

end Verif.Spec.Ar
