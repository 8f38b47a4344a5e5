import Verif.Spec.HtmlDoc

/-!
# Specification: written HTML with preformatted text

HTML documents with areas `<pre>`…`</pre>` whose tags stand on lines of their own, between the top-level elements.
-/

namespace Verif.Spec.Hd

open Verif Cr

/-- an area of preformatted text, line by line; the white space behind it; and the HTML up to the next area -/
structure Area where
  lines : List Str
  white : Str
  after : List Ht

/-- what stands between the tags of an area -/
def Area.content (a : Area) : Str := '\n' :: a.lines.flatMap fun l => textHtml l ++ c!"\n"

/-- how an area is written -/
def Area.print (a : Area) : Str := c!"<pre>" ++ a.content ++ c!"</pre>"

/-- how areas are written, together with the HTML behind each of them -/
def areasWritten : List Area → Str
  | [] => []
  | a :: l => a.print ++ a.white ++ written a.after ++ areasWritten l

/-- how a document is written: some HTML and then the areas -/
def preWritten (first : List Ht) (l : List Area) : Str := written first ++ areasWritten l

/-- the node of an area: its content is left as it is written -/
def Area.node (a : Area) : Html.HNode := .mk { kind := c!"blockdata_pre", content := some a.content } []

/-- the nodes of a document -/
def preNodes (first : List Ht) (l : List Area) : List Html.HNode :=
  nodesL 0 (elsL first) ++ l.flatMap fun a => a.node :: nodesL 0 (elsL a.after)

/-- nothing, or something that ends with a line break -/
def lineEnd (s : Str) : Bool := s.isEmpty || s.getLast? == some '\n'

/-- white space with a line break -/
def lineBreak (s : Str) : Bool := s.all Py.isSpace && s.contains '\n'

/-- the first character is no blank -/
def bareHead (s : Str) : Bool := (s.head?).all fun c => !Py.isSpace c

/-- lines, of which the first one is not blank -/
def Area.linesOk (a : Area) : Bool :=
  (a.lines.head?).any (fun l => !l.all Py.isSpace) && a.lines.all fun l => !l.contains '\n'

/-- Every area begins at the start of a line, and there is a line break behind it, unless the document ends there. -/
def areasOk : List Area → Bool
  | [] => true
  | [a] => a.linesOk && if (written a.after).isEmpty then a.white.isEmpty else lineBreak a.white && bareHead (written a.after)
  | a :: b :: l => a.linesOk && lineBreak a.white && bareHead (written a.after) && lineEnd (a.white ++ written a.after) &&
      areasOk (b :: l)

/-- the areas as parts of a sequence: like inline elements without content; the white space behind them is left out -/
def areasBits : List Area → List Bit
  | [] => []
  | a :: l => .tag .single a.print :: (bitsL a.after ++ areasBits l)

/-- a document whose areas are on lines of their own and whose blanks are in order -/
def preNeat (first : List Ht) (l : List Area) : Bool :=
  okL first && l.all (fun a => okL a.after) && areasOk l && (l.isEmpty || lineEnd (written first)) &&
    spaced .block (bitsL first ++ areasBits l) && bareEdges (bitsL first ++ areasBits l)

end Verif.Spec.Hd
