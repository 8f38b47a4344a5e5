import Verif.Spec.Held
import Verif.Spec.PreAreas

/-!
# Specification: HTML with preformatted text and arbitrary blanks

Documents with areas `<pre>`…`</pre>` between the top-level elements, as they are written and as they are read.
-/

namespace Verif.Spec.Hd

open Verif Cr

/-- an area of preformatted text and the HTML up to the next area -/
structure Pre where
  text : Str
  after : List Ht

/-- how areas are written, together with the HTML behind each of them -/
def presWritten : List Pre → Str
  | [] => []
  | a :: l => c!"<pre>" ++ textHtml a.text ++ c!"</pre>" ++ written a.after ++ presWritten l

/-- there is a line break among the blanks a text begins with -/
def breaksFirst (s : Str) : Bool := (s.takeWhile Py.isSpace).contains '\n'

/-- The text of an area begins and ends with a line break. -/
def Pre.ok (a : Pre) : Bool := a.text.head? == some '\n' && a.text.getLast? == some '\n' && fitsL a.after

/-- A line break follows the end tag of every area, or at least nothing but blanks if it is the last one. -/
def presOk : List Pre → Bool
  | [] => true
  | [a] => a.ok && (breaksFirst (written a.after) || (written a.after).all Py.isSpace)
  | a :: b :: l => a.ok && breaksFirst (written a.after) && presOk (b :: l)

/-- a text without its leading blank lines; the line break before the first line that is not blank stays -/
def unlead : Str → Str
  | [] => []
  | c :: s => if breaksFirst s then unlead s else c :: s

/-- The node of an area.  At the beginning of a line it is a block, and leading blank lines are dropped.  The content is left
as it is written. -/
def preNode (line : Bool) (text : Str) : Html.HNode :=
  if line then .mk { kind := c!"blockdata_pre", content := some (unlead (textHtml text)) } []
  else .mk { kind := c!"inlinedata_pre", content := some (textHtml text) } []

/-- what follows a text begins a line -/
def beginsLine (before : Str) : Bool := before.getLast? == some '\n'

/-- what follows the first part of a document begins a line -/
def firstLine (first : Str) : Bool := first.all Py.isSpace || beginsLine first

/-- `ReadAs line l nodes`: the areas `l` and the HTML behind them are read as the nodes, if the first area does (`line`) or
does not begin a line -/
inductive ReadAs : Bool → List Pre → List Html.HNode → Prop
  | nil (line : Bool) : ReadAs line [] []
  | cons (line : Bool) (a : Pre) (l : List Pre) (after : List Ht) (nodes : List Html.HNode) :
      SameSolid after a.after → fitsL after = true → ReadAs (beginsLine (written a.after)) l nodes →
      ReadAs line (a :: l) (preNode line a.text :: (nodesL 0 (elsL (asReadL after)) ++ nodes))

end Verif.Spec.Hd
