import Verif.Spec.RoundTripPre

/-!
# Specification: wiki style line breaks and back

With wiki style line breaks (`blog_line_breaks=False`) the lines of a paragraph are parts of one line.
-/

namespace Verif.Spec.Rt

open Verif Cr

/-- the lines of a paragraph as one line, with blanks between them; a line that ends in a backslash is continued -/
def oneLineOf : List (List Inl) → List Inl
  | [] => []
  | [l] => l
  | l :: m :: ls => l ++ (if (prints l).getLast? = some '\\' then [] else [.chr ' ']) ++ oneLineOf (m :: ls)

/-- the block with its paragraph on one line -/
def joinedBlock : Block → Block
  | .para ls => .para [oneLineOf ls]
  | b => b

/-- the document with its paragraphs on one line each -/
def joinedDoc (d : Doc) : Doc := d.map fun x => (x.1, joinedBlock x.2)

/-- a paragraph has one line -/
def Part.oneLine : Part → Bool
  | .block (.para ls) => ls.length == 1
  | _ => true

end Verif.Spec.Rt
