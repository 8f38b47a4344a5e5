import Verif.Tools.Rest

/-!
# The visitor methods of the clean HTML writer

Models methods of `CleanHTMLTranslator` in `/repo/creole/rest_tools/clean_writer.py`.  The methods of its base class in docutils
are parameters: what they have appended to `self.body`.
-/

namespace Verif.Tools

open Verif Py

/-! ## Images -/

/-- what `visit_image` reads of the node: its `align`, the tag name of its parent and the `align` of that -/
structure ImageNode where
  align : Option Str
  parentTag : Str
  parentAlign : Option Str

/-- clean_writer.py 176-186: the alignment; an empty one counts as none -/
def ImageNode.alignment (n : ImageNode) : Option Str :=
  let align := match n.align with
    | some a => some a
    | none => if n.parentTag = c!"figure" then n.parentAlign else none
  if align = some [] then none else align

/-- clean_writer.py 173-187: `visit_image`.  `body` is `self.body` after the method of the base class, the last piece first
(it is not empty then). -/
def visitImage (n : ImageNode) (body : List Str) : List Str :=
  match body with
  | [] => []
  | last :: rest =>
    if c!"<img".isPrefixOf last then
      match n.alignment with
      | some align => replace c!" />" (c!" align=\"" ++ align ++ c!"\" />") last :: rest
      | none => last :: rest
    else last :: rest

#guard visitImage { align := none, parentTag := c!"figure", parentAlign := some c!"left" } [c!"<img alt=\"a\" />\n", c!"<p>"] =
  [c!"<img alt=\"a\" align=\"left\" />\n", c!"<p>"]

/-! ## Sections -/

/-- the parts of a docutils document that matter for `section_level` -/
inductive DocPart where
  | section (parts : List DocPart)
  | title
  /-- any other node -/
  | other (parts : List DocPart)

mutual

/-- clean_writer.py 116-120: `visit_section` and `depart_section`, called while docutils walks over the document (`walkabout`:
visit, the children, depart).  Gives the value of `self.section_level` at each title, and the value at the end. -/
def walkPart (level : Int) : DocPart → List Int × Int
  | .section parts =>
    let (seen, level) := walkParts (level + 1) parts
    (seen, level - 1)
  | .title => ([level], level)
  | .other parts => walkParts level parts

/-- the nodes one after the other -/
def walkParts (level : Int) : List DocPart → List Int × Int
  | [] => ([], level)
  | p :: ps =>
    let (seen, level) := walkPart level p
    let (seen', level) := walkParts level ps
    (seen ++ seen', level)

end

end Verif.Tools
