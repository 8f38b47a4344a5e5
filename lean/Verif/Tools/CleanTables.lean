import Verif.Tools.Rest

/-!
# The tables of the clean HTML writer

Models the methods of `CleanHTMLTranslator` in `/repo/creole/rest_tools/clean_writer.py` 122-167 for tables, field lists, the
docinfo, block quotes, and the end of the document.  docutils is not part of the repository; what its methods do is in `Base`.
-/

namespace Verif.Tools

open Verif Py

/-- an element of `self.context` -/
inductive Saved where
  /-- `compact_p` -/
  | compact (p : Option Bool)
  /-- `(compact_field_list, compact_p)` -/
  | fields (fl p : Option Bool)
  deriving DecidableEq, Repr

/-- the attributes of the translator that its methods use; `body` and `context` with the last element first -/
structure Trans where
  body : List Str := []
  context : List Saved := []
  compactP : Option Bool := some true
  compactFields : Option Bool := some false
  deriving DecidableEq, Repr

/-- what is taken over from docutils (`html4css1.HTMLTranslator`): its version, `attval`, whether `depart_table` takes back
`compact_p` from the context, and what `visit_field_list` gives to `starttag` and appends behind it (the columns) -/
structure Base where
  version : Str
  attval : Str → Str
  tablePops : Bool
  fieldAttrs : List (Str × AttrVal)
  columns : Str

/-- the nodes of a docutils document that matter here -/
inductive TabPart where
  | table (parts : List TabPart)
  /-- a field list; `visit_field_list` of docutils sets `compact_field_list` to `compact` -/
  | fieldList (compact : Option Bool) (parts : List TabPart)
  | docinfo (parts : List TabPart)
  /-- a `thead`, `tbody`, `tgroup` or `block_quote` -/
  | silent (parts : List TabPart)
  /-- any other node: it appends some pieces before and behind its parts, and leaves the context alone -/
  | other (before after : List Str) (parts : List TabPart)

/-- clean_writer.py 145: `docutils.__version__ > "0.10"`, a comparison of texts -/
def Base.newer (b : Base) : Bool := !keyLe b.version c!"0.10"

/-- clean_writer.py 144-148: `visit_table`; `none` is an exception -/
def visitTable (b : Base) (t : Trans) : Option Trans :=
  let t := if b.newer then { t with context := .compact t.compactP :: t.context, compactP := some true } else t
  (starttag b.attval c!"table" c!"\n" false []).map fun s => { t with body := s :: t.body }

/-- `depart_table` of docutils; an empty context and an element of another kind are errors -/
def departTable (b : Base) (t : Trans) : Option Trans :=
  if b.tablePops then
    match t.context with
    | .compact p :: c => some { t with compactP := p, context := c, body := c!"</table>\n" :: t.body }
    | _ => none
  else some { t with body := c!"</table>\n" :: t.body }

/-- clean_writer.py 153-156: `visit_field_list`, with the method of docutils that it calls -/
def visitFieldList (b : Base) (compact : Option Bool) (t : Trans) : Option Trans :=
  (starttag b.attval c!"table" c!"\n" false b.fieldAttrs).map fun s =>
    let body := b.columns :: s :: t.body
    let body := if hasSub c!"<col" b.columns then body.drop 1 else body
    { t with context := .fields t.compactFields t.compactP :: t.context, compactP := none, compactFields := compact, body := body }

/-- clean_writer.py 158-160: `depart_field_list` -/
def departFieldList (t : Trans) : Option Trans :=
  match t.context with
  | .fields fl p :: c => some { t with compactFields := fl, compactP := p, context := c, body := c!"</table>\n" :: t.body }
  | _ => none

/-- clean_writer.py 162-163: `visit_docinfo` -/
def visitDocinfo (b : Base) (t : Trans) : Option Trans :=
  (starttag b.attval c!"table" c!"\n" false []).map fun s => { t with body := s :: t.body }

/-- clean_writer.py 165-166: `depart_docinfo` -/
def departDocinfo (t : Trans) : Trans := { t with body := c!"</table>\n" :: t.body }

mutual

/-- `walkabout` of docutils: visit a node, its children, and depart -/
def walkTab (b : Base) (t : Trans) : TabPart → Option Trans
  | .table parts => (visitTable b t).bind fun t => (walkTabs b t parts).bind (departTable b)
  | .fieldList compact parts => (visitFieldList b compact t).bind fun t => (walkTabs b t parts).bind departFieldList
  | .docinfo parts => (visitDocinfo b t).bind fun t => (walkTabs b t parts).map departDocinfo
  | .silent parts => walkTabs b t parts
  | .other before after parts =>
    (walkTabs b { t with body := before.reverse ++ t.body } parts).map fun t => { t with body := after.reverse ++ t.body }

/-- the nodes one after the other -/
def walkTabs (b : Base) (t : Trans) : List TabPart → Option Trans
  | [] => some t
  | p :: ps => (walkTab b t p).bind fun t => walkTabs b t ps

end

/-- clean_writer.py 130-134: `depart_document`.  `html_body` was empty before; the four lists of docutils are in their order.  A
failing assertion is `none`. -/
def departDocument (prefixes preDocinfo docinfo suffixes : List Str) (t : Trans) : Option (List Str) :=
  let htmlBody := prefixes.drop 1 ++ preDocinfo ++ docinfo ++ t.body.reverse ++ suffixes.dropLast
  if t.context.isEmpty then some htmlBody else none

end Verif.Tools
