import Verif.Html.Parser

/-!
# Specification: which tree an HTML document denotes

Used by the properties C27, C28, C29 of the HTML parser.  Nothing here uses the parser model; the types of events and
tree nodes are shared with it.
-/

namespace Verif.Spec

open Verif Html

/-! ## What a tree contains -/

mutual

/-- all texts, character references and entity references of a tree, in document order -/
def texts : HNode → List (Str × Str)
  | .mk i ch =>
    (match i.content with
      | some c => if i.kind = c!"data" ∨ i.kind = c!"charref" ∨ i.kind = c!"entityref" then [(i.kind, c)] else []
      | none => []) ++ textsL ch

def textsL : List HNode → List (Str × Str)
  | [] => []
  | n :: ns => texts n ++ textsL ns

end

mutual

/-- `(kind, level)` of all list elements of a tree, in document order -/
def listLevels : HNode → List (Str × Int)
  | .mk i ch =>
    (match i.level with
      | some l => if i.kind = c!"li" ∨ i.kind = c!"ul" ∨ i.kind = c!"ol" then [(i.kind, l)] else []
      | none => []) ++ listLevelsL ch

def listLevelsL : List HNode → List (Str × Int)
  | [] => []
  | n :: ns => listLevels n ++ listLevelsL ns

end

/-! ## Open elements -/

/-- the block elements of HTML, as the project defines them -/
def blockNames : List Str := [
  c!"address", c!"blockquote", c!"center", c!"dir", c!"div", c!"dl", c!"fieldset", c!"form", c!"h1", c!"h2", c!"h3",
  c!"h4", c!"h5", c!"h6", c!"hr", c!"ins", c!"isindex", c!"men", c!"noframes", c!"noscript", c!"ul", c!"ol", c!"li",
  c!"table", c!"th", c!"tr", c!"td", c!"p", c!"pre", c!"br"]

/-- the level of a headline tag: `h` and a digit -/
def headline? : Str → Option Nat
  | 'h' :: d :: _ => Py.decimal? d
  | _ => none

/-- the kind of the node of a tag -/
def kindOf (tag : Str) : Str := if (headline? tag).isSome then c!"headline" else tag

/-- A block element closes everything up to the next block element around it (or the whole document). -/
def stops (kind : Str) : Bool := blockNames.contains kind || kind = c!"document"

/-- The kinds of the open elements (innermost first) after an event, the document itself not included; `none` when an
end tag of an inline element closes the document itself. -/
def openStep (stack : List Str) : Event → Option (List Str)
  | .start tag _ =>
    if tag = c!"tbody" ∨ tag = c!"img" ∨ tag = c!"br" then some stack else some (kindOf tag :: stack)
  | .end_ tag =>
    if tag = c!"tbody" ∨ tag = c!"br" then some stack
    else if blockNames.contains tag then some (stack.tail.dropWhile (!stops ·))
    else match stack with
      | [] => none
      | _ :: stack => some stack
  | _ => some stack

/-- the open elements after a sequence of events -/
def openAfter (evs : List Event) : Option (List Str) := evs.foldlM openStep []

/-! ## What the events announce -/

/-- the text or reference of an event -/
def eventText : Event → Option (Str × Str)
  | .data d => some (c!"data", d)
  | .charref n => some (c!"charref", n)
  | .entityref n => some (c!"entityref", n)
  | _ => none

/-- The list elements that are started, with the number of lists started but not ended at that point (for `ul` and
`ol`: itself included). -/
def announcedLevels : Int → List Event → List (Str × Int)
  | _, [] => []
  | n, .start tag _ :: evs =>
    if tag = c!"ul" ∨ tag = c!"ol" then (tag, n + 1) :: announcedLevels (n + 1) evs
    else if tag = c!"li" then (tag, n) :: announcedLevels n evs
    else announcedLevels n evs
  | n, .end_ tag :: evs => if tag = c!"ul" ∨ tag = c!"ol" then announcedLevels (n - 1) evs else announcedLevels n evs
  | n, _ :: evs => announcedLevels n evs

/-! ## Well-formed documents -/

/-- Well-formed HTML as a tree. -/
inductive El where
  | text (d : Str)
  | charref (name : Str)
  | entity (name : Str)
  /-- `<tag attrs />` -/
  | void (tag : Str) (attrs : List (Str × Option Str))
  /-- `<tag attrs> ... </tag>` -/
  | elem (tag : Str) (attrs : List (Str × Option Str)) (children : List El)
  /-- `<tbody> ... </tbody>` -/
  | tbody (children : List El)

mutual

/-- the events of an element: start tag, children, end tag -/
def El.events : El → List Event
  | .text d => [.data d]
  | .charref n => [.charref n]
  | .entity n => [.entityref n]
  | .void tag attrs => [.startend tag attrs]
  | .elem tag attrs ch => .start tag attrs :: (eventsL ch ++ [.end_ tag])
  | .tbody ch => .start c!"tbody" [] :: (eventsL ch ++ [.end_ c!"tbody"])

def eventsL : List El → List Event
  | [] => []
  | e :: es => e.events ++ eventsL es

end

mutual

/-- The nodes of an element inside `depth` lists.  `tbody` is transparent. -/
def El.nodes (depth : Int) : El → List HNode
  | .text d => [.mk { kind := c!"data", content := some d } []]
  | .charref n => [.mk { kind := c!"charref", content := some n } []]
  | .entity n => [.mk { kind := c!"entityref", content := some n } []]
  | .void tag attrs => [.mk { kind := tag, attrs := dictOf attrs } []]
  | .elem tag attrs ch =>
    match headline? tag with
    | some l => [.mk { kind := c!"headline", level := some l } (nodesL depth ch)]
    | none =>
      if tag = c!"ul" ∨ tag = c!"ol" then
        [.mk { kind := tag, attrs := dictOf attrs, level := some (depth + 1) } (nodesL (depth + 1) ch)]
      else if tag = c!"li" then [.mk { kind := tag, attrs := dictOf attrs, level := some depth } (nodesL depth ch)]
      else [.mk { kind := tag, attrs := dictOf attrs } (nodesL depth ch)]
  | .tbody ch => nodesL depth ch

def nodesL (depth : Int) : List El → List HNode
  | [] => []
  | e :: es => e.nodes depth ++ nodesL depth es

end

mutual

/-- Block elements are only used inside block elements (`inBlock`: the parent is a block element or the document).
`img` and `br` are only used as `<img />` and `<br />`; the placeholders of preformatted areas do not occur. -/
def El.wf (inBlock : Bool) : El → Bool
  | .void tag _ => tag ≠ c!"blockdata" && tag ≠ c!"inlinedata"
  | .elem tag _ ch =>
    tag ≠ c!"img" && tag ≠ c!"br" && tag ≠ c!"tbody" && (inBlock || !blockNames.contains tag) && wfL (stops (kindOf tag)) ch
  | .tbody ch => wfL inBlock ch
  | _ => true

def wfL (inBlock : Bool) : List El → Bool
  | [] => true
  | e :: es => e.wf inBlock && wfL inBlock es

end

end Verif.Spec
