import Verif.Spec.Emit
import Verif.Spec.Lists

/-!
# Specification: links and pictures in html2rest

In ReSt a link or picture text must stand for one URL only, and the URL of a picture (and of a link in a table cell) is
given by a separate definition.
-/

namespace Verif.Spec

open Verif Py Html Emit

/-- what follows the last slash -/
def fileName (src : Str) : Str := (src.reverse.takeWhile (· ≠ '/')).reverse

/-- The URL and the text of a picture.  No text is emitted for a data URI. -/
def picture (attrs : Dict (Option Str)) : Option (Str × Str) :=
  match dictGet c!"src" attrs, attrOr c!"alt" attrs, attrOr c!"title" attrs with
  | some (some src), some alt, some title =>
    if isDataUri src then none
    else if alt = [] ∧ title = [] then some (src, fileName src)
    else if alt.length > title.length then some (src, alt) else some (src, title)
  | _, _, _ => none

mutual

/-- The ReSt markup of a text with typefaces and pictures; `none` if there is something else in it. -/
def linkText : HNode → Option Str
  | .mk i ch =>
    if i.kind = c!"data" then i.content
    else if i.kind = c!"img" then some (match picture i.attrs with | some (_, text) => c!"|" ++ text ++ c!"|" | none => [])
    else
      match delimiters .rest i.kind, linkTexts ch with
      | some (before, after), some t => some (before ++ t ++ after)
      | _, _ => none

def linkTexts : List HNode → Option Str
  | [] => some []
  | n :: ns =>
    match linkText n, linkTexts ns with
    | some a, some b => some (a ++ b)
    | _, _ => none

end

/-- One use of a link text or of a picture text. -/
structure Use where
  picture : Bool
  text : Str
  url : Option Str
  inCell : Bool
  deriving DecidableEq

mutual

/-- The link and picture texts used in a document, in document order; `cell` tells whether the node is in a table cell. -/
def uses (cell : Bool) : HNode → List Use
  | .mk i ch =>
    if i.kind = c!"img" then
      match picture i.attrs with
      | some (src, text) => [⟨true, text, some src, cell⟩]
      | none => []
    else if leafKinds.contains i.kind then []
    else usesL (cell || i.kind = c!"th" || i.kind = c!"td") ch ++
      (if i.kind = c!"a" then [⟨false, (linkTexts ch).getD [], (dictGet c!"href" i.attrs).getD none, cell⟩] else [])

def usesL (cell : Bool) : List HNode → List Use
  | [] => []
  | n :: ns => uses cell n ++ usesL cell ns

end

mutual

/-- every link consists of texts, typefaces and pictures -/
def plainLinks : HNode → Bool
  | .mk i ch => leafKinds.contains i.kind || (plainLinksL ch && (i.kind ≠ c!"a" || (linkTexts ch).isSome))

def plainLinksL : List HNode → Bool
  | [] => true
  | n :: ns => plainLinks n && plainLinksL ns

end

/-- The node has what a conversion needs: a link has a target, a picture a source (`alt` and `title` are not without a
value), a headline and a list item have a level, a text is given, a row or cell is in a table, and preformatted text has
no entities. -/
def complete (inTable : Bool) (i : HInfo) : Bool :=
  if i.kind = c!"data" then i.content.isSome
  else if i.kind = c!"a" then (dictGet c!"href" i.attrs).isSome
  else if i.kind = c!"img" then
    match dictGet c!"src" i.attrs with
    | some (some _) => (attrOr c!"alt" i.attrs).isSome && (attrOr c!"title" i.attrs).isSome
    | _ => false
  else if i.kind = c!"headline" then match i.level with | some n => 1 ≤ n | none => false
  else if i.kind = c!"li" then i.level.isSome
  else if i.kind = c!"tr" ∨ i.kind = c!"th" ∨ i.kind = c!"td" then inTable
  else if i.kind = c!"blockdata_pre" ∨ i.kind = c!"inlinedata_pre" then
    match i.content with | some c => !c.contains '&' | none => false
  else i.kind ≠ c!"charref" ∧ i.kind ≠ c!"document"

mutual

/-- all nodes are complete -/
def completeTree (inTable : Bool) : HNode → Bool
  | .mk i ch => complete inTable i && (leafKinds.contains i.kind || completeTrees (inTable || i.kind = c!"table") ch)

def completeTrees (inTable : Bool) : List HNode → Bool
  | [] => true
  | n :: ns => completeTree inTable n && completeTrees inTable ns

end

/-- no text is used for two URLs -/
def Consistent (us : List Use) : Prop :=
  ∀ u ∈ us, ∀ v ∈ us, u.picture = v.picture → u.text = v.text → u.url = v.url

/-- the first use of every text -/
def firstUses : List Use → List Use
  | [] => []
  | u :: us => u :: (firstUses us).filter fun v => ¬ (v.picture = u.picture ∧ v.text = u.text)

/-- the definitions that are needed: of all pictures, and of links used in a table cell first -/
def definitions (us : List Use) : List Use := (firstUses us).filter fun u => u.picture || u.inCell

/-- a definition in ReSt -/
def Use.definition (u : Use) : Str :=
  if u.picture then c!".. |" ++ u.text ++ c!"| image:: " ++ u.url.getD [] else c!".. _" ++ u.text ++ c!": " ++ u.url.getD []

mutual

/-- The ReSt markup of a text with typefaces, pictures and links outside of tables, where `seen` has been used before: a
link is written with its URL the first time its text is used. -/
def linkMarkup (seen : List Use) : HNode → Option Str
  | .mk i ch =>
    if i.kind = c!"a" then
      match linkTexts ch, dictGet c!"href" i.attrs with
      | some text, some (some url) =>
        if seen.any fun u => u.picture = false ∧ u.text = text then some (c!"`" ++ text ++ c!"`_")
        else some (c!"`" ++ text ++ c!" <" ++ url ++ c!">`_")
      | _, _ => none
    else if i.kind = c!"data" then i.content
    else if i.kind = c!"img" then some (match picture i.attrs with | some (_, text) => c!"|" ++ text ++ c!"|" | none => [])
    else
      match delimiters .rest i.kind, linkMarkups seen ch with
      | some (before, after), some t => some (before ++ t ++ after)
      | _, _ => none

def linkMarkups (seen : List Use) : List HNode → Option Str
  | [] => some []
  | n :: ns =>
    match linkMarkup seen n, linkMarkups (seen ++ uses false n) ns with
    | some a, some b => some (a ++ b)
    | _, _ => none

end

/-- the definitions that are needed for `us` if `seen` has been used before -/
def newDefinitions (seen us : List Use) : List Use :=
  (definitions us).filter fun u => !seen.any fun v => v.picture = u.picture ∧ v.text = u.text

/-- The markup of paragraphs: every paragraph is followed by the definitions of what is used in it first. -/
def restParagraphs (seen : List Use) : List HNode → Option Str
  | [] => some []
  | .mk i ch :: ps =>
    if i.kind = c!"p" then
      match linkMarkups seen ch, restParagraphs (seen ++ usesL false ch) ps with
      | some text, some more =>
        some (text ++ c!"\n\n" ++
          (match newDefinitions seen (usesL false ch) with
            | [] => []
            | d :: ds => join c!"\n" ((d :: ds).map Use.definition) ++ c!"\n\n") ++ more)
      | _, _ => none
    else none

/-- the parts occur in the text, in this order and without overlap -/
def InOrder : List Str → Str → Prop
  | [], _ => True
  | d :: ds, t => ∃ before after, t = before ++ d ++ after ∧ InOrder ds after

end Verif.Spec
