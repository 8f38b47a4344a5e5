import Verif.Emit.Emitter

/-!
# Specification: vocabulary for the properties of the reverse emitters

The types of the emitters' arguments (`Lang`, `Policy`, `Cfg`) and of tree nodes are shared with the model.
-/

namespace Verif.Spec

open Verif Py Html Emit

/-! ## Which tags are known -/

/-- node kinds that all converters know: the non-tags, block structure, links and images -/
def commonKinds : List Str := [
  c!"document", c!"data", c!"entityref", c!"charref", c!"blockdata_pre", c!"inlinedata_pre", c!"blockdata_pass",
  c!"p", c!"br", c!"hr", c!"div", c!"headline", c!"li", c!"table", c!"tr", c!"th", c!"td", c!"a", c!"img"]

/-- the other tags that a converter knows -/
def otherKinds : Lang → List Str
  | .creole => [c!"b", c!"strong", c!"big", c!"i", c!"em", c!"tt", c!"sup", c!"sub", c!"u", c!"small", c!"del",
      c!"strike", c!"ul", c!"ol", c!"span"]
  | .textile => [c!"b", c!"strong", c!"big", c!"i", c!"em", c!"sup", c!"sub", c!"del", c!"cite", c!"ins", c!"span",
      c!"code", c!"ul", c!"ol"]
  | .markdown => [c!"b", c!"strong", c!"big", c!"i", c!"em", c!"tt", c!"sup", c!"sub", c!"u", c!"small", c!"del",
      c!"strike", c!"ul", c!"ol", c!"list", c!"code", c!"span"]
  | .rest => [c!"b", c!"strong", c!"big", c!"i", c!"em", c!"tt", c!"small", c!"code", c!"ul", c!"ol", c!"span"]

/-- the node kinds that a converter knows -/
def knownKinds (lang : Lang) : List Str := commonKinds ++ otherKinds lang

/-! ## What is converted -/

/-- nodes without content of their own below them; if such a node has children they are not converted -/
def leafKinds : List Str := [
  c!"data", c!"entityref", c!"charref", c!"blockdata_pre", c!"inlinedata_pre", c!"blockdata_pass", c!"br", c!"hr", c!"img"]

mutual

/-- the nodes that are converted, in document order -/
def visited : HNode → List HInfo
  | .mk i ch => i :: (if leafKinds.contains i.kind then [] else visitedL ch)

def visitedL : List HNode → List HInfo
  | [] => []
  | n :: ns => visited n ++ visitedL ns

end

/-! ## Tags as text -/

/-- the attributes of a tag as text, each one preceded by a space -/
def attrsText (attrs : Dict (Option Str)) : Str :=
  match dict2string (attrs.map fun (k, v) => (k, match v with | some s => PVal.str s | none => .none)) with
  | [] => []
  | s => c!" " ++ s

/-- `<tag attrs>` -/
def startTag (tag : Str) (attrs : Dict (Option Str)) : Str := c!"<" ++ tag ++ attrsText attrs ++ c!">"

/-- `<tag attrs />` -/
def emptyTag (tag : Str) (attrs : Dict (Option Str)) : Str := c!"<" ++ tag ++ attrsText attrs ++ c!" />"

/-- `</tag>` -/
def endTag (tag : Str) : Str := c!"</" ++ tag ++ c!">"

/-- a content between its tags, or an empty tag; `f` is applied to each tag -/
def taggedBy (f : Str → Str) (tag : Str) (attrs : Dict (Option Str)) (content : Str) : Str :=
  if content = [] then f (emptyTag tag attrs) else f (startTag tag attrs) ++ content ++ f (endTag tag)

/-- a text in a macro: `<<name>>text<</name>>` -/
def inMacro (name text : Str) : Str := c!"<<" ++ name ++ c!">>" ++ text ++ c!"<</" ++ name ++ c!">>"

/-- the markup characters of HTML escaped -/
def escaped (s : Str) : Str :=
  s.flatMap fun c => if c = '&' then c!"&amp;" else if c = '<' then c!"&lt;" else if c = '>' then c!"&gt;" else [c]

/-! ## Line breaks -/

/-- the non-blank lines of a text, without blanks around them -/
def contentLines (s : Str) : List Str := ((splitChar '\n' s).map strip).filter (· ≠ [])

/-- a content on one line: its non-blank lines joined by forced line breaks, without backslashes at the ends -/
def oneLine (s : Str) : Str := stripP (· == '\\') (join c!"\\\\" (contentLines (strip s)))

/-! ## Headlines -/

/-- the character under (and over) a ReSt headline of some level -/
def underlineChar (level : Int) : Char :=
  if level = 1 ∨ level = 3 then '=' else if level = 2 ∨ level = 4 then '-' else if level = 5 then '`' else '\''

/-- a ReSt headline: the text over a line of the same length; for the levels 1 and 2 also under one -/
def restHeading (level : Int) (text : Str) : Str :=
  let line := List.replicate text.length (underlineChar level)
  (if level ≤ 2 then line ++ c!"\n" else []) ++ text ++ c!"\n" ++ line

/-! ## Pictures -/

/-- the URL has the scheme `data` (or is this word) -/
def isDataUri (src : Str) : Prop := src = c!"data" ∨ c!"data:" <+: src

instance (src : Str) : Decidable (isDataUri src) := inferInstanceAs (Decidable (_ ∨ _))

/-- the file name in a URL: what follows the last slash -/
def IsFileName (src name : Str) : Prop :=
  '/' ∉ name ∧ ∃ dir, src = dir ++ name ∧ (dir = [] ∨ ∃ d, dir = d ++ c!"/")

/-- the text for a picture: the longer one of `alt` and `title` (of two with the same length, `title`), or the file name
if both are empty -/
def IsPictureText (src alt title text : Str) : Prop :=
  if alt = [] ∧ title = [] then IsFileName src text
  else if alt.length > title.length then text = alt else text = title

/-- an attribute, the empty string if there is none -/
def attrOr (k : Str) (attrs : Dict (Option Str)) : Option Str := (dictGet k attrs).getD (some [])

/-- what html2creole appends for the size of a picture: the *height* before the *width*, if both are given -/
def pictureSize (strict : Bool) (attrs : Dict (Option Str)) : Str :=
  match strict, attrOr c!"width" attrs, attrOr c!"height" attrs with
  | false, some (w :: ws), some (h :: hs) => c!"|" ++ (h :: hs) ++ c!"x" ++ (w :: ws)
  | _, _, _ => []

end Verif.Spec
