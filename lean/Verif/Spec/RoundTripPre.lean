import Verif.Spec.RoundTrip
import Verif.Spec.HtmlPre

/-!
# Specification: documents with preformatted text, their HTML and back

The same as `Spec/RoundTrip`, with blocks of preformatted text among the others.
-/

namespace Verif.Spec.Rt

open Verif Cr Hd

/-- a part of a document: a block as before, or preformatted text, line by line -/
inductive Part where
  | block (b : Rt)
  | pre (lines : List Str)

/-! ## The HTML -/

def Part.html : Part → Str
  | .block b => b.ht.print
  | .pre ls => c!"<pre>\n" ++ ls.flatMap (fun l => textHtml l ++ c!"\n") ++ c!"</pre>"

/-- parts, each one but the first with white space before it -/
def partsHtml (p : Part) : List (Str × Part) → Str
  | [] => p.html
  | (w, p') :: d => p.html ++ w ++ partsHtml p' d

/-- Blocks as before; the first line of preformatted text is not blank. -/
def Part.decent : Part → Bool
  | .block b => b.decent && neat [b.ht]
  | .pre ls => (ls.head?).any (fun l => !l.all Py.isSpace) && ls.all fun l => !l.contains '\n'

/-- the white space between two parts: the tags of preformatted text stand on lines of their own -/
def apart : Part → Str → Part → Bool
  | .block _, w, .block _ => w.all Py.isSpace
  | .block _, w, .pre _ => w.all Py.isSpace && w.getLast? == some '\n'
  | .pre _, w, .block _ => w.all Py.isSpace && w.contains '\n'
  | .pre _, w, .pre _ => w.all Py.isSpace && w.getLast? == some '\n'

def allApart (p : Part) : List (Str × Part) → Bool
  | [] => true
  | (w, p') :: d => apart p w p' && allApart p' d

/-! ## The creole text -/

def Part.back : Part → List Str
  | .block b => b.back
  | .pre ls => c!"{{{" :: (ls ++ [c!"}}}"])

/-- The empty lines between two parts: as before; none after preformatted text. -/
def Part.gap : Part → Part → List Str
  | .block b, .block b' => Rt.gap b b'
  | .block (.table _), .pre _ => []
  | .block _, .pre _ => [[]]
  | .pre _, _ => []

/-- the lines of a document -/
def partsBack (p : Part) : List Part → List Str
  | [] => p.back
  | p' :: d => p.back ++ Part.gap p p' ++ partsBack p' d

/-! ## Creole documents that stand for such parts -/

/-- The block of a creole document stands for a part.  A line `~}}}` of preformatted text stands for `}}}`. -/
def PartFor : Block → Part → Prop
  | .pre ls, .pre ls' => ls' = ls.map preLine
  | b, .block r => StandsFor b r
  | _, _ => False

/-- the same for the blocks of a document, one by one -/
def PartsFor : Doc → List Part → Prop
  | [], [] => True
  | (_, b) :: d, r :: rs => PartFor b r ∧ PartsFor d rs
  | _, _ => False

/-- no preformatted text directly below a list -/
def listsEnd (b : Block) : Doc → Bool
  | [] => true
  | (gap, b') :: d =>
    (match b, b' with
      | .list _ _, .pre _ => !gap.isEmpty
      | _, _ => true) && listsEnd b' d

/-! ## Documents that come back as they were written -/

/-- no line of preformatted text is escaped -/
def Part.stable : Part → Bool
  | .block b => b.stable
  | .pre ls => ls.all fun l => preLine l == l

/-- how a part is written in creole -/
def Part.written : Part → Block
  | .block b => b.block
  | .pre ls => .pre ls

/-- how further parts are written -/
def restParts (p : Part) : List Part → Doc
  | [] => []
  | p' :: d => (Part.gap p p', p'.written) :: restParts p' d

/-- how a document is written -/
def partsDoc (p : Part) (d : List Part) : Doc := ([], p.written) :: restParts p d

def Part.norm : Part → Part
  | .block b => .block b.norm
  | .pre ls => .pre ls

end Verif.Spec.Rt
