import Verif.Spec.HtmlDoc

/-!
# Specification: the words of a HTML text
-/

namespace Verif.Spec.Wd

open Verif

/-- a piece of a HTML text -/
inductive Piece where
  /-- a character that is no white space and does not begin a tag -/
  | chr (c : Char)
  /-- white space -/
  | white (w : Str)
  /-- a tag `<name rest>` or `</name rest>` -/
  | tag (closing : Bool) (name rest : Str)
  deriving DecidableEq, Repr

def Piece.write : Piece → Str
  | .chr c => [c]
  | .white w => w
  | .tag closing name rest => '<' :: ((if closing then c!"/" else []) ++ name ++ rest ++ c!">")

def write (ps : List Piece) : Str := ps.flatMap Piece.write

def Piece.isWhite : Piece → Bool
  | .white _ => true
  | _ => false

/-- the pieces that are no white space -/
def solids (ps : List Piece) : List Piece := ps.filter fun p => !p.isWhite

/-- Tags are written on one line, a blank follows the name.  (`<pre>` is cut out before.) -/
def Piece.ok : Piece → Bool
  | .chr c => !Py.isSpace c && c != '<'
  | .white w => !w.isEmpty && w.all Py.isSpace
  | .tag _ name rest => !name.isEmpty && name != c!"pre" && name.head? != some '/' &&
      name.all (fun c => c != ' ' && c != '>' && c != '\n' && c != '<') &&
      (rest.isEmpty || rest.head? == some ' ') && rest.all (fun c => c != '>' && c != '\n' && c != '<') &&
      rest.dropLast.getLast? != some '/'

/-- white space that contains a line end, or begins and ends with a blank -/
def plainGap (w : Str) : Bool := w.contains '\n' || (w.head? == some ' ' && w.getLast? == some ' ')

/-- which pieces may follow each other: white space is not divided, and plain next to inline tags -/
def gapOk : Piece → Piece → Bool
  | .white _, .white _ => false
  | .white w, .tag _ name _ => Hd.isBlock name || plainGap w
  | .tag _ name _, .white w => Hd.isBlock name || plainGap w
  | _, _ => true

def gapsOk : List Piece → Bool
  | p :: q :: ps => gapOk p q && gapsOk (q :: ps)
  | _ => true

/-- What a reader sees: nothing of the tags; those of block elements separate words. -/
def Piece.look : Piece → Str
  | .chr c => [c]
  | .white w => w
  | .tag _ name _ => if Hd.isBlock name then c!" " else []

def look (ps : List Piece) : Str := ps.flatMap Piece.look

/-- the words of a text; `cur` is the beginning of the first one -/
def wordsFrom (cur : Str) : Str → List Str
  | [] => if cur = [] then [] else [cur]
  | c :: s => if Py.isSpace c then (if cur = [] then [] else [cur]) ++ wordsFrom [] s else wordsFrom (cur ++ [c]) s

/-- the words of a text: white space separates them -/
def words (s : Str) : List Str := wordsFrom [] s

end Verif.Spec.Wd
