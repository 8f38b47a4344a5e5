import Verif.Spec.HtmlDoc

/-!
# Specification: HTML with arbitrary blanks and quotes

What is left of a written document when it is read: values of attributes, and the document up to its white space.
-/

namespace Verif.Spec.Hd

open Verif

/-- What is read of the value of an attribute.  A quote is written as `&quot` without a semicolon, so a semicolon behind it
is taken for the end of the entity. -/
def held : Str → Str
  | '"' :: ';' :: s => '"' :: held s
  | c :: s => c :: held s
  | [] => []

/-- attributes: the name consists of lower case letters, the value is one line -/
def attrLine (a : Str × Str) : Bool := !a.1.isEmpty && a.1.all letter && !a.2.contains '\n'

def heldAttrs (as : List (Str × Str)) : List (Str × Str) := as.map fun a => (a.1, held a.2)

mutual
/-- a document with names of tags and attributes that can be written -/
def Ht.fits : Ht → Bool
  | .text _ => true
  | .white s => s.all Py.isSpace
  | .el tag attrs ch => tagOk tag && attrs.all attrLine && fitsL ch
  | .void tag attrs => tagOk tag && attrs.all attrLine
  | .bare tag attrs => (tag == c!"br" || tag == c!"img") && attrs.all attrLine
def fitsL : List Ht → Bool
  | [] => true
  | x :: xs => x.fits && fitsL xs
end

mutual
/-- A document without any white space, its text divided into single characters. -/
def Ht.solid : Ht → List Ht
  | .text s => (s.filter fun c => !Py.isSpace c).map fun c => .text [c]
  | .white _ => []
  | .el tag attrs ch => [.el tag attrs (solidL ch)]
  | .void tag attrs => [.void tag attrs]
  | .bare tag attrs => [.bare tag attrs]
def solidL : List Ht → List Ht
  | [] => []
  | x :: xs => x.solid ++ solidL xs
end

/-- two documents that differ in their white space only -/
def SameSolid (l l' : List Ht) : Prop := solidL l = solidL l'

mutual
/-- a document as it is read: with the values of the attributes as they are read -/
def Ht.asRead : Ht → Ht
  | .text s => .text s
  | .white s => .text s
  | .el tag attrs ch => .el tag (heldAttrs attrs) (asReadL ch)
  | .void tag attrs => .void tag (heldAttrs attrs)
  | .bare tag attrs => .void tag (heldAttrs attrs)
def asReadL : List Ht → List Ht
  | [] => []
  | x :: xs => x.asRead :: asReadL xs
end

end Verif.Spec.Hd
