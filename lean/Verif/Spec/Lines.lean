import Verif.Py.Str

/-!
# Specification: lines of a text file
-/

namespace Verif.Spec

open Verif

/-- the lines of a text in which every line ends with CR LF, CR or LF -/
def textLines : Str → List Str
  | [] => [[]]
  | '\r' :: '\n' :: s => [] :: textLines s
  | '\r' :: s => [] :: textLines s
  | '\n' :: s => [] :: textLines s
  | c :: s =>
    match textLines s with
    | [] => [[c]]
    | l :: ls => (c :: l) :: ls

/-- the lines `ls`, every one but the last followed by the terminator `t` -/
def joinLines (t : Str) : List Str → Str
  | [] => []
  | [l] => l
  | l :: m :: ls => l ++ t ++ joinLines t (m :: ls)

end Verif.Spec
