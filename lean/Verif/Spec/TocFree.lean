import Verif.Py.Str

/-!
# Specification: where a macro may be called
-/

namespace Verif.Spec

open Verif Py

/-- The text has a place where a call of the macro `name` may begin: `<<`, blanks and the name. -/
def mayCall (name : Str) : Str → Bool
  | [] => false
  | c :: s => (c!"<<".isPrefixOf (c :: s) && name.isPrefixOf ((s.drop 1).dropWhile isSpace)) || mayCall name s

end Verif.Spec
