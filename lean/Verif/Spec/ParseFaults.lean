import Verif.Creole.Tree
import Verif.Py.Str

/-!
# Specification: what the HTML parser cannot read
-/

namespace Verif.Spec

open Verif Py

/-- A text in which the HTML parser may run into something it cannot handle, and the exception. -/
inductive ParseFault (text : Str) : PyErr → Prop
  /-- a marked section (`<![if ...]>`, `<![CDATA[...]]>`, ...) -/
  | marked : c!"<![" <:+: text → ParseFault text .assertionError
  /-- a character reference with more digits than `int()` converts -/
  | number (ds : Str) : 4300 < ds.length → (∀ d ∈ ds, d.isDigit) → c!"&#" ++ ds <:+: text → ParseFault text .valueError
  /-- one of the tags the parser itself uses as placeholders for `<pre>` areas -/
  | placeholder (tag : Str) (e : PyErr) : tag = c!"<blockdata" ∨ tag = c!"<inlinedata" → tag <:+: text.map lowerAscii →
      ParseFault text e

end Verif.Spec
