import Verif.Spec.HtmlDoc

/-!
# Specification: a block of code in HTML

The usual `<pre><code class="language-x">`…`</code></pre>`.  Nothing here uses the converters.
-/

namespace Verif.Spec.Cb

open Verif Cr Hd

/-- how code is written between `<pre>` and `</pre>`; the class can be missing -/
def codeHtml (cls : Option Str) (code : Str) : Str :=
  c!"<code" ++ (match cls with | some v => c!" class=\"" ++ attrHtml v ++ c!"\"" | none => []) ++ c!">" ++ textHtml code ++ c!"</code>"

/-- the same, with nothing written as an entity -/
def codeTags (cls : Option Str) (code : Str) : Str :=
  c!"<code" ++ (match cls with | some v => c!" class=\"" ++ v ++ c!"\"" | none => []) ++ c!">" ++ code ++ c!"</code>"

/-- a class: one line without quotes -/
def classOk (cls : Option Str) : Bool := cls.all fun v => !v.contains '"' && !v.contains '\n'

/-- the language that a class names -/
def language : Option Str → Str
  | some v => if c!"language-".isPrefixOf v then v.drop 9 else []
  | none => []

/-- What is left of a code: everything up to the first `&`, `<` or `>`.  If it begins with one of them, the name of its entity. -/
def codeLeft : Str → Str
  | [] => []
  | c :: s => (entityOf c).getD ((c :: s).takeWhile fun d => (entityOf d).isNone)

/-- the first line is not blank -/
def lineFirst (s : Str) : Bool := (s.takeWhile (· != '\n')).any fun c => !Py.isSpace c

end Verif.Spec.Cb
