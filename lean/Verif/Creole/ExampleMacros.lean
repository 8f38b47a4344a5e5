import Verif.Creole.Emitter

/-!
# The example macros

Models `/repo/creole/shared/example_macros.py`, without Pygments and with it (Pygments itself is a parameter).
-/

namespace Verif.Creole

open Verif Py

/-- Python's check of keyword arguments against a fixed list of parameters without defaults: an unexpected
keyword is reported first, then missing ones. -/
def bindArgs (fname : Str) (params : List Str) (kwargs : Dict PVal) (k : Outcome) : Outcome :=
  match kwargs.find? fun (n, _) => !params.contains n with
  | some (n, _) => .typeError (fname ++ c!"() got an unexpected keyword argument '" ++ n ++ c!"'")
  | none =>
    if params.all fun p => (dictGet p kwargs).isSome then k
    else .typeError (fname ++ c!"() missing required positional arguments")

/-- `None` passed where a `str` method is called -/
def noneAttr : Outcome := .exc c!"'NoneType' object has no attribute 'replace'"

/-- example_macros.py 25-30: `html` -/
def htmlMacro : Dict PVal → Outcome := fun kw =>
  bindArgs c!"html" [c!"text"] kw <|
    match dictGet c!"text" kw with
    | some (.str s) => .ret s
    | _ => .other c!"returns: None, type <class 'NoneType'>"

/-- example_macros.py 33-38: `pre` -/
def preMacro : Dict PVal → Outcome := fun kw =>
  bindArgs c!"pre" [c!"text"] kw <|
    match dictGet c!"text" kw with
    | some (.str s) => .ret (c!"<pre>" ++ htmlEscape s ++ c!"</pre>")
    | _ => noneAttr

/-- example_macros.py 41-47: `code` without Pygments -/
def codeMacro : Dict PVal → Outcome := fun kw =>
  bindArgs c!"code" [c!"ext", c!"text"] kw <|
    match dictGet c!"text" kw with
    | some (.str s) => .ret (c!"<pre>" ++ htmlEscape s ++ c!"</pre>")
    | _ => noneAttr

/-- the module `example_macros` as a macros dict -/
def exampleMacros : Macros := [(c!"html", .fn htmlMacro), (c!"pre", .fn preMacro), (c!"code", .fn codeMacro)]

/-! ## With Pygments -/

/-- an exception -/
inductive Failure where
  | typeError (msg : Str)
  | exc (msg : Str)
  | baseExc

/-- a macro that raises the exception -/
def Failure.outcome : Failure → Outcome
  | .typeError m => .typeError m
  | .exc m => .exc m
  | .baseExc => .baseExc

/-- The functions of Pygments that are used.  `L` are the lexers. -/
structure Pygments (L : Type) where
  /-- `lexers.get_lexer_by_name(name)`; `none` is an exception -/
  byName : Str → Option L
  /-- `lexers.guess_lexer(code)`, where `code` is the function `example_macros.code` -/
  guess : Except Failure L
  /-- `highlight(text, lexer, formatter).decode('utf-8')`, the text may be `None`; `none` is an exception -/
  highlight : L → Option Str → Option Str

/-- utils.py 91-98: `get_pygments_lexer(source_type, code)` -/
def Pygments.lexer {L : Type} (pg : Pygments L) (sourceType : Str) : Except Failure L :=
  match pg.byName sourceType with
  | some l => .ok l
  | none => pg.guess

/-- example_macros.py 49-56: `source_type` -/
def sourceType (ext : Str) : Str :=
  if ext.contains '.' then ((splitChar '.' (strip ext))[1]?).getD [] else strip ext

/-- the class of a value that is not a `str` -/
def PVal.className : PVal → Str
  | .str _ => c!"str"
  | .int _ => c!"int"
  | .bool _ => c!"bool"
  | .none => c!"NoneType"

/-- example_macros.py 61-66: the end of `code`.  The `return` in `finally` replaces an exception of `pre(None)` by the one for
the unassigned variable. -/
def codeText {L : Type} (pg : Pygments L) (l : L) (text : Option Str) : Outcome :=
  match (pg.highlight l text).or (text.map fun s => c!"<pre>" ++ htmlEscape s ++ c!"</pre>") with
  | some h => .ret (replace c!"\n" c!"<br />\n" h)
  | none => .exc c!"cannot access local variable 'highlighted_text' where it is not associated with a value"

/-- example_macros.py 41-66: `code` with Pygments -/
def codeMacroP {L : Type} (pg : Pygments L) : Dict PVal → Outcome := fun kw =>
  bindArgs c!"code" [c!"ext", c!"text"] kw <|
    match dictGet c!"ext" kw with
    | some (.str ext) =>
      match pg.lexer (sourceType ext) with
      | .error e => e.outcome
      | .ok l => codeText pg l (match dictGet c!"text" kw with | some (.str s) => some s | _ => none)
    | some v => .typeError (c!"argument of type '" ++ PVal.className v ++ c!"' is not iterable")
    | none => .typeError []

end Verif.Creole
