import Verif.Creole.Emitter

/-!
# Macros in a dict or as attributes of an object, and what is written to stderr

`Creole/Emitter.lean` is about macros in a dict without `None`, and leaves out `stderr`.  Here `macros` is any argument of
`creole2html`, and the tracebacks that are written to `stderr` are recorded.  In contrast to `Creole/Emitter.lean` what has been
written, and the contents of `macros`, are also known if the conversion raises.
-/

namespace Verif.Creole

open Verif Py

/-- an entry of a dict, or an attribute of an object -/
inductive MacroVal where
  /-- `None` -/
  | none
  /-- A macro.  A value that cannot be called is a function that raises the `TypeError` Python raises for the call. -/
  | is (m : Macro)

/-- a traceback in `stderr`, by the exception and the name of the macro -/
inductive Trace where
  /-- the `ValueError` of `string2dict` -/
  | wrongArgs (name : Str)
  /-- `KeyError`, or `AttributeError` for an object -/
  | missing (name : Str)
  /-- the exception the macro has raised -/
  | failed (name : Str)
  deriving DecidableEq, Repr

/-- The macros while a document is emitted: the entries of the dict, or the attributes of the object (its own, and those it
inherits from its class); and what has been written to `stderr`. -/
structure World where
  own : Dict MacroVal
  inherited : Dict MacroVal := []
  stderr : List Trace := []

/-- creol2html_emitter.py 303-312: `macros[name]` or `getattr(macros, name)`; `none` is the `KeyError` or `AttributeError`.
Objects with a `__getattr__` of their own are not modelled. -/
def World.get (w : World) (name : Str) : Option MacroVal :=
  match dictGet name w.own with
  | some v => some v
  | .none => dictGet name w.inherited

/-- there is something else than `None` under the name -/
def World.has (w : World) (name : Str) : Bool :=
  match w.get name with
  | some (.is _) => true
  | _ => false

/-- `macros[name] = v` or `macros.name = v`.  Objects whose attributes cannot be set are not modelled. -/
def World.set (w : World) (name : Str) (v : MacroVal) : World := { w with own := dictSet name v w.own }

/-- after another call of a callable with a state, as `Macro.record` -/
def MacroVal.record (c : MacroCall) : MacroVal → MacroVal
  | .none => .none
  | .is m => .is (m.record c)

/-- after another call of a callable with a state -/
def World.record (w : World) (c : MacroCall) : World :=
  { w with own := w.own.map fun (k, v) => (k, v.record c), inherited := w.inherited.map fun (k, v) => (k, v.record c) }

/-- the result of emitting, which may be an exception, and the macros and `stderr` after it -/
abbrev EW := Except PyErr Str × World

/-- creol2html_emitter.py 322: the call of the macro, as `callMacro` -/
def callMacroW (name : Str) (mac : Macro) (kwargs : Dict PVal) (w : World) : Outcome × World :=
  match mac with
  | .fn f => (f kwargs, w)
  | .obj past f => (f past kwargs, w.record (name, kwargs))
  | .toc t =>
    if (dictGet c!"self" kwargs).isSome then (.typeError tocSelfMsg, w)
    else
      let (s, t) := t.call ((dictGet c!"depth" kwargs).getD .none)
      (.ret s, w.set name (.is (.toc t)))

/-- creol2html_emitter.py 409-422: `error`, with the exception in `exc_info` if there is one -/
def errorW (env : Env) (text : Str) (excInfo : Option Trace) (w : World) : EW :=
  (.ok (errorText env text),
    match excInfo with
    | some t => if env.verbose > 1 then { w with stderr := w.stderr ++ [t] } else w
    | none => w)

/-- creol2html_emitter.py 285-366: `macro_emit`.  Simplification: the functions of `inspect` that are called for
`verbose = 2` raise nothing but the exceptions that are caught there (331-344). -/
def macroEmitW (env : Env) (i : Info) (w : World) : EW :=
  let name := i.macroName
  match string2dict i.macroArgs with
  | .error .valueError =>
    errorW env (c!"Wrong macro arguments: " ++ jsonStr i.macroArgs ++ c!" for macro '" ++ name
      ++ c!"' (maybe wrong macro tag syntax?)") (some (.wrongArgs name)) w
  | .error e => (.error e, w)
  | .ok kwargs =>
    let kwargs := dictSet c!"text" (optVal i.content) kwargs
    match w.get name with
    | none => errorW env (c!"Macro '" ++ name ++ c!"' doesn't exist") (some (.missing name)) w
    | some .none => errorW env (c!"Macro '" ++ name ++ c!"' doesn't exist") none w
    | some (.is mac) =>
      let (out, w) := callMacroW name mac kwargs w
      match out with
      | .typeError msg =>
        if env.verbose > 2 then (.error (.typeError msg), w)
        else errorW env (c!"Macro '" ++ name ++ c!"' error: " ++ msg) (some (.failed name)) w
      | .exc msg => errorW env (c!"Macro '" ++ name ++ c!"' error: " ++ msg) (some (.failed name)) w
      | .baseExc => (.error .user, w)
      | .other descr =>
        errorW env (c!"Macro '" ++ name ++ c!"' doesn't return a unicode string!" ++
          (if env.verbose > 1 then c!" - " ++ descr else [])) none w
      | .ret s => (.ok (if i.kind = .macro_block then s ++ c!"\n" else s), w)

/-- creol2html_emitter.py 246-254: `header_emit`.  Simplification: `self.toc` is what is stored under "toc", as in
`headerEmit`. -/
def headerEmitW (env : Env) (level : Nat) (content : Str) (w : World) : EW :=
  let h := 'h' :: natDigits level
  let header := '<' :: h ++ '>' :: htmlEscape content ++ c!"</" ++ h ++ c!">"
  if env.useToc then
    match w.get c!"toc" with
    | some (.is (.toc t)) =>
      match t.addHeadline level content with
      | .error e => (.error e, w)
      | .ok t => (.ok (c!"<a name=\"" ++ htmlEscape content ++ c!"\">" ++ header ++ c!"</a>\n"), w.set c!"toc" (.is (.toc t)))
    | _ => (.error .attributeError, w)
  else (.ok (header ++ c!"\n"), w)

/-- wrap the text of a successful emission -/
def wmap (f : Str → Str) (r : EW) : EW := (r.1.map f, r.2)

mutual
/-- creol2html_emitter.py 395-399: `emit_node`, with the `*_emit` methods (156-385), as `emitNode` -/
def emitNodeW (env : Env) (parent : Info) : Node → World → EW
  | .mk i cs, w =>
    match i.kind with
    | .document => emitNodesW env i cs w
    | .text => (i.contentE.map htmlEscape, w)
    | .separator => (.ok c!"<hr />\n", w)
    | .paragraph => wmap (fun s => c!"<p>" ++ s ++ c!"</p>\n") (emitNodesW env i cs w)
    | .bullet_list =>
      match i.levelE with
      | .ok n => wmap (listEmit parent.kind n c!"ul" false) (emitNodesW env i cs w)
      | .error e => (.error e, w)
    | .number_list =>
      match i.levelE with
      | .ok n => wmap (listEmit parent.kind n c!"ol" false) (emitNodesW env i cs w)
      | .error e => (.error e, w)
    | .list_item =>
      match i.levelE with
      | .ok n => wmap (listEmit parent.kind n c!"li" true) (emitNodesW env i cs w)
      | .error e => (.error e, w)
    | .table => wmap (fun s => c!"<table>\n" ++ s ++ c!"</table>\n") (emitNodesW env i cs w)
    | .table_row => wmap (fun s => c!"<tr>\n" ++ s ++ c!"</tr>\n") (emitNodesW env i cs w)
    | .table_cell => wmap (fun s => c!"\t<td>" ++ s ++ c!"</td>\n") (emitNodesW env i cs w)
    | .table_head => wmap (fun s => c!"\t<th>" ++ s ++ c!"</th>\n") (emitNodesW env i cs w)
    | .emphasis => wmap (typeface c!"i") (emitNodesW env i cs w)
    | .strong => wmap (typeface c!"strong") (emitNodesW env i cs w)
    | .monospace => wmap (typeface c!"tt") (emitNodesW env i cs w)
    | .superscript => wmap (typeface c!"sup") (emitNodesW env i cs w)
    | .subscript => wmap (typeface c!"sub") (emitNodesW env i cs w)
    | .underline => wmap (typeface c!"u") (emitNodesW env i cs w)
    | .small => wmap (typeface c!"small") (emitNodesW env i cs w)
    | .delete => wmap (typeface c!"del") (emitNodesW env i cs w)
    | .header =>
      match i.levelE, i.contentE with
      | .ok n, .ok s => headerEmitW env n s w
      | .error e, _ => (.error e, w)
      | .ok _, .error e => (.error e, w)
    | .link =>
      match i.contentE with
      | .error e => (.error e, w)
      | .ok target =>
        if cs.isEmpty then
          (.ok (c!"<a href=\"" ++ attrEscape target ++ c!"\">" ++ htmlEscape target ++ c!"</a>"), w)
        else wmap (fun s => c!"<a href=\"" ++ attrEscape target ++ c!"\">" ++ s ++ c!"</a>")
          (emitNodesW env i cs w)
    | .image => (i.contentE.map fun target => imageEmit env target (getText i cs), w)
    | .macro_inline => macroEmitW env i w
    | .macro_block => macroEmitW env i w
    | .brk => (breakEmit parent, w)
    | .line => (.ok c!"\n", w)
    | .pre_block => (i.contentE.map fun s => c!"<pre>" ++ htmlEscape s ++ c!"</pre>\n", w)
    | .pre_inline => (i.contentE.map fun s => c!"<code>" ++ htmlEscape s ++ c!"</code>", w)

/-- creol2html_emitter.py 391-393: `emit_children` -/
def emitNodesW (env : Env) (parent : Info) : List Node → World → EW
  | [], w => (.ok [], w)
  | n :: ns, w =>
    match emitNodeW env parent n w with
    | (.error e, w) => (.error e, w)
    | (.ok s, w) =>
      match emitNodesW env parent ns w with
      | (.error e, w) => (.error e, w)
      | (.ok t, w) => (.ok (s ++ t), w)
end

/-- creol2html_emitter.py 99-139 (`__init__`, from 114 on) and 401-407 (`emit`).  `self.toc` may be `None` although the document
has a call of `toc`: if that is what is stored under "toc". -/
def emitDocW (verbose : Int) (strict : Bool) (d : Doc) (w : World) : EW :=
  let used := d.used.contains c!"toc"
  let w := if used && (w.get c!"toc").isNone then w.set c!"toc" (.is (.toc {})) else w
  let useToc := used && w.has c!"toc"
  match emitNodeW { verbose, strict, useToc } { kind := .document } d.root w with
  | (.error e, w) => (.error e, w)
  | (.ok s, w) =>
    if useToc then
      match w.get c!"toc" with
      | some (.is (.toc t)) => (t.emit (strip s), w)
      | _ => (.error .attributeError, w)
    else (.ok (strip s), w)

/-- the argument `macros` of `creole2html` -/
inductive MacrosArg where
  | none
  /-- something that can be called: a function, a class, an object with `__call__` -/
  | callable
  | dict (entries : Dict MacroVal)
  /-- an object, for instance a module -/
  | object (own inherited : Dict MacroVal)

/-- creol2html_emitter.py 103-110: the macros of the emitter; `none` if they can be called -/
def MacrosArg.world : MacrosArg → Option World
  | .none => some { own := [] }
  | .callable => .none
  | .dict entries => some { own := entries }
  | .object own inherited => some { own, inherited }

/-- `creole2html(markup, ..., macros=arg)` (`/repo/creole/__init__.py` 34-66): the HTML or the exception; and, if it came to
emitting, the macros after it and what was written to `stderr` -/
def creole2htmlW (o : Opts) (arg : MacrosArg) (markup : Str) : Except PyErr Str × Option World :=
  match parse o.blog markup with
  | .error e => (.error e, none)
  | .ok d =>
    match arg.world with
    | none => (.error (.typeError c!"Callable macros are not supported anymore!"), none)
    | some w =>
      let (r, w) := emitDocW o.verbose o.strict d w
      (r, some w)

end Verif.Creole
