import Verif.Creole.Parser
import Verif.Py.Dict

/-!
# The HTML emitter

Models `/repo/creole/emitter/creol2html_emitter.py` and `creole2html` (`/repo/creole/__init__.py` 34-66).
-/

namespace Verif.Creole

open Verif Py

/-! ## `TableOfContent` (creol2html_emitter.py 18-90) -/

/-- creol2html_emitter.py 19-23.  `_current_level` is never used. -/
structure Toc where
  maxDepth : Option PVal := none
  headlines : List (Nat × Str) := []
  created : Bool := false
  deriving DecidableEq, Repr

/-- creol2html_emitter.py 25-34: `__call__`; `depth` is the keyword argument (`None` if absent) -/
def Toc.call (t : Toc) (depth : PVal) : Str × Toc :=
  if t.created then (c!"&lt;&lt;toc&gt;&gt;", t)
  else
    let t := { t with created := true }
    let t := if depth ≠ .none then { t with maxDepth := some depth } else t
    (c!"<<toc>>", t)

/-- `level <= max_depth` for an `int` level: a `bool` counts as 0/1, a `str` raises `TypeError` -/
def levelLe (level : Nat) : PVal → Except PyErr Bool
  | .int n => .ok (decide ((level : Int) ≤ n))
  | .bool b => .ok (decide (level ≤ if b then 1 else 0))
  | .str _ => .error (.typeError c!"'<=' not supported between instances of 'int' and 'str'")
  | .none => .error (.typeError c!"'<=' not supported between instances of 'int' and 'NoneType'")

/-- creol2html_emitter.py 36-41: `add_headline` -/
def Toc.addHeadline (t : Toc) (level : Nat) (content : Str) : Except PyErr Toc :=
  match t.maxDepth with
  | none => .ok { t with headlines := t.headlines ++ [(level, content)] }
  | some d => do
    let ok ← levelLe level d
    return if ok then { t with headlines := t.headlines ++ [(level, content)] } else t

/-- The nested Python lists built by `flat_list2nest_list`: strings and lists. -/
inductive Nest where
  | str (s : Str)
  | list (l : List Nest)
  deriving Repr

/-- The open lists of `stack`, innermost first; each one is the last element of the next one, and is added
to it when it leaves the stack. -/
abbrev NestStack := List (List Nest)

/-- close the innermost `k` lists -/
def nestClose : Nat → NestStack → NestStack
  | 0, s => s
  | k + 1, a :: b :: s => nestClose k ((b ++ [.list a]) :: s)
  | _ + 1, s => s

/-- open `k` new lists -/
def nestOpen : Nat → NestStack → NestStack
  | 0, s => s
  | k + 1, s => nestOpen k ([] :: s)

/-- creol2html_emitter.py 49-60: one round of the loop; level 0 would raise `IndexError` (empty stack) -/
def nestStep (stack : NestStack) (x : Nat × Str) : Except PyErr NestStack :=
  if x.1 = 0 then .error .indexError
  else
    let n := stack.length
    let stack :=
      if x.1 > n then nestOpen (x.1 - n) stack
      else if x.1 < n then nestClose (n - x.1) stack
      else stack
    match stack with
    | [] => .error .indexError
    | a :: s => .ok ((a ++ [.str x.2]) :: s)

/-- creol2html_emitter.py 43-62: `flat_list2nest_list` -/
def flatToNest (l : List (Nat × Str)) : Except PyErr Nest := do
  let stack ← l.foldlM nestStep [[]]
  match nestClose (stack.length - 1) stack with
  | a :: _ => return .list a
  | [] => .error .indexError

/-- `"\t" * n` -/
def tabs (n : Nat) : Str := List.replicate n '\t'

mutual
/-- creol2html_emitter.py 64-76: `nested_headlines2html` -/
def nestHtml (level : Nat) : Nest → Str
  | .str s => tabs level ++ c!"<li><a href=\"#" ++ s ++ c!"\">" ++ s ++ c!"</a></li>\n"
  | .list l =>
    tabs level ++ c!"<ul>\n" ++ nestHtmls (level + 1) l ++ tabs level ++ c!"</ul>"
      ++ (if level > 0 then c!"\n" else [])
def nestHtmls (level : Nat) : List Nest → Str
  | [] => []
  | a :: l => nestHtml level a ++ nestHtmls level l
end

/-- creol2html_emitter.py 78-90: `emit` -/
def Toc.emit (t : Toc) (document : Str) : Except PyErr Str := do
  let nest ← flatToNest t.headlines
  let html := nestHtml 0 nest
  if hasSub c!"<p><<toc>></p>" document then return replaceFirst c!"<p><<toc>></p>" html document
  else return replaceFirst c!"<<toc>>" html document

/-! ## Macros -/

/-- What calling a macro can do. -/
inductive Outcome where
  /-- returns a `str` -/
  | ret (s : Str)
  /-- returns something else; `descr` is the text `returns: {result!r}, type {type(result)!r}` -/
  | other (descr : Str)
  /-- raises `TypeError(msg)` -/
  | typeError (msg : Str)
  /-- raises another `Exception` with the given text -/
  | exc (msg : Str)
  /-- raises something that is not an `Exception` (`KeyboardInterrupt`, ...) -/
  | baseExc
  deriving DecidableEq, Repr

/-- the call of a macro: its name and its keyword arguments -/
abbrev MacroCall := Str × Dict PVal

/-- A value of the `macros` dict. -/
inductive Macro where
  /-- a user supplied function whose outcome depends only on the keyword arguments -/
  | fn (f : Dict PVal → Outcome)
  /-- A user supplied callable with a state (a method of an object, a closure, a function that uses global variables).  All
  callables of this kind in the dict may share their state.  It is given by the list of the calls of such callables so far,
  and it may decide what the next call does. -/
  | obj (past : List MacroCall) (f : List MacroCall → Dict PVal → Outcome)
  /-- a `TableOfContent` object -/
  | toc (t : Toc)

/-- after another call of a callable with a state -/
def Macro.record (c : MacroCall) : Macro → Macro
  | .obj past f => .obj (past ++ [c]) f
  | m => m

abbrev Macros := Dict Macro

/-- Options and state of an `HtmlEmitter` (creol2html_emitter.py 99-139).  `useToc`: `self.toc is not None`, in
which case `self.toc` is the object stored in the dict under "toc". -/
structure Env where
  verbose : Int := 1
  strict : Bool := false
  useToc : Bool := false

/-- result of emitting: text and the new contents of the `macros` dict -/
abbrev EM := Except PyErr (Str × Macros)

/-- `xml.sax.saxutils.escape`: replaces `&`, then `>`, then `<` (creol2html_emitter.py 148-149) -/
def htmlEscape (s : Str) : Str :=
  replace c!"<" c!"&lt;" (replace c!">" c!"&gt;" (replace c!"&" c!"&amp;" s))

/-- creol2html_emitter.py 151-152 -/
def attrEscape (s : Str) : Str := replace c!"\"" c!"&quot" (htmlEscape s)

/-- creol2html_emitter.py 409-422: `error`; what is written to stderr is not modelled -/
def errorText (env : Env) (text : Str) : Str :=
  if env.verbose > 0 then c!"[Error: " ++ text ++ c!"]\n" else []

/-- creol2html_emitter.py 168-188: `_list_emit`; `inner` is the emission of the children -/
def listEmit (parent : Kind) (level : Nat) (tag : Str) (isItem : Bool) (inner : Str) : Str :=
  (if parent = .document then [] else c!"\n") ++
  (if isItem then tabs level ++ '<' :: tag ++ '>' :: inner ++ c!"</" ++ tag ++ c!">"
   else tabs level ++ '<' :: tag ++ '>' :: inner ++ '\n' :: tabs level ++ c!"</" ++ tag ++ c!">")

/-- creol2html_emitter.py 213-217: `_typeface` -/
def typeface (tag inner : Str) : Str := '<' :: tag ++ '>' :: inner ++ c!"</" ++ tag ++ c!">"

/-- creol2html_emitter.py 246-254: `header_emit` -/
def headerEmit (env : Env) (level : Nat) (content : Str) (ms : Macros) : EM := do
  let h := 'h' :: natDigits level
  let header := '<' :: h ++ '>' :: htmlEscape content ++ c!"</" ++ h ++ c!">"
  if env.useToc then
    match dictGet c!"toc" ms with
    | some (.toc t) => do
      let t ← t.addHeadline level content
      return (c!"<a name=\"" ++ htmlEscape content ++ c!"\">" ++ header ++ c!"</a>\n",
        dictSet c!"toc" (.toc t) ms)
    | _ => .error .attributeError
  else return (header ++ c!"\n", ms)

/-- creol2html_emitter.py 141-146: `get_text` -/
def getText (i : Info) (children : List Node) : Str :=
  match children with
  | c :: _ => c.info.content.getD []
  | [] => i.content.getD []

/-- creol2html_emitter.py 272-282: the size given after `|` in the text of an image; `none` when any step
fails -/
def imageSize (target text : Str) : Option (Str × Int × Int) := do
  let (title, size) ← splitOnce '|' text
  let title := if title = [] then target else title
  let (w, h) ← splitOnce 'x' size
  let width ← pyInt (strip w)
  let height ← pyInt (strip h)
  return (title, width, height)

/-- `<img src="..." title="..." alt="..."` -/
def imgOpen (target title : Str) : Str :=
  c!"<img src=\"" ++ attrEscape target ++ c!"\" title=\"" ++ title ++ c!"\" alt=\"" ++ title ++ c!"\""

/-- creol2html_emitter.py 268-283: `image_emit` -/
def imageEmit (env : Env) (target rawText : Str) : Str :=
  let text := attrEscape rawText
  let plain := imgOpen target text ++ c!" />"
  if env.strict then plain
  else match imageSize target text with
    | some (title, w, h) =>
      imgOpen target title ++ c!" width=\"" ++ intStr w ++ c!"\" height=\"" ++ intStr h ++ c!"\" />"
    | none => plain

/-- Python's message when a keyword collides with `self` of `TableOfContent.__call__` -/
def tocSelfMsg : Str := c!"TableOfContent.__call__() got multiple values for argument 'self'"

/-- calling a macro with keyword arguments (creol2html_emitter.py 322): what it does, and the new contents of the dict.  A
macro that itself changes the dict or the emitter is not modelled. -/
def callMacro (name : Str) (mac : Macro) (kwargs : Dict PVal) (ms : Macros) : Outcome × Macros :=
  match mac with
  | .fn f => (f kwargs, ms)
  | .obj past f => (f past kwargs, ms.map fun (k, m) => (k, m.record (name, kwargs)))
  | .toc t =>
    if (dictGet c!"self" kwargs).isSome then (.typeError tocSelfMsg, ms)
    else
      let (s, t) := t.call ((dictGet c!"depth" kwargs).getD .none)
      (.ret s, dictSet name (.toc t) ms)

/-- `None` or a `str` as a keyword argument value -/
def optVal : Option Str → PVal
  | none => .none
  | some s => .str s

/-- creol2html_emitter.py 285-366: `macro_emit`.  The traceback details for `verbose > 1` only go to stderr
and are not modelled. -/
def macroEmit (env : Env) (i : Info) (ms : Macros) : EM :=
  let name := i.macroName
  match string2dict i.macroArgs with
  | .error .valueError =>
    .ok (errorText env (c!"Wrong macro arguments: " ++ jsonStr i.macroArgs ++ c!" for macro '" ++ name
      ++ c!"' (maybe wrong macro tag syntax?)"), ms)
  | .error e => .error e
  | .ok kwargs =>
    let kwargs := dictSet c!"text" (optVal i.content) kwargs
    match dictGet name ms with
    | none => .ok (errorText env (c!"Macro '" ++ name ++ c!"' doesn't exist"), ms)
    | some mac =>
      let (out, ms) := callMacro name mac kwargs ms
      match out with
      | .typeError msg =>
        if env.verbose > 2 then .error (.typeError msg)
        else .ok (errorText env (c!"Macro '" ++ name ++ c!"' error: " ++ msg), ms)
      | .exc msg => .ok (errorText env (c!"Macro '" ++ name ++ c!"' error: " ++ msg), ms)
      | .baseExc => .error .user
      | .other descr =>
        .ok (errorText env (c!"Macro '" ++ name ++ c!"' doesn't return a unicode string!" ++
          (if env.verbose > 1 then c!" - " ++ descr else [])), ms)
      | .ret s => .ok (if i.kind = .macro_block then s ++ c!"\n" else s, ms)

/-- the `content` of a node where Python calls a `str` method on it: `None` raises `AttributeError` -/
def Info.contentE (i : Info) : Except PyErr Str :=
  match i.content with
  | some s => .ok s
  | none => .error .attributeError

/-- the `level` of a node where Python uses it as a number: `None` raises `TypeError` -/
def Info.levelE (i : Info) : Except PyErr Nat :=
  match i.level with
  | some n => .ok n
  | none => .error (.typeError [])

/-- creol2html_emitter.py 368-374: `break_emit` -/
def breakEmit (parent : Info) : Except PyErr Str :=
  if parent.kind = .list_item then parent.levelE.map fun n => c!"<br />\n" ++ tabs n
  else if parent.kind = .table_head || parent.kind = .table_cell then .ok c!"<br />\n\t\t"
  else .ok c!"<br />\n"

/-- a text that does not depend on the children and the macros -/
def pureText (r : Except PyErr Str) (ms : Macros) : EM := r.map fun s => (s, ms)

/-- wrap the text of a successful emission -/
def emap (f : Str → Str) (r : EM) : EM := r.map fun (s, ms) => (f s, ms)

mutual
/-- creol2html_emitter.py 395-399: `emit_node`, with the `*_emit` methods (156-385); `parent` holds the
attributes of `node.parent` -/
def emitNode (env : Env) (parent : Info) : Node → Macros → EM
  | .mk i cs, ms =>
    match i.kind with
    | .document => emitNodes env i cs ms
    | .text => pureText (i.contentE.map htmlEscape) ms
    | .separator => .ok (c!"<hr />\n", ms)
    | .paragraph => emap (fun s => c!"<p>" ++ s ++ c!"</p>\n") (emitNodes env i cs ms)
    | .bullet_list =>
      match i.levelE with
      | .ok n => emap (listEmit parent.kind n c!"ul" false) (emitNodes env i cs ms)
      | .error e => .error e
    | .number_list =>
      match i.levelE with
      | .ok n => emap (listEmit parent.kind n c!"ol" false) (emitNodes env i cs ms)
      | .error e => .error e
    | .list_item =>
      match i.levelE with
      | .ok n => emap (listEmit parent.kind n c!"li" true) (emitNodes env i cs ms)
      | .error e => .error e
    | .table => emap (fun s => c!"<table>\n" ++ s ++ c!"</table>\n") (emitNodes env i cs ms)
    | .table_row => emap (fun s => c!"<tr>\n" ++ s ++ c!"</tr>\n") (emitNodes env i cs ms)
    | .table_cell => emap (fun s => c!"\t<td>" ++ s ++ c!"</td>\n") (emitNodes env i cs ms)
    | .table_head => emap (fun s => c!"\t<th>" ++ s ++ c!"</th>\n") (emitNodes env i cs ms)
    | .emphasis => emap (typeface c!"i") (emitNodes env i cs ms)
    | .strong => emap (typeface c!"strong") (emitNodes env i cs ms)
    | .monospace => emap (typeface c!"tt") (emitNodes env i cs ms)
    | .superscript => emap (typeface c!"sup") (emitNodes env i cs ms)
    | .subscript => emap (typeface c!"sub") (emitNodes env i cs ms)
    | .underline => emap (typeface c!"u") (emitNodes env i cs ms)
    | .small => emap (typeface c!"small") (emitNodes env i cs ms)
    | .delete => emap (typeface c!"del") (emitNodes env i cs ms)
    | .header =>
      match i.levelE, i.contentE with
      | .ok n, .ok s => headerEmit env n s ms
      | .error e, _ => .error e
      | .ok _, .error e => .error e
    | .link =>
      match i.contentE with
      | .error e => .error e
      | .ok target =>
        if cs.isEmpty then
          .ok (c!"<a href=\"" ++ attrEscape target ++ c!"\">" ++ htmlEscape target ++ c!"</a>", ms)
        else emap (fun s => c!"<a href=\"" ++ attrEscape target ++ c!"\">" ++ s ++ c!"</a>")
          (emitNodes env i cs ms)
    | .image => pureText (i.contentE.map fun target => imageEmit env target (getText i cs)) ms
    | .macro_inline => macroEmit env i ms
    | .macro_block => macroEmit env i ms
    | .brk => pureText (breakEmit parent) ms
    | .line => .ok (c!"\n", ms)
    | .pre_block => pureText (i.contentE.map fun s => c!"<pre>" ++ htmlEscape s ++ c!"</pre>\n") ms
    | .pre_inline => pureText (i.contentE.map fun s => c!"<code>" ++ htmlEscape s ++ c!"</code>") ms

/-- creol2html_emitter.py 391-393: `emit_children` -/
def emitNodes (env : Env) (parent : Info) : List Node → Macros → EM
  | [], ms => .ok ([], ms)
  | n :: ns, ms =>
    match emitNode env parent n ms with
    | .error e => .error e
    | .ok (s, ms) =>
      match emitNodes env parent ns ms with
      | .error e => .error e
      | .ok (t, ms) => .ok (s ++ t, ms)
end

/-- creol2html_emitter.py 99-139 (`__init__`, for a dict `macros`) and 401-407 (`emit`) -/
def emitDoc (verbose : Int) (strict : Bool) (d : Doc) (macros : Macros) : EM := do
  let useToc := d.used.contains c!"toc"
  let ms := if useToc && (dictGet c!"toc" macros).isNone then dictSet c!"toc" (.toc {}) macros else macros
  let (s, ms) ← emitNode { verbose, strict, useToc } { kind := .document } d.root ms
  let s := strip s
  if useToc then
    match dictGet c!"toc" ms with
    | some (.toc t) => do
      let s ← t.emit s
      return (s, ms)
    | _ => .error .attributeError
  else return (s, ms)

/-- Arguments of `creole2html` other than the text (`/repo/creole/__init__.py` 34-38).  `debug`, `block_rules` and
`stderr` are not modelled; `verbose=None` is 1 (creol2html_emitter.py 129-132). -/
structure Opts where
  blog : Bool := true
  verbose : Int := 1
  strict : Bool := false

/-- `creole2html(markup, ..., macros=macros)` (`/repo/creole/__init__.py` 34-66): the HTML and the new contents of
the caller's `macros` dict. -/
def creole2htmlM (o : Opts) (macros : Macros) (markup : Str) : EM := do
  let d ← parse o.blog markup
  emitDoc o.verbose o.strict d macros

/-- `creole2html(markup, ...)` with `macros=None` -/
def creole2html (o : Opts) (markup : Str) : Except PyErr Str :=
  (creole2htmlM o [] markup).map (·.1)

end Verif.Creole
