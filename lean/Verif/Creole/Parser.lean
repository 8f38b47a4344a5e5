import Verif.Creole.Rules
import Verif.Creole.Tree

/-!
# The creole parser

Models `/repo/creole/parser/creol2html_parser.py`.

Representation.  The Python parser holds a mutable tree of `DocNode`s, the cursor `self.cur`, the node
`self.text` that receives characters, and the set `root.used_macros`.  All changes happen at `self.cur` (append a
child, delete the last child) or at `self.text`; so the tree with its cursor is represented by a zipper: the
node under the cursor and the list of its ancestors, each with the children collected so far (the
child on the path is added to its parent when the cursor moves up).  `self.text` is represented by a flag: it
is either `None` or the last child of `self.cur`.  Wherever that would not be true of the Python state the
model returns the error `staleText`/`badCursor`.
-/

namespace Verif.Creole

open Verif

/-- A node whose children are still being collected. -/
structure Frame where
  info : Info
  children : List Node := []
  deriving Repr

def Frame.kind (f : Frame) : Kind := f.info.kind
def Frame.close (f : Frame) : Node := .mk f.info f.children
def Frame.add (f : Frame) (n : Node) : Frame := { f with children := f.children ++ [n] }

/-- The state of `CreoleParser` (creol2html_parser.py 61-80). -/
structure PS where
  /-- `self.cur` -/
  cur : Frame
  /-- ancestors of `self.cur`, nearest first -/
  up : List Frame := []
  /-- `self.text is not None` -/
  text : Bool := false
  /-- `self.root.used_macros` -/
  used : List Str := []
  deriving Repr

abbrev PM := Except PyErr PS

/-- `DocNode(kind, self.cur, content, ...)` : append a node without children to the cursor node
(document_tree.py 23-36). -/
def PS.leaf (st : PS) (i : Info) : PS := { st with cur := st.cur.add (.mk i []) }

/-- append a node with finished children -/
def PS.addNode (st : PS) (n : Node) : PS := { st with cur := st.cur.add n }

/-- `self.cur = DocNode(kind, self.cur, ...)` -/
def PS.push (st : PS) (i : Info) : PS := { st with cur := { info := i }, up := st.cur :: st.up }

/-- `self.text = None` -/
def PS.noText (st : PS) : PS := { st with text := false }

/-- The cursor or the children of the cursor node change while `self.text` is kept: only faithful when
`self.text` is `None`. -/
def PS.checkText (st : PS) : PM := if st.text then .error .staleText else .ok st

/-- creol2html_parser.py 84-96: `cleanup_break` (it looks at `self.cur`, whatever its argument is) -/
def PS.cleanupBreak (st : PS) : PS :=
  match st.cur.children.getLast? with
  | some n => if n.kind = .brk then { st with cur := { st.cur with children := st.cur.children.dropLast } } else st
  | none => st

/-- the loop of creol2html_parser.py 105-108 -/
def climb (stop : Kind → Bool) : Frame → List Frame → Frame × List Frame
  | f, [] => (f, [])
  | f, p :: up => if stop f.kind then (f, p :: up) else climb stop (p.add f.close) up

/-- creol2html_parser.py 98-108: `self.cur = self._upto(self.cur, kinds)` -/
def PS.upto (st : PS) (stop : Kind → Bool) : PS :=
  let st := st.cleanupBreak
  let (f, up) := climb stop st.cur st.up
  { st with cur := f, up := up }

/-- the kinds 'document', 'section', 'blockquote' (the last two are never created by the parser) -/
def isDoc (k : Kind) : Bool := k = .document

/-- creol2html_parser.py 110-111: `_upto_block` -/
def PS.uptoBlock (st : PS) : PS := st.upto isDoc

/-- `self.cur = self.cur.parent` -/
def PS.pop (st : PS) : PM :=
  match st.up with
  | [] => .error .badCursor
  | p :: up => .ok { st with cur := p.add st.cur.close, up := up }

/-- move up until the cursor has `n` ancestors -/
def popToAux (n : Nat) : Frame → List Frame → Option (Frame × List Frame)
  | f, [] => if n = 0 then some (f, []) else none
  | f, p :: up => if (p :: up).length = n then some (f, p :: up) else popToAux n (p.add f.close) up

/-- `self.cur = node` for a node remembered from before, namely the ancestor-or-self of `self.cur` that has
`n` ancestors. -/
def PS.popTo (st : PS) (n : Nat) : PM :=
  match popToAux n st.cur st.up with
  | none => .error .badCursor
  | some (f, up) => .ok { st with cur := f, up := up }

/-- `self.text.content += s`, for `self.text` the last child of the cursor node -/
def PS.appendText (st : PS) (s : Str) : PM :=
  match st.cur.children.getLast? with
  | some (.mk i cs) =>
    let n : Node := .mk { i with content := some (i.content.getD [] ++ s) } cs
    .ok { st with cur := { st.cur with children := st.cur.children.dropLast ++ [n] } }
  | none => .error .staleText

/-- `if self.text is None: self.text = DocNode('text', self.cur, "")` then `self.text.content += s`
(creol2html_parser.py 154-156, 415-417, 421-423) -/
def PS.addChars (st : PS) (s : Str) : PM :=
  let st := if st.text then st else { st.leaf { kind := .text, content := some [] } with text := true }
  st.appendText s

/-- A group that must have taken part in the match: Python would pass `None` on and raise `TypeError`. -/
def need (m : Match G) (g : G) : Except PyErr Str :=
  match m.get g with
  | some s => .ok s
  | none => .error (.typeError [])

/-- names of the groups of a regular expression, in the order of their opening parentheses: the order of
`match.groupdict()` -/
def groupOrder : R → List G
  | .grp g a => g :: groupOrder a
  | .seq a b | .alt a b => groupOrder a ++ groupOrder b
  | .star _ a | .notAhead a => groupOrder a
  | _ => []

/-- creol2html_parser.py 436-444: the first group that is not `None` selects the method -/
def dispatch (order : List G) (m : Match G) : Option G := order.find? fun g => (m.get g).isSome

/-- creol2html_parser.py 143-156: `_url_repl` -/
def urlRepl (m : Match G) (st : PS) : PM :=
  if (m.get .escaped_url).getD [] = [] then do
    let target ← need m .url_target
    return (st.addNode (.mk { kind := .link, content := some target }
      [.mk { kind := .text, content := some target } []])).noText
  else do
    let target ← need m .url_target
    st.addChars target

/-- creol2html_parser.py 177-196: `_add_macro` -/
def addMacro (kind : Kind) (nameKey argsKey : G) (textKey : Option G) (m : Match G) (st : PS) : PM := do
  let text ← match textKey with
    | some k => (need m k).map fun s => some (Py.strip s)
    | none => .ok none
  let name ← need m nameKey
  let args ← need m argsKey
  return { st.leaf { kind := kind, content := text, macroName := name, macroArgs := Py.strip args } with
    used := name :: st.used, text := false }

/-- creol2html_parser.py 198-214: `_macro_block_repl` -/
def macroBlockRepl (m : Match G) (st : PS) : PM :=
  let st := st.uptoBlock
  let (f, up) := climb (fun _ => false) st.cur st.up
  addMacro .macro_block .macro_block_start .macro_block_args (some .macro_block_text) m
    { st with cur := f, up := up }

/-- creol2html_parser.py 219-229: `_macro_tag_repl` -/
def macroTagRepl : Match G → PS → PM := addMacro .macro_inline .macro_tag_name .macro_tag_args none

/-- creol2html_parser.py 233-243: `_macro_inline_repl` -/
def macroInlineRepl : Match G → PS → PM :=
  addMacro .macro_inline .macro_inline_start .macro_inline_args (some .macro_inline_text)

/-- creol2html_parser.py 250-256: `_image_repl` -/
def imageRepl (m : Match G) (st : PS) : PM := do
  let target := Py.strip (← need m .image_target)
  let text := Py.strip ((m.get .image_text).getD [])
  return (st.addNode (.mk { kind := .image, content := some target }
    [.mk { kind := .text, content := some (if text = [] then target else text) } []])).noText

/-- creol2html_parser.py 355-358: `_pre_inline_repl` -/
def preInlineRepl (m : Match G) (st : PS) : PM := do
  let text ← need m .pre_inline_text
  return (st.leaf { kind := .pre_inline, content := some text }).noText

/-- creol2html_parser.py 410-412: `_linebreak_repl` -/
def linebreakRepl (st : PS) : PM := .ok (st.leaf { kind := .brk }).noText

/-- creol2html_parser.py 414-417: `_escape_repl` -/
def escapeRepl (m : Match G) (st : PS) : PM := do st.addChars (← need m .escaped_char)

/-- creol2html_parser.py 420-423: `_char_repl` -/
def charRepl (m : Match G) (st : PS) : PM := do st.addChars (← need m .char)

/-- The methods selected by `_replace` (creol2html_parser.py 427-444) that do not parse inline markup again. -/
def leafRepl (g : G) (m : Match G) (st : PS) : PM :=
  match g with
  | .url | .url_target | .url_proto | .escaped_url => urlRepl m st
  | .macro_tag | .macro_tag_name | .macro_tag_args => macroTagRepl m st
  | .macro_inline | .macro_inline_start | .macro_inline_args | .macro_inline_text => macroInlineRepl m st
  | .image | .image_target | .image_text => imageRepl m st
  | .pre_inline | .pre_inline_text => preInlineRepl m st
  | .linebreak => linebreakRepl st
  | .escape | .escaped_char => escapeRepl m st
  | .char => charRepl m st
  | _ => .error .attributeError

/-- run a handler over all matches: `regex.sub(self._replace, raw)`; the text returned by `sub` is discarded -/
def subAll (r : R) (h : G → Match G → PS → PM) (raw : Str) (st : PS) : PM :=
  (r.findAll raw).foldlM (init := st) fun st m =>
    match dispatch (groupOrder r) m with
    | some g => h g m st
    | none => .ok st

/-- creol2html_parser.py 161-171: `_link_repl` -/
def linkRepl (m : Match G) (st : PS) : PM := do
  let target ← need m .link_target
  let text := Py.strip ((m.get .link_text).getD [])
  let n := st.up.length
  let st := (st.push { kind := .link, content := some target }).noText
  let st ← subAll linkRe leafRepl text st
  return (← st.popTo n).noText

/-- creol2html_parser.py 364-372: `_inline_mark` -/
def inlineMark (parseInline : Str → PS → PM) (kind : Kind) (textKey : G) (m : Match G) (st : PS) : PM := do
  let st := (st.push { kind := kind }).noText
  let text ← need m textKey
  let st ← parseInline text st
  let st := st.upto fun k => k = kind
  return (← st.pop).noText

/-- `_replace` for the matches of `inline_re` (creol2html_parser.py 376-406, 427-444) -/
def inlineRepl (parseInline : Str → PS → PM) (g : G) (m : Match G) (st : PS) : PM :=
  match g with
  | .link | .link_target | .link_text => linkRepl m st
  | .emphasis | .emphasis_text => inlineMark parseInline .emphasis .emphasis_text m st
  | .strong | .strong_text => inlineMark parseInline .strong .strong_text m st
  | .monospace | .monospace_text => inlineMark parseInline .monospace .monospace_text m st
  | .superscript | .superscript_text => inlineMark parseInline .superscript .superscript_text m st
  | .subscript | .subscript_text => inlineMark parseInline .subscript .subscript_text m st
  | .underline | .underline_text => inlineMark parseInline .underline .underline_text m st
  | .small | .small_text => inlineMark parseInline .small .small_text m st
  | .delete | .delete_text => inlineMark parseInline .delete .delete_text m st
  | g => leafRepl g m st

/-- creol2html_parser.py 446-448: `parse_inline`.  The recursion through `_inline_mark` is bounded by fuel;
running out of it is the error `recursionError`, which is proved unreachable for the fuel used below. -/
def parseInlineN : Nat → Str → PS → PM
  | 0, _, _ => .error .recursionError
  | n + 1, raw, st => subAll inlineRe (inlineRepl (parseInlineN n)) raw st

/-- `parse_inline` with enough fuel -/
def parseInline (raw : Str) (st : PS) : PM := parseInlineN (raw.length + 1) raw st

/-- kinds after which a text line continues the node (creol2html_parser.py 135-136) -/
def breakKinds (k : Kind) : Bool := k = .paragraph || k = .emphasis || k = .strong || k = .pre_inline

/-- creol2html_parser.py 117-139: `_text_repl` -/
def textRepl (m : Match G) (st : PS) : PM := do
  let st ← st.checkText
  let st := if st.cur.kind = .table || st.cur.kind = .table_row || st.cur.kind = .bullet_list ||
      st.cur.kind = .number_list then st.uptoBlock else st
  let st := if isDoc st.cur.kind then st.push { kind := .paragraph } else st
  let text ← need m .text
  let text := if (m.get .space).getD [] ≠ [] && !st.cur.children.isEmpty then ' ' :: text else text
  let st ← parseInline text st
  let st := if (m.get .brk).getD [] ≠ [] && breakKinds st.cur.kind
    then st.leaf { kind := .brk, content := some [] } else st
  return st.noText

/-- creol2html_parser.py 260-262: `_separator_repl` -/
def separatorRepl (st : PS) : PM := do
  let st ← st.checkText
  return st.uptoBlock.leaf { kind := .separator }

/-- creol2html_parser.py 273-283: look for a list of the given level on the way up, stop at the document -/
def findList (level : Nat) : Frame → List Frame → Option (Frame × List Frame)
  | f, up =>
    if ((f.kind = .number_list || f.kind = .bullet_list) && f.info.level = some level) || isDoc f.kind
    then some (f, up)
    else match up with
      | [] => none
      | p :: up => findList level (p.add f.close) up

/-- creol2html_parser.py 264-295: `_item_repl` -/
def itemRepl (m : Match G) (st : PS) : PM := do
  let st ← st.checkText
  let bullet ← need m .item_head
  let text ← need m .item_text
  match bullet.getLast? with
  | none => .error .indexError
  | some b =>
    let kind : Kind := if b = '#' then .number_list else .bullet_list
    let level := bullet.length - 1
    let newLevel : PS :=
      (st.upto fun k => k = .list_item || isDoc k).push { kind := kind, level := some level }
    let st := match findList level st.cur st.up with
      | some (f, up) => if f.kind = kind then { st with cur := f, up := up } else newLevel
      | none => newLevel
    let st := st.push { kind := .list_item, level := some (level + 1) }
    let st ← parseInline text st
    return st.noText

/-- creol2html_parser.py 299-301: `_list_repl` -/
def listRepl (m : Match G) (st : PS) : PM := do
  let raw ← need m .list
  subAll itemRe (fun g m st => match g with
    | .item | .item_head | .item_text => itemRepl m st
    | _ => .error .attributeError) raw st

/-- creol2html_parser.py 303-307: `_head_repl` -/
def headRepl (m : Match G) (st : PS) : PM := do
  let st := st.uptoBlock
  let text ← need m .head_text
  let head ← need m .head_head
  return (st.leaf { kind := .header, content := some (Py.strip text), level := some head.length }).noText

/-- creol2html_parser.py 320-330: one cell of a table row; the cursor is at the row before and after (in Python
it stays in the cell and the next cell is attached to the remembered row) -/
def cellRepl (st : PS) (m : Match G) : PM := do
  let n := st.up.length
  let cell := (m.get .cell).getD []
  if cell ≠ [] then
    let text := Py.strip cell
    let st := (st.push { kind := .table_cell }).noText
    let st ← parseInline text st
    return (← st.popTo n).noText
  else
    let head ← need m .head
    let text := Py.stripP (fun c => c = '=' || c = ' ') head
    let st := st.push { kind := .table_head }
    let st := { st.leaf { kind := .text, content := some [] } with text := true }
    let st ← parseInline text st
    return (← st.popTo n).noText

/-- creol2html_parser.py 311-333: `_table_repl` -/
def tableRepl (m : Match G) (st : PS) : PM := do
  let row := Py.strip (← need m .table)
  let st := st.upto fun k => k = .table || isDoc k
  let st := if st.cur.kind = .table then st else st.push { kind := .table }
  let n := st.up.length
  let st := st.push { kind := .table_row }
  let st ← (cellRe.findAll row).foldlM (init := st) cellRepl
  return (← st.popTo n).noText

/-- creol2html_parser.py 340-342: `pre_escape_re.sub(remove_tilde, text)` -/
def removeTilde (text : Str) : Str :=
  preEscapeRe.sub (fun m => (m.get .indent).getD [] ++ (m.get .rest).getD []) text

/-- creol2html_parser.py 335-345: `_pre_block_repl` -/
def preBlockRepl (m : Match G) (st : PS) : PM := do
  let st := st.uptoBlock
  let text ← need m .pre_block_text
  return (st.leaf { kind := .pre_block, content := some (removeTilde text) }).noText

/-- creol2html_parser.py 350-353: `_line_repl` -/
def lineRepl (st : PS) : PM := do
  let st ← st.checkText
  return st.uptoBlock.leaf { kind := .line, content := some [] }

/-- `_replace` for the matches of `block_re` (creol2html_parser.py 427-444) -/
def blockRepl (g : G) (m : Match G) (st : PS) : PM :=
  match g with
  | .macro_block | .macro_block_start | .macro_block_args | .macro_block_text => macroBlockRepl m st
  | .line => lineRepl st
  | .head | .head_head | .head_text => headRepl m st
  | .separator => separatorRepl st
  | .pre_block | .pre_block_text | .pre_block_kind => preBlockRepl m st
  | .list => listRepl m st
  | .table => tableRepl m st
  | .text | .brk | .space => textRepl m st
  | _ => .error .attributeError

/-- creol2html_parser.py 457: convert all line endings to `\n` -/
def normNewlines (s : Str) : Str := Py.replace c!"\r" c!"\n" (Py.replace c!"\r\n" c!"\n" s)

/-- creol2html_parser.py 450-452: `parse_block` -/
def parseBlock (blog : Bool) (raw : Str) (st : PS) : PM := subAll (blockRe blog) blockRepl raw st

/-- the state after `__init__` (creol2html_parser.py 61-80) -/
def PS.init : PS := { cur := { info := { kind := .document } } }

/-- A parsed document: the root node and `root.used_macros`. -/
structure Doc where
  root : Node
  used : List Str
  deriving Repr

/-- the root of the finished tree, wherever the cursor is -/
def PS.finish (st : PS) : Doc := { root := (climb (fun _ => false) st.cur st.up).1.close, used := st.used }

/-- creol2html_parser.py 454-462: `CreoleParser(raw, blog_line_breaks=blog).parse()` -/
def parse (blog : Bool) (raw : Str) : Except PyErr Doc :=
  (parseBlock blog (normNewlines raw) PS.init).map PS.finish

end Verif.Creole
