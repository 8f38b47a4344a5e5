import Verif.Html.Strip
import Verif.Html.Tokenizer

/-!
# The HTML parser

Models `/repo/creole/parser/html_parser.py` and the `DocNode`s it creates (`/repo/creole/shared/document_tree.py`).
-/

namespace Verif.Html

open Verif Py Re

/-! ## Document tree -/

/-- The attributes of a `DocNode` (document_tree.py 23-36).  Kinds are arbitrary strings, since tag names are. -/
structure HInfo where
  kind : Str
  content : Option Str := none
  attrs : Dict (Option Str) := []
  level : Option Int := none
  deriving DecidableEq, Repr

/-- A `DocNode` with its children. -/
inductive HNode where
  | mk (info : HInfo) (children : List HNode)
  deriving Repr

def HNode.info : HNode → HInfo | .mk i _ => i
def HNode.children : HNode → List HNode | .mk _ c => c

/-- `dict(attrs)` -/
def dictOf {α : Type} (l : List (Str × α)) : Dict α := l.foldl (fun d (k, v) => dictSet k v d) []

/-! ## Cutting out `<pre>` areas -/

/-- groups of `block_re` and `inline_re` -/
inductive PG where
  | pre_block | pre_inline
  deriving DecidableEq, Repr

def PG.ofName : String → Option PG
  | "pre_block" => some .pre_block
  | "pre_inline" => some .pre_inline
  | _ => none

/-- `(\n|.)*?` -/
private def anyLazy : Re PG := .star false (.alt (.cls (.chr '\n')) (.cls .dot))
private def ws : Re PG := .star true (.cls .space)

/-- html_parser.py 20-27: `block_re` -/
def blockRe : Re PG := cat [.bol true, lit c!"<pre>", ws, .eol true, .grp .pre_block anyLazy, .bol true, lit c!"</pre>",
  ws, .eol true, .star true (.cls (.union .space (.chr '\n')))]

/-- html_parser.py 29-35: `inline_re` -/
def inlineRe : Re PG := cat [lit c!"<pre>", .grp .pre_inline anyLazy, lit c!"</pre>"]

#guard ReParse.sameAs { verbose := true, multi := true, name := PG.ofName } r"
    ^<pre> \s* $
    (?P<pre_block>
        (\n|.)*?
    )
    ^</pre> \s* $
    [\s\n]*
" blockRe
#guard ReParse.sameAs { verbose := true, multi := false, name := PG.ofName } r"
    <pre>
    (?P<pre_inline>
        (\n|.)*?
    )
    </pre>
" inlineRe

/-- html_parser.py 75-76: `_block_placeholder`, `_inline_placeholder` -/
def blockPlaceholder : Str := c!"blockdata"
def inlinePlaceholder : Str := c!"inlinedata"

/-- html_parser.py 97-104: `_pre_cut`; the replacement text and the new `self.blockdata` -/
def preCut (blockdata : List Str) (data typ placeholder : Str) : Str × List Str :=
  ('<' :: placeholder ++ c!" type=\"" ++ typ ++ c!"\" id=\"" ++ natDigits blockdata.length ++ c!"\" />",
    blockdata ++ [data])

/-- html_parser.py 106-125: `_pre_cut_out` and the methods it calls for the two groups (`_pre_pass_block_cut` has no
group and is never called) -/
def preCutOut (blockdata : List Str) (m : Match PG) : Str × List Str :=
  match m.get .pre_inline, m.get .pre_block with
  | some t, _ => preCut blockdata t c!"pre" inlinePlaceholder
  | none, some t => preCut blockdata t c!"pre" blockPlaceholder
  | none, none => ([], blockdata)

/-- `r.sub(self._pre_cut_out, data)`: the matches are handled from left to right -/
def cutSegs : List (Seg PG) → List Str → Str × List Str
  | [], bd => ([], bd)
  | .skip c :: segs, bd => let (s, bd) := cutSegs segs bd; (c :: s, bd)
  | .hit m :: segs, bd =>
    let (a, bd) := preCutOut bd m
    let (s, bd) := cutSegs segs bd
    (a ++ s, bd)

/-- html_parser.py 131-138: the preprocessing of `feed`; the cleaned text and `self.blockdata` -/
def preprocess (raw : Str) : Str × List Str :=
  let data := strip raw
  let (data, bd) := cutSegs (blockRe.scan data) []
  let (data, bd) := cutSegs (inlineRe.scan data) bd
  (stripHtml data, bd)

/-! ## Handlers -/

/-- An open node: its attributes and its children so far, latest first. -/
structure Frame where
  info : HInfo
  done : List HNode := []

/-- State of an `HtmlParser` (html_parser.py 78-95).

`top :: below` are the nodes from `self.cur` up to the root; each one is the last child of the next one, and is added
to it when it is left.  When `self.cur` moves above the root (to `None`), nodes created afterwards have no parent, or
a parent that is not connected to the root; nothing leads back to the root.  Then `lost` is set, the tree does not
change any more, and only the exceptions of later events are modelled. -/
structure PSt where
  top : Frame := { info := { kind := c!"document" } }
  below : List Frame := []
  lost : Bool := false
  listLevel : Int := 0

/-- add a finished node to the current one -/
def PSt.leaf (s : PSt) (n : HNode) : PSt :=
  if s.lost then s else { s with top := { s.top with done := n :: s.top.done } }

/-- `DocNode(kind, self.cur, ...)` without children -/
def PSt.addLeaf (s : PSt) (i : HInfo) : PSt := s.leaf (.mk i [])

/-- `self.cur = DocNode(..., self.cur, ...)` -/
def PSt.open (s : PSt) (i : HInfo) : PSt :=
  if s.lost then s else { s with top := { info := i }, below := s.top :: s.below }

/-- the node of a frame -/
def Frame.node (f : Frame) : HNode := .mk f.info f.done.reverse

/-- leave `top`, whose parent is `f` -/
def Frame.close (top f : Frame) : Frame := { f with done := top.node :: f.done }

/-- `self.cur = self.cur.parent` -/
def PSt.up (s : PSt) : PSt :=
  if s.lost then s
  else match s.below with
    | [] => { s with lost := true }
    | f :: below => { s with top := s.top.close f, below }

/-- html_parser.py 176: `list(BLOCK_TAGS) + ["document"]` -/
def upKinds : List Str := blockTags ++ [c!"document"]

/-- html_parser.py 162-173: `_upto`, for a node with the given ancestors -/
def uptoFrames : Frame → List Frame → Frame × List Frame
  | top, [] => (top, [])
  | top, f :: below =>
    let f := top.close f
    if upKinds.contains f.info.kind then (f, below) else uptoFrames f below

/-- html_parser.py 175-178: `_go_up` -/
def PSt.goUp (s : PSt) : PSt :=
  if s.lost then s
  else let (top, below) := uptoFrames s.top s.below; { s with top, below }

/-- html_parser.py 38, 188: `headline_tag_re.match(tag)`; the level -/
def headlineLevel : Str → Option Nat
  | 'h' :: d :: _ => decimal? d
  | _ => none

/-- html_parser.py 182-205: `handle_starttag` -/
def handleStart (s : PSt) (tag : Str) (attrs : List (Str × Option Str)) : PSt :=
  if ignoreTags.contains tag then s
  else
    match headlineLevel tag with
    | some n => s.open { kind := c!"headline", level := some n }
    | none =>
      if tag = c!"li" then s.open { kind := tag, attrs := dictOf attrs, level := some s.listLevel }
      else if tag = c!"ul" || tag = c!"ol" then
        let s := { s with listLevel := s.listLevel + 1 }
        s.open { kind := tag, attrs := dictOf attrs, level := some s.listLevel }
      else if tag = c!"img" || tag = c!"br" then s.addLeaf { kind := tag, attrs := dictOf attrs }
      else s.open { kind := tag, attrs := dictOf attrs }

/-- `l[i]`, negative indices count from the end -/
def pyIndex {α : Type} (l : List α) : Int → Except PyErr α
  | .ofNat n => match l[n]? with | some x => .ok x | none => .error .indexError
  | .negSucc n => match l.reverse[n]? with | some x => .ok x | none => .error .indexError

/-- html_parser.py 223-231: the node for a placeholder tag -/
def placeholderNode (blockdata : List Str) (tag : Str) (attrs : Dict (Option Str)) : Except PyErr HInfo := do
  let id ← match dictGet c!"id" attrs with
    | none => .error .keyError
    | some none => .error (.typeError [])
    | some (some v) => match pyInt v with | some n => .ok n | none => .error .valueError
  let typ ← match dictGet c!"type" attrs with
    | none => .error .keyError
    | some none => .ok c!"None"
    | some (some v) => .ok v
  let content ← pyIndex blockdata id
  return { kind := tag ++ '_' :: typ, content := some content }

/-- html_parser.py 220-233: `handle_startendtag` -/
def handleStartEnd (blockdata : List Str) (s : PSt) (tag : Str) (attrs : List (Str × Option Str)) : Except PyErr PSt :=
  if tag = blockPlaceholder || tag = inlinePlaceholder then do
    let i ← placeholderNode blockdata tag (dictOf attrs)
    return s.addLeaf i
  else .ok (s.addLeaf { kind := tag, attrs := dictOf attrs })

/-- html_parser.py 235-252: `handle_endtag` -/
def handleEnd (s : PSt) (tag : Str) : PSt :=
  if ignoreTags.contains tag then s
  else if tag = c!"br" then s
  else
    let s := if tag = c!"ul" || tag = c!"ol" then { s with listLevel := s.listLevel - 1 } else s
    if blockTags.contains tag then s.goUp else s.up

/-- one handler call (html_parser.py 182-252) -/
def handle (blockdata : List Str) (s : PSt) : Event → Except PyErr PSt
  | .start tag attrs => .ok (handleStart s tag attrs)
  | .startend tag attrs => handleStartEnd blockdata s tag attrs
  | .end_ tag => .ok (handleEnd s tag)
  | .data d => .ok (s.addLeaf { kind := c!"data", content := some d })
  | .charref n => .ok (s.addLeaf { kind := c!"charref", content := some n })
  | .entityref n => .ok (s.addLeaf { kind := c!"entityref", content := some n })

/-- close all open nodes: the complete tree -/
def closeAll : Frame → List Frame → HNode
  | top, [] => top.node
  | top, f :: below => closeAll (top.close f) below

/-- the document tree `self.root` -/
def PSt.root (s : PSt) : HNode := closeAll s.top s.below

/-- all handler calls, then the exception of the tokenizer, if any -/
def runEvents (blockdata : List Str) (evs : List Event) (err : Option PyErr) : Except PyErr HNode := do
  let s ← evs.foldlM (handle blockdata) {}
  match err with
  | some e => .error e
  | none => return s.root

/-- html_parser.py 129-158: `feed(raw_data)`; also `parse_html` (`/repo/creole/__init__.py` 69-78) -/
def parseHtml (raw : Str) : Except PyErr HNode :=
  let (data, bd) := preprocess raw
  let (evs, err) := tokens data
  runEvents bd evs err

/-- html_parser.py 129-158: `feed(raw_data, preprocess=False)` -/
def parseRaw (raw : Str) : Except PyErr HNode :=
  let (evs, err) := tokens (strip raw)
  runEvents [] evs err

end Verif.Html
