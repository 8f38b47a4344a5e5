import Verif.Creole.Emitter
import Verif.Html.Parser
import Verif.Html.Deentity
import Verif.Emit.Table
import Verif.Emit.QuoteLink

/-!
# The emitters from HTML document trees

Models `/repo/creole/shared/base_emitter.py`, `/repo/creole/emitter/html2creole_emitter.py`,
`html2textile_emitter.py`, `html2markdown_emitter.py`, `html2rest_emitter.py`, `/repo/creole/shared/unknown_tags.py` and
the functions `html2creole`, `html2textile`, `html2markdown` and `html2rest` of `/repo/creole/__init__.py`.

Not modelled: `debug`, `unknown_emit` functions other than those of `unknown_tags.py`, the recursion limit.
-/

namespace Verif.Emit

open Verif Py Html

/-- the four emitter classes -/
inductive Lang where
  | creole | textile | markdown | rest
  deriving DecidableEq, Repr

/-- the `unknown_emit` functions of `/repo/creole/shared/unknown_tags.py` -/
inductive Policy where
  | transparent | raise | htmlMacro | preformat | escape
  deriving DecidableEq, Repr

/-- the arguments of an emitter; `netlocOk` see `urlparse` -/
structure Cfg where
  lang : Lang
  policy : Policy := .transparent
  strict : Bool := false
  netlocOk : Str → Bool := fun _ => true

/-- The mutable attributes of the emitters (base_emitter.py 23-36, html2rest_emitter.py 34-43).  Of `self.last` only the
kind and the content are read. -/
structure ESt where
  last : Option (Str × Option Str) := none
  innerList : Str := []
  /-- `self._table`; `none` before the first table -/
  table : Option Table := none
  /-- `self._substitution_data` -/
  subst : List Str := []
  /-- `self._used_substitution_links` -/
  usedLinks : Dict (Option Str) := []
  /-- `self._used_substitution_images` -/
  usedImages : Dict (Option Str) := []
  /-- `self._list_markup` -/
  listMarkup : Str := []

/-- An emitter method: it reads and writes the attributes and may raise. -/
abbrev EmM := StateT ESt (Except PyErr)

/-- raise an exception -/
def raise {α : Type} (e : PyErr) : EmM α := throw e

/-- an operation that does not use the attributes -/
def ofExcept {α : Type} : Except PyErr α → EmM α
  | .ok a => pure a
  | .error e => throw e

/-! ## Helper methods -/

/-- base_emitter.py 142-149: `_escape_linebreaks` -/
def escapeLinebreaks (text : Str) : Str :=
  let lines := ((splitChar '\n' (strip text)).map strip).filter (· ≠ [])
  stripP (· == '\\') (join c!"\\\\" lines)

/-- base_emitter.py 165-170: `_emit_content`, after the children are emitted -/
def emitContent (kind children : Str) : Str :=
  let content := escapeLinebreaks children
  if blockTags.contains kind then content ++ c!"\n\n" else content

/-- `str(x)` in an f-string, for an attribute or a content -/
def fmt : Option Str → Str
  | some s => s
  | none => c!"None"

/-- `node.level` where an `int` is needed -/
def levelM (i : HInfo) : EmM Int :=
  match i.level with
  | some n => pure n
  | none => raise (.typeError [])

/-- `self._table`, or `AttributeError` -/
def getTable : EmM Table := do
  match (← get).table with
  | some t => pure t
  | none => raise .attributeError

def setTable (t : Table) : EmM Unit := modify fun s => { s with table := some t }

/-- `self.deentity.replace_all(node.content)` -/
def deentityM (content : Option Str) : EmM Str :=
  match content with
  | some c => ofExcept (replaceAll c)
  | none => raise (.typeError [])

/-- base_emitter.py 49-64: `entityref_emit` -/
def entityrefText (content : Option Str) : Str :=
  match content with
  | some name => match replaceNamed name with | .ok t => t | .error _ => '&' :: name
  | none => c!"&None"

/-- base_emitter.py 66-78: `charref_emit` -/
def charrefText (content : Option Str) : Except PyErr Str :=
  match content with
  | some ('x' :: hex) => replaceHex hex
  | some name => replaceNumber name
  | none => .error .attributeError

/-- base_emitter.py 103-106: `start_newline` in `_list_emit` -/
def startNewline : Option (Str × Option Str) → Bool
  | none => false
  | some (kind, content) =>
    !blockTags.contains kind &&
      match content with
      | some c => c.getLast? ≠ some '\n'
      | none => true

/-- base_emitter.py 102-123: `_list_emit` (creole and textile) -/
def baseList (marker : Str) (ch : EmM Str) : EmM Str := do
  let start := startNewline (← get).last
  modify fun s => { s with innerList := s.innerList ++ marker }
  let content ← ch
  modify fun s => { s with innerList := s.innerList.dropLast }
  if (← get).innerList = [] then
    if start then return '\n' :: content ++ c!"\n\n" else return strip content ++ c!"\n\n"
  else return content

/-- base_emitter.py 98-100: `li_emit` -/
def baseLi (ch : EmM Str) : EmM Str := do
  let content ← ch
  return '\n' :: (← get).innerList ++ ' ' :: content

/-- the text of an `img` (html2creole_emitter.py 116-126, html2textile_emitter.py 108-117, html2rest_emitter.py
232-241): the longer one of `alt` and `title`, or the file name -/
def imgText (attrs : Dict (Option Str)) (src : Str) : EmM Str := do
  match (dictGet c!"alt" attrs).getD (some []), (dictGet c!"title" attrs).getD (some []) with
  | some alt, some title =>
    let text := if alt.length > title.length then alt else title
    if text = [] then return (splitLastSlash src).2 else return text
  | _, _ => raise (.typeError [])

/-- `node.attrs["src"]` and the test for `data:` (html2creole_emitter.py 111-114, html2textile_emitter.py 103-106,
html2rest_emitter.py 227-230); `none` for a data URI -/
def imgSrc (attrs : Dict (Option Str)) : EmM (Option Str) :=
  match dictGet c!"src" attrs with
  | none => raise .keyError
  | some none => raise .attributeError
  | some (some src) =>
    if (splitChar ':' src).head? = some c!"data" then pure none else pure (some src)

/-! ## creole -/

/-- html2creole_emitter.py 98-108: `a_emit` -/
def creoleLink (attrs : Dict (Option Str)) (ch : EmM Str) : EmM Str := do
  let text ← ch
  match dictGet c!"href" attrs with
  | none => return text
  | some url =>
    if url = some text then return c!"[[" ++ text ++ c!"]]" else return c!"[[" ++ fmt url ++ '|' :: text ++ c!"]]"

/-- `width and height` (html2creole_emitter.py 118-130) -/
def truthy : Option (Option Str) → Option Str
  | some (some (c :: cs)) => some (c :: cs)
  | _ => none

/-- html2creole_emitter.py 110-132: `img_emit` -/
def creoleImg (strict : Bool) (attrs : Dict (Option Str)) : EmM Str := do
  match ← imgSrc attrs with
  | none => return []
  | some src =>
    let text ← imgText attrs src
    match strict, truthy (dictGet c!"height" attrs), truthy (dictGet c!"width" attrs) with
    | false, some width, some height =>
      return c!"{{" ++ src ++ '|' :: text ++ '|' :: width ++ 'x' :: height ++ c!"}}"
    | _, _, _ => return c!"{{" ++ src ++ '|' :: text ++ c!"}}"

/-! ## textile -/

/-- html2textile_emitter.py 97-100: `a_emit` -/
def textileLink (attrs : Dict (Option Str)) (ch : EmM Str) : EmM Str := do
  let text ← ch
  match dictGet c!"href" attrs with
  | none => raise .keyError
  | some url => return '"' :: text ++ c!"\":" ++ fmt url

/-- html2textile_emitter.py 102-119: `img_emit` -/
def textileImg (attrs : Dict (Option Str)) : EmM Str := do
  match ← imgSrc attrs with
  | none => return []
  | some src =>
    let text ← imgText attrs src
    return '!' :: src ++ '(' :: text ++ c!")!"

/-! ## ReStructuredText -/

/-- html2rest_emitter.py 45-54: `_get_block_data` -/
def getBlockData : EmM Str := do
  let content := join c!"\n" (← get).subst
  modify fun s => { s with subst := [] }
  return content

/-- html2rest_emitter.py 92-95: what is emitted before a child of the root -/
def flushSubst (isChildOfRoot : Bool) : EmM Str := do
  if (← get).subst ≠ [] && isChildOfRoot then return (← getBlockData) ++ c!"\n\n" else return []

/-- html2rest_emitter.py 83-89: the end of `document_emit` -/
def restDocument (ch : EmM Str) : EmM Str := do
  let result ← ch
  if (← get).subst ≠ [] then
    let result := if c!"\n\n".isSuffixOf result then result else result ++ c!"\n\n"
    return result ++ (← getBlockData) ++ c!"\n\n"
  else return result

/-- `s.splitlines()` for a `str`; `cr` tells whether the previous character was a `\r` that ended a line.  The
argument `cur` is the current line, reversed; `empty` tells whether nothing follows the last line end. -/
def splitlinesAux : Bool → Bool → Str → Str → List Str
  | _, fresh, cur, [] => if fresh then [] else [cur.reverse]
  | cr, _, cur, c :: cs =>
    if cr && c = '\n' then splitlinesAux false true [] cs
    else if isLineEnd c then cur.reverse :: splitlinesAux (c = '\r') true [] cs
    else splitlinesAux false false (c :: cur) cs
where
  /-- the line boundaries of `str.splitlines` -/
  isLineEnd (c : Char) : Bool :=
    let n := c.toNat
    (10 ≤ n && n ≤ 13) || (28 ≤ n && n ≤ 30) || n = 0x85 || n = 0x2028 || n = 0x2029

/-- `s.splitlines()` -/
def splitlines (s : Str) : List Str := splitlinesAux false true [] s

#guard splitlines c!"a\n\nb\r\nc\rd\n" = [c!"a", c!"", c!"b", c!"c", c!"d"]
#guard splitlines c!"" = []
#guard splitlines c!"\n" = [c!""]

/-- html2rest_emitter.py 58-62: `blockdata_pre_emit`, the text after entity replacement -/
def restPre (text : Str) : Str :=
  c!"::\n\n" ++ join c!"\n" ((splitlines (strip text)).map (c!"    " ++ ·)) ++ c!"\n\n"

/-- html2rest_emitter.py 102-109: `HEADLINE_DATA` -/
def headlineData : Int → Option (Char × Bool)
  | 1 => some ('=', true)
  | 2 => some ('-', true)
  | 3 => some ('=', false)
  | 4 => some ('-', false)
  | 5 => some ('`', false)
  | 6 => some ('\'', false)
  | _ => none

/-- html2rest_emitter.py 111-126: `headline_emit` -/
def restHeadline (i : HInfo) (ch : EmM Str) : EmM Str := do
  let text ← ch
  let level ← levelM i
  let level := if level > 6 then 6 else level
  match headlineData level with
  | none => raise .keyError
  | some (c, both) =>
    let markup := List.replicate text.length c
    if both then return markup ++ '\n' :: text ++ '\n' :: markup ++ c!"\n\n"
    else return text ++ '\n' :: markup ++ c!"\n\n"

/-- html2rest_emitter.py 186-202: `_get_old_substitution`; the returned value and the dict -/
def oldSubst (d : Dict (Option Str)) (text : Str) (url : Option Str) : Except PyErr (Option Str × Dict (Option Str)) :=
  match dictGet text d with
  | none => .ok (none, dictSet text url d)
  | some old => if old = url then .ok (old, d) else .error .html2rest

/-- truth value of the result of `_get_old_substitution` -/
def isOld : Option Str → Bool
  | some (_ :: _) => true
  | _ => false

/-- html2rest_emitter.py 175-184: `_should_do_substitution`; the kinds of the ancestors, the root included -/
def shouldSubst (anc : List Str) : Bool := anc.any fun k => k = c!"th" || k = c!"td"

/-- html2rest_emitter.py 204-224: `a_emit` -/
def restLink (anc : List Str) (attrs : Dict (Option Str)) (ch : EmM Str) : EmM Str := do
  let text ← ch
  match dictGet c!"href" attrs with
  | none => raise .keyError
  | some url =>
    let (old, d) ← ofExcept (oldSubst (← get).usedLinks text url)
    modify fun s => { s with usedLinks := d }
    if shouldSubst anc then
      if !isOld old then modify fun s => { s with subst := s.subst ++ [c!".. _" ++ text ++ c!": " ++ fmt url] }
      return '`' :: text ++ c!"`_"
    else if isOld old then return '`' :: text ++ c!"`_"
    else return '`' :: text ++ c!" <" ++ fmt url ++ c!">`_"

/-- html2rest_emitter.py 226-250: `img_emit` -/
def restImg (attrs : Dict (Option Str)) : EmM Str := do
  match ← imgSrc attrs with
  | none => return []
  | some src =>
    let text ← imgText attrs src
    let (old, d) ← ofExcept (oldSubst (← get).usedImages text (some src))
    modify fun s => { s with usedImages := d }
    if !isOld old then modify fun s => { s with subst := s.subst ++ [c!".. |" ++ text ++ c!"| image:: " ++ src] }
    return '|' :: text ++ c!"|"

/-- html2rest_emitter.py 259-262: `li_emit` -/
def restLi (i : HInfo) (ch : EmM Str) : EmM Str := do
  let content := stripP (· == '\n') (← ch)
  let level ← levelM i
  return '\n' :: rep c!"    " (level - 1).toNat ++ (← get).listMarkup ++ ' ' :: content ++ c!"\n"

/-- html2rest_emitter.py 264-273: `_list_emit` -/
def restList (i : HInfo) (marker : Str) (ch : EmM Str) : EmM Str := do
  modify fun s => { s with listMarkup := marker }
  let content ← ch
  if i.level = some 1 then return join c!"\n\n" ((splitChar '\n' content).filter (· ≠ [])) ++ c!"\n\n"
  else return content

/-! ## markdown -/

/-- `code_node.attrs.get('class')` of a language class: the language (html2markdown_emitter.py 82-86) -/
def codeLanguage (attrs : Dict (Option Str)) : Option Str :=
  match dictGet c!"class" attrs with
  | some (some v) => if c!"language-".isPrefixOf v then some (v.drop 9) else none
  | _ => none

/-- html2markdown_emitter.py 71-90: `inlinedata_pre_emit` -/
def mdInlinePre (content : Option Str) : EmM Str :=
  match content with
  | none => raise .attributeError
  | some pre =>
    if c!"</code>".isSuffixOf pre then do
      let root ← ofExcept (parseRaw pre)
      match root.children with
      | [] => raise .indexError
      | code :: _ =>
        match code.children with
        | [] => raise .indexError
        | first :: _ =>
          let text ← deentityM first.info.content
          match codeLanguage code.info.attrs with
          | some lang => return c!"\n```" ++ lang ++ text ++ c!"```\n"
          | none => return c!"\n```" ++ text ++ c!"```\n"
    else do
      let text ← ofExcept (replaceAll pre)
      return c!"\n```" ++ text ++ c!"```\n"

/-- `quote_link(attrs[...])`.  For `None`, `urlparse` and `urlunparse` fall back to `bytes`. -/
def quoteAttr (cfg : Cfg) (v : Option (Option Str)) : EmM Str :=
  match v with
  | none => raise .keyError
  | some none => pure c!"b''"
  | some (some url) => ofExcept (quoteLink cfg.netlocOk url)

/-- html2markdown_emitter.py 150-159: `a_emit` -/
def mdLink (cfg : Cfg) (attrs : Dict (Option Str)) (ch : EmM Str) : EmM Str := do
  let text ← ch
  let url ← quoteAttr cfg (dictGet c!"href" attrs)
  match truthy (dictGet c!"title" attrs) with
  | some title => return '[' :: text ++ c!"](" ++ url ++ c!" \"" ++ title ++ c!"\")"
  | none => return '[' :: text ++ c!"](" ++ url ++ c!")"

/-- html2markdown_emitter.py 161-169: `img_emit` -/
def mdImg (cfg : Cfg) (attrs : Dict (Option Str)) : EmM Str := do
  let src ← quoteAttr cfg (dictGet c!"src" attrs)
  let alt := dictGet c!"alt" attrs
  match truthy (dictGet c!"title" attrs), truthy alt with
  | some title, some alt => return c!"![" ++ alt ++ c!"](" ++ src ++ c!" \"" ++ title ++ c!"\")"
  | _, _ => return c!"![" ++ fmt (alt.getD (some [])) ++ c!"](" ++ src ++ c!")"

/-- html2markdown_emitter.py 173-177: `list_emit` -/
def mdList (i : HInfo) (ch : EmM Str) : EmM Str := do
  let content ← ch
  if i.level = some 1 then return '\n' :: content ++ c!"\n" else return content

/-- html2markdown_emitter.py 182-197: `li_emit` -/
def mdLi (parent : Option Str) (i : HInfo) (ch : EmM Str) : EmM Str := do
  let marker ← match parent with
    | some k =>
      if k = c!"ul" then pure c!"*" else if k = c!"ol" then pure c!"1." else raise .notImplementedError
    | none => raise .attributeError
  let level ← levelM i
  let content ← ch
  return '\n' :: rep c!"  " (level - 1).toNat ++ marker ++ ' ' :: content

/-- html2markdown_emitter.py 207-214: `code_emit` -/
def mdCode (kind : Str) (ch : EmM Str) : EmM Str := do
  let code := emitContent kind (← ch)
  if code.contains '\n' then raise .assertionError
  else if code.contains '`' then return c!"``" ++ code ++ c!"``"
  else return c!"`" ++ code ++ c!"`"

/-! ## Unknown tags -/

/-- document_tree.py 38-50, unknown_tags.py 15-17: the attributes, preceded by a space -/
def attrText (attrs : Dict (Option Str)) : Str :=
  match dict2string (attrs.map fun (k, v) => (k, match v with | some s => PVal.str s | none => PVal.none)) with
  | [] => []
  | s => ' ' :: s

/-- unknown_tags.py 14-33: `_mask_content` -/
def maskContent (kind : Str) (attrs : Dict (Option Str)) (mask : Str) (content : Str) : Str :=
  let wrap (t : Str) := c!"<<" ++ mask ++ c!">><" ++ t ++ c!"><</" ++ mask ++ c!">>"
  if content = [] then wrap (kind ++ attrText attrs ++ c!" /")
  else wrap (kind ++ attrText attrs) ++ content ++ wrap ('/' :: kind)

/-- unknown_tags.py 66-89: `escape_unknown_nodes` -/
def escapeUnknown (kind : Str) (attrs : Dict (Option Str)) (content : Str) : Str :=
  if content = [] then Creole.htmlEscape ('<' :: kind ++ attrText attrs ++ c!" />")
  else Creole.htmlEscape ('<' :: kind ++ attrText attrs ++ c!">") ++ content ++ Creole.htmlEscape (c!"</" ++ kind ++ c!">")

/-- unknown_tags.py 36-98: the `unknown_emit` functions -/
def unknownEmit (p : Policy) (i : HInfo) (ch : EmM Str) : EmM Str := do
  let content ← ch
  match p with
  | .transparent => return emitContent i.kind content
  | .raise => raise .notImplementedError
  | .htmlMacro => return maskContent i.kind i.attrs c!"html" content
  | .preformat => return maskContent i.kind i.attrs c!"pre" content
  | .escape => return escapeUnknown i.kind i.attrs content

/-! ## Method tables -/

/-- The `..._emit` methods. -/
inductive Meth where
  | blockPre | inlinePre | blockPass | data | entityref | charref | p | br | headline
  /-- `_typeface(node, key)` -/
  | typeface (key : Str)
  /-- `_typeface_html(node, tag)` -/
  | typefaceHtml (tag : Str)
  /-- `emit_children(node)` -/
  | children
  /-- `_emit_content(node)` -/
  | content
  | hr | a | img | code | li
  /-- `_list_emit(node, list_type)` -/
  | list (marker : Str)
  | table | tr | th | td | document
  deriving DecidableEq, Repr

/-- base_emitter.py: methods that all emitters have (some override them) -/
def baseMethods : List (Str × Meth) := [
  (c!"blockdata_pass", .blockPass), (c!"data", .data), (c!"entityref", .entityref), (c!"charref", .charref),
  (c!"p", .p), (c!"br", .br), (c!"li", .li), (c!"table", .table), (c!"tr", .tr), (c!"th", .th), (c!"td", .td),
  (c!"div", .content), (c!"document", .document),
  (c!"blockdata_pre", .blockPre), (c!"inlinedata_pre", .inlinePre), (c!"headline", .headline), (c!"hr", .hr),
  (c!"a", .a), (c!"img", .img)]

/-- html2creole_emitter.py 65-93, 136-148 -/
def creoleMethods : List (Str × Meth) := [
  (c!"strong", .typeface c!"**"), (c!"b", .typeface c!"**"), (c!"big", .typeface c!"**"),
  (c!"i", .typeface c!"//"), (c!"em", .typeface c!"//"), (c!"tt", .typeface c!"##"), (c!"sup", .typeface c!"^^"),
  (c!"sub", .typeface c!",,"), (c!"u", .typeface c!"__"), (c!"small", .typeface c!"--"), (c!"del", .typeface c!"~~"),
  (c!"strike", .typeface c!"~~"), (c!"ul", .list c!"*"), (c!"ol", .list c!"#"), (c!"span", .content)]

/-- html2textile_emitter.py 58-90, 122-126 -/
def textileMethods : List (Str × Meth) := [
  (c!"strong", .typeface c!"*"), (c!"b", .typeface c!"**"), (c!"big", .typeface c!"*"), (c!"i", .typeface c!"__"),
  (c!"em", .typeface c!"_"), (c!"sup", .typeface c!"^"), (c!"sub", .typeface c!"~"), (c!"del", .typeface c!"-"),
  (c!"cite", .typeface c!"??"), (c!"ins", .typeface c!"+"), (c!"span", .typeface c!"%"), (c!"code", .typeface c!"@"),
  (c!"ul", .list c!"*"), (c!"ol", .list c!"#")]

/-- html2markdown_emitter.py 111-145, 173-180, 207-222; `list_emit` is also found for a tag `<list>` -/
def markdownMethods : List (Str × Meth) := [
  (c!"strong", .typeface c!"**"), (c!"b", .typeface c!"**"), (c!"big", .typeface c!"**"),
  (c!"i", .typeface c!"_"), (c!"em", .typeface c!"_"), (c!"tt", .typeface c!"##"), (c!"sup", .typefaceHtml c!"sup"),
  (c!"sub", .typefaceHtml c!"sub"), (c!"u", .typeface c!"__"), (c!"small", .typeface c!"--"),
  (c!"del", .typeface c!"~~"), (c!"strike", .typeface c!"~~"), (c!"ul", .list c!""), (c!"ol", .list c!""),
  (c!"list", .list c!""), (c!"code", .code), (c!"span", .content)]

/-- html2rest_emitter.py 133-151, 254-279; base_emitter.py 175-176 -/
def restMethods : List (Str × Meth) := [
  (c!"strong", .typeface c!"**"), (c!"b", .typeface c!"**"), (c!"big", .typeface c!"**"), (c!"i", .typeface c!"*"),
  (c!"em", .typeface c!"*"), (c!"tt", .typeface c!"``"), (c!"small", .children), (c!"code", .code),
  (c!"ul", .list c!"*"), (c!"ol", .list c!"#."), (c!"span", .content)]

/-- base_emitter.py 211-212: `getattr(self, f"{node.kind}_emit", None)` -/
def methodOf (lang : Lang) (kind : Str) : Option Meth :=
  (baseMethods ++ match lang with
    | .creole => creoleMethods
    | .textile => textileMethods
    | .markdown => markdownMethods
    | .rest => restMethods).lookup kind

/-! ## Running a method -/

/-- `blockdata_pre_emit` of the four emitters (html2creole_emitter.py 35-37, html2textile_emitter.py 34-36,
html2markdown_emitter.py 67-69, html2rest_emitter.py 58-62) -/
def blockPreEmit (lang : Lang) (content : Option Str) : EmM Str := do
  let text ← deentityM content
  match lang with
  | .creole => return c!"{{{" ++ text ++ c!"}}}\n"
  | .textile => return c!"<pre>" ++ text ++ c!"</pre>\n"
  | .markdown => return c!"```" ++ text ++ c!"```\n"
  | .rest => return restPre text

/-- `inlinedata_pre_emit` of the four emitters (html2creole_emitter.py 39-41, html2textile_emitter.py 38-40,
html2markdown_emitter.py 71-90, html2rest_emitter.py 64-66) -/
def inlinePreEmit (lang : Lang) (content : Option Str) : EmM Str := do
  match lang with
  | .creole => return c!"{{{" ++ (← deentityM content) ++ c!"}}}"
  | .textile | .rest => return c!"<pre>" ++ (← deentityM content) ++ c!"</pre>"
  | .markdown => mdInlinePre content

/-- `headline_emit` of the four emitters (html2creole_emitter.py 60-61, html2textile_emitter.py 50-51,
html2markdown_emitter.py 103-107, html2rest_emitter.py 111-126).  In html2markdown_emitter.py 105 a node is looked for
in a tuple of strings, so the condition always holds. -/
def headlineEmit (lang : Lang) (i : HInfo) (ch : EmM Str) : EmM Str :=
  match lang with
  | .creole => do
    let level ← levelM i
    return List.replicate level.toNat '=' ++ ' ' :: (← ch) ++ c!"\n\n"
  | .textile => do
    let level ← levelM i
    return 'h' :: intStr level ++ c!". " ++ (← ch) ++ c!"\n\n"
  | .markdown => do
    let level ← levelM i
    return '\n' :: List.replicate level.toNat '#' ++ ' ' :: (← ch) ++ c!"\n"
  | .rest => restHeadline i ch

/-- `table_emit` (base_emitter.py 127-135, html2markdown_emitter.py 47-51, html2rest_emitter.py 281-292) -/
def tableEmit (lang : Lang) (ch : EmM Str) : EmM Str := do
  setTable (match lang with
    | .creole => { headPrefix := c!"= " }
    | .textile => { headPrefix := c!"_. ", autoWidth := false }
    | .markdown | .rest => { headPrefix := [] })
  let _ ← ch
  let t ← getTable
  match lang with
  | .creole | .textile => return t.markup ++ c!"\n"
  | .markdown => return '\n' :: t.markdown ++ c!"\n"
  | .rest => return t.rest ++ c!"\n\n"

/-- `th_emit` and `td_emit`: the text of a cell (base_emitter.py 151-161, html2markdown_emitter.py 58-64) -/
def cellText (lang : Lang) (content : Str) : Str :=
  if lang = .markdown then content else escapeLinebreaks content

/-- One emitter method.  `anc` are the kinds of the ancestors, nearest first, the root included; `ch` is
`self.emit_children(node)`. -/
def runMeth (cfg : Cfg) (anc : List Str) (i : HInfo) (m : Meth) (ch : EmM Str) : EmM Str :=
  match m with
  | .blockPre => blockPreEmit cfg.lang i.content
  | .inlinePre => inlinePreEmit cfg.lang i.content
  | .blockPass =>
    -- base_emitter.py 40-41, html2markdown_emitter.py 92-93
    if cfg.lang = .markdown then pure ('\n' :: fmt i.content ++ c!"\n") else pure (fmt i.content ++ c!"\n\n")
  | .data =>
    -- base_emitter.py 45-47, 198-219, html2markdown_emitter.py 200-205; a result that is no `str` is refused
    match i.content with
    | none => raise .assertionError
    | some c => if cfg.lang = .markdown && c = c!" " then pure [] else pure c
  | .entityref => pure (entityrefText i.content)
  | .charref => ofExcept (charrefText i.content)
  | .p => do
    -- base_emitter.py 82-83, html2creole_emitter.py 48-52, html2markdown_emitter.py 97-98
    let content ← ch
    match cfg.lang with
    | .creole => if (← get).innerList = [] then return content ++ c!"\n\n" else return content
    | .markdown => return '\n' :: content ++ c!"\n"
    | _ => return content ++ c!"\n\n"
  | .br => do
    -- base_emitter.py 85-89, html2markdown_emitter.py 100-101
    if cfg.lang = .markdown || (← get).innerList = [] then return c!"\n" else return c!"\\\\"
  | .headline => headlineEmit cfg.lang i ch
  | .typeface key => do return key ++ (← ch) ++ key
  | .typefaceHtml tag => do return '<' :: tag ++ '>' :: (← ch) ++ c!"</" ++ tag ++ c!">"
  | .children => ch
  | .content => do return emitContent i.kind (← ch)
  | .hr =>
    -- html2creole_emitter.py 95-96, html2textile_emitter.py 94-95, html2markdown_emitter.py 147-148,
    -- html2rest_emitter.py 172-173
    if cfg.lang = .markdown then pure c!"\n----\n" else pure c!"----\n\n"
  | .a =>
    match cfg.lang with
    | .creole => creoleLink i.attrs ch
    | .textile => textileLink i.attrs ch
    | .markdown => mdLink cfg i.attrs ch
    | .rest => restLink anc i.attrs ch
  | .img =>
    match cfg.lang with
    | .creole => creoleImg cfg.strict i.attrs
    | .textile => textileImg i.attrs
    | .markdown => mdImg cfg i.attrs
    | .rest => restImg i.attrs
  | .code =>
    if cfg.lang = .markdown then mdCode i.kind ch
    else do
      -- html2rest_emitter.py 254-255
      return c!"``" ++ emitContent i.kind (← ch) ++ c!"``"
  | .li =>
    match cfg.lang with
    | .creole | .textile => baseLi ch
    | .markdown => mdLi anc.head? i ch
    | .rest => restLi i ch
  | .list marker =>
    match cfg.lang with
    | .creole | .textile => baseList marker ch
    | .markdown => mdList i ch
    | .rest => restList i marker ch
  | .table => tableEmit cfg.lang ch
  | .tr => do
    -- base_emitter.py 137-140, html2markdown_emitter.py 53-56
    setTable (← getTable).addTr
    let _ ← ch
    return []
  | .th => do
    let text := cellText cfg.lang (← ch)
    setTable ((← getTable).addTh text)
    return []
  | .td => do
    let text := cellText cfg.lang (← ch)
    setTable ((← getTable).addTd text)
    return []
  | .document => if cfg.lang = .rest then restDocument ch else ch

/-- the method of a node, or `self._unknown_emit` (base_emitter.py 211-222) -/
def runNode (cfg : Cfg) (anc : List Str) (i : HInfo) (ch : EmM Str) : EmM Str :=
  match methodOf cfg.lang i.kind with
  | some m => runMeth cfg anc i m ch
  | none => unknownEmit cfg.policy i ch

/-- `self.last = node` -/
def setLast (i : HInfo) : EmM Unit := modify fun s => { s with last := some (i.kind, i.content) }

mutual

/-- base_emitter.py 198-224: `emit_node`; html2rest_emitter.py 91-97.  `anc` are the kinds of the ancestors; the parent
is the root if there is exactly one. -/
def emitNode (cfg : Cfg) (anc : List Str) : HNode → EmM Str
  | .mk i children => do
    let pre ← if cfg.lang = .rest then flushSubst (anc.length = 1) else pure []
    let content ← runNode cfg anc i (do setLast i; emitNodes cfg (i.kind :: anc) children)
    setLast i
    return pre ++ content

/-- base_emitter.py 184-196: `emit_children`, `emit_children_list` -/
def emitNodes (cfg : Cfg) (anc : List Str) : List HNode → EmM Str
  | [] => pure []
  | n :: ns => do
    let a ← emitNode cfg anc n
    let b ← emitNodes cfg anc ns
    return a ++ b

end

/-- `emit()` (html2creole_emitter.py 29-31, html2textile_emitter.py 28-30, html2markdown_emitter.py 42-44,
html2rest_emitter.py 77-79) -/
def emit (cfg : Cfg) (root : HNode) : Except PyErr Str := do
  let (text, _) ← (emitNode cfg [] root).run {}
  return if cfg.lang = .rest then rstrip text else strip text

/-- parse, then emit (`/repo/creole/__init__.py` 80-142) -/
def convert (cfg : Cfg) (html : Str) : Except PyErr Str := do emit cfg (← parseHtml html)

/-- `/repo/creole/__init__.py` 80-96: `html2creole` -/
def html2creole (html : Str) (policy : Policy := .transparent) (strict : Bool := false) : Except PyErr Str :=
  convert { lang := .creole, policy, strict } html

/-- `/repo/creole/__init__.py` 99-112: `html2textile` -/
def html2textile (html : Str) (policy : Policy := .transparent) : Except PyErr Str :=
  convert { lang := .textile, policy } html

/-- `/repo/creole/__init__.py` 115-126: `html2markdown` -/
def html2markdown (netlocOk : Str → Bool) (html : Str) (policy : Policy := .transparent) : Except PyErr Str :=
  convert { lang := .markdown, policy, netlocOk } html

/-- `/repo/creole/__init__.py` 129-142: `html2rest` -/
def html2rest (html : Str) (policy : Policy := .transparent) : Except PyErr Str :=
  convert { lang := .rest, policy } html

#guard html2creole c!"<p>This is <strong>creole <i>markup</i></strong>!</p>" = .ok c!"This is **creole //markup//**!"
#guard html2textile c!"<p>This is <strong>textile <i>markup</i></strong>!</p>" = .ok c!"This is *textile __markup__*!"
#guard html2markdown (fun _ => true) c!"<p>This is <strong>markdown <i>markup</i></strong>!</p>"
  = .ok c!"This is **markdown _markup_**!"
#guard html2rest c!"<p>This is <strong>ReStructuredText</strong> <em>markup</em>!</p>"
  = .ok c!"This is **ReStructuredText** *markup*!"

end Verif.Emit
