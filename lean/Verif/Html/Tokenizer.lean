import Verif.Py.ReParse
import Verif.Py.Dict
import Verif.Html.Entities

/-!
# The tokenizer of the standard library

`/repo/creole/parser/html_parser.py` derives its parser from `html.parser.HTMLParser(convert_charrefs=False)`.  This
file models that class (CPython 3.11.10, `Lib/html/parser.py` and `Lib/_markupbase.py`) for one call of `feed` without
`close`, as made at html_parser.py 156: the sequence of handler calls for a text.  Comments, declarations and
processing instructions are skipped, since `HtmlParser` does not override their handlers.

Simplification: `str.lower` is modelled for ASCII letters only, so tag and attribute names with other capital letters
are outside the model.
-/

namespace Verif.Html

open Verif Py

/-- A handler call of `HTMLParser`. -/
inductive Event where
  | start (tag : Str) (attrs : List (Str × Option Str))
  | startend (tag : Str) (attrs : List (Str × Option Str))
  | end_ (tag : Str)
  | data (s : Str)
  | charref (name : Str)
  | entityref (name : Str)
  deriving DecidableEq, Repr

/-- `s.lower()`, ASCII letters only -/
def lower (s : Str) : Str := s.map lowerAscii

/-! ## `html.unescape` (Lib/html/__init__.py 91-132) -/

/-- a string as a number, to look it up in the tables -/
def strKey (s : Str) : Nat := s.foldl (fun n c => n * 0x110000 + c.toNat) 0

/-- the text of one or two characters stored in `html5Table` -/
def keyStr (n : Nat) : Str :=
  if n < 0x110000 then [Char.ofNat n] else [Char.ofNat (n / 0x110000), Char.ofNat (n % 0x110000)]

/-- `html5.get(name)` -/
def html5? (s : Str) : Option Str := (html5Table.lookup (strKey s)).map keyStr

def isDigitA (c : Char) : Bool := '0' ≤ c && c ≤ '9'
def isHexA (c : Char) : Bool := isDigitA c || ('a' ≤ c && c ≤ 'f') || ('A' ≤ c && c ≤ 'F')
def isAlphaA (c : Char) : Bool := ('a' ≤ c && c ≤ 'z') || ('A' ≤ c && c ≤ 'Z')

def hexVal (c : Char) : Nat :=
  if isDigitA c then c.toNat - 48 else if 'a' ≤ c && c ≤ 'f' then c.toNat - 87 else c.toNat - 55

/-- `int(s, 16)` for a string of hexadecimal digits (there is no limit on their number) -/
def hexNat (s : Str) : Nat := s.foldl (fun n c => n * 16 + hexVal c) 0

/-- Lib/html/__init__.py 92-104: the replacement of a numeric reference -/
def unescapeNum (num : Nat) : Str :=
  match invalidCharrefs.lookup num with
  | some c => [Char.ofNat c]
  | none =>
    if (0xD800 ≤ num && num ≤ 0xDFFF) || num > 0x10FFFF then [Char.ofNat 0xFFFD]
    else if invalidCodepoints.any fun r => r.1 ≤ num && num ≤ r.2 then []
    else [Char.ofNat num]

/-- Lib/html/__init__.py 109-114: the longest prefix of `s` (of at least 2 characters, from length `x` down) that is a
name -/
def longestName (s : Str) : Nat → Str
  | 0 => '&' :: s
  | 1 => '&' :: s
  | x + 2 =>
    match html5? (s.take (x + 2)) with
    | some r => r ++ s.drop (x + 2)
    | none => longestName s (x + 1)

/-- Lib/html/__init__.py 105-114 -/
def unescapeNamed (s : Str) : Str :=
  match html5? s with
  | some r => r
  | none => longestName s (s.length - 1)

/-- take a `;` -/
def optSemi : Str → Nat
  | ';' :: _ => 1
  | _ => 0

/-- `_charref.match` right after a `&` (Lib/html/__init__.py 117-119): the replacement and the number of characters
after the `&` it stands for.  The first two alternatives of the regular expression begin with `#`, the last one does
not, and each repetition excludes what may follow it, so there is no backtracking. -/
def unescapeRef (rest : Str) : Except PyErr (Option (Str × Nat)) :=
  match rest with
  | '#' :: r =>
    match r with
    | x :: h =>
      if x = 'x' || x = 'X' then
        let ds := h.takeWhile isHexA
        if ds.isEmpty then .ok none
        else .ok (some (unescapeNum (hexNat ds), 2 + ds.length + optSemi (h.drop ds.length)))
      else
        let ds := r.takeWhile isDigitA
        if ds.isEmpty then .ok none
        else match natOf ds with
          | some n => .ok (some (unescapeNum n, 1 + ds.length + optSemi (r.drop ds.length)))
          | none => .error .valueError
    | [] => .ok none
  | _ =>
    let name := (rest.take 32).takeWhile fun c =>
      !(c = '\t' || c = '\n' || c = Char.ofNat 12 || c = ' ' || c = '<' || c = '&' || c = '#' || c = ';')
    if name.isEmpty then .ok none
    else
      let n := name.length + optSemi (rest.drop name.length)
      .ok (some (unescapeNamed (rest.take n), n))

/-- `_charref.sub`; the `Nat` counts the characters that still belong to the previous reference -/
def unescapeAux : Str → Nat → Except PyErr Str
  | [], _ => .ok []
  | _ :: cs, k + 1 => unescapeAux cs k
  | c :: cs, 0 =>
    if c = '&' then
      match unescapeRef cs with
      | .error e => .error e
      | .ok none => (unescapeAux cs 0).map (c :: ·)
      | .ok (some (r, n)) => (unescapeAux cs n).map (r ++ ·)
    else (unescapeAux cs 0).map (c :: ·)

/-- `html.unescape(s)` -/
def unescape (s : Str) : Except PyErr Str := unescapeAux s 0

/-! ## Regular expressions of Lib/html/parser.py 19-59 and Lib/_markupbase.py 10-18 -/

/-- names for the groups of these expressions -/
inductive TG where
  | name | rest | value
  deriving DecidableEq, Repr

def TG.ofName : String → Option TG
  | "name" => some .name
  | "rest" => some .rest
  | "value" => some .value
  | _ => none

open Re

abbrev TR := Re TG

def tch (c : Char) : TR := .cls (.chr c)
def alpha : CSet := .union (.range 'a' 'z') (.range 'A' 'Z')
/-- `\s*` -/
def wsp : TR := .star true (.cls .space)

/-- `[^\t\n\r\f />\x00]` -/
def tagChar : CSet :=
  .compl (.union (.union (.union (.union (.union (.union (.union (.chr '\t') (.chr '\n')) (.chr '\r'))
    (.chr (Char.ofNat 12))) (.chr ' ')) (.chr '/')) (.chr '>')) (.chr (Char.ofNat 0)))

/-- `(?:\s|/(?!>))*` -/
def wsSlash : TR := .star true (.alt (.cls .space) (.seq (tch '/') (.notAhead (tch '>'))))

/-- `tagfind_tolerant` -/
def tagfindRe : TR := .seq (.grp .name (.seq (.cls alpha) (.star true (.cls tagChar)))) wsSlash

/-- `(?<=[\'"\s/])[^\s/>][^\s/=>]*` -/
def attrName : TR := cat [.behind false (.union (.union (.union (.chr '\'') (.chr '"')) .space) (.chr '/')),
  .cls (.compl (.union (.union .space (.chr '/')) (.chr '>'))),
  .star true (.cls (.compl (.union (.union (.union .space (.chr '/')) (.chr '=')) (.chr '>'))))]

/-- `\'[^\']*\'|"[^"]*"|(?![\'"])[^>\s]*` -/
def attrValue : TR := alts [cat [tch '\'', .star true (.cls (.compl (.chr '\''))), tch '\''],
  cat [tch '"', .star true (.cls (.compl (.chr '"'))), tch '"'],
  .seq (.notAhead (.cls (.union (.chr '\'') (.chr '"')))) (.star true (.cls (.compl (.union (.chr '>') .space))))]

/-- `attrfind_tolerant` -/
def attrfindRe : TR := cat [.grp .name attrName,
  opt (.grp .rest (cat [wsp, plus true (tch '='), wsp, .grp .value attrValue])), wsSlash]

/-- `locatestarttagend_tolerant` -/
def locateRe : TR := cat [tch '<', .cls alpha, .star true (.cls tagChar),
  opt (.seq (.star true (.cls (.union .space (.chr '/'))))
    (.star true (cat [attrName, opt (cat [wsp, plus true (tch '='), wsp, attrValue, wsp]), wsSlash]))), wsp]

/-- `endtagfind` -/
def endtagRe : TR := cat [tch '<', tch '/', wsp,
  .grp .name (.seq (.cls alpha) (.star true (.cls (.union (.union (.union (.union (.union (.union (.chr '-') (.chr '.'))
    (.range 'a' 'z')) (.range 'A' 'Z')) (.range '0' '9')) (.chr ':')) (.chr '_'))))), wsp, tch '>']

/-- `entityref` -/
def entityRe : TR := cat [tch '&',
  .grp .name (.seq (.cls alpha) (.star true (.cls (.union (.union (.union (.union (.chr '-') (.chr '.'))
    (.range 'a' 'z')) (.range 'A' 'Z')) (.range '0' '9'))))),
  .cls (.compl (.union (.union (.range 'a' 'z') (.range 'A' 'Z')) (.range '0' '9')))]

/-- `charref` -/
def charRe : TR := cat [tch '&', tch '#',
  .alt (plus true (.cls (.range '0' '9'))) (.seq (.cls (.union (.chr 'x') (.chr 'X')))
    (plus true (.cls (.union (.union (.range '0' '9') (.range 'a' 'f')) (.range 'A' 'F'))))),
  .cls (.compl (.union (.union (.range '0' '9') (.range 'a' 'f')) (.range 'A' 'F')))]

/-- `_commentclose` -/
def commentCloseRe : TR := cat [tch '-', tch '-', wsp, tch '>']
/-- `_markedsectionclose` -/
def sectionCloseRe : TR := cat [tch ']', wsp, tch ']', wsp, tch '>']
/-- `_msmarkedsectionclose` -/
def msSectionCloseRe : TR := cat [tch ']', wsp, tch '>']
/-- `_declname_match` -/
def declNameRe : TR := cat [.cls alpha, .star true (.cls (.union (.union (.union (.union (.union (.chr '-') (.chr '_'))
  (.chr '.')) (.range 'a' 'z')) (.range 'A' 'Z')) (.range '0' '9'))), wsp]

/-- the characters matched by a lower case letter with `re.IGNORECASE` (relevant: `s` matches U+017F and `i` matches
U+0130 and U+0131) -/
def icase (c : Char) : CSet :=
  let u := CSet.union (.chr c) (.chr (Char.ofNat (c.toNat - 32)))
  if c = 's' then .union u (.chr (Char.ofNat 0x17f))
  else if c = 'i' then .union (.union u (.chr (Char.ofNat 0x130))) (.chr (Char.ofNat 0x131))
  else u

/-- `set_cdata_mode`: `re.compile(r'</\s*%s\s*>' % elem, re.I)` -/
def cdataRe (elem : Str) : TR := cat ([tch '<', tch '/', wsp] ++ elem.map (fun c => .cls (icase c)) ++ [wsp, tch '>'])

private def ro : ReParse.Opts TG := { verbose := false, multi := false, name := TG.ofName }

#guard ReParse.sameAs ro r"(?P<name>[a-zA-Z][^\t\n\r\f />\x00]*)(?:\s|/(?!>))*" tagfindRe
#guard ReParse.sameAs ro (r#"(?P<name>(?<=[\'"\s/])[^\s/>][^\s/=>]*)(?P<rest>\s*=+\s*"# ++
  r#"(?P<value>\'[^\']*\'|"[^"]*"|(?![\'"])[^>\s]*))?(?:\s|/(?!>))*"#) attrfindRe
#guard ReParse.sameAs { ro with verbose := true } r#"
  <[a-zA-Z][^\t\n\r\f />\x00]*       # tag name
  (?:[\s/]*                          # optional whitespace before attribute name
    (?:(?<=['"\s/])[^\s/>][^\s/=>]*  # attribute name
      (?:\s*=+\s*                    # value indicator
        (?:'[^']*'                   # LITA-enclosed value
          |"[^"]*"                   # LIT-enclosed value
          |(?!['"])[^>\s]*           # bare value
         )
        \s*                          # possibly followed by a space
       )?(?:\s|/(?!>))*
     )*
   )?
  \s*                                # trailing whitespace
"# locateRe
#guard ReParse.sameAs ro r"</\s*(?P<name>[a-zA-Z][-.a-zA-Z0-9:_]*)\s*>" endtagRe
#guard ReParse.sameAs ro "&(?P<name>[a-zA-Z][-.a-zA-Z0-9]*)[^a-zA-Z0-9]" entityRe
#guard ReParse.sameAs ro "&#(?:[0-9]+|[xX][0-9a-fA-F]+)[^0-9a-fA-F]" charRe
#guard ReParse.sameAs ro r"--\s*>" commentCloseRe
#guard ReParse.sameAs ro r"]\s*]\s*>" sectionCloseRe
#guard ReParse.sameAs ro r"]\s*>" msSectionCloseRe
#guard ReParse.sameAs ro r"[a-zA-Z][-_.a-zA-Z0-9]*\s*" declNameRe

/-- `re.search(...)`: what precedes the first match, the matched text, and what follows it -/
def searchRe (r : TR) : Option Char → Str → Option (Str × Str × Str)
  | prev, [] => (r.matchAt false prev []).map fun st => ([], [], st.rest)
  | prev, c :: cs =>
    match r.matchAt false prev (c :: cs) with
    | some st => some ([], consumed (c :: cs) st.rest, st.rest)
    | none => (searchRe r (some c) cs).map fun (a, b) => (c :: a, b)

/-- `rawdata.find(c)`: the number of characters up to and including the first `c` -/
def upTo (c : Char) : Str → Option Nat
  | [] => none
  | d :: ds => if d = c then some 1 else (upTo c ds).map (· + 1)

/-! ## Start tags -/

/-- Lib/html/parser.py 340-374: `check_for_whole_start_tag`; the length of the tag, `none` for -1 -/
def wholeStartTag (s : Str) : Option Nat :=
  match locateRe.matchAt false none s with
  | none => none
  | some st =>
    let j := s.length - st.rest.length
    match st.rest with
    | [] => none
    | '>' :: _ => some (j + 1)
    | '/' :: '>' :: _ => some (j + 2)
    | c :: _ => if isAlphaA c || c = '=' || c = '/' then none else some j

/-- Lib/html/parser.py 309-317: the value of an attribute -/
def attrVal (rest value : Option Str) : Except PyErr (Option Str) :=
  match rest with
  | none => .ok none
  | some r =>
    if r.isEmpty then .ok none
    else
      match value with
      | none => .ok none
      | some v =>
        let v :=
          if (v.head? = some '\'' && v.getLast? = some '\'') || (v.head? = some '"' && v.getLast? = some '"') then
            v.tail.dropLast
          else v
        if v.isEmpty then .ok (some v) else (unescape v).map some

/-- Lib/html/parser.py 304-320: the loop over the attributes of a start tag.  `s` is the text after the tag name (or the
previous attribute), `endLen` the length of the text after the tag; returns the attributes and the text left.  Each
attribute has at least one character, so the length of `s` is enough fuel. -/
def attrLoop : Nat → Option Char → Str → Nat → Except PyErr (List (Str × Option Str) × Str)
  | 0, _, s, _ => .ok ([], s)
  | fuel + 1, prev, s, endLen =>
    if s.length ≤ endLen then .ok ([], s)
    else
      match attrfindRe.matchAt false prev s with
      | none => .ok ([], s)
      | some st => do
        let v ← attrVal (capGet .rest st.caps) (capGet .value st.caps)
        let (l, r) ← attrLoop fuel st.prev st.rest endLen
        return ((lower ((capGet .name st.caps).getD []), v) :: l, r)

/-- What a step of `goahead` does: the handler calls, the number of characters consumed, and the new `cdata_elem`; or it
ends the loop. -/
inductive Step where
  | go (evs : List Event) (n : Nat) (cdata : Option Str)
  | stop (evs : List Event)
  | fail (e : PyErr)
  deriving DecidableEq, Repr

/-- Lib/html/parser.py 290-336: `parse_starttag` at `<` and a letter -/
def parseStart (s : Str) : Step :=
  match wholeStartTag s with
  | none => .stop []
  | some n =>
    match tagfindRe.matchAt false (some '<') s.tail with
    | none => .fail .assertionError
    | some st =>
      let tag := lower ((capGet .name st.caps).getD [])
      match attrLoop s.length st.prev st.rest (s.length - n) with
      | .error e => .fail e
      | .ok (attrs, r) =>
        let e := strip (r.take (r.length - (s.length - n)))
        if e = c!">" then
          .go [.start tag attrs] n (if tag = c!"script" || tag = c!"style" then some tag else none)
        else if e = c!"/>" then .go [.startend tag attrs] n none
        else .go [.data (s.take n)] n none

/-! ## The other constructs -/

/-- Lib/html/parser.py 377-419: `parse_endtag` at `</` -/
def parseEnd (cdata : Option Str) (s : Str) : Step :=
  match upTo '>' s.tail with
  | none => .stop []
  | some g =>
    match endtagRe.matchAt false none s with
    | some st =>
      let elem := lower ((capGet .name st.caps).getD [])
      match cdata with
      | some e => if elem ≠ e then .go [.data (s.take (g + 1))] (g + 1) cdata else .go [.end_ elem] (g + 1) none
      | none => .go [.end_ elem] (g + 1) none
    | none =>
      if cdata.isSome then .go [.data (s.take (g + 1))] (g + 1) cdata
      else
        match tagfindRe.matchAt false (some '/') (s.drop 2) with
        | none =>
          if c!"</>".isPrefixOf s then .go [] 3 none
          else
            match upTo '>' (s.drop 2) with
            | none => .stop []
            | some p => .go [] (p + 2) none
        | some st =>
          match upTo '>' st.rest with
          | none => .fail .badCursor
          | some p =>
            .go [.end_ (lower ((capGet .name st.caps).getD []))] (s.length - st.rest.length + p) none

/-- Lib/_markupbase.py 376-392: `_scan_name`; the name, in lower case -/
def scanName (s : Str) : Except PyErr (Option Str) :=
  if s.isEmpty then .ok none
  else
    match declNameRe.matchAt false none s with
    | none => .error .assertionError
    | some st => if st.rest.isEmpty then .ok none else .ok (some (lower (strip (consumed s st.rest))))

/-- length of the text up to the end of the first match of `r` after the first `off` characters; `none` for -1 -/
def closeAt (r : TR) (off : Nat) (s : Str) : Step :=
  match searchRe r none (s.drop off) with
  | none => .stop []
  | some (a, b, _) => .go [] (off + a.length + b.length) none

/-- Lib/_markupbase.py 141-164: `parse_marked_section` at `<![` -/
def parseSection (s : Str) : Step :=
  match scanName (s.drop 3) with
  | .error e => .fail e
  | .ok none => .stop []
  | .ok (some nm) =>
    if [c!"temp", c!"cdata", c!"ignore", c!"include", c!"rcdata"].contains nm then closeAt sectionCloseRe 3 s
    else if [c!"if", c!"else", c!"endif"].contains nm then closeAt msSectionCloseRe 3 s
    else .fail .assertionError

/-- skip to the first `>` after `off` characters -/
def skipTo (off : Nat) (s : Str) : Step :=
  match upTo '>' (s.drop off) with
  | none => .stop []
  | some p => .go [] (off + p) none

/-- Lib/html/parser.py 245-262: `parse_html_declaration` at `<!` (not a comment) -/
def parseDecl (s : Str) : Step :=
  if c!"<![".isPrefixOf s then parseSection s
  else if lower (s.take 9) = c!"<!doctype" then skipTo 9 s
  else skipTo 2 s

/-- Lib/html/parser.py 209-222: a character reference at `&#` -/
def parseCharref (s : Str) : Step :=
  match charRe.matchAt false none s with
  | some st =>
    let t := consumed s st.rest
    .go [.charref ((t.drop 2).dropLast)] (if t.getLast? = some ';' then t.length else t.length - 1) none
  | none => if s.contains ';' then .stop [.data (s.take 2)] else .stop []

/-- Lib/html/parser.py 223-247: an entity reference at `&` -/
def parseEntity (s : Str) : Step :=
  match entityRe.matchAt false none s with
  | some st =>
    let t := consumed s st.rest
    .go [.entityref ((capGet .name st.caps).getD [])] (if t.getLast? = some ';' then t.length else t.length - 1) none
  | none =>
    match s with
    | _ :: c :: _ => if isAlphaA c || c = '#' then .stop [] else .go [.data c!"&"] 1 none
    | _ => .stop []

/-- Lib/html/parser.py 157-247: one step of the loop of `goahead` at a non-empty rest of the text -/
def step (cdata : Option Str) (prev : Option Char) (s : Str) : Step :=
  match cdata with
  | some elem =>
    match searchRe (cdataRe elem) prev s with
    | none => .stop []
    | some ([], _, _) => parseEnd cdata s
    | some (a, _, _) => .go [.data a] a.length cdata
  | none =>
    let text := s.takeWhile fun c => !(c = '<' || c = '&')
    if !text.isEmpty then .go [.data text] text.length none
    else
      match s with
      | '<' :: r =>
        match r with
        | c :: _ =>
          if isAlphaA c then parseStart s
          else if c = '/' then parseEnd none s
          else if c!"!--".isPrefixOf r then closeAt commentCloseRe 4 s
          else if c = '?' then skipTo 2 s
          else if c = '!' then parseDecl s
          else .go [.data c!"<"] 1 none
        | [] => .stop []
      | '&' :: '#' :: _ => parseCharref s
      | '&' :: _ => parseEntity s
      | _ => .fail .assertionError

/-- Lib/html/parser.py 134-259: `goahead(0)`; the `Nat` counts the characters that still belong to the previous
construct.  Returns the handler calls and, if the tokenizer itself raises after them, the exception. -/
def goahead : Option Str → Option Char → Str → Nat → List Event × Option PyErr
  | _, _, [], _ => ([], none)
  | cdata, _, c :: cs, k + 1 => goahead cdata (some c) cs k
  | cdata, prev, c :: cs, 0 =>
    match step cdata prev (c :: cs) with
    | .stop evs => (evs, none)
    | .fail e => ([], some e)
    | .go evs n cdata' =>
      let (l, e) := goahead cdata' (some c) cs (n - 1)
      (evs ++ l, e)

/-- the handler calls of `HTMLParser.feed(data)` for a new parser -/
def tokens (s : Str) : List Event × Option PyErr := goahead none none s 0

end Verif.Html
