import Verif.Spec.RoundTrip
import Verif.Spec.Lists
import Verif.Spec.Rest
import Verif.Spec.Url

/-!
# Specification: articles

Documents made of paragraphs, headings, rules, nested lists and tables with text in several typefaces, links, pictures and
code: the elements of their HTML, and their text in creole, textile and markdown.  Nothing here uses the converters.
-/

namespace Verif.Spec.Ar

open Verif Hd

/-! ## Articles -/

/-- a piece of text; an attribute that is missing is empty -/
inductive Sp where
  | text (s : Str)
  /-- `<b>`, `<em>`, ... -/
  | face (tag : Str) (inner : List Sp)
  | link (url : Address) (title : Str) (inner : List Sp)
  | image (src : Address) (alt title : Str)
  | code (s : Str)
  /-- a line break -/
  | br

/-- an item of a list, with the items of the list inside of it, if there are any -/
inductive Item where
  | mk (text : List Sp) (numbered : Bool) (sub : List Item)

/-- a cell of a table -/
structure Cell where
  head : Bool
  text : List Sp

inductive Bl where
  | para (text : List Sp)
  | head (level : Nat) (text : List Sp)
  | hr
  | list (numbered : Bool) (items : List Item)
  | table (rows : List (List Cell))

/-! ## The elements of the HTML -/

/-- an attribute that is left out if it is empty -/
def optAttr (name value : Str) : List (Str × Option Str) := if value = [] then [] else [(name, some value)]

mutual
/-- the elements of a piece and of what follows it -/
def Sp.els : Sp → List El → List El
  | .text s, l => s.foldr addChar l
  | .face tag inner, l => .elem tag [] (spsEls inner []) :: l
  | .link url title inner, l => .elem c!"a" ((c!"href", some url.text) :: optAttr c!"title" title) (spsEls inner []) :: l
  | .image src alt title, l =>
    .void c!"img" ((c!"src", some src.text) :: (c!"alt", some alt) :: optAttr c!"title" title) :: l
  | .code s, l => .elem c!"code" [] (s.foldr addChar []) :: l
  | .br, l => .void c!"br" [] :: l
def spsEls : List Sp → List El → List El
  | [], l => l
  | x :: xs, l => x.els (spsEls xs l)
end

mutual
def Item.el : Item → El
  | .mk text numbered sub =>
    .elem c!"li" [] (spsEls text (if sub.isEmpty then [] else [.elem (listTag numbered) [] (itemEls sub)]))
def itemEls : List Item → List El
  | [] => []
  | i :: l => i.el :: itemEls l
end

def Cell.el (c : Cell) : El := .elem (if c.head then c!"th" else c!"td") [] (spsEls c.text [])

def rowEl (r : List Cell) : El := .elem c!"tr" [] (r.map Cell.el)

def Bl.el : Bl → El
  | .para text => .elem c!"p" [] (spsEls text [])
  | .head n text => .elem (c!"h" ++ Cr.decimal n) [] (spsEls text [])
  | .hr => .void c!"hr" []
  | .list numbered items => .elem (listTag numbered) [] (itemEls items)
  | .table rows => .elem c!"table" [] (rows.map rowEl)

/-! ## Inline text -/

/-- the language to convert to -/
inductive To where
  | creole | textile | markdown
  deriving DecidableEq, Repr

def To.lang : To → Emit.Lang
  | .creole => .creole
  | .textile => .textile
  | .markdown => .markdown

/-- A run of characters is left out if it is a single blank. -/
def keepRun (s : Str) : Str := if s = c!" " then [] else s

/-- Text in markdown.  A blank between two of the characters `&`, `<`, `>`, or between one of them and an end of the text,
is lost.  The argument `run` is the current run of other characters. -/
def markdownText (run : Str) : Str → Str
  | [] => keepRun run
  | c :: s => if (entityOf c).isSome then keepRun run ++ [c] ++ markdownText [] s else markdownText (run ++ [c]) s

def plainText : To → Str → Str
  | .markdown, s => markdownText [] s
  | _, s => s

/-- a text in a typeface -/
def faceText (to : To) (tag text : Str) : Str :=
  match delimiters to.lang tag with
  | some (before, after) => before ++ text ++ after
  | none => text

/-- an address in markdown: the path is encoded -/
def encoded (a : Address) : Str := { a with path := percent a.path }.text

/-- a title after an address -/
def titleText (title : Str) : Str := if title = [] then [] else c!" \"" ++ title ++ c!"\""

def linkText : To → Address → Str → Str → Str
  | .creole, url, _, text => if url.text = text then c!"[[" ++ text ++ c!"]]" else c!"[[" ++ url.text ++ c!"|" ++ text ++ c!"]]"
  | .textile, url, _, text => c!"\"" ++ text ++ c!"\":" ++ url.text
  | .markdown, url, title, text => c!"[" ++ text ++ c!"](" ++ encoded url ++ titleText title ++ c!")"

/-- the text for a picture: the longer one of `alt` and `title`, or the file name -/
def pictureText (src alt title : Str) : Str :=
  if alt = [] ∧ title = [] then fileName src else if alt.length > title.length then alt else title

/-- A picture.  In creole and textile those with `data:` addresses are left out; in markdown the title is only used if there
is an alternative text. -/
def imageText : To → Address → Str → Str → Str
  | .creole, src, alt, title =>
    if isDataUri src.text then [] else c!"{{" ++ src.text ++ c!"|" ++ pictureText src.text alt title ++ c!"}}"
  | .textile, src, alt, title =>
    if isDataUri src.text then [] else c!"!" ++ src.text ++ c!"(" ++ pictureText src.text alt title ++ c!")!"
  | .markdown, src, alt, title => c!"![" ++ alt ++ c!"](" ++ encoded src ++ (if alt = [] then [] else titleText title) ++ c!")"

/-- Code.  Creole has no markup for it. -/
def codeText : To → Str → Str
  | .creole, s => oneLine s
  | .textile, s => c!"@" ++ s ++ c!"@"
  | .markdown, s =>
    let t := oneLine (markdownText [] s)
    if t.contains '`' then c!"``" ++ t ++ c!"``" else c!"`" ++ t ++ c!"`"

/-- a line break; inside a list in creole and textile -/
def breakText (to : To) (inList : Bool) : Str := if to = .markdown ∨ inList = false then c!"\n" else c!"\\\\"

mutual
def Sp.txt (to : To) (inList : Bool) : Sp → Str
  | .text s => plainText to s
  | .face tag inner => faceText to tag (spsText to inList inner)
  | .link url title inner => linkText to url title (spsText to inList inner)
  | .image src alt title => imageText to src alt title
  | .code s => codeText to s
  | .br => breakText to inList
def spsText (to : To) (inList : Bool) : List Sp → Str
  | [] => []
  | x :: xs => x.txt to inList ++ spsText to inList xs
end

/-! ## Blocks -/

/-- The marks before an item; `kinds` tells for every list around it, from the outermost one to the innermost one, whether
it is numbered. -/
def marks : To → List Bool → Str
  | .markdown, kinds => spaces (2 * (kinds.length - 1)) ++ (if kinds.getLast? = some true then c!"1." else c!"*")
  | _, kinds => kinds.map fun numbered => if numbered then '#' else '*'
where
  spaces (n : Nat) : Str := List.replicate n ' '

mutual
/-- the lines of an item -/
def Item.lines (to : To) (kinds : List Bool) : Item → List Str
  | .mk text numbered sub => (marks to kinds ++ c!" " ++ spsText to true text) :: itemsLines to (kinds ++ [numbered]) sub
def itemsLines (to : To) (kinds : List Bool) : List Item → List Str
  | [] => []
  | i :: l => i.lines to kinds ++ itemsLines to kinds l
end

/-- what is written between two bars, except for the blanks that fill up the column -/
def cellBox : To → Cell → Str
  | .creole, c => (if c.head then c!"=" else []) ++ c!" " ++ oneLine (spsText .creole false c.text) ++ c!" "
  | .textile, c => (if c.head then c!"_. " else []) ++ oneLine (spsText .textile false c.text)
  | .markdown, c => if Py.strip (spsText .markdown false c.text) = [] then [] else c!" " ++ Py.strip (spsText .markdown false c.text) ++ c!" "

/-- a line of a table -/
def barred (boxes : List Str) : Str := c!"|" ++ boxes.flatMap (· ++ c!"|")

/-- a line of a table whose columns have the given widths -/
def filled (ws : List Nat) (boxes : List Str) : Str := barred (List.zipWith Rt.fill boxes ws)

/-- the line below the first row of a table with headings -/
def underline (ws : List Nat) : Str := barred (ws.map fun w => c!" " ++ List.replicate (w - 2) '-' ++ c!" ")

/-- The lines of a table.  The columns are not aligned in textile. -/
def tableLines (to : To) (rows : List (List Cell)) : List Str :=
  let boxes := rows.map fun r => r.map (cellBox to)
  match to with
  | .textile => boxes.map barred
  | .creole => boxes.map (filled (Rt.widths boxes))
  | .markdown =>
    let lines := boxes.map (filled (Rt.widths boxes))
    if rows.any (fun r => r.any Cell.head) ∧ 1 < rows.length then lines.take 1 ++ [underline (Rt.widths boxes)] ++ lines.drop 1
    else lines

def Bl.lines (to : To) : Bl → List Str
  | .para text => [spsText to false text]
  | .head n text =>
    match to with
    | .creole => [List.replicate n '=' ++ c!" " ++ spsText to false text]
    | .textile => [c!"h" ++ Cr.decimal n ++ c!". " ++ spsText to false text]
    | .markdown => [List.replicate n '#' ++ c!" " ++ spsText to false text]
  | .hr => [c!"----"]
  | .list numbered items => itemsLines to [numbered] items
  | .table rows => tableLines to rows

/-- The empty lines between two blocks.  In markdown one, two before a list.  Otherwise one; but none after a table, and
three between a heading and a list. -/
def gap : To → Bl → Bl → List Str
  | .markdown, _, .list _ _ => [[], []]
  | .markdown, _, _ => [[]]
  | _, .table _, _ => []
  | _, .head _ _, .list _ _ => [[], [], []]
  | _, _, _ => [[]]

/-- the lines of an article -/
def articleLines (to : To) (b : Bl) : List Bl → List Str
  | [] => b.lines to
  | b' :: d => b.lines to ++ gap to b b' ++ articleLines to b' d

/-- the text of an article; there are no blanks and no empty lines at its ends -/
def articleText (to : To) (b : Bl) (d : List Bl) : Str := Py.strip (joinLines c!"\n" (articleLines to b d))

/-! ## Conditions -/

def isText : Sp → Bool
  | .text _ => true
  | _ => false

/-- Addresses in markdown are such that their parts can be told apart; `hostOk` tells which hosts are valid. -/
def AddressOk (to : To) (hostOk : Str → Bool) (a : Address) : Prop := to = .markdown → a.Ok ∧ hostOk a.host = true

mutual
/-- The typefaces are those of the language.  (`ins` is taken for a block by the project.) -/
def Sp.Ok (to : To) (hostOk : Str → Bool) : Sp → Prop
  | .text _ | .code _ | .br => True
  | .face tag inner => (delimiters to.lang tag).isSome ∧ tag ∉ blockNames ∧ SpsOk to hostOk inner
  | .link url _ inner => AddressOk to hostOk url ∧ SpsOk to hostOk inner
  | .image src _ _ => AddressOk to hostOk src
/-- texts are not divided: no two of them stand side by side -/
def SpsOk (to : To) (hostOk : Str → Bool) : List Sp → Prop
  | [] => True
  | x :: l => x.Ok to hostOk ∧ SpsOk to hostOk l ∧ ¬ (isText x ∧ (l.head?).any isText)
end

mutual
def Item.Ok (to : To) (hostOk : Str → Bool) : Item → Prop
  | .mk text _ sub => SpsOk to hostOk text ∧ ItemsOk to hostOk sub
def ItemsOk (to : To) (hostOk : Str → Bool) : List Item → Prop
  | [] => True
  | i :: l => i.Ok to hostOk ∧ ItemsOk to hostOk l
end

/-- In creole, the text of a cell is not empty and does not begin like a heading cell. -/
def CellOk (to : To) (hostOk : Str → Bool) (c : Cell) : Prop :=
  SpsOk to hostOk c.text ∧ (to = .creole →
    Cr.trimmed (oneLine (spsText .creole false c.text)) ∧ (oneLine (spsText .creole false c.text)).head? ≠ some '=')

/-- Headings have the levels 1 to 6.  Lists and tables are not empty; in creole and textile the last item of a list does not
end in a blank; the rows of a table have equally many cells, except in textile. -/
def Bl.Ok (to : To) (hostOk : Str → Bool) : Bl → Prop
  | .para text => SpsOk to hostOk text
  | .head n text => 1 ≤ n ∧ n ≤ 6 ∧ SpsOk to hostOk text
  | .hr => True
  | .list numbered items => ItemsOk to hostOk items ∧ items ≠ [] ∧
      (to ≠ .markdown → Rt.bareEnd (joinLines c!"\n" (itemsLines to [numbered] items)))
  | .table rows => rows ≠ [] ∧ (∀ r ∈ rows, r ≠ [] ∧ ∀ c ∈ r, CellOk to hostOk c) ∧
      (to ≠ .textile → ∀ r ∈ rows, r.length = (rows.headD []).length)

end Verif.Spec.Ar
