import Verif.Spec.Creole
import Verif.Spec.Lines

/-!
# Specification: creole documents and their meaning

Documents made of blocks: how they are written (`lines`), which ones are written unambiguously (`ok`) and the
HTML they stand for (`html`).  Nothing here mentions the parser or the emitter.
-/

namespace Verif.Spec.Cr

open Verif

/-- a text of blanks only -/
def blank (s : Str) : Bool := s.all Py.isSpace && !s.contains '\n'

/-! ## Lists -/

/-- the two kinds of lists -/
inductive Mark where
  | bullet | number
  deriving DecidableEq, Repr

def Mark.char : Mark → Char
  | .bullet => '*' | .number => '#'

def Mark.tag : Mark → Str
  | .bullet => c!"ul" | .number => c!"ol"

/-- a list item: the marks written before its last one, the last one and its text -/
structure Item where
  pre : Str
  kind : Mark
  text : List Inl

/-- the level of an item: the lists outside its own one, if there is one for every mark -/
def Item.level (i : Item) : Nat := i.pre.length

def Item.line (i : Item) : Str := i.pre ++ i.kind.char :: ' ' :: prints i.text

/-- the text of an item is one line -/
def Item.ok (cx : Ctx) (i : Item) : Bool :=
  i.pre.all (fun c => c == '*' || c == '#') && wfs cx none i.text && trimmed (prints i.text) && (i.text.getLast?).all Inl.notBr

def indentTabs (n : Nat) : Str := List.replicate n '\t'

/-- the beginning of an item; it is ended later -/
def Item.html (cx : Ctx) (i : Item) : Str :=
  c!"\n" ++ indentTabs (i.level + 1) ++ c!"<li>" ++ htmls cx (c!"<br />\n" ++ indentTabs (i.level + 1)) i.text

/-- the end of a list and of its last item; a list is known by its kind and level -/
def endList (x : Mark × Nat) : Str := c!"</li>\n" ++ indentTabs x.2 ++ c!"</" ++ x.1.tag ++ c!">"

/-- The items of a list; `opened` are the lists that are open, the innermost one first.  If the innermost list of the
level of an item is of its kind, then the item is put into it, and the lists inside it are ended.  Otherwise the item
begins a new list inside the last item. -/
def itemsHtml (cx : Ctx) (opened : List (Mark × Nat)) : List Item → Str
  | [] => opened.flatMap endList
  | i :: l =>
    match opened.dropWhile (fun x => x.2 != i.level) with
    | (k, n) :: outer =>
      if k = i.kind then
        (opened.takeWhile (fun x => x.2 != i.level)).flatMap endList ++ c!"</li>" ++ i.html cx ++ itemsHtml cx ((k, n) :: outer) l
      else
        c!"\n" ++ indentTabs i.level ++ c!"<" ++ i.kind.tag ++ c!">" ++ i.html cx ++ itemsHtml cx ((i.kind, i.level) :: opened) l
    | [] =>
      c!"\n" ++ indentTabs i.level ++ c!"<" ++ i.kind.tag ++ c!">" ++ i.html cx ++ itemsHtml cx ((i.kind, i.level) :: opened) l

def listHtml (cx : Ctx) (i : Item) (l : List Item) : Str :=
  c!"<" ++ i.kind.tag ++ c!">" ++ i.html cx ++ itemsHtml cx [(i.kind, i.level)] l

/-! ## Tables -/

/-- a cell, with the numbers of spaces around its text -/
inductive Cell where
  /-- a data cell -/
  | td (l : Nat) (text : List Inl) (r : Nat)
  /-- a heading cell: `l` spaces, `=`, `m` spaces, the text, `r` spaces -/
  | th (l m : Nat) (text : List Inl) (r : Nat)

def spaces (n : Nat) : Str := List.replicate n ' '

def Cell.print : Cell → Str
  | .td l text r => spaces l ++ prints text ++ spaces r
  | .th l m text r => spaces l ++ c!"=" ++ spaces m ++ prints text ++ spaces r

/-- a row: every cell is written after a `|`, and there is a `|` at the end -/
def rowLine : List Cell → Str
  | [] => c!"|"
  | c :: l => c!"|" ++ c.print ++ rowLine l

def Cell.html (cx : Ctx) : Cell → Str
  | .td _ text _ => c!"\t<td>" ++ htmls cx c!"<br />\n\t\t" text ++ c!"</td>\n"
  | .th _ _ text _ => c!"\t<th>" ++ htmls cx c!"<br />\n\t\t" text ++ c!"</th>\n"

def rowHtml (cx : Ctx) (r : List Cell) : Str := c!"<tr>\n" ++ r.flatMap (Cell.html cx) ++ c!"</tr>\n"

/-- a text in which a cell ends only at the next `|`: it contains no bar and nothing that begins a link, an
image or a macro, even together with the first character of the text behind it -/
def noBar (s next : Str) : Bool :=
  !s.contains '|' && !occurs c!"[[" (s ++ next.take 1) && !occurs c!"{{" (s ++ next.take 1) &&
    !occurs c!"<<" (s ++ next.take 1)

mutual
/-- the bars in a piece belong to links and images -/
def Inl.cellOk (next : Str) : Inl → Bool
  | .link _ _ | .image _ _ | .sized _ _ _ _ => true
  | .face f l => cellsOk [f.char] l
  | i => noBar i.print next
def cellsOk (next : Str) : List Inl → Bool
  | [] => true
  | i :: l => i.cellOk (prints l ++ next) && cellsOk next l
end

def Cell.ok (cx : Ctx) : Cell → Bool
  | .td _ text r => wfs cx none text && trimmed (prints text) && (prints text).head? != some '=' && cellsOk (spaces r ++ c!"|") text
  | .th _ _ text _ => wfs cx none text && trimmed (prints text) && (prints text).head? != some '=' &&
      (prints text).getLast? != some '=' && !(prints text).contains '|'

/-! ## Blocks -/

inductive Block where
  /-- a paragraph, line by line -/
  | para (lines : List (List Inl))
  /-- a heading: `n` equals signs, blanks, the title, and then blanks and equals signs -/
  | head (n : Nat) (pad title tail : Str)
  /-- a horizontal rule -/
  | hr
  /-- preformatted text, line by line -/
  | pre (lines : List Str)
  /-- a list -/
  | list (first : Item) (items : List Item)
  /-- a table, row by row -/
  | table (rows : List (List Cell))
  /-- a call of a macro: `<<name args>>`, the lines of the text, and `<</name>>`, the tags on the first and on the last of
  these lines -/
  | mac (name args : Str) (text : List Str)

/-- lines with something before the first one and behind the last one -/
def enclose (a b : Str) : List Str → List Str
  | [] => [a ++ b]
  | [l] => [a ++ l ++ b]
  | l :: m :: ls => (a ++ l) :: enclose [] b (m :: ls)

/-- the call of a block -/
def blockCall (name args : Str) (text : List Str) : Call :=
  { name, args := Py.strip args, text := some (Py.strip (joinLines c!"\n" text)), block := true }

def Block.lines : Block → List Str
  | .para ls => ls.map prints
  | .head n pad title tail => [List.replicate n '=' ++ pad ++ title ++ tail]
  | .hr => [c!"----"]
  | .pre ls => c!"{{{" :: (ls ++ [c!"}}}"])
  | .list i l => (i :: l).map Item.line
  | .table rows => rows.map rowLine
  | .mac name args text => enclose (c!"<<" ++ name ++ args ++ c!">>") (c!"<</" ++ name ++ c!">>") text

/-- the lines of a paragraph; `nl` is what a new line gives.  A line that ends in a backslash is continued. -/
def paraHtml (cx : Ctx) (nl : Str) : List (List Inl) → Str
  | [] => []
  | [l] => htmls cx c!"<br />\n" l
  | l :: m :: ls => htmls cx c!"<br />\n" l ++ (if (prints l).getLast? = some '\\' then [] else nl) ++
      paraHtml cx nl (m :: ls)

/-- a line of preformatted text: the line `~}}}`, blanks around it or not, stands for `}}}` -/
def preLine (l : Str) : Str :=
  let t := l.dropWhile Py.isSpace
  if (c!"~}}}").isPrefixOf t && (t.drop 4).all Py.isSpace then l.takeWhile Py.isSpace ++ t.drop 1 else l

/-- a heading, and a heading that is an anchor -/
def headHtml (anchor : Bool) (n : Nat) (title : Str) : Str :=
  let h := c!"<h" ++ decimal n ++ c!">" ++ textHtml title ++ c!"</h" ++ decimal n ++ c!">"
  if anchor then c!"<a name=\"" ++ textHtml title ++ c!"\">" ++ h ++ c!"</a>" else h

def Block.html (cx : Ctx) (blog : Bool) : Block → Str
  | .para ls => c!"<p>" ++ paraHtml cx (if blog then c!"<br />\n" else c!" ") ls ++ c!"</p>"
  | .head n _ title _ => headHtml cx.anchors n title
  | .hr => c!"<hr />"
  | .pre ls => c!"<pre>\n" ++ ls.flatMap (fun l => textHtml (preLine l) ++ c!"\n") ++ c!"</pre>"
  | .list i l => listHtml cx i l
  | .table rows => c!"<table>\n" ++ rows.flatMap (rowHtml cx) ++ c!"</table>"
  | .mac name args text => cx.call (blockCall name args text)

/-- Which blocks can begin on a line: `all` of them; `indented`: those that may be indented (lists, tables and
rules); or `none` of them.  The latter two occur with wiki style line breaks only. -/
inductive Start where
  | all | indented | none
  deriving DecidableEq, Repr

/-- a line that begins none of the blocks that could begin on it -/
def plainStart (b : Start) (s : Str) : Bool :=
  let t := s.dropWhile Py.isSpace
  (b != .all || (!(c!"<<").isPrefixOf s && s.head? != some '=' && !((c!"{{{").isPrefixOf s && (s.drop 3).all Py.isSpace))) &&
  (b == .none || (!((c!"----").isPrefixOf t && (t.drop 4).all (fun c => c == ' ' || c == '\t')) &&
    t.head? != some '|' &&
    match t with
    | c :: d :: _ => !(c == '*' || c == '#') || d == '*' || d == '#'
    | c :: [] => !(c == '*' || c == '#')
    | [] => true))

/-- one line with something on it -/
def lineText (s : Str) : Bool := !s.all Py.isSpace && !s.contains '\n'

/-- the lines of a paragraph; `start` says which blocks could begin on the first of them.  With wiki style line
breaks no block begins on a further line. -/
def paraOk (cx : Ctx) (blog : Bool) (start : Start) : List (List Inl) → Bool
  | [] => false
  | [l] => wfs cx none l && lineText (prints l) && plainStart start (prints l) && (l.getLast?).all Inl.notBr
  | l :: m :: ls => wfs cx none l && lineText (prints l) && plainStart start (prints l) &&
      paraOk cx blog (if blog || (prints l).getLast? == some '\\' then .all else .none) (m :: ls)

def Block.ok (cx : Ctx) (blog : Bool) (start : Start) : Block → Bool
  | .para ls => paraOk cx blog start ls
  | .head n pad title tail => start == .all && n ≥ 1 && blank pad && trimmed title && title.head? != some '=' &&
      title.getLast? != some '=' && tail.all (fun c => c == '=' || Py.isSpace c) && !tail.contains '\n'
  | .hr => start != .none
  | .pre ls => start == .all && (ls.head?).all lineText && !ls.isEmpty &&
      ls.all (fun l => !l.contains '\n' && !(c!"}}}").isPrefixOf l)
  | .list i l => start != .none && i.pre.isEmpty && (i :: l).all (Item.ok cx)
  | .table rows => start != .none && !rows.isEmpty && (blog || rows.length == 1) &&
      rows.all (fun r => !r.isEmpty && r.all (Cell.ok cx))
  | .mac name args text => start == .all && nameOk name && argsOk args && (cx.mac (blockCall name args text)).isSome &&
      text.all (fun l => !l.contains '\n') && !hasEnd name (joinLines c!"\n" text)

/-! ## Documents -/

/-- Do the blank lines `gap` end the block?  Blank lines after a table are skipped, except for an empty one at the
end. -/
def closed : Block → List Str → Bool
  | .table _, gap => gap.getLast? == some []
  | _, gap => !gap.isEmpty

/-- the lines of the output between two blocks -/
def gapHtml (b : Block) (gap : List Str) : Str :=
  match b with
  | .table _ => if gap.getLast? = some [] then c!"\n\n" else c!"\n"
  | .list _ _ | .mac _ _ _ => if gap = [] then [] else if gap.length ≥ 2 ∧ gap.getLast? = some [] then c!"\n\n" else c!"\n"
  | _ => if gap = [] then c!"\n" else if gap.length ≥ 2 ∧ gap.getLast? = some [] then c!"\n\n\n" else c!"\n\n"

/-- blocks that may follow each other although the first one is not closed -/
def mayTouch (blog : Bool) (b b' : Block) : Bool :=
  if blog then
    match b, b' with
    | .para _, .para _ | .list _ _, .para _ | .list _ _, .list _ _ | .table _, .table _ => false
    | _, _ => true
  else
    match b, b' with
    | .para _, _ | .list _ _, _ => false
    | _, .para _ => true
    | _, _ => false

/-- which blocks can begin after the blank lines `gap`; `first`: nothing stands before them -/
def startAfter (blog first : Bool) (gap : List Str) : Start :=
  if blog || (first && gap.isEmpty) then .all else if gap.getLast? == some [] then .indented else .none

/-- the blocks of a document, each one with the blank lines before it -/
abbrev Doc := List (List Str × Block)

def docLines : Doc → List Str
  | [] => []
  | (gap, b) :: d => gap ++ b.lines ++ docLines d

/-- the HTML of the blocks after `b` -/
def docTail (cx : Ctx) (blog : Bool) (b : Block) : Doc → Str
  | [] => []
  | (gap, b') :: d => gapHtml b gap ++ b'.html cx blog ++ docTail cx blog b' d

def docBody (cx : Ctx) (blog : Bool) : Doc → Str
  | [] => []
  | (_, b) :: d => b.html cx blog ++ docTail cx blog b d

/-- the HTML of a document; only a macro can give blanks at its beginning or its end -/
def docHtml (cx : Ctx) (blog : Bool) (d : Doc) : Str := Py.strip (docBody cx blog d)

/-- the blocks after `b` are separated from each other -/
def tailOk (cx : Ctx) (blog : Bool) (b : Block) : Doc → Bool
  | [] => true
  | (gap, b') :: d => gap.all blank &&
      ((closed b gap && b'.ok cx blog (startAfter blog false gap)) || (mayTouch blog b b' && b'.ok cx blog .all)) &&
      tailOk cx blog b' d

def docOk (cx : Ctx) (blog : Bool) : Doc → Bool
  | [] => true
  | (gap, b) :: d => gap.all blank && b.ok cx blog (startAfter blog true gap) && tailOk cx blog b d

end Verif.Spec.Cr
