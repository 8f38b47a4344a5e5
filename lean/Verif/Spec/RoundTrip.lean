import Verif.Spec.CreoleLists
import Verif.Spec.HtmlDoc
import Verif.Spec.Emit

/-!
# Specification: creole documents, their HTML and back

Documents without macros and preformatted text: the HTML they stand for, as a structure, and the creole text that
one expects when this HTML is turned into creole again.
-/

namespace Verif.Spec.Rt

open Verif Cr Hd

/-! ## Inline markup -/

/-- an image -/
def imageHt (target title : Str) (size : List (Str × Str)) : Ht :=
  .void c!"img" ([(c!"src", target), (c!"title", title), (c!"alt", title)] ++ size)

/-- a link -/
def linkHt (target : Str) (inner : List Ht) : Ht := .el c!"a" [(c!"href", target)] inner

mutual
/-- the HTML of a piece; `w` is the white space after a line break -/
def inlHt (w : Str) : Inl → List Ht
  | .chr c | .esc c => [.text [c]]
  | .face f l => [.el f.tag [] (inlsHt c!"\n" l)]
  | .link t [] => [linkHt t [.text t]]
  | .link t (i :: l) => [linkHt t (inlHt c!"\n" i ++ inlsHt c!"\n" l)]
  | .image t [] => [imageHt t t []]
  | .image t (c :: s) => [imageHt t (c :: s) []]
  | .sized t s w h => [imageHt t s [(c!"width", decimal w), (c!"height", decimal h)]]
  | .nowiki s => [.el c!"code" [] [.text s]]
  | .br => [.void c!"br" [], .white w]
  | .url s => [linkHt s [.text s]]
  | .escUrl s => [.text s]
  | .mac _ _ | .macText _ _ _ => []
def inlsHt (w : Str) : List Inl → List Ht
  | [] => []
  | i :: l => inlHt w i ++ inlsHt w l
end

/-- a link in creole; the text is left out if it is the target -/
def linkText (target text : Str) : Str :=
  if target = text then c!"[[" ++ text ++ c!"]]" else c!"[[" ++ target ++ c!"|" ++ text ++ c!"]]"

/-- an image in creole; images given by `data:` URLs are left out -/
def imageText (target title size : Str) : Str :=
  if isDataUri target then [] else c!"{{" ++ target ++ c!"|" ++ title ++ size ++ c!"}}"

mutual
/-- the creole text of the HTML of a piece; `br` is what a line break gives.  Typefaces come back as they were written.
Links always come back as `[[target]]` or `[[target|text]]`, images with a title.  The tildes and the braces of
preformatted text are lost, and the two sizes of an image are exchanged. -/
def inlBack (br : Str) : Inl → Str
  | .chr c | .esc c => [c]
  | .face f l => [f.char, f.char] ++ inlsBack br l ++ [f.char, f.char]
  | .link t [] => linkText t t
  | .link t (i :: l) => linkText t (inlBack br i ++ inlsBack br l)
  | .image t [] => imageText t t []
  | .image t (c :: s) => imageText t (c :: s) []
  | .sized t s w h => imageText t s (c!"|" ++ decimal h ++ c!"x" ++ decimal w)
  | .nowiki s => oneLine s
  | .br => br
  | .url s => linkText s s
  | .escUrl s => s
  | .mac _ _ | .macText _ _ _ => []
def inlsBack (br : Str) : List Inl → Str
  | [] => []
  | i :: l => inlBack br i ++ inlsBack br l
end

mutual
/-- no macros, and images with a size have a title -/
def Inl.decent : Inl → Bool
  | .face _ l | .link _ l => decents l
  | .image t _ => !t.isEmpty
  | .sized _ s _ _ => !s.isEmpty
  | .mac _ _ | .macText _ _ _ => false
  | _ => true
def decents : List Inl → Bool
  | [] => true
  | i :: l => Inl.decent i && decents l
end

mutual
/-- Pieces that come back as they were written: characters, typefaces, links, and images with a title.  The text of a
link is not its target. -/
def Inl.stable : Inl → Bool
  | .chr _ | .br => true
  | .face _ l => stables l
  | .link _ [] => true
  | .link t (i :: l) => Inl.stable i && stables l && t != Cr.prints (i :: l)
  | .image t s => !s.isEmpty && !decide (isDataUri t)
  | .sized t s w h => !s.isEmpty && w == h && !decide (isDataUri t)
  | _ => false
def stables : List Inl → Bool
  | [] => true
  | i :: l => Inl.stable i && stables l
end

mutual
/-- no line breaks -/
def Inl.noBreak : Inl → Bool
  | .br => false
  | .face _ l | .link _ l => noBreaks l
  | _ => true
def noBreaks : List Inl → Bool
  | [] => true
  | i :: l => Inl.noBreak i && noBreaks l
end

/-! ## Blocks -/

/-- a cell of a table -/
structure TCell where
  /-- is it a heading? -/
  head : Bool
  text : List Inl

/-- a block -/
inductive Rt where
  /-- a paragraph, line by line -/
  | para (lines : List (List Inl))
  /-- a heading of level `n` -/
  | head (n : Nat) (title : Str)
  /-- a horizontal rule -/
  | hr
  /-- a list -/
  | list (kind : Mark) (items : List Branch)
  /-- a table, row by row -/
  | table (rows : List (List TCell))

/-! ### The HTML -/

def paraHt : List (List Inl) → List Ht
  | [] => []
  | [l] => inlsHt c!"\n" l
  | l :: m :: ls => inlsHt c!"\n" l ++ .void c!"br" [] :: .white c!"\n" :: paraHt (m :: ls)

mutual
/-- an item inside `n + 1` lists -/
def branchHt (n : Nat) : Branch → List Ht
  | .mk _ text kind sub =>
    let w := c!"\n" ++ indentTabs (n + 1)
    [.white w, .el c!"li" [] (inlsHt w text ++ if sub.isEmpty then [] else
      [.white w, .el kind.tag [] (branchesHt (n + 1) sub ++ [.white w])])]
def branchesHt (n : Nat) : List Branch → List Ht
  | [] => []
  | b :: l => branchHt n b ++ branchesHt n l
end

def cellHt (c : TCell) : List Ht :=
  [.white c!"\t", .el (if c.head then c!"th" else c!"td") [] (inlsHt c!"\n\t\t" c.text), .white c!"\n"]

def rowHt (r : List TCell) : List Ht := [.el c!"tr" [] (.white c!"\n" :: r.flatMap cellHt), .white c!"\n"]

def Rt.ht : Rt → Ht
  | .para ls => .el c!"p" [] (paraHt ls)
  | .head n title => .el (c!"h" ++ decimal n) [] [.text title]
  | .hr => .void c!"hr" []
  | .list k bs => .el k.tag [] (branchesHt 0 bs ++ [.white c!"\n"])
  | .table rows => .el c!"table" [] (.white c!"\n" :: rows.flatMap rowHt)

/-- blocks, each one but the first with white space before it -/
def docHt (b : Rt) : List (Str × Rt) → List Ht
  | [] => [b.ht]
  | (w, b') :: d => b.ht :: .white w :: docHt b' d

/-! ### The creole text -/

mutual
/-- the lines of an item; `marks` are those of the lists around it -/
def branchBack (marks : Str) : Branch → List Str
  | .mk _ text kind sub => (marks ++ c!" " ++ inlsBack c!"\\\\" text) :: branchesBack (marks ++ [kind.char]) sub
def branchesBack (marks : Str) : List Branch → List Str
  | [] => []
  | b :: l => branchBack marks b ++ branchesBack marks l
end

/-- the text of a cell on one line -/
def cellBack (c : TCell) : Str := oneLine (inlsBack c!"\n" c.text)

/-- what is written between two bars, except for the blanks that fill up the column -/
def cellBox (c : TCell) : Str := (if c.head then c!"=" else []) ++ c!" " ++ cellBack c ++ c!" "

/-- the widths of the columns -/
def widths : List (List Str) → List Nat
  | [] => []
  | [r] => r.map List.length
  | r :: rs => List.zipWith max (r.map List.length) (widths rs)

/-- a cell filled up with blanks -/
def fill (s : Str) (n : Nat) : Str := s ++ spaces (n - s.length)

/-- a line of a table -/
def rowBack (ws : List Nat) (r : List TCell) : Str := c!"|" ++ (List.zipWith fill (r.map cellBox) ws).flatMap (· ++ c!"|")

def tableBack (rows : List (List TCell)) : List Str := rows.map (rowBack (widths (rows.map fun r => r.map cellBox)))

/-- the lines of a block -/
def Rt.back : Rt → List Str
  | .para ls => ls.map (inlsBack c!"\n")
  | .head n title => [List.replicate n '=' ++ c!" " ++ title]
  | .hr => [c!"----"]
  | .list k bs => branchesBack [k.char] bs
  | .table rows => tableBack rows

/-- The empty lines between two blocks: one; but none after a table, and three between a heading and a list. -/
def gap : Rt → Rt → List Str
  | .table _, _ => []
  | .head _ _, .list _ _ => [[], [], []]
  | _, _ => [[]]

/-- the lines of a document -/
def backDoc (b : Rt) : List Rt → List Str
  | [] => b.back
  | b' :: d => b.back ++ gap b b' ++ backDoc b' d

/-! ### Simple blocks -/

/-- a text that is not empty and does not end in a blank -/
def bareEnd (s : Str) : Bool := (s.getLast?).any fun c => !Py.isSpace c

mutual
def branchDecent : Branch → Bool
  | .mk _ text _ sub => decents text && bareEnd (inlsBack c!"\\\\" text) && branchesDecent sub
def branchesDecent : List Branch → Bool
  | [] => true
  | b :: l => branchDecent b && branchesDecent l
end

/-- No macros; nothing is empty.  The texts of the cells do not look like heading cells; all rows have the same number of
cells.  Headings have the levels 1 to 6. -/
def Rt.decent : Rt → Bool
  | .para ls => !ls.isEmpty && ls.all decents
  | .head n _ => 1 ≤ n && n ≤ 6
  | .hr => true
  | .list _ bs => !bs.isEmpty && branchesDecent bs
  | .table rows => !rows.isEmpty && rows.all fun r => r.length == (rows.headD []).length && !r.isEmpty &&
      r.all fun c => decents c.text && trimmed (cellBack c) && (cellBack c).head? != some '='

/-! ## Creole documents that stand for such blocks -/

/-- a cell without the blanks around its text -/
def tcell : Cell → TCell
  | .td _ text _ => ⟨false, text⟩
  | .th _ _ text _ => ⟨true, text⟩

/-- no line but the last one ends in a backslash -/
def noSlashEnd : List (List Inl) → Bool
  | [] | [_] => true
  | l :: ls => (prints l).getLast? != some '\\' && noSlashEnd ls

/-- The block of a creole document stands for a block as above.  The items of a list have one mark for every list around
them. -/
def StandsFor : Block → Rt → Prop
  | .para ls, .para ls' => ls' = ls ∧ noSlashEnd ls = true
  | .head n _ title _, .head n' title' => n' = n ∧ title' = title
  | .hr, .hr => True
  | .list i l, .list k bs => branchesItems k bs = i :: l ∧ branchesOk {} 0 bs = true
  | .table rows, .table rows' => rows' = rows.map fun r => r.map tcell
  | _, _ => False

/-- the same for the blocks of a document, one by one -/
def DocFor : Doc → List Rt → Prop
  | [], [] => True
  | (_, b) :: d, r :: rs => StandsFor b r ∧ DocFor d rs
  | _, _ => False

/-! ## Documents that come back as they were written -/

mutual
/-- every item has the marks of the lists around it, and its text comes back as it was written -/
def branchStable (marks : Str) : Branch → Bool
  | .mk pre text kind sub => pre == marks.dropLast && stables text && branchesStable (marks ++ [kind.char]) sub
def branchesStable (marks : Str) : List Branch → Bool
  | [] => true
  | b :: l => branchStable marks b && branchesStable marks l
end

/-- the text of a cell: no line break, no backslash at its ends -/
def cellStable (c : TCell) : Bool :=
  stables c.text && noBreaks c.text && trimmed (prints c.text) && (prints c.text).head? != some '\\' &&
    (prints c.text).getLast? != some '\\'

def Rt.stable : Rt → Bool
  | .para ls => ls.all (fun l => stables l && noBreaks l && trimmed (prints l)) && noSlashEnd ls
  | .head _ title => trimmed title
  | .hr => true
  | .list k bs => branchesStable [k.char] bs && branchesOk {} 0 bs
  | .table rows => rows.all fun r => r.all cellStable

/-- a cell with the blanks that fill up a column of width `n` -/
def boxCell (c : TCell) (n : Nat) : Cell :=
  if c.head then .th 0 1 c.text (n - (cellBox c).length + 1) else .td 1 c.text (n - (cellBox c).length + 1)

/-- how a block is written in creole -/
def Rt.block : Rt → Block
  | .para ls => .para ls
  | .head n title => .head n c!" " title []
  | .hr => .hr
  | .list k bs =>
    match branchesItems k bs with
    | [] => .hr
    | i :: l => .list i l
  | .table rows => .table (rows.map fun r => List.zipWith boxCell r (widths (rows.map fun r => r.map cellBox)))

/-- how further blocks are written -/
def restDoc (b : Rt) : List Rt → Doc
  | [] => []
  | b' :: d => (gap b b', b'.block) :: restDoc b' d

/-- how a document is written -/
def creoleDoc (b : Rt) (d : List Rt) : Doc := ([], b.block) :: restDoc b d

/-! ## The way html2creole writes a block -/

/-- characters only -/
def isChars : List Inl → Bool
  | [] => true
  | .chr _ :: l => isChars l
  | _ => false

mutual
/-- a piece without tildes; links in double brackets, without a text that is the target; images with a title -/
def inlNorm : Inl → Inl
  | .esc c => .chr c
  | .face f l => .face f (inlsNorm l)
  | .link t [] => .link t []
  | .link t (i :: l) => if isChars (i :: l) && prints (i :: l) == t then .link t [] else .link t (inlNorm i :: inlsNorm l)
  | .image t [] => .image t t
  | .url s => .link s []
  | i => i
def inlsNorm : List Inl → List Inl
  | [] => []
  | i :: l => inlNorm i :: inlsNorm l
end

mutual
/-- the text of an item, and its marks: those of the lists around it -/
def branchNorm (marks : Str) : Branch → Branch
  | .mk _ text kind sub => .mk marks.dropLast (inlsNorm text) kind (branchesNorm (marks ++ [kind.char]) sub)
def branchesNorm (marks : Str) : List Branch → List Branch
  | [] => []
  | b :: l => branchNorm marks b :: branchesNorm marks l
end

def Rt.norm : Rt → Rt
  | .para ls => .para (ls.map inlsNorm)
  | .head n title => .head n title
  | .hr => .hr
  | .list k bs => .list k (branchesNorm [k.char] bs)
  | .table rows => .table (rows.map fun r => r.map fun c => ⟨c.head, inlsNorm c.text⟩)

/-- two texts that are made of the same parts in the same order, with nothing but line ends between them -/
def SameBlocks (s s' : Str) : Prop :=
  ∃ (first : Str) (rest : List (Str × Str × Str)), (∀ x ∈ rest, (∀ c ∈ x.1, c = '\n') ∧ ∀ c ∈ x.2.1, c = '\n') ∧
    s = first ++ rest.flatMap (fun x => x.1 ++ x.2.2) ∧ s' = first ++ rest.flatMap fun x => x.2.1 ++ x.2.2

end Verif.Spec.Rt
