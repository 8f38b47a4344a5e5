import Verif.Spec.Article

/-!
# Specification: articles in ReStructuredText

The text of an article in ReStructuredText.  In this language a link or a picture has to be defined once; what has been
defined before a place in the text matters there.  Nothing here uses the converter.
-/

namespace Verif.Spec.Ar

open Verif Hd

/-! ## Definitions -/

/-- what is known at a place in the text -/
structure Refs where
  /-- the texts of the links so far, with their addresses -/
  links : List (Str × Str) := []
  /-- the texts of the pictures so far, with their addresses -/
  pictures : List (Str × Str) := []
  /-- the definitions that have to be written after the current block -/
  waiting : List Str := []
  /-- the mark of the list that was begun last -/
  mark : Str := []

/-- A link.  A text can be used for one address only (otherwise there is no result), and the address is written at its
first use: in the link, but below the table if the link is in a cell. -/
def linkRest (cell : Bool) (url text : Str) (r : Refs) : Option (Str × Refs) :=
  match r.links.lookup text with
  | some known => if known = url then some (c!"`" ++ text ++ c!"`_", r) else none
  | none =>
    let r := { r with links := r.links ++ [(text, url)] }
    if cell then some (c!"`" ++ text ++ c!"`_", { r with waiting := r.waiting ++ [c!".. _" ++ text ++ c!": " ++ url] })
    else some (c!"`" ++ text ++ c!" <" ++ url ++ c!">`_", r)

/-- A picture.  Its address is written below the block of its first use.  Pictures with `data:` addresses are left out. -/
def pictureRest (src text : Str) (r : Refs) : Option (Str × Refs) :=
  if isDataUri src then some ([], r)
  else match r.pictures.lookup text with
    | some known => if known = src then some (c!"|" ++ text ++ c!"|", r) else none
    | none => some (c!"|" ++ text ++ c!"|",
        { r with pictures := r.pictures ++ [(text, src)], waiting := r.waiting ++ [c!".. |" ++ text ++ c!"| image:: " ++ src] })

/-! ## Inline text -/

/-- a text in a typeface -/
def faceRest (tag text : Str) : Str :=
  match delimiters .rest tag with
  | some (before, after) => before ++ text ++ after
  | none => text

mutual
/-- a piece of text; `cell` tells whether it is in a cell of a table -/
def Sp.rest (cell : Bool) : Sp → Refs → Option (Str × Refs)
  | .text s, r => some (s, r)
  | .face tag inner, r => (spsRest cell inner r).map fun (t, r) => (faceRest tag t, r)
  | .link url _ inner, r => (spsRest cell inner r).bind fun (t, r) => linkRest cell url.text t r
  | .image src alt title, r => pictureRest src.text (pictureText src.text alt title) r
  | .code s, r => some (c!"``" ++ oneLine s ++ c!"``", r)
  | .br, r => some (c!"\n", r)
def spsRest (cell : Bool) : List Sp → Refs → Option (Str × Refs)
  | [], r => some ([], r)
  | x :: xs, r => (x.rest cell r).bind fun (t, r) => (spsRest cell xs r).map fun (u, r) => (t ++ u, r)
end

/-! ## Blocks -/

/-- the mark of the items of a list -/
def markRest (numbered : Bool) : Str := if numbered then c!"#." else c!"*"

mutual
/-- The lines of an item; `depth` is the number of lists around its list.  The mark is the one of the list that was begun
last, which is the list of the item unless there is another list inside of the item. -/
def Item.rest (depth : Nat) : Item → Refs → Option (List Str × Refs)
  | .mk text numbered sub, r =>
    (spsRest false text r).bind fun (t, r) =>
    (itemsRest (depth + 1) sub (if sub.isEmpty then r else { r with mark := markRest numbered })).map fun (more, r) =>
      ((List.replicate (4 * depth) ' ' ++ r.mark ++ c!" " ++ t) :: more, r)
def itemsRest (depth : Nat) : List Item → Refs → Option (List Str × Refs)
  | [], r => some ([], r)
  | i :: l, r => (i.rest depth r).bind fun (a, r) => (itemsRest depth l r).map fun (b, r) => (a ++ b, r)
end

/-- a step for each element of a list -/
def through {α β : Type} (f : α → Refs → Option (β × Refs)) : List α → Refs → Option (List β × Refs)
  | [], r => some ([], r)
  | x :: l, r => (f x r).bind fun (y, r) => (through f l r).map fun (ys, r) => (y :: ys, r)

/-- the text of a cell -/
def cellRest (c : Cell) (r : Refs) : Option (Str × Refs) := (spsRest true c.text r).map fun (t, r) => (oneLine t, r)

/-- what is written between two bars, except for the blanks that fill up the column -/
def boxRest (text : Str) : Str := if Py.strip text = [] then [] else c!" " ++ Py.strip text ++ c!" "

/-- a line between two rows -/
def gridLine (c : Char) (ws : List Nat) : Str := c!"+" ++ ws.flatMap fun w => List.replicate w c ++ c!"+"

/-- The lines of a table: every row between two lines; the one below the first row is different if there are headings. -/
def gridLines (head : Bool) (ws : List Nat) : List (List Str) → List Str
  | [] => []
  | [a] => [gridLine '-' ws, filled ws a, gridLine '-' ws]
  | a :: b :: l => [gridLine '-' ws, filled ws a, gridLine (if head then '=' else '-') ws, filled ws b, gridLine '-' ws] ++
      l.flatMap fun x => [filled ws x, gridLine '-' ws]

/-- the lines of a block, without definitions -/
def Bl.rest : Bl → Refs → Option (List Str × Refs)
  | .para text, r => (spsRest false text r).map fun (t, r) => ([t], r)
  | .head n text, r => (spsRest false text r).map fun (t, r) => ([restHeading n t], r)
  | .hr, r => some ([c!"----"], r)
  | .list numbered items, r =>
    (itemsRest 0 items { r with mark := markRest numbered }).map fun (lines, r) => (lines.intersperse [], r)
  | .table rows, r => (through (through cellRest) rows r).map fun (texts, r) =>
      let boxes := texts.map fun row => row.map boxRest
      (gridLines (rows.any fun row => row.any Cell.head) (Rt.widths boxes) boxes, r)

/-- the definitions below a block, after an empty line -/
def below (ws : List Str) : List Str := if ws = [] then [] else [] :: ws

/-- the lines of an article: there is an empty line between two blocks -/
def articleRest (b : Bl) : List Bl → Refs → Option (List Str)
  | [], r => (b.rest r).map fun (lines, r) => lines ++ below r.waiting
  | b' :: d, r => (b.rest r).bind fun (lines, r) =>
      (articleRest b' d { r with waiting := [] }).map fun more => lines ++ below r.waiting ++ [[]] ++ more

/-- The text of an article; there are no blanks and no empty lines at its end.  There is none if one text is used for two
addresses. -/
def restText (b : Bl) (d : List Bl) : Option Str := (articleRest b d {}).map fun lines => Py.rstrip (joinLines c!"\n" lines)

/-! ## Conditions -/

mutual
/-- The typefaces are those of the language, addresses are not empty. -/
def Sp.RestOk : Sp → Prop
  | .text _ | .code _ | .br => True
  | .face tag inner => (delimiters .rest tag).isSome ∧ SpsRestOk inner
  | .link url _ inner => url.text ≠ [] ∧ SpsRestOk inner
  | .image src _ _ => src.text ≠ []
/-- texts are not divided: no two of them stand side by side -/
def SpsRestOk : List Sp → Prop
  | [] => True
  | x :: l => x.RestOk ∧ SpsRestOk l ∧ ¬ (isText x ∧ (l.head?).any isText)
end

mutual
/-- there is no line break in a piece -/
def Sp.flat : Sp → Prop
  | .text s => '\n' ∉ s
  | .face _ inner => spsFlat inner
  | .link url _ inner => '\n' ∉ url.text ∧ spsFlat inner
  | .image src alt title => '\n' ∉ pictureText src.text alt title
  | .code _ => True
  | .br => False
def spsFlat : List Sp → Prop
  | [] => True
  | x :: l => x.flat ∧ spsFlat l
end

mutual
/-- there is something to be seen -/
def Sp.visible : Sp → Prop
  | .text s => s ≠ []
  | .face _ inner => spsVisible inner
  | .link _ _ _ | .code _ => True
  | .image src _ _ => ¬ isDataUri src.text
  | .br => True
def spsVisible : List Sp → Prop
  | [] => False
  | x :: l => x.visible ∨ spsVisible l
end

mutual
/-- the texts of items are visible and on one line -/
def Item.RestOk : Item → Prop
  | .mk text _ sub => SpsRestOk text ∧ spsFlat text ∧ spsVisible text ∧ ItemsRestOk sub
def ItemsRestOk : List Item → Prop
  | [] => True
  | i :: l => i.RestOk ∧ ItemsRestOk l
end

/-- Headings have the levels 1 to 6.  Lists and tables are not empty; the rows of a table have equally many cells. -/
def Bl.RestOk : Bl → Prop
  | .para text => SpsRestOk text
  | .head n text => 1 ≤ n ∧ n ≤ 6 ∧ SpsRestOk text
  | .hr => True
  | .list _ items => ItemsRestOk items ∧ items ≠ []
  | .table rows => rows ≠ [] ∧ (∀ row ∈ rows, row ≠ [] ∧ ∀ c ∈ row, SpsRestOk c.text) ∧
      ∀ row ∈ rows, row.length = (rows.headD []).length

end Verif.Spec.Ar
