import Verif.Py.Str

/-!
# Tables

Models `/repo/creole/shared/markup_table.py`.  `debug_msg` is not modelled.
-/

namespace Verif.Emit

open Verif Py

/-- markup_table.py 7-18: the state of a `MarkupTable`.  `row_index` is always the index of the last row, or `None` when
there is no row. -/
structure Table where
  headPrefix : Str
  autoWidth : Bool := true
  rows : List (List Str) := []
  hasHeader : Bool := false
  deriving DecidableEq, Repr

/-- markup_table.py 23-26: `add_tr` -/
def Table.addTr (t : Table) : Table := { t with rows := t.rows ++ [[]] }

/-- append a cell to the last row -/
def addLast (text : Str) : List (List Str) → List (List Str)
  | [] => []
  | [r] => [r ++ [text]]
  | r :: r' :: rs => r :: addLast text (r' :: rs)

/-- markup_table.py 32-37: `add_td` -/
def Table.addTd (t : Table) (text : Str) : Table :=
  let t := if t.rows.isEmpty then t.addTr else t
  { t with rows := addLast text t.rows }

/-- markup_table.py 28-30: `add_th` -/
def Table.addTh (t : Table) (text : Str) : Table :=
  let t := { t with hasHeader := true }
  t.addTd (t.headPrefix ++ text)

/-- markup_table.py 44-50: the formatting of one cell -/
def preformatCell (headPrefix cell : Str) : Str :=
  let cell := strip cell
  if cell = [] then []
  else if headPrefix ≠ [] && headPrefix.isPrefixOf cell then cell ++ c!" "
  else ' ' :: cell ++ c!" "

/-- the longest of a list of strings (0 for none) -/
def maxLen (l : List Str) : Nat := l.foldr (fun s n => max s.length n) 0

/-- `zip(*rows)`: the columns, as many as the shortest row has cells -/
def columns : List (List Str) → List (List Str)
  | [] => []
  | [r] => r.map fun c => [c]
  | r :: r' :: rs => List.zipWith (· :: ·) r (columns (r' :: rs))

/-- markup_table.py 39-56: `_get_preformat_info` -/
def Table.preformat (t : Table) : List (List Str) × List Nat :=
  let cells := t.rows.map fun row => row.map (preformatCell t.headPrefix)
  (cells, (columns cells).map maxLen)

/-- `s.ljust(width)` -/
def ljust (s : Str) (width : Nat) : Str := s ++ List.replicate (width - s.length) ' '

/-- `"|" + "|".join(cells) + "|"` -/
def barLine (cells : List Str) : Str := '|' :: join c!"|" cells ++ c!"|"

/-- `[cell.ljust(width) for cell, width in zip(row, widths)]` -/
def padRow (widths : List Nat) (row : List Str) : List Str := List.zipWith ljust row widths

/-- markup_table.py 58-77: `get_table_markup` -/
def Table.markup (t : Table) : Str :=
  if !t.autoWidth then join c!"\n" (t.rows.map barLine)
  else
    let (cells, widths) := t.preformat
    join c!"\n" (cells.map fun row => barLine (padRow widths row))

/-- `'+' + '+'.join(char * width ...) + '+'` -/
def plusLine (c : Char) (widths : List Nat) : Str :=
  '+' :: join c!"+" (widths.map fun w => List.replicate w c) ++ c!"+"

/-- markup_table.py 87-98: the lines of the rows of a ReSt table; `no` is the number of the next row -/
def restLines (hasHeader : Bool) (widths : List Nat) : Nat → List (List Str) → List Str
  | _, [] => [plusLine '-' widths]
  | no, row :: rows =>
    (if no = 1 && hasHeader then plusLine '=' widths else plusLine '-' widths) :: barLine (padRow widths row)
      :: restLines hasHeader widths (no + 1) rows

/-- markup_table.py 79-100: `get_rest_table` -/
def Table.rest (t : Table) : Str :=
  let (cells, widths) := t.preformat
  join c!"\n" (restLines t.hasHeader widths 0 cells)

/-- markup_table.py 106-112: the lines of a markdown table; `no` is the number of the next row -/
def mdLines (hasHeader : Bool) (widths : List Nat) : Nat → List (List Str) → List Str
  | _, [] => []
  | no, row :: rows =>
    (if no = 1 && hasHeader then
      [c!"| " ++ join c!" | " (widths.map fun w => List.replicate (w - 2) '-') ++ c!" |"] else [])
      ++ barLine (padRow widths row) :: mdLines hasHeader widths (no + 1) rows

/-- markup_table.py 102-117: `get_markdown_table` -/
def Table.markdown (t : Table) : Str :=
  let (cells, widths) := t.preformat
  join c!"\n" (mdLines t.hasHeader widths 0 cells)

end Verif.Emit
