import Verif.Py.Str

/-!
# Specification: tables
-/

namespace Verif.Spec

open Verif

/-- the operations on a table under construction -/
inductive TableOp where
  | tr
  | th (text : Str)
  | td (text : Str)
  deriving DecidableEq, Repr

/-- the cells before the first `tr`, and for every `tr` the cells between it and the next one; `p` is put in front
of the header cells -/
def tableGroups (p : Str) : List TableOp → List Str × List (List Str)
  | [] => ([], [])
  | .tr :: ops => let (cells, rows) := tableGroups p ops; ([], cells :: rows)
  | .th text :: ops => let (cells, rows) := tableGroups p ops; ((p ++ text) :: cells, rows)
  | .td text :: ops => let (cells, rows) := tableGroups p ops; (text :: cells, rows)

/-- the rows: the cells before the first `tr`, if there are any, are a row of their own -/
def tableRows (p : Str) (ops : List TableOp) : List (List Str) :=
  match tableGroups p ops with
  | ([], rows) => rows
  | (c :: cells, rows) => (c :: cells) :: rows

/-- is there a header cell? -/
def tableHasTh : List TableOp → Prop := fun ops => ∃ text, TableOp.th text ∈ ops

/-- a table line with the cells `cells` -/
def tableLine (cells : List Str) : Str := c!"|" ++ Py.join c!"|" cells ++ c!"|"

/-- `n` is the number of cells of a shortest row -/
def ShortestRow (n : Nat) (rows : List (List Str)) : Prop :=
  (∀ row ∈ rows, n ≤ row.length) ∧ ∃ row ∈ rows, row.length = n

/-- a border, a row, a border, a row, ..., a border -/
def interleave : List Str → List Str → List Str
  | b :: bs, r :: rs => b :: r :: interleave bs rs
  | bs, [] => bs
  | [], rs => rs

/-- a border line of a ReSt table made of the character `c` -/
def BorderLine (c : Char) (line : Str) : Prop :=
  line.head? = some '+' ∧ line.getLast? = some '+' ∧ ∀ x ∈ line, x = '+' ∨ x = c

end Verif.Spec
