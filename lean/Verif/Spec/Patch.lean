import Verif.Py.Str

/-!
# Specification: what a unified diff means

A program in the manner of `patch`, and what matching blocks of two sequences are.  Nothing here uses the model.
-/

namespace Verif.Spec.Patch

open Verif

/-- the value of a decimal number -/
def number (s : Str) : Option Nat :=
  if s ≠ [] ∧ s.all Char.isDigit then some (s.foldl (fun n c => 10 * n + (c.toNat - '0'.toNat)) 0) else none

/-- `start,count` or `start`: the number of lines before the range, and its length.  The first line is line 1; an empty
range is given by the line in front of it. -/
def range (s : Str) : Option (Nat × Nat) :=
  match number (s.takeWhile (· ≠ ',')), s.dropWhile (· ≠ ',') with
  | some n, [] => some (n - 1, 1)
  | some n, _ :: b => (number b).map fun m => (if m = 0 then n else n - 1, m)
  | none, _ => none

/-- a text without a certain beginning -/
def after (p s : Str) : Option Str := if p.isPrefixOf s then some (s.drop p.length) else none

/-- `@@ -range +range @@` -/
def header (l : Str) : Option ((Nat × Nat) × (Nat × Nat)) := do
  let l ← after c!"@@ -" l
  let x ← range (l.takeWhile (· ≠ ' '))
  let l ← after c!" +" (l.dropWhile (· ≠ ' '))
  let y ← range (l.takeWhile (· ≠ ' '))
  if l.dropWhile (· ≠ ' ') = c!" @@\n" then some (x, y) else none

/-- Run through the rest of a diff.  `old` is the rest of the old file, `p` and `q` are the numbers of lines of the old
and the new file that are done, `m` and `n` the numbers of lines that are left in the current hunk.  The result is the rest
of the new file; `none` if the diff does not fit. -/
def run : List Str → List Str → Nat → Nat → Nat → Nat → Option (List Str)
  | [], old, _, _, m, n => if m = 0 ∧ n = 0 then some old else none
  | [] :: _, _, _, _, _, _ => none
  | (c :: t) :: ls, old, p, q, m, n =>
    if c = '@' then
      (header (c :: t)).bind fun ((i, m'), (j, n')) =>
        if m = 0 ∧ n = 0 ∧ p ≤ i ∧ i - p ≤ old.length ∧ q + (i - p) = j then
          (run ls (old.drop (i - p)) i j m' n').map (old.take (i - p) ++ ·)
        else none
    else if c = ' ' then
      if old.head? = some t ∧ m ≠ 0 ∧ n ≠ 0 then (run ls old.tail (p + 1) (q + 1) (m - 1) (n - 1)).map (t :: ·) else none
    else if c = '-' then
      if old.head? = some t ∧ m ≠ 0 then run ls old.tail (p + 1) q (m - 1) n else none
    else if c = '+' then
      if n ≠ 0 then (run ls old p (q + 1) m (n - 1)).map (t :: ·) else none
    else none

/-- apply a diff to the lines of a file -/
def apply (diff old : List Str) : Option (List Str) :=
  match diff with
  | [] => some old
  | h1 :: h2 :: ls => if c!"--- ".isPrefixOf h1 ∧ c!"+++ ".isPrefixOf h2 then run ls old 0 0 0 0 else none
  | _ => none

/-- the lines of a text, with their line feeds -/
def lines : Str → List Str
  | [] => []
  | c :: s =>
    if c = '\n' then [c] :: lines s
    else match lines s with
      | [] => [[c]]
      | l :: ls => (c :: l) :: ls

/-- apply the text of a diff to the text of a file -/
def patch (diff old : Str) : Option Str := (apply (lines diff) (lines old)).map List.flatten

/-- Matching blocks of `a` and `b`, behind the places `i` and `j`: increasing triples `(x, y, k)` with
`a[x:x+k] == b[y:y+k]`, the last one being at the ends of `a` and `b`. -/
def Matching (a b : List Str) : Nat → Nat → List (Nat × Nat × Nat) → Prop
  | i, j, [] => i = a.length ∧ j = b.length
  | i, j, (x, y, k) :: bs => i ≤ x ∧ j ≤ y ∧ x + k ≤ a.length ∧ y + k ≤ b.length ∧ (a.drop x).take k = (b.drop y).take k ∧
      Matching a b (x + k) (y + k) bs

/-- the lines of a text end in line feeds, and there are no other line ends that Python knows -/
def plainLines (s : Str) : Bool :=
  s.all (fun c => !(c = '\r' || c = '\x0b' || c = '\x0c' || c = '\x1c' || c = '\x1d' || c = '\x1e' || c = '\u0085' ||
    c = '\u2028' || c = '\u2029')) && (s = [] || s.getLast? = some '\n')

end Verif.Spec.Patch
