import Verif.Tools.Setup

/-!
# Unified diffs

Models `/repo/creole/shared/diff_utils.py` and the parts of Python's `difflib` it uses (`difflib.py` of Python 3.11:
`SequenceMatcher.get_opcodes`, `SequenceMatcher.get_grouped_opcodes`, `unified_diff`).  The matching blocks
(`SequenceMatcher.get_matching_blocks`) are a parameter.
-/

namespace Verif.Tools

open Verif Py

/-- `(i, j, n)`: `a[i:i+n] == b[j:j+n]` -/
abbrev Block := Nat × Nat × Nat

inductive Tag where
  | replace | delete | insert | equal
  deriving DecidableEq, Repr

/-- `(tag, i1, i2, j1, j2)` -/
structure Code where
  tag : Tag
  i1 : Nat
  i2 : Nat
  j1 : Nat
  j2 : Nat
  deriving DecidableEq, Repr

/-- difflib.py: `get_opcodes`, the loop over the matching blocks with `i` and `j` -/
def opcodes : Nat → Nat → List Block → List Code
  | _, _, [] => []
  | i, j, (ai, bj, size) :: bs =>
    (if i < ai ∧ j < bj then [⟨.replace, i, ai, j, bj⟩] else if i < ai then [⟨.delete, i, ai, j, bj⟩]
      else if j < bj then [⟨.insert, i, ai, j, bj⟩] else []) ++
    (if size ≠ 0 then [⟨.equal, ai, ai + size, bj, bj + size⟩] else []) ++ opcodes (ai + size) (bj + size) bs

/-- difflib.py: `get_grouped_opcodes`, the fixup of the leading group -/
def trimFirst (n : Nat) : List Code → List Code
  | [] => []
  | c :: cs => if c.tag = .equal then { c with i1 := max c.i1 (c.i2 - n), j1 := max c.j1 (c.j2 - n) } :: cs else c :: cs

/-- difflib.py: `get_grouped_opcodes`, the fixup of the trailing group -/
def trimLast (n : Nat) : List Code → List Code
  | [] => []
  | [c] => if c.tag = .equal then [{ c with i2 := min c.i2 (c.i1 + n), j2 := min c.j2 (c.j1 + n) }] else [c]
  | c :: cs => c :: trimLast n cs

/-- difflib.py: `get_grouped_opcodes`, the loop over the codes; `group` is the current group -/
def groups (n : Nat) : List Code → List Code → List (List Code)
  | [], group => if group ≠ [] ∧ ¬ (group.length = 1 ∧ (group.head?.map (·.tag)) = some .equal) then [group] else []
  | c :: cs, group =>
    if c.tag = .equal ∧ c.i2 - c.i1 > n + n then
      (group ++ [⟨c.tag, c.i1, min c.i2 (c.i1 + n), c.j1, min c.j2 (c.j1 + n)⟩]) ::
        groups n cs [⟨c.tag, max c.i1 (c.i2 - n), c.i2, max c.j1 (c.j2 - n), c.j2⟩]
    else groups n cs (group ++ [c])

/-- difflib.py: `get_grouped_opcodes` -/
def groupedOpcodes (n : Nat) (codes : List Code) : List (List Code) :=
  let codes := if codes = [] then [⟨.equal, 0, 1, 0, 1⟩] else codes
  groups n (trimLast n (trimFirst n codes)) []

/-- `l[i:j]` -/
def slice (l : List Str) (i j : Nat) : List Str := (l.drop i).take (j - i)

/-- difflib.py: `_format_range_unified` -/
def formatRange (start stop : Nat) : Str :=
  let length := stop - start
  if length = 1 then natDigits (start + 1)
  else natDigits (if length = 0 then start else start + 1) ++ ',' :: natDigits length

/-- difflib.py: `unified_diff`, the lines of a code -/
def codeLines (a b : List Str) (c : Code) : List Str :=
  if c.tag = .equal then (slice a c.i1 c.i2).map (' ' :: ·)
  else
    (if c.tag = .replace ∨ c.tag = .delete then (slice a c.i1 c.i2).map ('-' :: ·) else []) ++
      (if c.tag = .replace ∨ c.tag = .insert then (slice b c.j1 c.j2).map ('+' :: ·) else [])

/-- difflib.py: `unified_diff`, the lines of a group (groups are never empty) -/
def hunkLines (a b : List Str) (group : List Code) : List Str :=
  match group.head?, group.getLast? with
  | some first, some last =>
    (c!"@@ -" ++ formatRange first.i1 last.i2 ++ c!" +" ++ formatRange first.j1 last.j2 ++ c!" @@\n") ::
      group.flatMap (codeLines a b)
  | _, _ => []

/-- difflib.py: `unified_diff` without dates, `n = 3`, `lineterm = '\n'` -/
def difflibLines (blocks : List Block) (a b : List Str) (fromfile tofile : Str) : List Str :=
  match groupedOpcodes 3 (opcodes 0 0 blocks) with
  | [] => []
  | gs => (c!"--- " ++ fromfile ++ c!"\n") :: (c!"+++ " ++ tofile ++ c!"\n") :: gs.flatMap (hunkLines a b)

/-- diff_utils.py 27-32: one step of the loop -/
def addDiffLine (text line : Str) : Str :=
  let text := text ++ line
  if text ≠ [] ∧ line.getLast? ≠ some '\n' then text ++ c!"n\\ No newline at end of file\n" else text

/-- `text.splitlines(keepends=True)` -/
def splitKeep : Str → List Str
  | [] => []
  | '\r' :: '\n' :: s => c!"\r\n" :: splitKeep s
  | c :: s => if isLineBreak c then [c] :: splitKeep s else consLine c (splitKeep s)

#guard splitKeep c!"a\r\nb\n\nc\x0bd" = [c!"a\r\n", c!"b\n", c!"\n", c!"c\x0b", c!"d"]

/-- diff_utils.py 13-18: the names of the two files -/
def diffNames : Option Str → Str × Str
  | none => (c!"old", c!"new")
  | some f => (c!"old / " ++ f, c!"new / " ++ f)

/-- the lines that diff_utils.py 24 gets from `difflib`, for two strings -/
def diffLines (match' : List Str → List Str → List Block) (old new : Str) (filename : Option Str) : List Str :=
  difflibLines (match' (splitKeep old) (splitKeep new)) (splitKeep old) (splitKeep new) (diffNames filename).1 (diffNames filename).2

/-- diff_utils.py 9-34: `unified_diff(old, new, filename)` for two strings; `match'` is
`SequenceMatcher(None, a, b).get_matching_blocks()` -/
def unifiedDiff (match' : List Str → List Str → List Block) (old new : Str) (filename : Option Str) : Str :=
  (diffLines match' old new filename).foldl addDiffLine []

#guard groupedOpcodes 3 (opcodes 0 0 [(0, 0, 8), (8, 9, 11), (20, 21, 2), (27, 23, 7), (35, 31, 4), (39, 35, 0)]) =
  [[⟨.equal, 5, 8, 5, 8⟩, ⟨.insert, 8, 8, 8, 9⟩, ⟨.equal, 8, 11, 9, 12⟩],
   [⟨.equal, 16, 19, 17, 20⟩, ⟨.replace, 19, 20, 20, 21⟩, ⟨.equal, 20, 22, 21, 23⟩, ⟨.delete, 22, 27, 23, 23⟩, ⟨.equal, 27, 30, 23, 26⟩],
   [⟨.equal, 31, 34, 27, 30⟩, ⟨.replace, 34, 35, 30, 31⟩, ⟨.equal, 35, 38, 31, 34⟩]]

end Verif.Tools
