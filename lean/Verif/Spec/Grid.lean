import Verif.Spec.Shown
import Verif.Spec.Kept

/-!
# Specification: HTML texts in which the rows of each table have equally many cells

Nothing here uses the parsers or the emitters.
-/

namespace Verif.Spec.Gd

open Verif

/-- what is between `<` and `>`, in order; `some t`: inside of a tag, with `t` already read -/
def tags : Option Str → Str → List Str
  | _, [] => []
  | none, c :: s => if c = '<' then tags (some []) s else tags none s
  | some t, c :: s => if c = '>' then t :: tags none s else tags (some (t ++ [c])) s

/-- all tables that end here have rows with equally many cells, if the table that is open has had these rows, and the row that
is open that many cells -/
def levelTags (rows : List Nat) (cells : Nat) : List Str → Bool
  | [] => true
  | t :: ts =>
    if t = c!"td" ∨ t = c!"th" then levelTags rows (cells + 1) ts
    else if t = c!"/tr" then levelTags (rows ++ [cells]) 0 ts
    else if t = c!"/table" then Sh.allSame rows && levelTags [] 0 ts
    else levelTags rows cells ts

/-- the rows of each table have equally many cells -/
def level (html : Str) : Bool := levelTags [] 0 (tags none html)

/-- a text without blanks and the characters that are markup in creole or are written by the converters -/
def words (s : Str) : Str := Sh.words (Kp.letters s)

example : tags none c!"<p>a<br /> &lt;b</p>" = [c!"p", c!"br /", c!"/p"] := by decide +kernel
example : level c!"<table>\n<tr><th>a</th><td>b</td></tr><tr><td>c</td><td>d</td></tr></table>" = true := by decide +kernel
example : level c!"<p>a</p><table><tr><td>a</td><td>b</td></tr><tr><td>c</td></tr></table>" = false := by decide +kernel
example : words c!"== a **b [[c|d]]:" = c!"abcd" := by decide +kernel

end Verif.Spec.Gd
