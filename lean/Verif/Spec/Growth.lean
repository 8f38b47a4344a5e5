import Verif.Html.Parser

/-!
# Specification: HTML whose text grows

HTML documents that are small, but have large results; and how deep tables (or tables, headings and lists) are nested
in a document tree.
-/

namespace Verif.Spec.Gw

open Verif Html

/-- the letter `a` in `n` tables, each one in the only cell of the next one -/
def tablesIn : Nat → Str
  | 0 => c!"a"
  | n + 1 => c!"<table><tr><td>" ++ tablesIn n ++ c!"</td></tr></table>"

/-- the letter `a` in `n` headings -/
def headingsIn : Nat → Str
  | 0 => c!"a"
  | n + 1 => c!"<h1>" ++ headingsIn n ++ c!"</h1>"

mutual
/-- how many tables are around each other at most in a tree -/
def tableDepth : HNode → Nat
  | .mk i children => (if i.kind = c!"table" then 1 else 0) + tableDepthL children
def tableDepthL : List HNode → Nat
  | [] => 0
  | n :: ns => max (tableDepth n) (tableDepthL ns)
end

/-- a node whose text can be several times as large as the texts in it if it is written as ReStructuredText: a table, a heading, or
a list that is in no other list -/
def repeats (i : HInfo) : Bool :=
  i.kind = c!"table" || i.kind = c!"headline" || ((i.kind = c!"ul" || i.kind = c!"ol") && i.level = some 1)

mutual
/-- how many tables, headings and outermost lists are around each other at most in a tree -/
def repeatDepth : HNode → Nat
  | .mk i children => (if repeats i then 1 else 0) + repeatDepthL children
def repeatDepthL : List HNode → Nat
  | [] => 0
  | n :: ns => max (repeatDepth n) (repeatDepthL ns)
end

mutual
/-- the tree has no node for a tag `<document>` -/
def noDocument : HNode → Bool
  | .mk i children => i.kind ≠ c!"document" && noDocumentL children
def noDocumentL : List HNode → Bool
  | [] => true
  | n :: ns => noDocument n && noDocumentL ns
end

end Verif.Spec.Gw
