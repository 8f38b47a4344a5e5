import Verif.Spec.CreoleDoc

/-!
# Lists of lists

The tree that the items of a list form when every item has one mark for every list around it.
-/

namespace Verif.Spec.Cr

open Verif Py

/-- an item: the marks written before its last one (only their number matters), its text, the kind of the list inside
it and the items of that list (no list if there are none) -/
inductive Branch where
  | mk (pre : Str) (text : List Inl) (kind : Mark) (sub : List Branch)

mutual
/-- the items in the order of the lines -/
def Branch.items (k : Mark) : Branch → List Item
  | .mk pre text kind sub => ⟨pre, k, text⟩ :: branchesItems kind sub
def branchesItems (k : Mark) : List Branch → List Item
  | [] => []
  | b :: l => b.items k ++ branchesItems k l
end

mutual
/-- an item inside `n + 1` lists, with the list inside it -/
def Branch.html (cx : Ctx) (n : Nat) : Branch → Str
  | .mk _ text kind sub =>
    c!"\n" ++ indentTabs (n + 1) ++ c!"<li>" ++ htmls cx (c!"<br />\n" ++ indentTabs (n + 1)) text ++
      (if sub.isEmpty then [] else c!"\n" ++ indentTabs (n + 1) ++ c!"<" ++ kind.tag ++ c!">" ++ branchesHtml cx (n + 1) sub ++
        c!"\n" ++ indentTabs (n + 1) ++ c!"</" ++ kind.tag ++ c!">") ++ c!"</li>"
def branchesHtml (cx : Ctx) (n : Nat) : List Branch → Str
  | [] => []
  | b :: l => b.html cx n ++ branchesHtml cx n l
end

mutual
/-- the marks of an item are as many as the lists around it -/
def Branch.ok (cx : Ctx) (n : Nat) : Branch → Bool
  | .mk pre text kind sub => pre.length == n && Item.ok cx ⟨pre, kind, text⟩ && branchesOk cx (n + 1) sub
def branchesOk (cx : Ctx) (n : Nat) : List Branch → Bool
  | [] => true
  | b :: l => b.ok cx n && branchesOk cx n l
end

end Verif.Spec.Cr
