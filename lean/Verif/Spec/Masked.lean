import Verif.Spec.RoundTrip

/-!
# Specification: HTML with elements that creole does not have

Documents with further elements in the text of paragraphs and lists: how they are written in HTML, and the creole text
one expects with `unknown_emit = use_html_macro`: every tag of such an element stands in a call of the macro `html`.
-/

namespace Verif.Spec.Mk

open Verif Cr Hd Rt

/-! ## Text -/

/-- a piece of text -/
inductive Wr where
  /-- a piece that creole has -/
  | piece (i : Inl)
  /-- a typeface -/
  | face (f : Face) (inner : List Wr)
  /-- another element `<tag name="value">inner</tag>` -/
  | other (tag : Str) (attrs : List (Str × Str)) (inner : List Wr)
  /-- another element `<tag name="value" />` -/
  | single (tag : Str) (attrs : List (Str × Str))

mutual
/-- the HTML; `w` is the white space after a line break -/
def Wr.ht (w : Str) : Wr → List Ht
  | .piece i => inlHt w i
  | .face f l => [.el f.tag [] (hts c!"\n" l)]
  | .other tag attrs l => [.el tag attrs (hts w l)]
  | .single tag attrs => [.void tag attrs]
def hts (w : Str) : List Wr → List Ht
  | [] => []
  | x :: l => x.ht w ++ hts w l
end

/-- a call of the macro `html`: `<<html>>text<</html>>` -/
def htmlCall (text : Str) : Inl := .macText c!"html" [] text

mutual
/-- the creole markup -/
def Wr.flat : Wr → List Inl
  | .piece i => [i]
  | .face f l => [.face f (flats l)]
  | .other tag attrs l => htmlCall (tagStart tag attrs ++ c!">") :: (flats l ++ [htmlCall (c!"</" ++ tag ++ c!">")])
  | .single tag attrs => [htmlCall (tagStart tag attrs ++ c!" />")]
def flats : List Wr → List Inl
  | [] => []
  | x :: l => x.flat ++ flats l
end

/-- the name of an inline element that creole does not have -/
def foreignTag (tag : Str) : Bool :=
  !(knownKinds .creole).contains tag && (headline? tag).isNone && !blockNames.contains tag && tag != c!"tbody" &&
    tag != c!"blockdata" && tag != c!"inlinedata"

/-- a character of the value of an attribute: printable ASCII, nothing that has to be escaped -/
def plainChar (c : Char) : Bool := 32 ≤ c.toNat && c.toNat ≤ 126 && !(c!"\"\\&<>").contains c

/-- attributes in the order of their names, with simple values -/
def plainAttrs (attrs : List (Str × Str)) : Bool :=
  decide ((attrs.map (·.1)).Pairwise (· < ·)) && attrs.all fun a => a.2.all plainChar

mutual
def Wr.ok : Wr → Bool
  | .piece i => Inl.decent i && Inl.stable i
  | .face _ l => oks l
  | .other tag attrs l => foreignTag tag && plainAttrs attrs && !(prints (flats l)).isEmpty && oks l
  | .single tag attrs => foreignTag tag && plainAttrs attrs
def oks : List Wr → Bool
  | [] => true
  | x :: l => x.ok && oks l
end

/-! ## Blocks -/

/-- an item of a list: its text, the kind of the list inside it and the items of that list -/
inductive Wi where
  | mk (text : List Wr) (kind : Mark) (sub : List Wi)

/-- a block -/
inductive Wb where
  /-- a block that creole has -/
  | known (b : Rt)
  /-- a paragraph, line by line -/
  | para (lines : List (List Wr))
  /-- a list -/
  | list (kind : Mark) (items : List Wi)

def paraHts : List (List Wr) → List Ht
  | [] => []
  | [l] => hts c!"\n" l
  | l :: m :: ls => hts c!"\n" l ++ .void c!"br" [] :: .white c!"\n" :: paraHts (m :: ls)

mutual
/-- the HTML of an item inside `n + 1` lists -/
def Wi.ht (n : Nat) : Wi → List Ht
  | .mk text kind sub =>
    let w := c!"\n" ++ indentTabs (n + 1)
    [.white w, .el c!"li" [] (hts w text ++ if sub.isEmpty then [] else
      [.white w, .el kind.tag [] (itemsHt (n + 1) sub ++ [.white w])])]
def itemsHt (n : Nat) : List Wi → List Ht
  | [] => []
  | i :: l => i.ht n ++ itemsHt n l
end

/-- the HTML of a block -/
def Wb.ht : Wb → Ht
  | .known b => b.ht
  | .para ls => .el c!"p" [] (paraHts ls)
  | .list k l => .el k.tag [] (itemsHt 0 l ++ [.white c!"\n"])

/-- blocks, each one but the first with white space before it -/
def docHt (b : Wb) : List (Str × Wb) → List Ht
  | [] => [b.ht]
  | (w, b') :: d => b.ht :: .white w :: docHt b' d

mutual
/-- how an item is written in creole; `marks` are those of the lists around it -/
def Wi.branch (marks : Str) : Wi → Branch
  | .mk text kind sub => .mk marks.dropLast (flats text) kind (branches (marks ++ [kind.char]) sub)
def branches (marks : Str) : List Wi → List Branch
  | [] => []
  | i :: l => i.branch marks :: branches marks l
end

/-- how a block is written in creole -/
def Wb.rt : Wb → Rt
  | .known b => b
  | .para ls => .para (ls.map flats)
  | .list k l => .list k (branches [k.char] l)

/-- the creole document -/
def creole (b : Wb) (d : List Wb) : Doc := creoleDoc b.rt (d.map Wb.rt)

/-- The macro `html` gives the text it is called with.  No other calls occur. -/
def htmlCx : Ctx := { mac := fun c => if c.name = c!"html" ∧ c.args = [] ∧ c.block = false then c.text else none }

mutual
def Wi.ok : Wi → Bool
  | .mk text _ sub => oks text && itemsOk sub
def itemsOk : List Wi → Bool
  | [] => true
  | i :: l => i.ok && itemsOk l
end

/-- Blocks that creole has are as they are in the texts that come back unchanged; nothing is empty; lines have no blanks at
their ends. -/
def Wb.ok : Wb → Bool
  | .known b => b.decent && b.stable
  | .para ls => !ls.isEmpty && ls.all (fun l => oks l && noBreaks (flats l) && trimmed (prints (flats l))) && noSlashEnd (ls.map flats)
  | .list k l => !l.isEmpty && itemsOk l && branchesOk htmlCx 0 (branches [k.char] l)

end Verif.Spec.Mk
