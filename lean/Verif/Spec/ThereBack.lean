import Verif.Spec.Article

/-!
# Specification: articles on the way to creole and back

The elements that an article consists of after it has been converted from HTML to creole and back, and the creole document in
between.  Nothing here uses the converters.
-/

namespace Verif.Spec.Ar

open Verif Hd

/-- the typefaces of creole, by the names of their elements -/
def faceOf (tag : Str) : Option Cr.Face :=
  ([(c!"b", .strong), (c!"strong", .strong), (c!"big", .strong), (c!"i", .emphasis), (c!"em", .emphasis), (c!"tt", .monospace),
    (c!"sup", .superscript), (c!"sub", .subscript), (c!"u", .underline), (c!"small", .small), (c!"del", .delete),
    (c!"strike", .delete)] : List (Str × Cr.Face)).lookup tag

/-! ## What comes back -/

/-- the marks of a typeface -/
def faceMarks (tag : Str) : Str := (faceOf tag).elim [] fun f => [f.char, f.char]

mutual
/-- The elements that a piece comes back as, and what follows it.  Typefaces have one element each; inside links creole has no
typefaces, so the marks come back as text.  Links lose their titles; a link whose text in creole is its address becomes a link
with just this text.  The title and the alternative text of a picture become the same.  Code becomes text. -/
def Sp.again (inList inLink : Bool) : Sp → List El → List El
  | .text s, l => s.foldr addChar l
  | .face tag inner, l =>
    if inLink then (faceMarks tag).foldr addChar (spsAgain inList inLink inner ((faceMarks tag).foldr addChar l))
    else .elem ((faceOf tag).elim tag Cr.Face.tag) [] (spsAgain inList inLink inner []) :: l
  | .link url _ inner, l =>
    .elem c!"a" [(c!"href", some url.text)]
      (if spsText .creole inList inner = url.text then url.text.foldr addChar [] else spsAgain inList true inner []) :: l
  | .image src alt title, l =>
    if isDataUri src.text then l
    else
      let text := pictureText src.text alt title
      .void c!"img" [(c!"src", some src.text), (c!"title", some text), (c!"alt", some text)] :: l
  | .code s, l => (oneLine s).foldr addChar l
  | .br, l => .void c!"br" [] :: l
def spsAgain (inList inLink : Bool) : List Sp → List El → List El
  | [], l => l
  | x :: xs, l => x.again inList inLink (spsAgain inList inLink xs l)
end

mutual
def Item.again : Item → El
  | .mk text numbered sub =>
    .elem c!"li" [] (spsAgain true false text (if sub.isEmpty then [] else [.elem (listTag numbered) [] (itemsAgain sub)]))
def itemsAgain : List Item → List El
  | [] => []
  | i :: l => i.again :: itemsAgain l
end

/-- Creole has no markup inside headings: marks come back as text. -/
def Bl.again : Bl → El
  | .para text => .elem c!"p" [] (spsAgain false false text [])
  | .head n text => .elem (c!"h" ++ Cr.decimal n) [] ((spsText .creole false text).foldr addChar [])
  | .hr => .void c!"hr" []
  | .list numbered items => .elem (listTag numbered) [] (itemsAgain items)
  | .table rows => .elem c!"table" [] (rows.map fun r => .elem c!"tr" [] (r.map fun c =>
      .elem (if c.head then c!"th" else c!"td") [] (spsAgain false false c.text [])))

/-! ## The creole document -/

mutual
def Sp.inls (inList inLink : Bool) : Sp → List Cr.Inl
  | .text s => s.map .chr
  | .face tag inner =>
    if inLink then (faceMarks tag).map .chr ++ spsInls inList inLink inner ++ (faceMarks tag).map .chr
    else [.face ((faceOf tag).getD .strong) (spsInls inList inLink inner)]
  | .link url _ inner => [.link url.text (if spsText .creole inList inner = url.text then [] else spsInls inList true inner)]
  | .image src alt title => if isDataUri src.text then [] else [.image src.text (pictureText src.text alt title)]
  | .code s => (oneLine s).map .chr
  | .br => [.br]
def spsInls (inList inLink : Bool) : List Sp → List Cr.Inl
  | [] => []
  | x :: xs => x.inls inList inLink ++ spsInls inList inLink xs
end

/-- the lines of a paragraph -/
def paraInls : List Sp → List (List Cr.Inl)
  | [] => [[]]
  | .br :: l => [] :: paraInls l
  | x :: l =>
    match paraInls l with
    | [] => [x.inls false false]
    | m :: ms => (x.inls false false ++ m) :: ms

def markOf (numbered : Bool) : Cr.Mark := if numbered then .number else .bullet

mutual
/-- `marks` are those of the lists around an item -/
def Item.branch (marks : Str) : Item → Cr.Branch
  | .mk text numbered sub =>
    .mk marks.dropLast (spsInls true false text) (markOf numbered) (itemsBranches (marks ++ [(markOf numbered).char]) sub)
def itemsBranches (marks : Str) : List Item → List Cr.Branch
  | [] => []
  | i :: l => i.branch marks :: itemsBranches marks l
end

def Bl.rt : Bl → Rt.Rt
  | .para text => .para (paraInls text)
  | .head n text => .head n (spsText .creole false text)
  | .hr => .hr
  | .list numbered items => .list (markOf numbered) (itemsBranches [(markOf numbered).char] items)
  | .table rows => .table (rows.map fun r => r.map fun c => ⟨c.head, spsInls false false c.text⟩)

/-! ## Conditions -/

mutual
/-- links and pictures have a text -/
def Sp.full (inList : Bool) : Sp → Bool
  | .face _ inner => spsFull inList inner
  | .link _ _ inner => spsFull inList inner && !(spsText .creole inList inner).isEmpty
  | .image src alt title => !(pictureText src.text alt title).isEmpty
  | _ => true
def spsFull (inList : Bool) : List Sp → Bool
  | [] => true
  | x :: xs => x.full inList && spsFull inList xs
end

mutual
def Item.full : Item → Bool
  | .mk text _ sub => spsFull true text && itemsFull sub
def itemsFull : List Item → Bool
  | [] => true
  | i :: l => i.full && itemsFull l
end

def Bl.full : Bl → Bool
  | .para text => spsFull false text
  | .head _ _ | .hr => true
  | .list _ items => itemsFull items
  | .table rows => rows.all fun r => r.all fun c => spsFull false c.text

/-- The creole text of an article means what it says: its texts contain nothing that creole would read as markup, its lines and
cells have a text without blanks at its ends, and no line breaks occur where creole has no way to write them. -/
def Clear (b : Bl) (d : List Bl) : Prop :=
  (∀ x ∈ b :: d, x.full = true ∧ x.rt.decent = true ∧ x.rt.stable = true) ∧
    Cr.docOk {} true (Rt.creoleDoc b.rt (d.map Bl.rt)) = true ∧
    ∀ l ∈ Cr.docLines (Rt.creoleDoc b.rt (d.map Bl.rt)), ∀ c ∈ l, c ≠ '\r' ∧ c ≠ '\n'

/-! ## Articles that come back as they were -/

/-- plain text -/
def onlyText : List Sp → Bool
  | [] | [.text _] => true
  | _ => false

mutual
/-- no pictures, no code, no titles, no typefaces inside of links, and the typefaces are the elements that creole has -/
def Sp.same (inList inLink : Bool) : Sp → Bool
  | .text _ | .br => true
  | .face tag inner => !inLink && (faceOf tag).map Cr.Face.tag == some tag && spsSame inList inLink inner
  | .link url title inner => title.isEmpty && spsSame inList true inner && (spsText .creole inList inner != url.text || onlyText inner)
  | .image _ _ _ | .code _ => false
def spsSame (inList inLink : Bool) : List Sp → Bool
  | [] => true
  | x :: xs => x.same inList inLink && spsSame inList inLink xs
end

mutual
def Item.same : Item → Bool
  | .mk text _ sub => spsSame true false text && itemsSame sub
def itemsSame : List Item → Bool
  | [] => true
  | i :: l => i.same && itemsSame l
end

/-- headings are plain text -/
def Bl.same : Bl → Bool
  | .para text => spsSame false false text
  | .head _ text => onlyText text
  | .hr => true
  | .list _ items => itemsSame items
  | .table rows => rows.all fun r => r.all fun c => spsSame false false c.text

end Verif.Spec.Ar
