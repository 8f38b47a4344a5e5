import Verif.Emit.Emitter

/-!
# Specification: markup of inline text and of nested lists

Independent of the emitters: for every abstract inline text and every abstract list, the tree that represents it and the
lines of markup one expects for it.
-/

namespace Verif.Spec

open Verif Py Html Emit

/-! ## Inline text -/

/-- Text with (nested) typefaces. -/
inductive Inl where
  | text (s : Str)
  | el (tag : Str) (children : List Inl)

mutual

/-- the tree of an inline text -/
def Inl.node : Inl → HNode
  | .text s => .mk { kind := c!"data", content := some s } []
  | .el tag ch => .mk { kind := tag } (inlNodes ch)

def inlNodes : List Inl → List HNode
  | [] => []
  | x :: xs => x.node :: inlNodes xs

end

/-- The markup before and after the content of a tag. -/
def delimiters : Lang → Str → Option (Str × Str)
  | .creole, tag => (([
      (c!"b", c!"**"), (c!"strong", c!"**"), (c!"big", c!"**"), (c!"i", c!"//"), (c!"em", c!"//"), (c!"tt", c!"##"),
      (c!"sup", c!"^^"), (c!"sub", c!",,"), (c!"u", c!"__"), (c!"small", c!"--"), (c!"del", c!"~~"),
      (c!"strike", c!"~~")] : List (Str × Str)).lookup tag).map fun d => (d, d)
  | .textile, tag => (([
      (c!"b", c!"**"), (c!"strong", c!"*"), (c!"big", c!"*"), (c!"i", c!"__"), (c!"em", c!"_"), (c!"sup", c!"^"),
      (c!"sub", c!"~"), (c!"del", c!"-"), (c!"cite", c!"??"), (c!"ins", c!"+"), (c!"span", c!"%"), (c!"code", c!"@")] :
      List (Str × Str)).lookup tag).map fun d => (d, d)
  | .markdown, tag => ([
      (c!"b", (c!"**", c!"**")), (c!"strong", (c!"**", c!"**")), (c!"big", (c!"**", c!"**")), (c!"i", (c!"_", c!"_")),
      (c!"em", (c!"_", c!"_")), (c!"tt", (c!"##", c!"##")), (c!"sup", (c!"<sup>", c!"</sup>")),
      (c!"sub", (c!"<sub>", c!"</sub>")), (c!"u", (c!"__", c!"__")), (c!"small", (c!"--", c!"--")),
      (c!"del", (c!"~~", c!"~~")), (c!"strike", (c!"~~", c!"~~"))] : List (Str × (Str × Str))).lookup tag
  | .rest, tag => (([
      (c!"b", c!"**"), (c!"strong", c!"**"), (c!"big", c!"**"), (c!"i", c!"*"), (c!"em", c!"*"), (c!"tt", c!"``"),
      (c!"small", c!"")] : List (Str × Str)).lookup tag).map fun d => (d, d)

mutual

/-- The markup of a node that is a text or an element with delimiters; `none` if there is something else in it. -/
def inlineText (lang : Lang) : HNode → Option Str
  | .mk i ch =>
    if i.kind = c!"data" then i.content.map fun s => if lang = .markdown ∧ s = c!" " then c!"" else s
    else
      match delimiters lang i.kind, inlineTexts lang ch with
      | some (before, after), some t => some (before ++ t ++ after)
      | _, _ => none

def inlineTexts (lang : Lang) : List HNode → Option Str
  | [] => some []
  | n :: ns =>
    match inlineText lang n, inlineTexts lang ns with
    | some a, some b => some (a ++ b)
    | _, _ => none

end

mutual

/-- only tags with delimiters are used -/
def Inl.ok (lang : Lang) : Inl → Bool
  | .text _ => true
  | .el tag ch => (delimiters lang tag).isSome && inlOk lang ch

def inlOk (lang : Lang) : List Inl → Bool
  | [] => true
  | x :: xs => x.ok lang && inlOk lang xs

end

mutual

/-- The markup of an inline text.  html2markdown drops a text that is one single space. -/
def Inl.markup (lang : Lang) : Inl → Str
  | .text s => if lang = .markdown ∧ s = c!" " then c!"" else s
  | .el tag ch =>
    match delimiters lang tag with
    | some (before, after) => before ++ inlMarkup lang ch ++ after
    | none => []

def inlMarkup (lang : Lang) : List Inl → Str
  | [] => []
  | x :: xs => x.markup lang ++ inlMarkup lang xs

end

/-! ## Lists -/

mutual

/-- A list, numbered or not. -/
inductive Lst where
  | mk (numbered : Bool) (items : List Item)

/-- A list item: a text, followed by lists. -/
inductive Item where
  | mk (text : List Inl) (subs : List Lst)

end

/-- `ul` or `ol` -/
def listTag (numbered : Bool) : Str := if numbered then c!"ol" else c!"ul"

mutual

/-- the tree of a list inside `depth` other lists -/
def Lst.node (depth : Nat) : Lst → HNode
  | .mk o items => .mk { kind := listTag o, level := some ((depth : Int) + 1) } (itemNodes (depth + 1) items)

/-- the tree of an item; `depth` is the number of lists around it -/
def Item.node (depth : Nat) : Item → HNode
  | .mk text subs => .mk { kind := c!"li", level := some (depth : Int) } (inlNodes text ++ lstNodes depth subs)

def itemNodes (depth : Nat) : List Item → List HNode
  | [] => []
  | x :: xs => x.node depth :: itemNodes depth xs

def lstNodes (depth : Nat) : List Lst → List HNode
  | [] => []
  | x :: xs => x.node depth :: lstNodes depth xs

end

/-- What is in front of an item; `ctx` tells for the lists around it, outermost first, whether they are numbered.  In
creole and textile: one `*` or `#` for every list.  In markdown: two spaces for every outer list, then `*` or `1.`.  In
ReSt: four spaces for every outer list, then `*` or `#.`. -/
def itemPrefix (lang : Lang) (ctx : List Bool) : Str :=
  match lang with
  | .creole | .textile => ctx.map fun o => if o then '#' else '*'
  | .markdown => rep c!"  " (ctx.length - 1) ++ (if ctx.getLast? = some true then c!"1." else c!"*")
  | .rest => rep c!"    " (ctx.length - 1) ++ (if ctx.getLast? = some true then c!"#." else c!"*")

mutual

/-- the lines of a list: one for every item, in document order -/
def Lst.lines (lang : Lang) (ctx : List Bool) : Lst → List Str
  | .mk o items => itemsLines lang (ctx ++ [o]) items

def Item.lines (lang : Lang) (ctx : List Bool) : Item → List Str
  | .mk text subs => (itemPrefix lang ctx ++ c!" " ++ inlMarkup lang text) :: lstsLines lang ctx subs

def itemsLines (lang : Lang) (ctx : List Bool) : List Item → List Str
  | [] => []
  | x :: xs => x.lines lang ctx ++ itemsLines lang ctx xs

def lstsLines (lang : Lang) (ctx : List Bool) : List Lst → List Str
  | [] => []
  | x :: xs => x.lines lang ctx ++ lstsLines lang ctx xs

end

mutual

/-- a condition on the texts of all items -/
def Lst.all (p : List Inl → Bool) : Lst → Bool
  | .mk _ items => itemsAll p items

def Item.all (p : List Inl → Bool) : Item → Bool
  | .mk text subs => p text && lstsAll p subs

def itemsAll (p : List Inl → Bool) : List Item → Bool
  | [] => true
  | x :: xs => x.all p && itemsAll p xs

def lstsAll (p : List Inl → Bool) : List Lst → Bool
  | [] => true
  | x :: xs => x.all p && lstsAll p xs

end

mutual

/-- all lists are of the same kind -/
def Lst.uniform (o : Bool) : Lst → Bool
  | .mk o' items => o' == o && itemsUniform o items

def Item.uniform (o : Bool) : Item → Bool
  | .mk _ subs => lstsUniform o subs

def itemsUniform (o : Bool) : List Item → Bool
  | [] => true
  | x :: xs => x.uniform o && itemsUniform o xs

def lstsUniform (o : Bool) : List Lst → Bool
  | [] => true
  | x :: xs => x.uniform o && lstsUniform o xs

end

/-- One marker for every list around a node; `anc` are the kinds of its ancestors, nearest first. -/
def markers (anc : List Str) : Str :=
  anc.reverse.filterMap fun k => if k = c!"ul" then some '*' else if k = c!"ol" then some '#' else none

end Verif.Spec
