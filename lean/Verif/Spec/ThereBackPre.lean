import Verif.Spec.ThereBack
import Verif.Spec.ArticlePre
import Verif.Spec.RoundTripWiki

/-!
# Specification: articles with preformatted text on the way to creole and back
-/

namespace Verif.Spec.Ar

open Verif Hd

/-- a part of an article as a part of the creole document in between -/
def Sec.part : Sec → Rt.Part
  | .block b => .block b.rt
  | .pre ls => .pre ls

/-- as for blocks (`Bl.full`) -/
def Sec.full : Sec → Bool
  | .block b => b.full && b.rt.decent
  | .pre _ => true

/-- The creole text of an article means what it says: as before (`Clear`), and preformatted text has no line that creole would
read as its end or as escaped. -/
def ClearSecs (x : Sec) (d : List Sec) : Prop :=
  (∀ y ∈ x :: d, y.full = true ∧ y.part.stable = true) ∧
    Cr.docOk {} true (Rt.partsDoc x.part (d.map Sec.part)) = true ∧
    ∀ l ∈ Cr.docLines (Rt.partsDoc x.part (d.map Sec.part)), ∀ c ∈ l, c ≠ '\r' ∧ c ≠ '\n'

/-- The same for wiki style line breaks, where a paragraph has one line and headings and preformatted text can only stand at the
beginning (`Cr.docOk`). -/
def ClearWiki (x : Sec) (d : List Sec) : Prop :=
  (∀ y ∈ x :: d, y.full = true ∧ y.part.stable = true ∧ y.part.oneLine = true) ∧
    Cr.docOk {} false (Rt.partsDoc x.part (d.map Sec.part)) = true ∧
    ∀ l ∈ Cr.docLines (Rt.partsDoc x.part (d.map Sec.part)), ∀ c ∈ l, c ≠ '\r' ∧ c ≠ '\n'

/-- the HTML stands for the article that has come back: the blocks as before (`Bl.again`), the lines of preformatted text as
they were -/
structure ComesBackAs (first : List Ht) (l : List Area) (head : List Bl) (areas : List (List Str × List Bl)) : Prop where
  first : elsL first = head.map Bl.again
  areas : l.map (fun a => (a.lines, elsL a.after)) = areas.map fun x => (x.1, x.2.map Bl.again)

end Verif.Spec.Ar
