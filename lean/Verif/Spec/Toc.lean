import Verif.Py.Str

/-!
# Specification: tables of contents
-/

namespace Verif.Spec

open Verif

/-- `n` tabs -/
def indent (n : Nat) : Str := List.replicate n '\t'

/-- the line of one headline, in a list with `d` enclosing lists -/
def tocEntry (d : Nat) (title : Str) : Str :=
  indent d ++ c!"<li><a href=\"#" ++ title ++ c!"\">" ++ title ++ c!"</a></li>\n"

/-- `TocItems d hs html`: `html` is the inside of a list that has `d` lists around its entries (counting
itself); it contains exactly the headlines `hs` (level and title) in this order, every one inside exactly as
many `ul` elements as its level, and every `<ul>` is closed by its `</ul>`.  No list is empty, and no list directly follows
another one, so there is only one such text. -/
inductive TocItems : Nat → List (Nat × Str) → Str → Prop where
  | nil {d : Nat} : TocItems d [] []
  | entry {d : Nat} {title : Str} {hs : List (Nat × Str)} {s : Str} : TocItems d hs s →
      TocItems d ((d, title) :: hs) (tocEntry d title ++ s)
  | list {d : Nat} {hs₁ hs₂ : List (Nat × Str)} {s₁ s₂ : Str} : TocItems (d + 1) hs₁ s₁ → TocItems d hs₂ s₂ →
      hs₁ ≠ [] → (∀ x ∈ hs₂.head?, x.1 = d) →
      TocItems d (hs₁ ++ hs₂) (indent d ++ c!"<ul>\n" ++ s₁ ++ indent d ++ c!"</ul>\n" ++ s₂)

/-- the whole table -/
def TocHtml (hs : List (Nat × Str)) (html : Str) : Prop :=
  ∃ body, TocItems 1 hs body ∧ html = c!"<ul>\n" ++ body ++ c!"</ul>"

/-- `out` is `s` with the first occurrence of `old` replaced by `new` -/
def FirstReplaced (old new s out : Str) : Prop :=
  ∃ pre post, s = pre ++ old ++ post ∧ out = pre ++ new ++ post ∧ ¬ old <:+: pre ++ old.dropLast

end Verif.Spec
