import Verif.Py.Str

/-!
# Specification of preformatted areas

What "the `<pre>` areas of an HTML text" are, independent of the regular expressions that find them.
-/

namespace Verif.Spec

open Verif Py

/-- the rest of a text, divided into characters and preformatted areas -/
inductive Piece where
  | chr (c : Char)
  | area (content : Str)

/-- the contents of the areas -/
def contents : List Piece → List Str
  | [] => []
  | .chr _ :: ps => contents ps
  | .area c :: ps => c :: contents ps

/-- the text with the areas replaced; the areas are numbered from `n` on -/
def withPlaceholders (placeholder : Nat → Str) : Nat → List Piece → Str
  | _, [] => []
  | n, .chr c :: ps => c :: withPlaceholders placeholder n ps
  | n, .area _ :: ps => placeholder n ++ withPlaceholders placeholder (n + 1) ps

/-- `s` starts with an area `<pre>content</pre>` and goes on with `r` -/
def InlineArea (s content r : Str) : Prop := s = c!"<pre>" ++ content ++ c!"</pre>" ++ r

/-- `ps` are the areas of a text and the characters around them: every `<pre>` with a `</pre>` somewhere behind it starts
an area, which ends at the first `</pre>`. -/
inductive InlineAreas : Str → List Piece → Prop
  | nil : InlineAreas [] []
  | area (s content r : Str) (ps : List Piece) : InlineArea s content r →
      (∀ content' r', InlineArea s content' r' → content.length ≤ content'.length) → InlineAreas r ps →
      InlineAreas s (.area content :: ps)
  | chr (c : Char) (r : Str) (ps : List Piece) : (∀ content r', ¬ InlineArea (c :: r) content r') → InlineAreas r ps →
      InlineAreas (c :: r) (.chr c :: ps)

/-- white space only -/
def Blank (s : Str) : Prop := ∀ c ∈ s, isSpace c = true

/-- `s`, preceded by the character `prev`, starts with an area whose tags stand on lines of their own: `<pre>` at the
start of a line and followed by the blank text `w`, then the content with its first and last line break, then `</pre>` at
the start of a line, with blank text `w'` up to the next line break or the end.  All of the blank text after the area
belongs to it. -/
def BlockArea (prev : Option Char) (s w content r : Str) : Prop :=
  (prev = none ∨ prev = some '\n') ∧ Blank w ∧ content.head? = some '\n' ∧ content.getLast? = some '\n' ∧
    ∃ w', Blank w' ∧ (r = [] ∨ '\n' ∈ w') ∧ (∀ c, r.head? = some c → isSpace c = false) ∧
      s = c!"<pre>" ++ w ++ content ++ c!"</pre>" ++ w' ++ r

/-- the last character of `a`, if there is one, otherwise `prev` -/
def lastChar (prev : Option Char) (a : Str) : Option Char := match a.getLast? with | some c => some c | none => prev

/-- The same as `InlineAreas` for areas with tags on lines of their own.  The blank text after `<pre>` is as long as
possible: blank lines at the beginning do not belong to the content, except for the last one. -/
inductive BlockAreas : Option Char → Str → List Piece → Prop
  | nil (prev) : BlockAreas prev [] []
  | area (prev : Option Char) (s w content a r : Str) (ps : List Piece) : BlockArea prev s w content r → s = a ++ r →
      (∀ w' content' r', BlockArea prev s w' content' r' → w'.length ≤ w.length) →
      (∀ content' r', BlockArea prev s w content' r' → content.length ≤ content'.length) →
      BlockAreas (lastChar prev a) r ps → BlockAreas prev s (.area content :: ps)
  | chr (prev : Option Char) (c : Char) (r : Str) (ps : List Piece) : (∀ w content r', ¬ BlockArea prev (c :: r) w content r') →
      BlockAreas (some c) r ps → BlockAreas prev (c :: r) (.chr c :: ps)

end Verif.Spec
