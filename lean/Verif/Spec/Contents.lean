import Verif.Spec.Calling
import Verif.Spec.Toc

/-!
# Texts with places for macros and with a table of contents

As in `Spec.Calling`, a conversion has a text with places and fills them from left to right.  Here headings are places, too:
if `toc` is called anywhere in the document, they are anchors, and they are noted for the table of contents.
-/

namespace Verif.Spec.Cr

open Verif Py Creole

/-- a piece of a text with places for calls and headings -/
inductive Spot where
  | text (s : Str)
  | head (level : Nat) (title : Str)
  | call (c : Call)
  deriving DecidableEq, Repr

/-- the state of the table of contents during a conversion -/
structure Board where
  /-- there was a call of `toc` -/
  placed : Bool := false
  /-- the depth given in this call -/
  depth : Option PVal := none
  /-- the headings for the table -/
  heads : List (Nat × Str) := []
  deriving DecidableEq, Repr

/-- Does a table of this depth mention a heading of this level?  There is no answer if the depth is a string. -/
def inTable (level : Nat) : Option PVal → Option Bool
  | none => some true
  | some (.int n) => some (decide ((level : Int) ≤ n))
  | some (.bool b) => some (decide (level ≤ if b then 1 else 0))
  | some _ => none

/-- the depth among the arguments of a call -/
def depthIn (kwargs : Dict PVal) : Option PVal :=
  match dictGet c!"depth" kwargs with
  | some .none => none
  | x => x

/-- the element of a heading -/
def headingTag (level : Nat) (title : Str) : Str :=
  c!"<h" ++ natDigits level ++ c!">" ++ textHtml title ++ c!"</h" ++ natDigits level ++ c!">"

/-- the name of the macro of the table of contents -/
def toc : Str := c!"toc"

/-- `Laid verbose board macros spots s board' macros'`: when the places are filled from left to right, the text is `s`; the
dict of the macros (without `toc`) and the state of the table of contents change from `macros` and `board` to `macros'` and
`board'`.  There is no `board` in documents that do not call `toc`. -/
inductive Laid (verbose : Int) : Option Board → Macros → List Spot → Str → Option Board → Macros → Prop
  | nil {b : Option Board} {ms : Macros} : Laid verbose b ms [] [] b ms
  | text {b b' : Option Board} {ms ms' : Macros} {l : List Spot} {s t : Str} (h : Laid verbose b ms l t b' ms') :
      Laid verbose b ms (.text s :: l) (s ++ t) b' ms'
  /-- a heading of a document that does not call `toc` -/
  | head {b' : Option Board} {ms ms' : Macros} {l : List Spot} {n : Nat} {title t : Str} (h : Laid verbose none ms l t b' ms') :
      Laid verbose none ms (.head n title :: l) (headingTag n title ++ c!"\n" ++ t) b' ms'
  /-- a heading of a document with a table of contents -/
  | anchor {b : Board} {b' : Option Board} {ms ms' : Macros} {l : List Spot} {n : Nat} {title t : Str} {noted : Bool}
      (hn : inTable n b.depth = some noted)
      (h : Laid verbose (some { b with heads := b.heads ++ if noted then [(n, title)] else [] }) ms l t b' ms') :
      Laid verbose (some b) ms (.head n title :: l)
        (c!"<a name=\"" ++ textHtml title ++ c!"\">" ++ headingTag n title ++ c!"</a>\n" ++ t) b' ms'
  /-- a call of another macro -/
  | call {b b' : Option Board} {ms ms' ms'' : Macros} {l : List Spot} {c : Call} {s t : Str} (hc : c.name ≠ toc ∨ b = none)
      (ha : Answers verbose ms c s ms') (h : Laid verbose b ms' l t b' ms'') : Laid verbose b ms (.call c :: l) (s ++ t) b' ms''
  /-- the first call of `toc` leaves a mark where the table is to be -/
  | first {b : Board} {b' : Option Board} {ms ms' : Macros} {l : List Spot} {c : Call} {t : Str} {kwargs : Dict PVal} (hc : c.name = toc)
      (ha : string2dict c.args = .ok kwargs) (hs : dictGet c!"self" kwargs = none) (hb : b.placed = false)
      (h : Laid verbose (some { b with placed := true, depth := depthIn kwargs }) ms l t b' ms') :
      Laid verbose (some b) ms (.call c :: l) (c!"<<toc>>" ++ (if c.block then c!"\n" else []) ++ t) b' ms'
  /-- any further call of `toc` gives its own text -/
  | again {b : Board} {b' : Option Board} {ms ms' : Macros} {l : List Spot} {c : Call} {t : Str} {kwargs : Dict PVal} (hc : c.name = toc)
      (ha : string2dict c.args = .ok kwargs) (hs : dictGet c!"self" kwargs = none) (hb : b.placed = true)
      (h : Laid verbose (some b) ms l t b' ms') :
      Laid verbose (some b) ms (.call c :: l) (c!"&lt;&lt;toc&gt;&gt;" ++ (if c.block then c!"\n" else []) ++ t) b' ms'
  /-- a call of `toc` with arguments that are not `key=value` pairs -/
  | wrongArgs {b : Board} {b' : Option Board} {ms ms' : Macros} {l : List Spot} {c : Call} {t : Str} (hc : c.name = toc)
      (ha : string2dict c.args = .error .valueError) (h : Laid verbose (some b) ms l t b' ms') :
      Laid verbose (some b) ms (.call c :: l) (errorLine verbose (c!"Wrong macro arguments: " ++ jsonStr c.args ++
        c!" for macro '" ++ toc ++ c!"' (maybe wrong macro tag syntax?)") ++ t) b' ms'
  /-- a call of `toc` with an argument `self` -/
  | self {b : Board} {b' : Option Board} {ms ms' : Macros} {l : List Spot} {c : Call} {t : Str} {kwargs : Dict PVal} (hc : c.name = toc)
      (ha : string2dict c.args = .ok kwargs) (hs : (dictGet c!"self" kwargs).isSome = true) (hv : verbose ≤ 2)
      (h : Laid verbose (some b) ms l t b' ms') :
      Laid verbose (some b) ms (.call c :: l) (errorLine verbose (c!"Macro 'toc' error: " ++
        c!"TableOfContent.__call__() got multiple values for argument 'self'") ++ t) b' ms'

/-- is `toc` called in one of the places? -/
def callsToc (l : List Spot) : Bool := l.any fun | .call c => c.name == toc | _ => false

/-- `html` is the text with the table of contents put in its place: that of the first paragraph that consists of the mark; if
there is none, that of the first mark; if there is none, the table is not shown -/
def InPlace (heads : List (Nat × Str)) (s html : Str) : Prop :=
  ∃ table, TocHtml heads table ∧
    if c!"<p><<toc>></p>" <:+: s then FirstReplaced c!"<p><<toc>></p>" table s html
    else if c!"<<toc>>" <:+: s then FirstReplaced c!"<<toc>>" table s html
    else html = s

/-- the end of a conversion -/
def Finished : Option Board → Str → Str → Prop
  | none, s, html => html = s
  | some b, s, html => InPlace b.heads s html

/-- the dict of the macros, with the object for the table of contents -/
def stored : Option Board → Macros → Macros
  | none, ms => ms
  | some b, ms => dictSet toc (.toc { created := b.placed, maxDepth := b.depth, headlines := b.heads }) ms

/-- The text has these places: converting it is filling them from left to right and then putting the table of contents in its
place.  There is a table of contents exactly if `toc` is called in one of the places.  The conversion raises an exception
exactly if the places cannot be filled. -/
def HasSpots (o : Opts) (markup : Str) (spots : List Spot) : Prop :=
  ∀ (verbose : Int) (macros macros' : Macros) (html : Str), NoTocs macros → dictGet toc macros = none →
    (creole2htmlM { o with verbose } macros markup = .ok (html, macros') ↔
      ∃ s board ms, Laid verbose (if callsToc spots then some {} else none) macros spots s board ms ∧
        Finished board (strip s) html ∧ macros' = stored board ms)

/-- what the object of an earlier table of contents can look like -/
structure Usual (b : Board) : Prop where
  heads : ∀ x ∈ b.heads, 1 ≤ x.1
  depth : b.placed = false → b.depth = none

/-- As `HasSpots`, for a dict in which earlier conversions may have left the object of their table of contents (`left`).  If `toc` is
called in one of the places, this object is used again, as it is. -/
def HasSpotsIn (o : Opts) (markup : Str) (spots : List Spot) : Prop :=
  ∀ (verbose : Int) (left : Option Board) (macros macros' : Macros) (html : Str), NoTocs macros → dictGet toc macros = none →
    (∀ b, left = some b → Usual b) →
    (creole2htmlM { o with verbose } (stored left macros) markup = .ok (html, macros') ↔
      ∃ s board ms, Laid verbose (if callsToc spots then some (left.getD {}) else none) macros spots s board ms ∧
        Finished board (strip s) html ∧ macros' = stored (board.or left) ms)

/-- `Shared verbose left macros pages htmls left' macros'`: conversions with the same dict, one after the other.  `left` is the object
of the table of contents that is handed on. -/
inductive Shared (verbose : Int) : Option Board → Macros → List (List Spot) → List Str → Option Board → Macros → Prop
  | nil {left : Option Board} {ms : Macros} : Shared verbose left ms [] [] left ms
  | cons {left left' board : Option Board} {ms ms' ms'' : Macros} {spots : List Spot} {pages : List (List Spot)} {s html : Str} {htmls : List Str}
      (h1 : Laid verbose (if callsToc spots then some (left.getD {}) else none) ms spots s board ms') (h2 : Finished board (strip s) html)
      (h3 : Shared verbose (board.or left) ms' pages htmls left' ms'') : Shared verbose left ms (spots :: pages) (html :: htmls) left' ms''

/-- the depth in the first call of `toc` with proper arguments, and what follows it -/
def fromToc : List Spot → Option (Option PVal × List Spot)
  | [] => none
  | .call c :: l =>
    match c.name == toc, string2dict c.args with
    | true, .ok kwargs => if (dictGet c!"self" kwargs).isNone then some (depthIn kwargs, l) else fromToc l
    | _, _ => fromToc l
  | _ :: l => fromToc l

/-- the headings among the places -/
def headsIn (l : List Spot) : List (Nat × Str) := l.filterMap fun | .head n t => some (n, t) | _ => none

/-- the headings that a table of this depth mentions -/
def tabled (depth : Option PVal) (l : List (Nat × Str)) : List (Nat × Str) := l.filter fun x => inTable x.1 depth == some true

/-- the headings in the table of contents: all those before the first proper call of `toc` (or all, if there is no such call), and
those behind it within the depth of this call -/
def tableOf (l : List Spot) : List (Nat × Str) :=
  match fromToc l with
  | none => headsIn l
  | some (depth, rest) => (headsIn l).take ((headsIn l).length - (headsIn rest).length) ++ tabled depth (headsIn rest)

/-- a heading follows a call of `toc` whose depth is a string -/
def Stuck (spots : List Spot) : Prop := ∃ d rest n t, fromToc spots = some (some (.str d), rest) ∧ .head n t ∈ rest

end Verif.Spec.Cr
