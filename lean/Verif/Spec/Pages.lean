import Verif.Spec.Calls
import Verif.Spec.CreoleDoc
import Verif.Spec.Toc

/-!
# Specification: documents with calls of macros on lines of their own, and tables of contents
-/

namespace Verif.Spec.Cr

open Verif Py Creole

/-- a block, or a call `<<name args>>` of a macro without a text, alone on its line -/
inductive Chunk where
  | block (b : Block)
  | call (name args : Str)

def Chunk.lines : Chunk → List Str
  | .block b => b.lines
  | .call name args => [c!"<<" ++ name ++ args ++ c!">>"]

/-- A call on a line of its own is a paragraph.  It is separated from its neighbours like a paragraph of one letter. -/
def Chunk.like : Chunk → Block
  | .block b => b
  | .call _ _ => .para [[.chr 'x']]

/-- a call for the table of contents -/
def Chunk.isToc : Chunk → Bool
  | .block _ => false
  | .call name _ => name == c!"toc"

/-- the chunks of a document, each one with the blank lines before it -/
abbrev Page := List (List Str × Chunk)

def pageLines : Page → List Str
  | [] => []
  | (gap, c) :: d => gap ++ c.lines ++ pageLines d

/-- the call a line stands for -/
def lineCall (name args : Str) : Call := { name, args := strip (dropSlashes args), text := none, block := false }

/-- `toc` is the text for a call for the table of contents -/
def Chunk.html (cx : Ctx) (blog : Bool) (toc : Str) : Chunk → Str
  | .block b => b.html cx blog
  | .call name args => if name = c!"toc" then toc else c!"<p>" ++ cx.call (lineCall name args) ++ c!"</p>"

/-- the second call for the table of contents, and all further ones, give the text of the call -/
def tocAgain : Str := c!"<p>&lt;&lt;toc&gt;&gt;</p>"

/-- the HTML of the chunks after `b`; `toc` stands in the place of the first call for the table of contents -/
def pageTail (cx : Ctx) (blog : Bool) (toc : Str) (b : Block) : Page → Str
  | [] => []
  | (gap, c) :: d => gapHtml b gap ++ c.html cx blog toc ++ pageTail cx blog (if c.isToc then tocAgain else toc) c.like d

def pageBody (cx : Ctx) (blog : Bool) (toc : Str) : Page → Str
  | [] => []
  | (_, c) :: d => c.html cx blog toc ++ pageTail cx blog (if c.isToc then tocAgain else toc) c.like d

/-- the HTML of a document -/
def pageHtml (cx : Ctx) (blog : Bool) (toc : Str) (d : Page) : Str := strip (pageBody cx blog toc d)

/-- is there a call for the table of contents? -/
def hasToc (d : Page) : Bool := d.any fun x => x.2.isToc

/-- the headings, with their levels -/
def headings (d : Page) : List (Nat × Str) :=
  d.filterMap fun x => match x.2 with | .block (.head n _ title _) => some (n, title) | _ => none

/-- The argument `depth` in the arguments of a call for the table of contents, `some none` if there is none; or `none` if
the arguments are not `key=value` pairs, if `depth` is not a number, or if there is an argument `self`. -/
def depthArg (args : Str) : Option (Option Int) :=
  match string2dict args with
  | .ok kwargs =>
    if (dictGet c!"self" kwargs).isSome then none
    else match dictGet c!"depth" kwargs with
      | none => some none
      | some (.int n) => some (some n)
      | _ => none
  | .error _ => none

/-- a call that is followed by the text `after`: this text contains no end tag of the call -/
def Chunk.callOk (cx : Ctx) (after : Str) : Chunk → Bool
  | .block _ => true
  | .call name args => argsOk args &&
      (if name = c!"toc" then (depthArg (lineCall name args).args).isSome else nameOk name && (cx.mac (lineCall name args)).isSome) &&
      (List.range name.length).all (fun k => !hasEnd (name.take (k + 1)) after)

/-- the calls of a document that is followed by the lines `trail` -/
def callsOk (cx : Ctx) (trail : List Str) : Page → Bool
  | [] => true
  | (_, c) :: d => c.callOk cx ((pageLines d ++ trail).flatMap ('\n' :: ·)) && callsOk cx trail d

/-- the document is followed by the blank lines `trail` -/
def pageOk (cx : Ctx) (blog : Bool) (d : Page) (trail : List Str) : Bool :=
  docOk cx blog (d.map fun x => (x.1, x.2.like)) && callsOk cx trail d && trail.all blank

/-- the headings that a table of contents of this depth mentions -/
def inDepth (depth : Option Int) (hs : List (Nat × Str)) : List (Nat × Str) :=
  match depth with
  | none => hs
  | some n => hs.filter fun x => decide ((x.1 : Int) ≤ n)

/-- no `<` is followed by another one, and none is at the end -/
def noDouble : Str → Bool
  | [] => true
  | c :: s => (c != '<' || (s.head?).any (· != '<')) && noDouble s

/-- The context `cx` describes a conversion with a table of contents: the headings are anchors, and the dict of macros
has no macro `toc` of its own. -/
structure ReadToc (o : Opts) (macros : Macros) (cx : Ctx) : Prop where
  strict : cx.strict = o.strict
  anchors : cx.anchors = true
  calls : ∀ c s, cx.mac c = some s → CallGives o.verbose macros c s
  noToc : dictGet c!"toc" macros = none

end Verif.Spec.Cr
