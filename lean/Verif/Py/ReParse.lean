import Verif.Py.Re

/-!
# Reading Python regular expression source

A reader for the subset of Python's regular expression syntax (with or without `re.VERBOSE`) used in the
repository.  It is only used to check, at build time (`#guard`), that the regular expressions of the model are
the ones written in the Python source.
-/

namespace Verif.ReParse

open Verif

structure Opts (γ : Type) where
  verbose : Bool
  multi : Bool
  name : String → Option γ

/-- skip blanks and comments in verbose mode -/
def skipWs : Bool → Str → Str
  | _, [] => []
  | inComment, c :: cs =>
    if inComment then (if c == '\n' then skipWs false cs else skipWs true cs)
    else if c == ' ' || c == '\n' || c == '\t' || c == '\r' then skipWs false cs
    else if c == '#' then skipWs true cs
    else c :: cs

def escCls (c : Char) : CSet :=
  match c with
  | 's' => .space
  | 'S' => .compl .space
  | 'w' => .word
  | 'W' => .compl .word
  | 'd' => .digit
  | 'n' => .chr '\n'
  | 't' => .chr '\t'
  | 'r' => .chr '\r'
  | 'f' => .chr (Char.ofNat 12)
  | c => .chr c

/-- items of a `[...]` class, after the optional `^`; the first `]` ends it -/
def clsItems : Nat → Str → Option (List CSet × Str)
  | 0, _ => none
  | _ + 1, [] => none
  | _ + 1, ']' :: cs => some ([], cs)
  | n + 1, '\\' :: 'x' :: '0' :: '0' :: cs => do
    let (l, r) ← clsItems n cs
    return (.chr (Char.ofNat 0) :: l, r)
  | n + 1, '\\' :: c :: cs => do
    let (l, r) ← clsItems n cs
    return (escCls c :: l, r)
  | n + 1, c :: '-' :: d :: cs =>
    if d == ']' then do
      let (l, r) ← clsItems n ('-' :: d :: cs)
      return (.chr c :: l, r)
    else do
      let (l, r) ← clsItems n cs
      return (.range c d :: l, r)
  | n + 1, c :: cs => do
    let (l, r) ← clsItems n cs
    return (.chr c :: l, r)

def unions : List CSet → Option CSet
  | [] => none
  | a :: l => some (l.foldl .union a)

def isWordAscii (c : Char) : Bool := c.isAlphanum || c == '_'

def takeName (cs : Str) : String × Str := (String.ofList (cs.takeWhile isWordAscii), cs.dropWhile isWordAscii)

mutual
/-- alternatives up to a closing parenthesis or the end -/
def pAlt {γ : Type} (o : Opts γ) : Nat → Str → Option (Re γ × Str)
  | 0, _ => none
  | n + 1, cs => do
    let (items, r) ← pSeq o n cs []
    match r with
    | '|' :: r => do
      let (b, r) ← pAlt o n r
      return (.alt (Re.cat items) b, r)
    | r => return (Re.cat items, r)

/-- a sequence; `acc` is the reversed list of items -/
def pSeq {γ : Type} (o : Opts γ) : Nat → Str → List (Re γ) → Option (List (Re γ) × Str)
  | 0, _, _ => none
  | n + 1, cs0, acc =>
    let cs := if o.verbose then skipWs false cs0 else cs0
    match cs with
    | [] => some (acc.reverse, [])
    | '|' :: _ => some (acc.reverse, cs)
    | ')' :: _ => some (acc.reverse, cs)
    | '*' :: '?' :: r => quant o n r acc (fun a => .star false a)
    | '*' :: r => quant o n r acc (fun a => .star true a)
    | '+' :: '?' :: r => quant o n r acc (fun a => Re.plus false a)
    | '+' :: r => quant o n r acc (fun a => Re.plus true a)
    | '?' :: r => quant o n r acc (fun a => Re.opt a)
    | '{' :: '0' :: ',' :: '1' :: '}' :: r => quant o n r acc (fun a => Re.opt a)
    | '{' :: '2' :: '}' :: r => quant o n r acc (fun a => .seq a a)
    | '.' :: r => pSeq o n r (.cls .dot :: acc)
    | '^' :: r => pSeq o n r (.bol o.multi :: acc)
    | '$' :: r => pSeq o n r (.eol o.multi :: acc)
    | '\\' :: c :: r => pSeq o n r (.cls (escCls c) :: acc)
    | '[' :: '^' :: r => do
      let (l, r) ← clsItems (r.length + 1) r
      let u ← unions l
      pSeq o n r (.cls (.compl u) :: acc)
    | '[' :: r => do
      let (l, r) ← clsItems (r.length + 1) r
      let u ← unions l
      pSeq o n r (.cls u :: acc)
    | '(' :: '?' :: 'P' :: '<' :: r => do
      let (nm, r) := takeName r
      let g ← o.name nm
      match r with
      | '>' :: r => do
        let (a, r) ← pAlt o n r
        match r with
        | ')' :: r => pSeq o n r (.grp g a :: acc)
        | _ => none
      | _ => none
    | '(' :: '?' :: 'P' :: '=' :: r => do
      let (nm, r) := takeName r
      let g ← o.name nm
      match r with
      | ')' :: r => pSeq o n r (.bref g :: acc)
      | _ => none
    | '(' :: '?' :: '<' :: d :: r =>
      if d == '=' || d == '!' then do
        let (a, r) ← pAlt o n r
        match a, r with
        | .cls s, ')' :: r => pSeq o n r (.behind (d == '!') s :: acc)
        | _, _ => none
      else none
    | '(' :: '?' :: '!' :: r => do
      let (a, r) ← pAlt o n r
      match r with
      | ')' :: r => pSeq o n r (.notAhead a :: acc)
      | _ => none
    | '(' :: '?' :: ':' :: r => do
      let (a, r) ← pAlt o n r
      match r with
      | ')' :: r => pSeq o n r (a :: acc)
      | _ => none
    | '(' :: r => do
      let (a, r) ← pAlt o n r
      match r with
      | ')' :: r => pSeq o n r (a :: acc)
      | _ => none
    | c :: r => pSeq o n r (.cls (.chr c) :: acc)

def quant {γ : Type} (o : Opts γ) (n : Nat) (r : Str) (acc : List (Re γ)) (f : Re γ → Re γ) :
    Option (List (Re γ) × Str) :=
  match acc with
  | [] => none
  | a :: acc => pSeq o n r (f a :: acc)
end

/-- Read a complete pattern. -/
def parse {γ : Type} (o : Opts γ) (src : String) : Option (Re γ) := do
  let cs := src.toList
  let (a, r) ← pAlt o (2 * cs.length + 2) cs
  if r.isEmpty then some a else none

/-- sequence `a` then `b`, associated to the right -/
def seqR {γ : Type} : Re γ → Re γ → Re γ
  | .seq a b, c => .seq a (seqR b c)
  | .eps, c => c
  | a, .eps => a
  | a, c => .seq a c

def altR {γ : Type} : Re γ → Re γ → Re γ
  | .alt a b, c => .alt a (altR b c)
  | a, c => .alt a c

/-- Associate sequences and alternatives to the right. -/
def norm {γ : Type} : Re γ → Re γ
  | .seq a b => seqR (norm a) (norm b)
  | .alt a b => altR (norm a) (norm b)
  | .star g a => .star g (norm a)
  | .grp g a => .grp g (norm a)
  | .notAhead a => .notAhead (norm a)
  | r => r

/-- The model expression `r` is the one written as `src`. -/
def sameAs {γ : Type} [DecidableEq γ] (o : Opts γ) (src : String) (r : Re γ) : Bool :=
  match parse o src with
  | some a => norm a == norm r
  | none => false

end Verif.ReParse
