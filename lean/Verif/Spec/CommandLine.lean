import Verif.Py.Re

/-!
# What the words after the name of a command line tool mean

Independent of the argument parser: the command lines that ask for a conversion are made of the two file names, in this
order, and any number of `--encoding` options before, between and behind them.
-/

namespace Verif.Spec.Cmd

open Verif Py

/-- the long options of the tools -/
def longOptions : List Str := [c!"--help", c!"--version", c!"--encoding"]

/-- The word is (perhaps an abbreviation of) an option of the tools: it begins with `-h`, or with `--` and what stands
before the first `=` is the beginning of a long option. -/
def LooksLikeOption (w : Str) : Prop :=
  c!"-h" <+: w ∨ (c!"--" <+: w ∧ ∃ o ∈ longOptions, w.takeWhile (· ≠ '=') <+: o)

/-- only decimal digits -/
def Digits (s : Str) : Prop := ∀ c ∈ s, (Py.decimal? c).isSome = true

/-- a negative number, `-5` or `-.5`, perhaps with a line feed at the end -/
def NegativeNumber (w : Str) : Prop :=
  ∃ a b nl : Str, (nl = [] ∨ nl = ['\n']) ∧ Digits a ∧ Digits b ∧
    ((a ≠ [] ∧ w = '-' :: a ++ nl) ∨ (b ≠ [] ∧ w = '-' :: a ++ '.' :: b ++ nl))

/-- The word can only be a value: it does not begin with `-`, is `-` itself, or is no option of the tools and is a
negative number or contains a blank. -/
def Plain (w : Str) : Prop :=
  w.head? ≠ some '-' ∨ w = ['-'] ∨ (¬LooksLikeOption w ∧ (NegativeNumber w ∨ ' ' ∈ w))

/-- `--encoding` or one of its abbreviations -/
def Short (p : Str) : Prop := c!"--e" <+: p ∧ p <+: c!"--encoding"

/-- a part of a command line -/
inductive Item where
  /-- a file name -/
  | name (w : Str)
  /-- `--encoding latin1` -/
  | apart (p e : Str)
  /-- `--encoding=latin1` -/
  | joined (p e : Str)

/-- the words of a part -/
def Item.words : Item → List Str
  | .name w => [w]
  | .apart p e => [p, e]
  | .joined p e => [p ++ '=' :: e]

/-- the words can be read in this way only -/
def Item.Fine : Item → Prop
  | .name w => Plain w
  | .apart p e => Short p ∧ Plain e
  | .joined p _ => Short p

/-- the words of all parts -/
def wordsOf (items : List Item) : List Str := items.flatMap Item.words

/-- the file names, in order -/
def namesOf : List Item → List Str
  | [] => []
  | .name w :: items => w :: namesOf items
  | _ :: items => namesOf items

/-- the last encoding that is given, or the default -/
def encodingOf : Str → List Item → Str
  | default, [] => default
  | default, .name _ :: items => encodingOf default items
  | _, .apart _ e :: items => encodingOf e items
  | _, .joined _ e :: items => encodingOf e items

/-- the last part is a file name -/
def EndsWithName (items : List Item) : Prop := ∃ w, items.getLast? = some (.name w)

/-- The words ask for the conversion of the file `s` to the file `d` with the encoding `e`.  Everything behind a `--` is
a file name; but the program forgets a further `--` there, unless it stands directly behind the first one and no file name
before it. -/
inductive Means (argv : List Str) (s d e : Str) : Prop where
  | plain (items : List Item) : (∀ i ∈ items, i.Fine) → argv = wordsOf items → namesOf items = [s, d] →
      encodingOf c!"utf-8" items = e → Means argv s d e
  | behind (items : List Item) (more : List Str) : (∀ i ∈ items, i.Fine) → EndsWithName items →
      argv = wordsOf items ++ c!"--" :: more → namesOf items ++ more = [s, d] → c!"--" ∉ more →
      encodingOf c!"utf-8" items = e → Means argv s d e
  | first (items : List Item) (n : Str) (more : List Str) : (∀ i ∈ items, i.Fine) → ¬EndsWithName items →
      argv = wordsOf items ++ c!"--" :: n :: more → namesOf items ++ n :: more = [s, d] → c!"--" ∉ more →
      encodingOf c!"utf-8" items = e → Means argv s d e

/-- the word asks for the help text: `-h`, also with further characters, or `--help`, also abbreviated -/
def AsksHelp (w : Str) : Prop := c!"-h" <+: w ∨ (c!"--h" <+: w ∧ w <+: c!"--help")

/-- the word asks for the version: `--version`, also abbreviated -/
def AsksVersion (w : Str) : Prop := c!"--v" <+: w ∧ w <+: c!"--version"

end Verif.Spec.Cmd
