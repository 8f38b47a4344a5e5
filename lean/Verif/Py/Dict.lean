import Verif.Py.Re
import Verif.Creole.Tree

/-!
# Macro arguments: `shlex.split`, `int`, `json.dumps`, `string2dict`, `dict2string`

Models `/repo/creole/shared/utils.py` 22-79 and the parts of the standard library it calls (CPython 3.11).
-/

namespace Verif.Py

open Verif

/-- Values of macro arguments and of HTML attributes. -/
inductive PVal where
  | str (s : Str)
  | int (n : Int)
  | bool (b : Bool)
  | none
  deriving DecidableEq, Repr

/-- A Python dict with `str` keys, in insertion order. -/
abbrev Dict (α : Type) := List (Str × α)

/-- `d[key] = value` -/
def dictSet {α : Type} (k : Str) (v : α) : Dict α → Dict α
  | [] => [(k, v)]
  | (k', v') :: d => if k' = k then (k, v) :: d else (k', v') :: dictSet k v d

/-- `d.get(key)` -/
def dictGet {α : Type} (k : Str) (d : Dict α) : Option α := d.lookup k

/-! ## `shlex.split(s)` (Lib/shlex.py: posix mode, `whitespace_split`, no comments) -/

/-- `shlex.state`: `' '`, `'a'`, inside the given quote, after a backslash with the state to return to. -/
inductive LexSt where
  | blank
  | word
  | quote (q : Char)
  | esc (back : Option Char)
  deriving DecidableEq, Repr

def isLexBlank (c : Char) : Bool := c = ' ' || c = '\t' || c = '\r' || c = '\n'
def isLexQuote (c : Char) : Bool := c = '\'' || c = '"'

/-- The main loop of `shlex.read_token`, iterated until the end of the input.  `tok` is the current token,
`quoted` tells whether a quote was seen in it. -/
def lexAux : LexSt → Str → Bool → Str → Except PyErr (List Str)
  | .blank, tok, quoted, [] => .ok (if tok ≠ [] || quoted then [tok] else [])
  | .word, tok, quoted, [] => .ok (if tok ≠ [] || quoted then [tok] else [])
  | .quote _, _, _, [] => .error .valueError
  | .esc _, _, _, [] => .error .valueError
  | .blank, tok, quoted, c :: cs =>
    if isLexBlank c then
      if tok ≠ [] || quoted then (lexAux .blank [] false cs).map (tok :: ·) else lexAux .blank tok quoted cs
    else if c = '\\' then lexAux (.esc none) tok quoted cs
    else if isLexQuote c then lexAux (.quote c) tok quoted cs
    else lexAux .word [c] quoted cs
  | .quote q, tok, _, c :: cs =>
    if c = q then lexAux .word tok true cs
    else if c = '\\' && q = '"' then lexAux (.esc (some q)) tok true cs
    else lexAux (.quote q) (tok ++ [c]) true cs
  | .esc back, tok, quoted, c :: cs =>
    match back with
    | some q => lexAux (.quote q) (tok ++ (if c ≠ '\\' && c ≠ q then ['\\', c] else [c])) quoted cs
    | none => lexAux .word (tok ++ [c]) quoted cs
  | .word, tok, quoted, c :: cs =>
    if isLexBlank c then
      if tok ≠ [] || quoted then (lexAux .blank [] false cs).map (tok :: ·) else lexAux .blank tok quoted cs
    else if isLexQuote c then lexAux (.quote c) tok quoted cs
    else if c = '\\' then lexAux (.esc none) tok quoted cs
    else lexAux .word (tok ++ [c]) quoted cs

/-- `shlex.split(s)` -/
def shlexSplit (s : Str) : Except PyErr (List Str) := lexAux .blank [] false s

/-! ## `int(s)` -/

/-- white space skipped by `int()` -/
def isIntSpace (c : Char) : Bool :=
  let n := c.toNat
  if n < 128 then (9 ≤ n && n ≤ 13) || n == 32 else isSpace c

/-- digits with single underscores between them; the value so far and the number of digits -/
def intDigits : Nat → Nat → Bool → Str → Option (Nat × Nat)
  | acc, cnt, sep, [] => if sep then Option.none else some (acc, cnt)
  | acc, cnt, sep, c :: cs =>
    if c = '_' then (if sep then Option.none else intDigits acc cnt true cs)
    else match decimal? c with
      | some d => intDigits (10 * acc + d) (cnt + 1) false cs
      | Option.none => Option.none

/-- the limit of `int()` on the number of digits (CPython 3.11: `sys.int_info.default_max_str_digits`) -/
def maxIntDigits : Nat := 4300

/-- unsigned part of `int(s)` -/
def natOf (s : Str) : Option Nat :=
  match s with
  | [] => Option.none
  | c :: cs =>
    match decimal? c with
    | Option.none => Option.none
    | some d =>
      match intDigits d 1 false cs with
      | some (n, cnt) => if cnt ≤ maxIntDigits then some n else Option.none
      | Option.none => Option.none

/-- `int(s)`; `none` stands for `ValueError` -/
def pyInt (s : Str) : Option Int :=
  match stripP isIntSpace s with
  | '-' :: r => (natOf r).map fun n => -(n : Int)
  | '+' :: r => (natOf r).map fun n => (n : Int)
  | r => (natOf r).map fun n => (n : Int)

/-! ## `json.dumps` -/

def hexDigit (n : Nat) : Char := if n < 10 then Char.ofNat (48 + n) else Char.ofNat (87 + n)

/-- `\uXXXX` -/
def hex4 (n : Nat) : Str :=
  ['\\', 'u', hexDigit (n / 4096 % 16), hexDigit (n / 256 % 16), hexDigit (n / 16 % 16), hexDigit (n % 16)]

/-- one character in `json.dumps(s)` (Lib/json/encoder.py `py_encode_basestring_ascii`) -/
def jsonChar (c : Char) : Str :=
  if c = '"' then ['\\', '"']
  else if c = '\\' then ['\\', '\\']
  else if c = '\n' then ['\\', 'n']
  else if c = '\r' then ['\\', 'r']
  else if c = '\t' then ['\\', 't']
  else if c = Char.ofNat 12 then ['\\', 'f']
  else if c = Char.ofNat 8 then ['\\', 'b']
  else if 32 ≤ c.toNat && c.toNat ≤ 126 then [c]
  else if c.toNat < 0x10000 then hex4 c.toNat
  else
    let n := c.toNat - 0x10000
    hex4 (0xd800 + n / 1024) ++ hex4 (0xdc00 + n % 1024)

/-- `json.dumps(s)` for a string -/
def jsonStr (s : Str) : Str := '"' :: s.flatMap jsonChar ++ ['"']

/-- `json.dumps(v)` -/
def jsonVal : PVal → Str
  | .str s => jsonStr s
  | .int n => intStr n
  | .bool true => c!"true"
  | .bool false => c!"false"
  | .none => c!"null"

/-! ## `string2dict`, `dict2string` -/

/-- utils.py 48-56: the value of one argument -/
def argVal (v : Str) : PVal :=
  if v = c!"True" then .bool true
  else if v = c!"False" then .bool false
  else if v = c!"None" then .none
  else match pyInt (stripP isLexQuote v) with
    | some n => .int n
    | Option.none => .str v

/-- utils.py 45-58: the loop of `string2dict` -/
def partsDict : List Str → Dict PVal → Except PyErr (Dict PVal)
  | [], d => .ok d
  | part :: parts, d =>
    match splitOnce '=' part with
    | Option.none => .error .valueError
    | some (k, v) => partsDict parts (dictSet k (argVal v) d)

/-- utils.py 30-60: `string2dict` -/
def string2dict (s : Str) : Except PyErr (Dict PVal) := do
  let parts ← shlexSplit s
  partsDict parts []

/-- comparison of strings by code points -/
def strLe : Str → Str → Bool
  | [], _ => true
  | _ :: _, [] => false
  | a :: s, b :: t => if a.toNat < b.toNat then true else if b.toNat < a.toNat then false else strLe s t

/-- insertion of a pair into a list sorted by key -/
def insertKey {α : Type} (x : Str × α) : Dict α → Dict α
  | [] => [x]
  | y :: d => if strLe x.1 y.1 then x :: y :: d else y :: insertKey x d

/-- `sorted(d.items())`; keys are unique, so values are never compared -/
def sortKeys {α : Type} (d : Dict α) : Dict α := d.foldr insertKey []

/-- utils.py 63-79: `dict2string` -/
def dict2string (d : Dict PVal) : Str :=
  join c!" " ((sortKeys d).map fun (k, v) => k ++ '=' :: jsonVal v)

end Verif.Py
