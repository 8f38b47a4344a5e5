/-!
# Python strings

Python `str` values are modelled as lists of Unicode scalar values (`List Char`).  Lone surrogates, which
Python allows inside `str`, are outside the model.  This file models the `str` methods used by the
repository: `isspace`, `strip`, `lstrip`, `rstrip`, `replace`, `split`, `splitlines`, `join`, `in`,
`startswith`.
-/

namespace Verif

/-- A Python `str` (without lone surrogates). -/
abbrev Str := List Char

/-- `c!"abc"` is notation for the explicit list `['a', 'b', 'c']`. -/
syntax:max "c!" noWs str : term

macro_rules
  | `(c!$s) => do
    let cs := s.getString.toList.map Lean.Syntax.mkCharLit
    let arr := cs.toArray
    `([$arr,*])

namespace Py

/-- Python's `str.isspace` for one character; also the set matched by `\s` in a `str` pattern. -/
def isSpace (c : Char) : Bool :=
  let n := c.toNat
  (9 ≤ n && n ≤ 13) || (28 ≤ n && n ≤ 32) || n == 0x85 || n == 0xA0 || n == 0x1680 ||
  (0x2000 ≤ n && n ≤ 0x200A) || n == 0x2028 || n == 0x2029 || n == 0x202F || n == 0x205F || n == 0x3000

/-- `s.lstrip()` -/
def lstrip (s : Str) : Str := s.dropWhile isSpace

/-- drop the longest suffix all of whose characters satisfy `p` -/
def dropEndWhile (p : Char → Bool) : Str → Str
  | [] => []
  | c :: cs =>
    match dropEndWhile p cs with
    | [] => if p c then [] else [c]
    | d :: ds => c :: d :: ds

/-- `s.rstrip()` -/
def rstrip (s : Str) : Str := dropEndWhile isSpace s

/-- `s.strip()` -/
def strip (s : Str) : Str := rstrip (lstrip s)

/-- `s.strip(chars)` where `p` decides membership in `chars` -/
def stripP (p : Char → Bool) (s : Str) : Str := dropEndWhile p (s.dropWhile p)

/-- `s.replace(old, new)`, worker: `k` characters are still part of the previous occurrence. -/
def replaceAux (old new : Str) : Str → Nat → Str
  | [], _ => []
  | _ :: cs, k + 1 => replaceAux old new cs k
  | c :: cs, 0 =>
    if old.isPrefixOf (c :: cs) then new ++ replaceAux old new cs (old.length - 1)
    else c :: replaceAux old new cs 0

/-- `s.replace(old, new)` for a non-empty `old` -/
def replace (old new s : Str) : Str := replaceAux old new s 0

/-- `s.replace(old, new, 1)` for a non-empty `old` -/
def replaceFirst (old new : Str) : Str → Str
  | [] => []
  | c :: cs =>
    if old.isPrefixOf (c :: cs) then new ++ (c :: cs).drop old.length
    else c :: replaceFirst old new cs

/-- `sub in s` -/
def hasSub (sub : Str) : Str → Bool
  | [] => sub.isEmpty
  | c :: cs => sub.isPrefixOf (c :: cs) || hasSub sub cs

/-- `s.split(sep, 1)` for a one-character separator: `none` when the separator does not occur
(Python then returns a list with one element). -/
def splitOnce (sep : Char) : Str → Option (Str × Str)
  | [] => none
  | c :: cs =>
    if c == sep then some ([], cs)
    else (splitOnce sep cs).map fun (a, b) => (c :: a, b)

/-- `s.split(sep)` for a one-character separator -/
def splitChar (sep : Char) : Str → List Str
  | [] => [[]]
  | c :: cs =>
    if c == sep then [] :: splitChar sep cs
    else match splitChar sep cs with
      | [] => [[c]]
      | l :: ls => (c :: l) :: ls

/-- `sep.join(parts)` -/
def join (sep : Str) : List Str → Str
  | [] => []
  | [a] => a
  | a :: b :: rest => a ++ sep ++ join sep (b :: rest)

/-- `s * n` -/
def rep (s : Str) : Nat → Str
  | 0 => []
  | n + 1 => s ++ rep s n

/-- Decimal digits of a natural number, as `str(n)` prints them. -/
def natDigits (n : Nat) : Str := Nat.toDigits 10 n

/-- `str(n)` for an `int` -/
def intStr : Int → Str
  | .ofNat n => natDigits n
  | .negSucc n => '-' :: natDigits (n + 1)

/-- ASCII lower case; `str.lower()` restricted to ASCII letters. -/
def lowerAscii (c : Char) : Char := if 'A' ≤ c ∧ c ≤ 'Z' then Char.ofNat (c.toNat + 32) else c

end Py
end Verif
