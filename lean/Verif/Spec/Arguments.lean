import Verif.Py.Dict

/-!
# Specification: the arguments of a macro

How `key=value` words are written, and what their values mean.
-/

namespace Verif.Spec.Ar

open Verif Py

/-! ## Words -/

/-- a blank between words -/
def Blank (c : Char) : Prop := c = ' ' ∨ c = '\t' ∨ c = '\r' ∨ c = '\n'

/-- a part of a word -/
inductive Piece where
  /-- a character that stands for itself -/
  | char (c : Char)
  /-- a character after a backslash -/
  | escaped (c : Char)
  /-- characters between single quotes -/
  | single (s : Str)
  /-- characters between double quotes; those with a mark are written after a backslash -/
  | double (cs : List (Bool × Char))

/-- a part that can be written -/
def Piece.Ok : Piece → Prop
  | .char c => ¬ Blank c ∧ c ≠ '\'' ∧ c ≠ '"' ∧ c ≠ '\\'
  | .escaped _ => True
  | .single s => '\'' ∉ s
  | .double cs => ∀ x ∈ cs, x.1 = false → x.2 ≠ '"' ∧ x.2 ≠ '\\'

/-- a character between double quotes -/
def inQuotes : Bool × Char → Str
  | (false, c) => [c]
  | (true, c) => ['\\', c]

/-- how a part is written -/
def Piece.text : Piece → Str
  | .char c => [c]
  | .escaped c => ['\\', c]
  | .single s => '\'' :: s ++ ['\'']
  | .double cs => '"' :: cs.flatMap inQuotes ++ ['"']

/-- between double quotes, a backslash before another character than a quote or a backslash is kept -/
def unquoted : Bool × Char → Str
  | (false, c) => [c]
  | (true, c) => if c = '"' ∨ c = '\\' then [c] else ['\\', c]

/-- the characters of a part -/
def Piece.chars : Piece → Str
  | .char c => [c]
  | .escaped c => [c]
  | .single s => s
  | .double cs => cs.flatMap unquoted

/-- `Written s ws`: the text `s` consists of the words `ws` and blanks -/
inductive Written : Str → List Str → Prop
  | nil : Written [] []
  | blank {c : Char} {s : Str} {ws : List Str} : Blank c → Written s ws → Written (c :: s) ws
  | last {ps : List Piece} : ps ≠ [] → (∀ p ∈ ps, p.Ok) → Written (ps.flatMap Piece.text) [ps.flatMap Piece.chars]
  | word {ps : List Piece} {c : Char} {s : Str} {ws : List Str} : ps ≠ [] → (∀ p ∈ ps, p.Ok) → Blank c → Written s ws →
    Written (ps.flatMap Piece.text ++ c :: s) (ps.flatMap Piece.chars :: ws)

/-! ## Values -/

/-- digits after the first one, with at most one underscore before each of them, and their values -/
inductive MoreDigits : Str → List Nat → Prop
  | nil : MoreDigits [] []
  | digit {c : Char} {d : Nat} {t : Str} {ds : List Nat} : decimal? c = some d → MoreDigits t ds → MoreDigits (c :: t) (d :: ds)
  | under {c : Char} {d : Nat} {t : Str} {ds : List Nat} : decimal? c = some d → MoreDigits t ds → MoreDigits ('_' :: c :: t) (d :: ds)

/-- a decimal number: at most 4300 digits -/
def Decimal (t : Str) (n : Nat) : Prop :=
  ∃ (c : Char) (t' : Str) (d : Nat) (ds : List Nat), t = c :: t' ∧ decimal? c = some d ∧ MoreDigits t' ds ∧ ds.length < 4300 ∧ n = (d :: ds).foldl (fun a d => 10 * a + d) 0

/-- a space that may be around a number: all but the separators 28 to 31 -/
def NumberSpace (c : Char) : Prop := isSpace c = true ∧ ¬ (28 ≤ c.toNat ∧ c.toNat ≤ 31)

/-- a number with a sign, with spaces and quotes around it -/
def Number (v : Str) (n : Int) : Prop :=
  ∃ (q1 w1 sign t w2 q2 : Str) (m : Nat), v = q1 ++ (w1 ++ (sign ++ t) ++ w2) ++ q2 ∧ (∀ c ∈ q1, c = '\'' ∨ c = '"') ∧ (∀ c ∈ q2, c = '\'' ∨ c = '"') ∧
    (∀ c ∈ w1, NumberSpace c) ∧ (∀ c ∈ w2, NumberSpace c) ∧ Decimal t m ∧
    (sign = [] ∧ n = (m : Int) ∨ sign = c!"+" ∧ n = (m : Int) ∨ sign = c!"-" ∧ n = -(m : Int))

/-- what a value means -/
inductive Means : Str → PVal → Prop
  | true : Means c!"True" (.bool Bool.true)
  | false : Means c!"False" (.bool Bool.false)
  | none : Means c!"None" .none
  | number {v : Str} {n : Int} : Number v n → Means v (.int n)
  | text {v : Str} : v ≠ c!"True" → v ≠ c!"False" → v ≠ c!"None" → (∀ n, ¬ Number v n) → Means v (.str v)

/-- the last argument with the key `k` means `p` -/
def LastArgument (ws : List Str) (k : Str) (p : PVal) : Prop :=
  ∃ before v after, ws = before ++ (k ++ '=' :: v) :: after ∧ '=' ∉ k ∧ (∀ w ∈ after, ∀ v', w ≠ k ++ '=' :: v') ∧ Means v p

end Verif.Spec.Ar
