import Verif.Py.Str

/-!
# Specification: addresses in the web
-/

namespace Verif.Spec

open Verif Py

/-- an address; a part that is missing is empty -/
structure Address where
  scheme : Str := []
  host : Str := []
  path : Str := []
  query : Str := []
  fragment : Str := []
  deriving DecidableEq, Repr

/-- how an address is written: `scheme://host/path?query#fragment` -/
def Address.text (a : Address) : Str :=
  (if a.scheme = [] then [] else a.scheme ++ c!":") ++ (if a.host = [] then [] else c!"//" ++ a.host) ++ a.path ++
    (if a.query = [] then [] else c!"?" ++ a.query) ++ (if a.fragment = [] then [] else c!"#" ++ a.fragment)

/-- the characters of a scheme -/
def schemeChar (c : Char) : Bool := ('a' ≤ c && c ≤ 'z') || c.isDigit || c = '+' || c = '-' || c = '.'

/-- schemes that need a host -/
def hostSchemes : List Str := [c!"ftp", c!"http", c!"gopher", c!"nntp", c!"telnet", c!"imap", c!"wais", c!"file", c!"mms",
  c!"https", c!"shttp", c!"snews", c!"prospero", c!"rtsp", c!"rtsps", c!"rtspu", c!"rsync", c!"svn", c!"svn+ssh", c!"sftp",
  c!"nfs", c!"git", c!"git+ssh", c!"ws", c!"wss"]

/-- A text that does not look like `scheme:...`. -/
def noScheme (s : Str) : Bool := !s.contains ':' || (s.takeWhile (· ≠ ':')).any fun c => !schemeChar (lowerAscii c)

/-- An address whose parts can be told apart.  After a host, the path begins with a slash.  (A semicolon in the path would
separate parameters.) -/
structure Address.Ok (a : Address) : Prop where
  scheme : (∀ c ∈ a.scheme, schemeChar c) ∧ ∀ c ∈ a.scheme.head?, 'a' ≤ c ∧ c ≤ 'z'
  noScheme : a.scheme = [] → Spec.noScheme a.text
  host : ∀ c ∈ a.host, c ∉ c!"/?#[]"
  path : ∀ c ∈ a.path, c ∉ c!"?#;"
  slash : a.host ≠ [] → a.path = [] ∨ a.path.head? = some '/'
  noHost : a.host = [] → a.scheme ∉ hostSchemes ∧ ¬ c!"//" <+: a.path
  query : ∀ c ∈ a.query, c ≠ '#'
  oneLine : ∀ c ∈ a.text, c ≠ '\t' ∧ c ≠ '\r' ∧ c ≠ '\n'
  start : ∀ c ∈ a.text.head?, 32 < c.toNat

/-- characters that stand for themselves in a path -/
def unreserved (c : Char) : Bool := c.isAlphanum || c = '_' || c = '.' || c = '-' || c = '~' || c = '/'

def upDigit (n : Nat) : Char := Char.ofNat (if n < 10 then 48 + n else 55 + n)

/-- `%` and the two digits of a byte -/
def percentByte (b : UInt8) : Str := ['%', upDigit (b.toNat / 16), upDigit (b.toNat % 16)]

/-- a text with percent signs and digits in place of all characters that do not stand for themselves -/
def percent (s : Str) : Str := s.flatMap fun c => if unreserved c then [c] else (String.utf8EncodeChar c).flatMap percentByte

/-- the value of an upper case hexadecimal digit -/
def digitValue (c : Char) : Nat := if c.isDigit then c.toNat - 48 else c.toNat - 55

/-- what a text with percent signs stands for, in UTF-8 -/
def unpercent : Str → List UInt8
  | '%' :: a :: b :: s => UInt8.ofNat (16 * digitValue a + digitValue b) :: unpercent s
  | c :: s => String.utf8EncodeChar c ++ unpercent s
  | [] => []

end Verif.Spec
