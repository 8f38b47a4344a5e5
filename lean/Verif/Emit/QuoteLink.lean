import Verif.Html.Tokenizer

/-!
# `quote_link`

Models `/repo/creole/emitter/html2markdown_emitter.py` 19-29 with `urlparse`, `quote` and `urlunparse` of the standard
library (CPython 3.11.10, `Lib/urllib/parse.py`).
-/

namespace Verif.Emit

open Verif Py Html

/-- `uses_params` -/
def usesParams : List Str := [c!"", c!"ftp", c!"hdl", c!"prospero", c!"http", c!"imap", c!"https", c!"shttp", c!"rtsp",
  c!"rtsps", c!"rtspu", c!"sip", c!"sips", c!"mms", c!"sftp", c!"tel"]

/-- `uses_netloc` -/
def usesNetloc : List Str := [c!"", c!"ftp", c!"http", c!"gopher", c!"nntp", c!"telnet", c!"imap", c!"wais", c!"file",
  c!"mms", c!"https", c!"shttp", c!"snews", c!"prospero", c!"rtsp", c!"rtsps", c!"rtspu", c!"rsync", c!"svn",
  c!"svn+ssh", c!"sftp", c!"nfs", c!"git", c!"git+ssh", c!"ws", c!"wss"]

def isSchemeChar (c : Char) : Bool := isAlphaA c || isDigitA c || c = '+' || c = '-' || c = '.'

/-- split at the first occurrence of a character, if there is one -/
def splitAtChar (c : Char) (s : Str) : Str × Str :=
  match splitOnce c s with
  | some p => p
  | none => (s, [])

/-- the text after the last `/` and what precedes it, with the `/` -/
def splitLastSlash : Str → Str × Str
  | [] => ([], [])
  | c :: cs =>
    if cs.contains '/' then let (a, b) := splitLastSlash cs; (c :: a, b)
    else if c = '/' then ([c], cs)
    else ([], c :: cs)

/-- the six components of a URL -/
structure Url where
  scheme : Str
  netloc : Str
  path : Str
  params : Str
  query : Str
  fragment : Str
  deriving DecidableEq, Repr

/-- `urlparse(url)` for a `str`.  `netlocOk` stands for the checks of the network location that need Unicode
normalisation or the syntax of IP addresses (`_checknetloc`, `_check_bracketed_host`). -/
def urlparse (netlocOk : Str → Bool) (url : Str) : Except PyErr Url :=
  let url := url.dropWhile fun c => c.toNat ≤ 32
  let url := url.filter fun c => !(c = '\t' || c = '\r' || c = '\n')
  let (scheme, url) :=
    match splitOnce ':' url with
    | some (a, b) =>
      match a with
      | c :: _ => if isAlphaA c && a.all isSchemeChar then (lower a, b) else ([], url)
      | [] => ([], url)
    | none => ([], url)
  let (netloc, url) :=
    if c!"//".isPrefixOf url then
      let n := (url.drop 2).takeWhile fun c => !(c = '/' || c = '?' || c = '#')
      (n, (url.drop 2).drop n.length)
    else ([], url)
  if netloc.contains '[' != netloc.contains ']' then .error .valueError
  else
    let (url, fragment) := splitAtChar '#' url
    let (url, query) := splitAtChar '?' url
    if !netlocOk netloc then .error .valueError
    else
      let (path, params) :=
        if usesParams.contains scheme && url.contains ';' then
          let (dir, base) := splitLastSlash url
          let (a, b) := splitAtChar ';' base
          (dir ++ a, b)
        else (url, [])
      .ok { scheme, netloc, path, params, query, fragment }

/-- `_ALWAYS_SAFE` and `/` -/
def isUrlSafe (n : Nat) : Bool :=
  (48 ≤ n && n ≤ 57) || (65 ≤ n && n ≤ 90) || (97 ≤ n && n ≤ 122) || n = 95 || n = 46 || n = 45 || n = 126 || n = 47

def upHexDigit (n : Nat) : Char := if n < 10 then Char.ofNat (48 + n) else Char.ofNat (55 + n)

/-- one byte in `quote` -/
def quoteByte (n : Nat) : Str := if isUrlSafe n then [Char.ofNat n] else ['%', upHexDigit (n / 16), upHexDigit (n % 16)]

/-- the UTF-8 encoding of a character -/
def utf8 (c : Char) : List Nat :=
  let n := c.toNat
  if n < 0x80 then [n]
  else if n < 0x800 then [0xC0 + n / 64, 0x80 + n % 64]
  else if n < 0x10000 then [0xE0 + n / 4096, 0x80 + n / 64 % 64, 0x80 + n % 64]
  else [0xF0 + n / 262144, 0x80 + n / 4096 % 64, 0x80 + n / 64 % 64, 0x80 + n % 64]

/-- `quote(s)` -/
def quote (s : Str) : Str := s.flatMap fun c => (utf8 c).flatMap quoteByte

/-- `urlunparse(...)` -/
def urlunparse (u : Url) : Str :=
  let url := if u.params ≠ [] then u.path ++ ';' :: u.params else u.path
  let url :=
    if u.netloc ≠ [] || (u.scheme ≠ [] && usesNetloc.contains u.scheme) || c!"//".isPrefixOf url then
      let url := if url ≠ [] && url.head? ≠ some '/' then '/' :: url else url
      c!"//" ++ u.netloc ++ url
    else url
  let url := if u.scheme ≠ [] then u.scheme ++ ':' :: url else url
  let url := if u.query ≠ [] then url ++ '?' :: u.query else url
  if u.fragment ≠ [] then url ++ '#' :: u.fragment else url

/-- html2markdown_emitter.py 19-29: `quote_link(uri)` -/
def quoteLink (netlocOk : Str → Bool) (uri : Str) : Except PyErr Str := do
  let u ← urlparse netlocOk uri
  return urlunparse { u with path := quote u.path }

#guard quoteLink (fun _ => true) c!"http://foo.tld/a image with spaces.png" = .ok c!"http://foo.tld/a%20image%20with%20spaces.png"
#guard quoteLink (fun _ => true) c!"https://foo.tld/a image.png?bar=1#anchor" = .ok c!"https://foo.tld/a%20image.png?bar=1#anchor"

end Verif.Emit
