import Verif.Py.ReParse
import Verif.Py.Dict
import Verif.Html.Tokenizer

/-!
# `Deentity`

Models `/repo/creole/html_tools/deentity.py`.
-/

namespace Verif.Html

open Verif Py Re

/-- `chr(n)`: `OverflowError` beyond a C `int`, `ValueError` beyond the last code point; a surrogate is outside the
model -/
def pyChr (n : Nat) : Except PyErr Char :=
  if n > 0x7fffffff then .error .overflowError
  else if n > 0x10ffff then .error .valueError
  else if 0xD800 ≤ n && n ≤ 0xDFFF then .error .surrogate
  else .ok (Char.ofNat n)

/-- `chr(n)` for any `int` -/
def pyChrInt : Int → Except PyErr Char
  | .ofNat n => pyChr n
  | .negSucc n => if n < 0x80000000 then .error .valueError else .error .overflowError

/-- deentity.py 45-48: `replace_number` -/
def replaceNumber (text : Str) : Except PyErr Str :=
  match pyInt text with
  | none => .error .valueError
  | some n => (pyChrInt n).map fun c => [c]

/-- deentity.py 50-53: `replace_hex`, for the strings of hexadecimal digits it is called with (and the empty string) -/
def replaceHex (text : Str) : Except PyErr Str :=
  if text.isEmpty || !text.all isHexA then .error .valueError
  else (pyChr (hexNat text)).map fun c => [c]

/-- deentity.py 55-62: `replace_named` -/
def replaceNamed (text : Str) : Except PyErr Str :=
  if text = c!"nbsp" then .ok c!" "
  else match name2codepointTable.lookup (strKey text) with
    | some n => .ok [Char.ofNat n]
    | none => .error .keyError

/-- the groups of `entities_regex` -/
inductive DG where
  | number | hex | named
  deriving DecidableEq, Repr

def DG.ofName : String → Option DG
  | "number" => some .number
  | "hex" => some .hex
  | "named" => some .named
  | _ => none

/-- deentity.py 15-23: `entities_regex` -/
def entitiesRe : Re DG := alts [
  cat [.cls (.chr '&'), .cls (.chr '#'), .grp .number (plus true (.cls .digit)), .cls (.chr ';')],
  cat [.cls (.chr '&'), .cls (.chr '#'), .cls (.chr 'x'),
    .grp .hex (plus true (.cls (.union (.union (.range 'a' 'f') (.range 'A' 'F')) (.range '0' '9')))), .cls (.chr ';')],
  cat [.cls (.chr '&'), .grp .named (plus true (.cls (.union (.range 'a' 'z') (.range 'A' 'Z')))), .cls (.chr ';')]]

#guard ReParse.sameAs { verbose := true, multi := true, name := DG.ofName }
  (r"(&\#(?P<number>\d+);)" ++ "|" ++ r"(&\#x(?P<hex>[a-fA-F0-9]+);)" ++ "|" ++ r"(&(?P<named>[a-zA-Z]+);)") entitiesRe

/-- deentity.py 66-74: `replace_entity` -/
def replaceEntity (m : Match DG) : Except PyErr Str :=
  match m.get .number, m.get .hex, m.get .named with
  | some t, _, _ => replaceNumber t
  | none, some t, _ => replaceHex t
  | none, none, some t => replaceNamed t
  | none, none, none => .error .user

/-- deentity.py 64-76: `replace_all` (`r.sub` with a function that may raise) -/
def replaceAll (content : Str) : Except PyErr Str :=
  (entitiesRe.scan content).foldr (fun seg acc => do
    let a ← match seg with
      | .skip c => .ok [c]
      | .hit m => replaceEntity m
    let b ← acc
    return a ++ b) (.ok [])

#guard replaceAll c!"-=[&nbsp;&gt;&#62;&#x3E;nice&lt;&#60;&#x3C;&nbsp;]=-" = .ok c!"-=[ >>>nice<<< ]=-"
#guard replaceAll c!"-=[M&uuml;hlheim]=-" = .ok c!"-=[Mühlheim]=-"
#guard replaceNumber c!"126" = .ok c!"~"
#guard replaceHex c!"7E" = .ok c!"~"
#guard replaceNamed c!"amp" = .ok c!"&"

end Verif.Html
