import Verif.Emit.QuoteLink
import Verif.Py.StripLemmas

/-!
# The reStructuredText tools

Models `starttag` of `/repo/creole/rest_tools/clean_writer.py` and `/repo/creole/rest_tools/pypi_rest2html.py`.  docutils
is not part of the repository: its attribute encoder, its parser and its writer are parameters.
-/

namespace Verif.Tools

open Verif Py

/-! ## `CleanHTMLTranslator.starttag` -/

/-- the value of an attribute: `None`, a list (with the `str()` of its elements), or anything else (as its `str()`) -/
inductive AttrVal where
  | none
  | list (xs : List Str)
  | str (s : Str)
  deriving DecidableEq, Repr

/-- clean_writer.py 47-49: `IGNORE_ATTR` -/
def ignoreAttr : List Str := [c!"start", c!"class", c!"classes", c!"frame", c!"rules"]

/-- clean_writer.py 50-52: `IGNORE_TAGS` -/
def ignoreTag : List Str := [c!"div"]

/-- `a <= b` for `str` -/
def keyLe : Str → Str → Bool
  | [], _ => true
  | _ :: _, [] => false
  | a :: as, b :: bs => a.toNat < b.toNat || (a == b && keyLe as bs)

/-- insert an item into a sorted list of items -/
def insertItem (a : Str × AttrVal) : List (Str × AttrVal) → List (Str × AttrVal)
  | [] => [a]
  | b :: l => if keyLe a.1 b.1 then a :: b :: l else b :: insertItem a l

/-- `sorted(attributes.items())`, for items with different names -/
def sortItems (l : List (Str × AttrVal)) : List (Str × AttrVal) := l.foldr insertItem []

/-- `name.lower()`.  Simplification: only ASCII letters have a lower case. -/
def lowerName (s : Str) : Str := s.map lowerAscii

/-- clean_writer.py 88-103: the loop over the sorted attributes; an `AssertionError` is `none`.  `attval` is
`self.attval` of docutils. -/
def attrParts (attval : Str → Str) : List (Str × AttrVal) → Option (List Str)
  | [] => some []
  | (name, value) :: rest =>
    if value = .none then .none
    else
      let name := lowerName name
      if ignoreAttr.contains name then attrParts attval rest
      else
        let value := match value with
          | .none => []
          | .list xs => join c!" " xs
          | .str s => s
        let part := lowerName name ++ c!"=\"" ++ attval value ++ c!"\""
        (attrParts attval rest).map (part :: ·)

/-- clean_writer.py 74-119: `starttag(node, tagname, suffix, empty, **attributes)` (the node is only used for debug
output, which is not modelled).  `attributes` is a `dict`: no name occurs twice, so that sorting the items never compares
two values. -/
def starttag (attval : Str → Str) (tagname suffix : Str) (empty : Bool) (attributes : List (Str × AttrVal)) : Option Str :=
  if ignoreTag.contains tagname then some []
  else
    (attrParts attval (sortItems attributes)).map fun ps =>
      c!"<" ++ join c!" " (tagname :: ps) ++ (if empty then c!" /" else []) ++ c!">" ++ suffix

#guard starttag id c!"a" c!"" false [(c!"href", .str c!"x"), (c!"Class", .list [c!"u", c!"v"]), (c!"HREF2", .list [c!"u", c!"v"])]
  = some c!"<a href2=\"u v\" href=\"x\">"

/-! ## `pypi_rest2html` -/

/-- a node of a docutils document: a text, or an element with its attributes `refuri` and `uri` -/
structure DNode where
  isText : Bool
  refuri : Option Str
  uri : Option Str
  deriving DecidableEq, Repr

/-- exceptions of `pypi_rest2html` -/
inductive RestErr where
  | transform
  | py (e : PyErr)
  /-- raised by docutils -/
  | docutils
  deriving DecidableEq, Repr

instance {α : Type} [DecidableEq α] : DecidableEq (Except RestErr α) := fun a b =>
  match a, b with
  | .ok x, .ok y => if h : x = y then isTrue (by rw [h]) else isFalse (by simp [h])
  | .error x, .error y => if h : x = y then isTrue (by rw [h]) else isFalse (by simp [h])
  | .ok _, .error _ => isFalse (by simp)
  | .error _, .ok _ => isFalse (by simp)

/-- pypi_rest2html.py 31-33: `ALLOWED_SCHEMES` -/
def allowedSchemes : List Str := [c!"file", c!"ftp", c!"gopher", c!"hdl", c!"http", c!"https", c!"imap", c!"mailto", c!"mms",
  c!"news", c!"nntp", c!"prospero", c!"rsync", c!"rtsp", c!"rtspu", c!"sftp", c!"shttp", c!"sip", c!"sips", c!"snews",
  c!"svn", c!"svn+ssh", c!"telnet", c!"wais", c!"irc"]

/-- pypi_rest2html.py 52-62: the loop over all nodes -/
def checkLinks (netlocOk : Str → Bool) : List DNode → Except RestErr Unit
  | [] => .ok ()
  | n :: ns =>
    if n.isText then checkLinks netlocOk ns
    else
      match n.refuri.or n.uri with
      | none => checkLinks netlocOk ns
      | some uri =>
        match Emit.urlparse netlocOk uri with
        | .error e => .error (.py e)
        | .ok o => if allowedSchemes.contains o.scheme then checkLinks netlocOk ns else .error .transform

/-- pypi_rest2html.py 36-79: `pypi_rest2html(source)`.  `parse` is `publish_doctree` (an exception is `none`), `nodes` is
`document.traverse()` and `write` the publisher. -/
def pypiRest2html {D : Type} (netlocOk : Str → Bool) (parse : Str → Option D) (nodes : D → List DNode) (write : D → Option Str)
    (source : Str) : Except RestErr Str :=
  match parse source with
  | none => .error .docutils
  | some document =>
    match checkLinks netlocOk (nodes document) with
    | .error e => .error e
    | .ok () =>
      match write document with
      | none => .error .docutils
      | some body => .ok body

end Verif.Tools
