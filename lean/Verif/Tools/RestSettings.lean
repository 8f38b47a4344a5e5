import Verif.Tools.Rest
import Verif.Py.Dict

/-!
# The settings that docutils is called with

Models `rest2html` of `/repo/creole/rest_tools/clean_writer.py`, and the settings of `pypi_rest2html` in
`/repo/creole/rest_tools/pypi_rest2html.py`.  The functions of docutils are parameters.
-/

namespace Verif.Tools

open Verif Py

/-- the value of a setting -/
inductive Setting where
  | bool (b : Bool)
  | int (n : Int)
  | str (s : Str)
  /-- anything else, by its `repr()` -/
  | other (s : Str)
  deriving DecidableEq, Repr

/-- `d.update(kwargs)` for dicts -/
def updateDict {α : Type} (d : Dict α) : Dict α → Dict α
  | [] => d
  | (k, v) :: rest => updateDict (dictSet k v d) rest

/-- clean_writer.py 207-213: the settings of `rest2html(content, enable_exit_status, **kwargs)` -/
def rest2htmlSettings (kwargs : Dict Setting) : Dict Setting :=
  updateDict [(c!"input_encoding", .str c!"unicode"), (c!"doctitle_xform", .bool false), (c!"file_insertion_enabled", .bool false),
    (c!"raw_enabled", .bool false)] kwargs

/-- clean_writer.py 190-223: `rest2html`.  `publish` is `publish_parts` with the clean writer: it gets the text, the settings and
`enable_exit_status`, and gives the dict of the parts or an exception of docutils. -/
def rest2html {E X : Type} (keyError : E) (publish : Str → Dict Setting → X → Except E (Dict Str)) (content : Str) (exitStatus : X)
    (kwargs : Dict Setting) : Except E Str :=
  match publish content (rest2htmlSettings kwargs) exitStatus with
  | .error e => .error e
  | .ok parts =>
    match dictGet c!"html_body" parts with
    | some s => .ok s
    | none => .error keyError

/-- pypi_rest2html.py 41-46: the settings of `pypi_rest2html` -/
def pypiSettings : Dict Setting :=
  [(c!"raw_enabled", .int 0), (c!"file_insertion_enabled", .int 0), (c!"halt_level", .int 2), (c!"report_level", .int 5)]

/-- pypi_rest2html.py 36-79: `pypi_rest2html(source)` with the settings that `publish_doctree` (`parse`) and the publisher (`write`)
get -/
def pypiRest2htmlWith {D : Type} (netlocOk : Str → Bool) (parse : Dict Setting → Str → Option D) (nodes : D → List DNode)
    (write : Dict Setting → D → Option Str) (source : Str) : Except RestErr Str :=
  pypiRest2html netlocOk (parse pypiSettings) nodes (write pypiSettings) source

#guard rest2htmlSettings [(c!"traceback", .bool false), (c!"raw_enabled", .bool true)] =
  [(c!"input_encoding", .str c!"unicode"), (c!"doctitle_xform", .bool false), (c!"file_insertion_enabled", .bool false),
    (c!"raw_enabled", .bool true), (c!"traceback", .bool false)]

end Verif.Tools
