import Verif.Creole.Emitter
import Verif.Emit.Emitter
import Verif.Py.StrLemmas

/-!
# README generation

Models `/repo/creole/setup_utils.py`.  Files are modelled by their decoded text (the codec is assumed to read back what it
wrote); reading a file in text mode translates line ends to `\n` (`crlf`), writing does not change them (POSIX).  The
renderers of docutils and `markdown` are parameters.  Messages printed to the terminal are not modelled.
-/

namespace Verif.Tools

open Verif Py

/-- the text files: what is stored under a name -/
abbrev Files := Str → Option Str

def Files.set (fs : Files) (p text : Str) : Files := fun q => if q = p then some text else fs q

/-- exceptions of the functions of this module -/
inductive SetupErr where
  | assertion
  | notFound
  /-- `sys.exit` -/
  | exit
  | py (e : PyErr)
  deriving DecidableEq, Repr

/-- the line ends known to `str.splitlines` -/
def isLineBreak (c : Char) : Bool :=
  c = '\n' || c = '\r' || c = '\x0b' || c = '\x0c' || c = '\x1c' || c = '\x1d' || c = '\x1e' || c = '\u0085' ||
  c = '\u2028' || c = '\u2029'

/-- put a character in front of the first line -/
def consLine (c : Char) : List Str → List Str
  | [] => [[c]]
  | l :: ls => (c :: l) :: ls

/-- `text.splitlines()` -/
def splitlines : Str → List Str
  | [] => []
  | '\r' :: '\n' :: s => [] :: splitlines s
  | c :: s => if isLineBreak c then [] :: splitlines s else consLine c (splitlines s)

/-- iterating over a text file: the lines with their `\n` -/
def fileLines : Str → List Str
  | [] => []
  | c :: s => if c = '\n' then [c] :: fileLines s else consLine c (fileLines s)

#guard splitlines c!"a\r\nb\n\nc\x0bd\n" = [c!"a", c!"b", c!"", c!"c", c!"d"]
#guard fileLines c!"a\nb\n\nc\x0bd" = [c!"a\n", c!"b\n", c!"\n", c!"c\x0bd"]

/-- setup_utils.py 164-170, 212-218: the comparison of the generated text with the file -/
def changed (new old : Str) : Bool :=
  ((splitlines new).zip (fileLines (crlf old))).any fun (n, o) => rstrip n ≠ rstrip o

/-- setup_utils.py 184-188, 232-236: the note about the generation; `dt` is the printed modification time -/
def noteText (filename dt : Str) : Str :=
  c!"``Note: this file is generated from " ++ filename ++ c!" " ++ dt ++ c!" with \"python-creole\"``"

/-- setup_utils.py 177-188, 225-236: what is written -/
def newContent (text filename dt : Str) : Str := text ++ c!"\n\n------------\n\n" ++ noteText filename dt

/-- text before the last `n` line feeds, or before the first one if there are not more than `n`: `s.rsplit('\n', n)[0]` -/
def rsplitHead (n : Nat) (s : Str) : Str :=
  let parts := splitChar '\n' s
  join c!"\n" (parts.take (max 1 (parts.length - n)))

#guard rsplitHead 4 c!"a\nb\n\n---\n\nnote" = c!"a\nb"
#guard rsplitHead 4 c!"a\nb" = c!"a"

/-- generation of a text from the files: the text, and the files afterwards -/
abbrev Gen := Files → Except SetupErr (Str × Files)

/-- an exception of a converter -/
def liftPy {α : Type} : Except PyErr α → Except SetupErr α
  | .ok a => .ok a
  | .error e => .error (.py e)

/-- setup_utils.py 107-126: `_generate_rst_readme`.  `renders` tells whether docutils accepts a text. -/
def generateRst (renders : Str → Bool) (creole : Str) : Gen := fun fs =>
  match fs creole with
  | none => .error .notFound
  | some raw => do
    let html ← liftPy (Creole.creole2html {} (strip (crlf raw)))
    let rest ← liftPy (Emit.html2rest html .raise)
    if renders rest then return (rest, fs) else .error .exit

/-- setup_utils.py 129-144: `_generate_markdown_readme`; it also writes the HTML file.  The final rendering cannot fail. -/
def generateMarkdown (netlocOk : Str → Bool) (creole html : Str) : Gen := fun fs =>
  match fs creole with
  | none => .error .notFound
  | some raw => do
    let text ← liftPy (Creole.creole2html {} (strip (crlf raw)))
    let fs := fs.set html text
    let markdown ← liftPy (Emit.html2markdown netlocOk text .raise)
    return (markdown, fs)

/-- setup_utils.py 147-191 (`update_rst_readme`), 194-239 (`update_markdown_readme`).  The result tells whether the file
was rewritten. -/
def updateReadme (gen : Gen) (creole out filename dt : Str) : Files → Except SetupErr (Bool × Files) := fun fs =>
  match fs creole with
  | none => .error .assertion
  | some _ => do
    let (text, fs) ← gen fs
    match fs out with
    | none => .error .notFound
    | some old => if changed text old then return (true, fs.set out (newContent text filename dt)) else return (false, fs)

/-- setup_utils.py 242-256 (`assert_rst_readme`), 259-273 (`assert_markdown_readme`) -/
def assertReadme (gen : Gen) (out : Str) : Files → Except SetupErr Files := fun fs => do
  let (text, fs) ← gen fs
  match fs out with
  | none => .error .notFound
  | some raw =>
    let content := crlf raw
    if content = [] then .error .assertion
    else if text ≠ rsplitHead 4 content then .error .assertion
    else return fs

/-- While the file is being rewritten, and after a crash in that time, it holds the first part of the new content. -/
def Interrupted (fs : Files) (out text filename dt : Str) (fs' : Files) : Prop :=
  ∃ written, written <+: newContent text filename dt ∧ fs' = fs.set out written

/-! ## `get_long_description` -/

/-- setup_utils.py 30-33: `RAISE_ERRORS_ARGS` -/
def raiseErrorsArgs : List Str := [c!"check", c!"register", c!"sdist", c!"bdist", c!"upload", c!"--long-description",
  c!"--restructuredtext"]

/-- setup_utils.py 36-47: `should_raise_errors()` -/
def shouldRaiseErrors (argv : List Str) : Bool :=
  if argv.length = 1 then true else raiseErrorsArgs.any fun a => argv.contains a

/-- what calling `html2rest` with a keyword argument it does not have says -/
def badKeyword : Str := c!"html2rest() got an unexpected keyword argument 'emitter_kwargs'"

/-- setup_utils.py 50-104: `get_long_description`.  `content` is the file (`none`: there is none), `str` gives the text
of an exception.  `html2rest` (`/repo/creole/__init__.py` 129-131) has no parameter `emitter_kwargs`, so that lines 78-81
always raise a `TypeError`, and the `else` branch (88-102) is never reached. -/
def getLongDescription (str : SetupErr → Str) (raiseErrors : Bool) (content : Option Str) : Except SetupErr Str :=
  let origin := strip (content.getD [])
  let attempt : Except SetupErr Str :=
    match content with
    | none => .error .notFound
    | some _ =>
      match Creole.creole2html {} origin with
      | .error e => .error (.py e)
      | .ok _ => .error (.py (.typeError badKeyword))
  match attempt with
  | .ok rest => .ok rest
  | .error e => if raiseErrors then .error e else .ok (c!"[Error: " ++ str e ++ c!"]\n" ++ origin)

end Verif.Tools
