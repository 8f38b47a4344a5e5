import Verif.Creole.Emitter
import Verif.Emit.Emitter

/-!
# The command line tool

Models `/repo/creole/cmdline.py` as a transition system over a file system, so that a crash can happen between any two
steps.  The argument parser is in `Tools/CliArgs.lean`; the messages printed to the terminal are not modelled.
-/

namespace Verif.Tools

open Verif Py

/-- A file system: names refer to files (hard and symbolic links: several names may refer to the same file); files have
contents (bytes). -/
structure FS where
  file : Str → Option Nat
  data : Nat → List Nat

/-- the content of the file behind a name -/
def FS.read (fs : FS) (p : Str) : Option (List Nat) := (fs.file p).map fs.data

/-- the names refer to the same existing file -/
def FS.same (fs : FS) (p q : Str) : Prop := fs.file p = fs.file q ∧ fs.file p ≠ none

/-- change the content of a file -/
def FS.put (fs : FS) (f : Nat) (bytes : List Nat) : FS := { fs with data := fun g => if g = f then bytes else fs.data g }

/-- create an empty file -/
def FS.create (fs : FS) (p : Str) (f : Nat) : FS :=
  { file := fun q => if q = p then some f else fs.file q, data := fun g => if g = f then [] else fs.data g }

/-- a codec: whether it is known, its encoder and decoder (`none` is a `UnicodeError`) -/
structure Codec where
  known : Bool
  encode : Str → Option (List Nat)
  decode : List Nat → Option Str

/-- the arguments of the tool: the converter (`none` is an exception), the file names and the codec -/
structure Job where
  convert : Str → Option Str
  source : Str
  destination : Str
  codec : Codec

/-- where the program is -/
inductive Phase where
  | start
  /-- the source file is open -/
  | opened (src : Nat)
  /-- both files are open -/
  | both (src dst : Nat)
  /-- the content has been read -/
  | content (dst : Nat) (text : Str)
  /-- the converter has returned -/
  | result (dst : Nat) (text : Str)
  /-- these bytes have still to be written to the disk -/
  | writing (dst : Nat) (bytes : List Nat)
  | done
  /-- an exception has ended the program -/
  | raised
  /-- the program was killed, or an input/output error has ended it -/
  | crashed
  deriving DecidableEq

/-- cmdline.py 46-58: `convert(sourcefile, destination, encoding)`, one step -/
inductive Step (job : Job) : FS × Phase → FS × Phase → Prop where
  /-- `codecs.open(sourcefile, "r", ...)` -/
  | openSource {fs : FS} {src : Nat} : job.codec.known = true → fs.file job.source = some src →
      Step job (fs, .start) (fs, .opened src)
  | noSource {fs : FS} : fs.file job.source = none → Step job (fs, .start) (fs, .raised)
  | noCodec {fs : FS} : job.codec.known = false → Step job (fs, .start) (fs, .raised)
  /-- `codecs.open(destination, "w", ...)`: an existing file is truncated -/
  | truncate {fs : FS} {src dst : Nat} : fs.file job.destination = some dst →
      Step job (fs, .opened src) (fs.put dst [], .both src dst)
  /-- ... and a missing one created -/
  | create {fs : FS} {src dst : Nat} : fs.file job.destination = none → (∀ p, fs.file p ≠ some dst) →
      Step job (fs, .opened src) (fs.create job.destination dst, .both src dst)
  /-- `infile.read()` -/
  | read {fs : FS} {src dst : Nat} {text : Str} : job.codec.decode (fs.data src) = some text →
      Step job (fs, .both src dst) (fs, .content dst text)
  | badInput {fs : FS} {src dst : Nat} : job.codec.decode (fs.data src) = none → Step job (fs, .both src dst) (fs, .raised)
  /-- `self.convert_func(content)` -/
  | convert {fs : FS} {dst : Nat} {text out : Str} : job.convert text = some out →
      Step job (fs, .content dst text) (fs, .result dst out)
  | badContent {fs : FS} {dst : Nat} {text : Str} : job.convert text = none → Step job (fs, .content dst text) (fs, .raised)
  /-- `outfile.write(converted)`: encodes and buffers -/
  | write {fs : FS} {dst : Nat} {out : Str} {bytes : List Nat} : job.codec.encode out = some bytes →
      Step job (fs, .result dst out) (fs, .writing dst bytes)
  | badOutput {fs : FS} {dst : Nat} {out : Str} : job.codec.encode out = none → Step job (fs, .result dst out) (fs, .raised)
  /-- some of the buffered bytes reach the disk -/
  | flush {fs : FS} {dst : Nat} {some more : List Nat} :
      Step job (fs, .writing dst (some ++ more)) (fs.put dst (fs.data dst ++ some), .writing dst more)
  /-- both files are closed -/
  | close {fs : FS} {dst : Nat} : Step job (fs, .writing dst []) (fs, .done)
  | crash {fs : FS} {ph : Phase} : ph ≠ .done → ph ≠ .raised → ph ≠ .crashed → Step job (fs, ph) (fs, .crashed)

/-- any number of steps -/
inductive Steps (job : Job) : FS × Phase → FS × Phase → Prop where
  | refl (s : FS × Phase) : Steps job s s
  | tail {s t u : FS × Phase} : Steps job s t → Step job t u → Steps job s u

/-- what the file system looks like, and where the program is, at some moment of a run that started on `fs` -/
def Reaches (job : Job) (fs : FS) (s : FS × Phase) : Prop := Steps job (fs, .start) s

/-- an exception becomes `none` -/
def toOption {ε α : Type} : Except ε α → Option α
  | .ok a => some a
  | .error _ => none

/-- cmdline.py 61-62: `cli_creole2html` -/
def cliCreole2html (source destination : Str) (codec : Codec) : Job :=
  ⟨fun t => toOption (Creole.creole2html {} t), source, destination, codec⟩

/-- cmdline.py 65-66: `cli_html2creole` -/
def cliHtml2creole (source destination : Str) (codec : Codec) : Job :=
  ⟨fun t => toOption (Emit.html2creole t), source, destination, codec⟩

/-- cmdline.py 69-70: `cli_html2rest` -/
def cliHtml2rest (source destination : Str) (codec : Codec) : Job :=
  ⟨fun t => toOption (Emit.html2rest t), source, destination, codec⟩

/-- cmdline.py 73-74: `cli_html2textile` -/
def cliHtml2textile (source destination : Str) (codec : Codec) : Job :=
  ⟨fun t => toOption (Emit.html2textile t), source, destination, codec⟩

end Verif.Tools
