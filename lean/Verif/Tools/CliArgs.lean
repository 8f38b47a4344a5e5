import Verif.Tools.Cli

/-!
# The arguments of the command line tools

Models the argument parser that `/repo/creole/cmdline.py` 17-42 builds, i.e. what `argparse.ArgumentParser.parse_args` of
CPython 3.11.10 does for the options `-h`, `--help`, `--version`, `--encoding` and the positional arguments `sourcefile`
and `destination`.  (`argparse.py` is not part of /repo; its functions are cited by name.)  The texts that are printed are
not modelled.
-/

namespace Verif.CliArgs

open Verif Py

/-- the actions of the options -/
inductive Act where
  | help
  | version
  | encoding
  deriving DecidableEq, Repr

/-- cmdline.py 19-35 (`-h` and `--help` are added by argparse): the option strings, in the order of their definition -/
def optionStrings : List (Str × Act) :=
  [(c!"-h", .help), (c!"--help", .help), (c!"--version", .version), (c!"--encoding", .encoding)]

/-- an option as `_parse_optional` finds it: its action (`none`: unknown), its full name, whether a `=` was written, and
the argument in the same word -/
structure OptTup where
  action : Option Act
  name : Str
  sep : Bool
  explicit : Option Str
  deriving DecidableEq, Repr

/-- what a word of the command line is -/
inductive Word where
  | positional
  | option (t : OptTup)
  | ambiguous
  deriving DecidableEq, Repr

/-- one or more decimal digits, up to the end (`$` also matches before a final line feed) -/
def digitsEnd (s : Str) : Bool :=
  let t := s.dropWhile fun c => (Py.decimal? c).isSome
  decide (t.length < s.length) && (t == [] || t == ['\n'])

/-- `_negative_number_matcher`: `^-\d+$|^-\d*\.\d+$` -/
def negNumber : Str → Bool
  | '-' :: s => digitsEnd s ||
    match s.dropWhile fun c => (Py.decimal? c).isSome with
    | '.' :: t => digitsEnd t
    | _ => false
  | _ => false

/-- `_get_option_tuples`: the options a word can be an abbreviation of.  (The word has at least two characters, begins
with `-` and is not an option string.) -/
def optionTuples (w : Str) : List OptTup :=
  if (w.drop 1).head? = some '-' then
    match splitOnce '=' w with
    | some (p, x) => (optionStrings.filter fun o => p.isPrefixOf o.1).map fun o => ⟨some o.2, o.1, true, some x⟩
    | none => (optionStrings.filter fun o => w.isPrefixOf o.1).map fun o => ⟨some o.2, o.1, false, none⟩
  else
    optionStrings.filterMap fun o =>
      if o.1 = w.take 2 then some ⟨some o.2, o.1, false, some (w.drop 2)⟩
      else if w.isPrefixOf o.1 then some ⟨some o.2, o.1, false, none⟩ else none

/-- `_parse_optional` -/
def parseOptional (w : Str) : Word :=
  if w.head? ≠ some '-' then .positional
  else match optionStrings.lookup w with
  | some a => .option ⟨some a, w, false, none⟩
  | none =>
    if w.length = 1 then .positional
    else
      let abbreviated : Word :=
        match optionTuples w with
        | [t] => .option t
        | _ :: _ :: _ => .ambiguous
        | [] => if negNumber w then .positional else if w.contains ' ' then .positional else .option ⟨none, w, false, none⟩
      match splitOnce '=' w with
      | some (p, x) =>
        match optionStrings.lookup p with
        | some a => .option ⟨some a, p, true, some x⟩
        | none => abbreviated
      | none => abbreviated

/-- an entry of `arg_strings_pattern`, with the word: `A`, `-`, or `O` -/
inductive Tok where
  | arg (w : Str)
  | dashes
  | opt (t : OptTup) (w : Str)
  deriving DecidableEq, Repr

/-- how the program ends before it converts anything -/
inductive Exit where
  /-- a text is printed (exit code 0) -/
  | help
  | version
  /-- the usage and an error are printed (exit code 2) -/
  | usage
  deriving DecidableEq, Repr

/-- `_parse_known_args`: the loop that classifies the words -/
def classify : List Str → Except Exit (List Tok)
  | [] => .ok []
  | w :: ws =>
    if w = c!"--" then .ok (.dashes :: ws.map .arg)
    else match parseOptional w with
      | .positional => (classify ws).map fun ts => .arg w :: ts
      | .option t => (classify ws).map fun ts => .opt t w :: ts
      | .ambiguous => .error .usage

/-- the word of an entry -/
def Tok.word : Tok → Str
  | .arg w => w
  | .dashes => c!"--"
  | .opt _ w => w

/-- the entry is an option -/
def Tok.isOpt : Tok → Bool
  | .opt _ _ => true
  | _ => false

/-- the entry is a `--` -/
def Tok.isDashes : Tok → Bool
  | .dashes => true
  | _ => false

/-- What is known so far: the positional arguments (`none`: the empty list instead of a string), the encoding, and the
words nothing could be done with. -/
structure St where
  names : List (Option Str) := []
  encoding : Str := c!"utf-8"
  extras : List Str := []
  deriving DecidableEq, Repr

/-- `_get_values` for a positional argument: the first `--` is removed; if not exactly one string is left, the value is
the list -/
def getValue (slice : List Str) : Option Str :=
  match slice.erase c!"--" with
  | [v] => some v
  | _ => none

/-- one match of `(-*A-*)`: the words, and what follows -/
def takeOne (ts : List Tok) : Option (List Str × List Tok) :=
  match ts.dropWhile Tok.isDashes with
  | .arg w :: rest =>
    some ((ts.takeWhile Tok.isDashes).map Tok.word ++ w :: (rest.takeWhile Tok.isDashes).map Tok.word,
      rest.dropWhile Tok.isDashes)
  | _ => none

/-- `consume_positionals`: as many of the `n` missing positional arguments as there are -/
def consumePositionals : Nat → List Tok → St → List Tok × St
  | 0, ts, st => (ts, st)
  | n + 1, ts, st =>
    match takeOne ts with
    | none => (ts, st)
    | some (slice, rest) => consumePositionals n rest { st with names := st.names ++ [getValue slice] }

/-- `consume_optional` for `-h` with further characters in the word: `-hh`, `-hx`, ... -/
def shortTail : Str → Exit
  | [] => .help
  | 'h' :: '=' :: _ => .usage
  | 'h' :: x => shortTail x
  | '-' :: _ => .usage
  | _ => .help

/-- `consume_optional` -/
def consumeOptional (t : OptTup) (w : Str) (rest : List Tok) (st : St) : Except Exit (List Tok × St) :=
  match t.action with
  | none => .ok (rest, { st with extras := st.extras ++ [w] })
  | some .encoding =>
    match t.explicit with
    | some x => .ok (rest, { st with encoding := x })
    | none =>
      match rest with
      | .arg v :: rest' => .ok (rest', { st with encoding := v })
      | _ => .error .usage
  | some a =>
    match t.explicit with
    | none => .error (if a = .version then .version else .help)
    | some x =>
      if (t.name.drop 1).head? ≠ some '-' ∧ x ≠ [] then
        if t.sep then .error .usage else .error (shortTail x)
      else .error .usage

/-- `_parse_known_args`: positional arguments and options are consumed alternately, until the last option -/
def loop : Nat → List Tok → St → Except Exit St
  | 0, _, _ => .error .usage
  | fuel + 1, ts, st =>
    if ts.any Tok.isOpt then
      match ts with
      | .opt t w :: rest => (consumeOptional t w rest st).bind fun r => loop fuel r.1 r.2
      | _ =>
        let r := consumePositionals (2 - st.names.length) ts st
        if r.1.length < ts.length then loop fuel r.1 r.2
        else
          let st' := { st with extras := st.extras ++ (ts.takeWhile fun t => !t.isOpt).map Tok.word }
          match ts.dropWhile fun t => !t.isOpt with
          | .opt t w :: rest => (consumeOptional t w rest st').bind fun r => loop fuel r.1 r.2
          | _ => .ok st'
    else
      let r := consumePositionals (2 - st.names.length) ts st
      .ok { r.2 with extras := r.2.extras ++ r.1.map Tok.word }

/-- what the tool does -/
inductive Action where
  | exit (e : Exit)
  /-- `convert(sourcefile, destination, encoding)` -/
  | convert (source destination encoding : Str)
  /-- one of the names is a list: `codecs.open` raises a `TypeError` -/
  | typeError
  deriving DecidableEq, Repr

/-- cmdline.py 17-42: `parse_args()` and what is done with the result.  `argv` is `sys.argv[1:]`. -/
def parseArgs (argv : List Str) : Action :=
  match classify argv with
  | .error e => .exit e
  | .ok ts =>
    match loop (ts.length + 1) ts {} with
    | .error e => .exit e
    | .ok st =>
      match st.names, st.extras with
      | [some s, some d], [] => .convert s d st.encoding
      | [_, _], [] => .typeError
      | _, _ => .exit .usage

/-- A run of a tool (cmdline.py 17-58, 61-74): the arguments are read, then `convert` does its steps.  The codecs are
looked up by name.  A program that ends before `convert`, or whose `codecs.open` gets a list instead of a name, has
changed nothing. -/
inductive RunsTo (convert : Str → Option Str) (codec : Str → Tools.Codec) (argv : List Str) (fs : Tools.FS) :
    Tools.FS × Tools.Phase → Prop where
  | exit {e : Exit} : parseArgs argv = .exit e → RunsTo convert codec argv fs (fs, .done)
  | typeError : parseArgs argv = .typeError → RunsTo convert codec argv fs (fs, .raised)
  | convert {s d e : Str} {st : Tools.FS × Tools.Phase} : parseArgs argv = .convert s d e →
      Tools.Reaches ⟨convert, s, d, codec e⟩ fs st → RunsTo convert codec argv fs st

end Verif.CliArgs
