import Verif.Tools.CliArgs

/-!
# Command lines, evaluated on the model

The expected results are those of `argparse` of CPython 3.11.10 for a parser with the same arguments as the one of
`/repo/creole/cmdline.py` 17-35.  These are tests of the model, not proofs.
-/

namespace Verif.CliArgs.Tests

open Verif CliArgs

def show' : Action → String
  | .exit .help => "H"
  | .exit .version => "V"
  | .exit .usage => "U"
  | .typeError => "T"
  | .convert s d e => "C|" ++ String.ofList s ++ "|" ++ String.ofList d ++ "|" ++ String.ofList e

def expected : List (List String × String) := [
  (["--", "--encoding", "w"], "C|--encoding|w|utf-8"),
  (["--enc=a b", "y", "z"], "C|y|z|a b"),
  (["w", "--encoding x"], "C|w|--encoding x|utf-8"),
  (["x", "--e=q", "x"], "C|x|x|q"),
  (["x", "y", "--"], "C|x|y|utf-8"),
  (["--", "--encoding=--", "-5 "], "C|--encoding=--|-5 |utf-8"),
  (["--", "z", "-hh=a"], "C|z|-hh=a|utf-8"),
  (["--encoding", "x", "z", "y"], "C|z|y|x"),
  (["--", "-h=x", "-.5"], "C|-h=x|-.5|utf-8"),
  (["w", "w", "--e="], "C|w|w|"),
  (["--", "y", "y"], "C|y|y|utf-8"),
  (["-.5", "-5 "], "C|-.5|-5 |utf-8"),
  (["y", "--encoding", "-5", "-.5"], "C|y|-.5|-5"),
  (["-5 ", "--", "x"], "C|-5 |x|utf-8"),
  (["-1.5", "--e=q", "w"], "C|-1.5|w|q"),
  (["z", "--", "-hx"], "C|z|-hx|utf-8"),
  (["", "--e=q", "x"], "C||x|q"),
  (["--e=q", "--", "x", "-a b"], "C|x|-a b|q"),
  (["-5", "w", "--e=q"], "C|-5|w|q"),
  (["--", "--e=q", "-5"], "C|--e=q|-5|utf-8"),
  (["--", "w", "-5 "], "C|w|-5 |utf-8"),
  (["y", "--e=q", "y"], "C|y|y|q"),
  (["--e=q", "--e=q", "w", "--enc=a b", "-5"], "C|w|-5|a b"),
  (["-1.5", "y"], "C|-1.5|y|utf-8"),
  (["--e=", "-.5", "w", "--e=q"], "C|-.5|w|q"),
  (["w", "-1\n"], "C|w|-1\n|utf-8"),
  (["--encoding x", "x"], "C|--encoding x|x|utf-8"),
  (["x", "--", "--help"], "C|x|--help|utf-8"),
  (["--", "-h x", "--help="], "C|-h x|--help=|utf-8"),
  (["z", "--q x"], "C|z|--q x|utf-8"),
  (["--q x", "z"], "C|--q x|z|utf-8"),
  (["--e=q", "-", "y"], "C|-|y|q"),
  (["--", "--ver", "-hh=a"], "C|--ver|-hh=a|utf-8"),
  (["--encoding", "-1\n", "-٣", "y"], "C|-٣|y|-1\n"),
  (["z", "--q x", "--"], "C|z|--q x|utf-8"),
  (["--", "z", "w"], "C|z|w|utf-8"),
  (["x", "z"], "C|x|z|utf-8"),
  (["--e=q", "x", "w"], "C|x|w|q"),
  (["z", "--encoding=l", "y"], "C|z|y|l"),
  (["x=y", "w"], "C|x=y|w|utf-8"),
  (["x", "w"], "C|x|w|utf-8"),
  (["y", "--e=q", "-1\n", "--"], "C|y|-1\n|q"),
  (["--", "--encoding", "--help"], "C|--encoding|--help|utf-8"),
  (["x", "--", "-a b"], "C|x|-a b|utf-8"),
  (["--enc=a b", "z", "z"], "C|z|z|a b"),
  (["z", "x", "--"], "C|z|x|utf-8"),
  (["-٣", "--", "-h-"], "C|-٣|-h-|utf-8"),
  (["x", "--encoding=--", "y"], "C|x|y|--"),
  (["--encoding", "x=y", "x", "y"], "C|x|y|x=y"),
  (["--e=q", "y", "x"], "C|y|x|q"),
  (["--e=q", "--", "-1.5", "--"], "T"),
  (["--", "--e=q", "--"], "T"),
  (["--", "--encoding", "--"], "T"),
  (["--", "--", "--"], "T"),
  (["--", "--ver", "--"], "T"),
  (["y", "--", "--"], "T"),
  (["--", "-hhx=", "--"], "T"),
  (["", "--", "--"], "T"),
  (["--e=q", "-h"], "H"),
  (["--encoding", "-٣", "--help"], "H"),
  (["--he", "-1.5", "--e=", "-hh=a", "x"], "H"),
  (["w", "-e", "y", "y", "-hx", "y"], "H"),
  (["-h", "x", "", "--"], "H"),
  (["", "-h", "--encoding=l"], "H"),
  (["--q x", "-hx", "w", "--encoding=l", "x"], "H"),
  (["--e=", "-hhx=", "-", "--"], "H"),
  (["-hh", "--version", "--encoding", "z", "-", "z"], "H"),
  (["--enc=a b", "-hhx=", "w", "--x=1"], "H"),
  (["-h x", "--v=", "--encoding"], "H"),
  (["y", "w", "--help"], "H"),
  (["w", "--e=", "-hhx=", "x"], "H"),
  (["x", "y", "--encoding x", "-h x"], "H"),
  (["-hhx=", "x", "--", "x"], "H"),
  (["--ver", "z", "x"], "V"),
  (["--ver", "y", "-.5"], "V"),
  (["--ver", "-1\n"], "V"),
  (["--version", "--encoding=l", "y", "y"], "V"),
  (["--ver", "x", "--encoding=--"], "V"),
  (["--ver"], "V"),
  (["x", "--ver", "--e=q"], "V"),
  (["-=", "--ver", "w", "--e=q", "--e=q"], "V"),
  (["", "--version", "-hh=a", "-hx"], "V"),
  (["--version", "-hx", "-1\n", "x", "-a b"], "V"),
  (["y", "--encoding=l", "w", "--encoding"], "U"),
  (["-e", "y", "--v=", "w"], "U"),
  (["--e=q", "-h=", "-hx", ""], "U"),
  (["-5.", "--encoding"], "U"),
  (["--encoding", "-.5"], "U"),
  (["--encodings", "z", "--encoding=--", "-h=", "--e=", "--"], "U"),
  (["-", "y", "-h=", "x", "z"], "U"),
  (["y", "y", "--", "-h="], "U"),
  (["-٣", "x", "z", "w"], "U"),
  (["--=", "--=", "--", "--e=q", "--e", "--encoding"], "U"),
  (["--", "--encoding", "--q x", "-e"], "U"),
  (["-5 ", "y", "w"], "U"),
  (["z", "w", "w"], "U"),
  (["z", "--q x", "w"], "U"),
  (["--encoding", "-", "w"], "U"),
  (["w", "-", "--encoding", "--encodings", "-h="], "U"),
  (["w", "--e=q", "--", "--encoding x", "y"], "U"),
  (["--", "--="], "U"),
  (["-e", "-=", "--q x", "y"], "U"),
  (["x=y", "y", "-1.5", "--v="], "U"),
  (["--", "--ver", "--", "-a b"], "U"),
  (["x", "--encoding", "-hh", "-h=x"], "U"),
  (["", "--"], "U"),
  (["-٣", "--encoding", "--", "--", "z"], "U"),
  (["x", "-5 ", "-a b"], "U"),
  (["-٣", "--", "--q x", "--e=q", "--encoding"], "U"),
  (["-hh=", "x", "--encoding"], "U"),
  (["y", "-5", "--help="], "U"),
  (["z", "-e", "x", "z", "--", "-٣"], "U"),
  (["--e=q", "w", "-hh=a"], "U"),
  (["--", "z", "z", "x", "-x", "-٣"], "U"),
  (["--=", "-a b", "x", "--ver", "--encoding=l", "--"], "U"),
  (["--encoding", "--e=", "--encoding", "y"], "U"),
  (["-٣", "--e=q", "x", "-"], "U"),
  (["z", "y", "w", "--encoding", "w", "-5 "], "U"),
  (["--encoding", "-hx", "--x=1"], "U"),
  (["-.5", "y", "-1.5", "--", "--ver"], "U"),
  (["--e=q", "--q x", "-5 ", "-.5", "y"], "U"),
  (["-e", "-hh=a", "x", "--=", "--encodings"], "U"),
  (["-h=", "x"], "U"),
  (["x=y", "--encoding", "--e=q"], "U"),
  (["--encoding", "z"], "U"),
  (["--", "--encoding", "--version", "--encoding", "--e=q"], "U"),
  (["--encoding=--", "w", "--"], "U"),
  (["--v=", "-1.5", "--"], "U"),
  (["--encoding", "--e=q", "z"], "U"),
  (["-1\n", "--="], "U"),
  (["--encoding", "--q x", "x"], "U"),
  (["-x", "-h-"], "U"),
  (["z", "--encoding x", "--encoding", "--he"], "U")]

#guard expected.all fun c => show' (parseArgs (c.1.map String.toList)) == c.2

end Verif.CliArgs.Tests
