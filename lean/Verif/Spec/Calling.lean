import Verif.Spec.Calls

/-!
# Texts with places for macros

What a conversion does with macros, also with macros that have a state: it has a text with places for the calls, and fills the
places from left to right.
-/

namespace Verif.Spec.Cr

open Verif Py Creole

/-- a piece of a text with places for calls -/
inductive Hole where
  | text (s : Str)
  | call (c : Call)
  deriving DecidableEq, Repr

/-- `Runs macros name kwargs out macros'`: the macro of this name does `out` when it is called with the arguments `kwargs`,
and the dict is `macros'` afterwards.  A call of a macro with a state is written down in its state, and in those of all
others. -/
inductive Runs (macros : Macros) (name : Str) (kwargs : Dict PVal) : Outcome → Macros → Prop
  | fn {f : Dict PVal → Outcome} (h : dictGet name macros = some (.fn f)) : Runs macros name kwargs (f kwargs) macros
  | obj {past : List MacroCall} {f : List MacroCall → Dict PVal → Outcome} (h : dictGet name macros = some (.obj past f)) :
      Runs macros name kwargs (f past kwargs) (macros.map fun (k, m) => (k, m.record (name, kwargs)))

/-- `Answers verbose macros c s macros'`: with this dict of macros the call `c` gives the text `s`, and the dict is `macros'`
afterwards -/
inductive Answers (verbose : Int) (macros : Macros) (c : Call) : Str → Macros → Prop
  /-- the macro returns a string; the string of a block is followed by a newline -/
  | returns {kwargs : Dict PVal} {s : Str} {macros' : Macros} (ha : string2dict c.args = .ok kwargs)
      (hr : Runs macros c.name (withText c.text kwargs) (.ret s) macros') :
      Answers verbose macros c (s ++ (if c.block then c!"\n" else [])) macros'
  /-- the arguments are not `key=value` pairs: no macro is called -/
  | wrongArgs (ha : string2dict c.args = .error .valueError) :
      Answers verbose macros c (errorLine verbose (c!"Wrong macro arguments: " ++ jsonStr c.args ++ c!" for macro '" ++
        c.name ++ c!"' (maybe wrong macro tag syntax?)")) macros
  /-- there is no macro of this name -/
  | unknown {kwargs : Dict PVal} (ha : string2dict c.args = .ok kwargs) (hm : dictGet c.name macros = none) :
      Answers verbose macros c (errorLine verbose (c!"Macro '" ++ c.name ++ c!"' doesn't exist")) macros
  /-- the macro raises an exception with this message -/
  | raises {kwargs : Dict PVal} {out : Outcome} {msg : Str} {macros' : Macros} (ha : string2dict c.args = .ok kwargs)
      (hr : Runs macros c.name (withText c.text kwargs) out macros') (ho : out = .exc msg ∨ (out = .typeError msg ∧ verbose ≤ 2)) :
      Answers verbose macros c (errorLine verbose (c!"Macro '" ++ c.name ++ c!"' error: " ++ msg)) macros'
  /-- the macro returns something that is not a string -/
  | notString {kwargs : Dict PVal} {descr : Str} {macros' : Macros} (ha : string2dict c.args = .ok kwargs)
      (hr : Runs macros c.name (withText c.text kwargs) (.other descr) macros') :
      Answers verbose macros c (errorLine verbose (c!"Macro '" ++ c.name ++ c!"' doesn't return a unicode string!" ++
        (if verbose > 1 then c!" - " ++ descr else []))) macros'

/-- `Filled verbose macros holes s macros'`: when the places are filled from left to right, each by one call, the text is `s`,
and the dict, which was `macros` in the beginning, is `macros'` in the end -/
inductive Filled (verbose : Int) : Macros → List Hole → Str → Macros → Prop
  | nil {macros : Macros} : Filled verbose macros [] [] macros
  | text {macros macros' : Macros} {holes : List Hole} {s t : Str} (h : Filled verbose macros holes t macros') :
      Filled verbose macros (.text s :: holes) (s ++ t) macros'
  | call {macros macros' macros'' : Macros} {holes : List Hole} {c : Call} {s t : Str} (h : Answers verbose macros c s macros')
      (ht : Filled verbose macros' holes t macros'') : Filled verbose macros (.call c :: holes) (s ++ t) macros''

/-- there is no `TableOfContent` object in the dict (they are left behind by conversions of documents that call `toc`) -/
def NoTocs (macros : Macros) : Prop := ∀ name t, dictGet name macros ≠ some (.toc t)

/-- the calls, among these, that are calls of a macro with a state -/
def callsOf (macros : Macros) (calls : List Call) : List MacroCall :=
  calls.filterMap fun c =>
    match string2dict c.args, dictGet c.name macros with
    | .ok kwargs, some (.obj _ _) => some (c.name, withText c.text kwargs)
    | _, _ => none

end Verif.Spec.Cr
