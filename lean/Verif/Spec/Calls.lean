import Verif.Creole.Emitter
import Verif.Spec.Creole

/-!
# What a call of a macro gives

Written against the documentation of the macros: a macro is a function of keyword arguments.  It is called with the
arguments of the call and with the text of the call as the argument `text` (`None` if the call has no text).
-/

namespace Verif.Spec.Cr

open Verif Py Creole

/-- what stands in the place of a call that fails: nothing with `verbose = 0` -/
def errorLine (verbose : Int) (text : Str) : Str := if verbose ≥ 1 then c!"[Error: " ++ text ++ c!"]\n" else []

/-- the keyword arguments of a call: those that are written down, and the text -/
def withText (text : Option Str) (kwargs : Dict PVal) : Dict PVal :=
  dictSet c!"text" (match text with | none => .none | some s => .str s) kwargs

/-- `CallGives verbose macros c s`: with this dict of macros the call `c` gives the text `s` -/
inductive CallGives (verbose : Int) (macros : Macros) (c : Call) : Str → Prop
  /-- the macro returns a string; the string of a block is followed by a newline -/
  | returns {f : Dict PVal → Outcome} {kwargs : Dict PVal} {s : Str} (hm : dictGet c.name macros = some (.fn f))
      (ha : string2dict c.args = .ok kwargs) (hs : f (withText c.text kwargs) = .ret s) :
      CallGives verbose macros c (s ++ (if c.block then c!"\n" else []))
  /-- the arguments are not `key=value` pairs -/
  | wrongArgs (ha : string2dict c.args = .error .valueError) :
      CallGives verbose macros c (errorLine verbose (c!"Wrong macro arguments: " ++ jsonStr c.args ++ c!" for macro '" ++
        c.name ++ c!"' (maybe wrong macro tag syntax?)"))
  /-- there is no macro of this name -/
  | unknown {kwargs : Dict PVal} (ha : string2dict c.args = .ok kwargs) (hm : dictGet c.name macros = none) :
      CallGives verbose macros c (errorLine verbose (c!"Macro '" ++ c.name ++ c!"' doesn't exist"))
  /-- the macro raises an exception with this message -/
  | raises {f : Dict PVal → Outcome} {kwargs : Dict PVal} {msg : Str} (hm : dictGet c.name macros = some (.fn f))
      (ha : string2dict c.args = .ok kwargs)
      (hs : f (withText c.text kwargs) = .exc msg ∨ (f (withText c.text kwargs) = .typeError msg ∧ verbose ≤ 2)) :
      CallGives verbose macros c (errorLine verbose (c!"Macro '" ++ c.name ++ c!"' error: " ++ msg))
  /-- the macro returns something that is not a string -/
  | notString {f : Dict PVal → Outcome} {kwargs : Dict PVal} {descr : Str} (hm : dictGet c.name macros = some (.fn f))
      (ha : string2dict c.args = .ok kwargs) (hs : f (withText c.text kwargs) = .other descr) :
      CallGives verbose macros c (errorLine verbose (c!"Macro '" ++ c.name ++ c!"' doesn't return a unicode string!" ++
        (if verbose > 1 then c!" - " ++ descr else [])))

/-- the context `cx` describes a conversion with these options and macros -/
structure ReadWith (o : Opts) (macros : Macros) (cx : Ctx) : Prop where
  strict : cx.strict = o.strict
  /-- there is no table of contents -/
  anchors : cx.anchors = false
  calls : ∀ c s, cx.mac c = some s → CallGives o.verbose macros c s

/-- documents without calls of macros are read with every dict of macros -/
theorem ReadWith.plain (o : Opts) (macros : Macros) : ReadWith o macros { strict := o.strict } :=
  ⟨rfl, rfl, fun _ _ h => by simp at h⟩

open Classical in
/-- for all options and macros there is a context that says what each call gives -/
theorem ReadWith.exists (o : Opts) (macros : Macros) :
    ∃ cx, ReadWith o macros cx ∧ ∀ c s, CallGives o.verbose macros c s → (cx.mac c).isSome = true := by
  refine ⟨{ strict := o.strict, mac := fun c => if h : ∃ s, CallGives o.verbose macros c s then some h.choose else none }, ⟨rfl, rfl, ?_⟩, ?_⟩
  · intro c s h
    simp only at h
    split at h
    · rename_i hx
      simp only [Option.some.injEq] at h
      rw [← h]; exact hx.choose_spec
    · simp at h
  · intro c s h
    simp only
    rw [dif_pos ⟨s, h⟩]; rfl

end Verif.Spec.Cr
