import Verif.Spec.Faults
import Verif.Emit.User

/-!
# Specification: functions of the user for unknown tags
-/

namespace Verif.Spec

open Verif Py Html Emit

/-- What a function does with an element that does not concern itself with the state of the emitter.  The result is an
exception, a text, or (`none`) an object that is no text. -/
inductive UserAct where
  /-- it does not look at what is in the element -/
  | alone (result : Except PyErr (Option Str))
  /-- it converts what is in the element and does something with the text -/
  | around (result : Str → Except PyErr (Option Str))

/-- the result of the function for an element with the given content -/
def UserAct.on (content : Str) : UserAct → Except PyErr (Option Str)
  | .alone r => r
  | .around r => r content

/-- the function that does with each element what `act` tells -/
def userFn (act : HInfo → UserAct) : UserFn := fun _ i children =>
  match act i with
  | .alone r => Emit.ofExcept r
  | .around r => children >>= fun content => Emit.ofExcept (r content)

/-- What may be wrong with an element if the unknown ones are left to `act`: the faults of C65, or an unknown element for
which `act` raises an exception, or returns something that is no text. -/
inductive UserFault (act : HInfo → UserAct) (cfg : Cfg) (all : List HInfo) (anc : List Str) (i : HInfo) : PyErr → Prop
  | known (e : PyErr) : i.kind ∈ knownKinds cfg.lang → Fault cfg all anc i e → UserFault act cfg all anc i e
  | raised (content : Str) (e : PyErr) : i.kind ∉ knownKinds cfg.lang → (act i).on content = .error e → UserFault act cfg all anc i e
  | noText (content : Str) : i.kind ∉ knownKinds cfg.lang → (act i).on content = .ok none →
      UserFault act cfg all anc i .assertionError

mutual

/-- two trees that differ only in what is in unknown elements with `hidden` -/
inductive SameOutside (lang : Lang) (hidden : HInfo → Prop) : HNode → HNode → Prop
  | same (i : HInfo) (ch ch' : List HNode) : SameOutsideL lang hidden ch ch' → SameOutside lang hidden (.mk i ch) (.mk i ch')
  | inside (i : HInfo) (ch ch' : List HNode) : i.kind ∉ knownKinds lang → hidden i → SameOutside lang hidden (.mk i ch) (.mk i ch')

inductive SameOutsideL (lang : Lang) (hidden : HInfo → Prop) : List HNode → List HNode → Prop
  | nil : SameOutsideL lang hidden [] []
  | cons {n n' : HNode} {ns ns' : List HNode} : SameOutside lang hidden n n' → SameOutsideL lang hidden ns ns' →
      SameOutsideL lang hidden (n :: ns) (n' :: ns')

end

end Verif.Spec
