import Verif.Emit.EmitLemmas

/-!
# Emitters with a function of the user for unknown tags

`Emitter.lean` models the emitters with the functions of `unknown_tags.py`.  Here `unknown_emit` is any function.
-/

namespace Verif.Emit

open Verif Py Html

/-- A function given as `unknown_emit` (base_emitter.py 23-29, 219).  It is called with the emitter and the node.  It gets the
kinds of the ancestors of the node, the node, and the call `emitter.emit_children(node)`, which it may make or not.  It may
read and change the attributes of the emitter and raise any exception.  `none` is a result that is not a `str`.
Simplified: it emits the children all together, and sees them only in this way. -/
abbrev UserFn := List Str → HInfo → EmM Str → EmM (Option Str)

/-- base_emitter.py 218-221: the call of `self._unknown_emit` with the check of its result -/
def runUser (u : UserFn) (anc : List Str) (i : HInfo) (ch : EmM Str) : EmM Str := do
  match ← u anc i ch with
  | some content => return content
  | none => raise .assertionError

/-- base_emitter.py 211-221 -/
def runNodeWith (u : UserFn) (cfg : Cfg) (anc : List Str) (i : HInfo) (ch : EmM Str) : EmM Str :=
  match methodOf cfg.lang i.kind with
  | some m => runMeth cfg anc i m ch
  | none => runUser u anc i ch

mutual

/-- base_emitter.py 198-224: `emit_node`; html2rest_emitter.py 91-97 (`emitNode` with another function) -/
def emitNodeWith (u : UserFn) (cfg : Cfg) (anc : List Str) : HNode → EmM Str
  | .mk i children => do
    let pre ← preEmit cfg.lang anc
    let content ← runNodeWith u cfg anc i (do setLast i; emitNodesWith u cfg (i.kind :: anc) children)
    setLast i
    return pre ++ content

/-- base_emitter.py 184-196: `emit_children`, `emit_children_list` -/
def emitNodesWith (u : UserFn) (cfg : Cfg) (anc : List Str) : List HNode → EmM Str
  | [] => pure []
  | n :: ns => do
    let a ← emitNodeWith u cfg anc n
    let b ← emitNodesWith u cfg anc ns
    return a ++ b

end

/-- `emit()` (html2creole_emitter.py 29-31, html2textile_emitter.py 28-30, html2markdown_emitter.py 42-44,
html2rest_emitter.py 77-79) -/
def emitWith (u : UserFn) (cfg : Cfg) (root : HNode) : Except PyErr Str :=
  match emitNodeWith u cfg [] root {} with
  | .ok (text, _) => .ok (if cfg.lang = .rest then rstrip text else strip text)
  | .error e => .error e

/-- `/repo/creole/__init__.py` 80-142: `html2creole`, `html2textile`, `html2markdown` and `html2rest` with `unknown_emit=u`
(`cfg.policy` is not used) -/
def convertWith (u : UserFn) (cfg : Cfg) (html : Str) : Except PyErr Str := do emitWith u cfg (← parseHtml html)

/-- unknown_tags.py 36-98: the functions that come with the package -/
def supplied (p : Policy) : UserFn := fun _ i ch => do return some (← unknownEmit p i ch)

theorem emitNodeWith_run (u : UserFn) (cfg : Cfg) (anc : List Str) (i : HInfo) (children : List HNode) :
    emitNodeWith u cfg anc (.mk i children) = preEmit cfg.lang anc >>= fun pre =>
      runNodeWith u cfg anc i (setLast i >>= fun _ => emitNodesWith u cfg (i.kind :: anc) children) >>= fun content =>
      setLast i >>= fun _ => pure (pre ++ content) := by
  rw [emitNodeWith]

theorem emitNodesWith_nil (u : UserFn) (cfg : Cfg) (anc : List Str) : emitNodesWith u cfg anc [] = pure [] := by rw [emitNodesWith]

theorem emitNodesWith_cons (u : UserFn) (cfg : Cfg) (anc : List Str) (n : HNode) (ns : List HNode) :
    emitNodesWith u cfg anc (n :: ns) =
      (do let a ← emitNodeWith u cfg anc n; let b ← emitNodesWith u cfg anc ns; return a ++ b) := by
  rw [emitNodesWith]

theorem runNodeWith_supplied (cfg : Cfg) (anc : List Str) (i : HInfo) (ch : EmM Str) :
    runNodeWith (supplied cfg.policy) cfg anc i ch = runNode cfg anc i ch := by
  unfold runNodeWith runNode
  cases methodOf cfg.lang i.kind with
  | some m => rfl
  | none =>
    dsimp only
    unfold runUser supplied
    funext s
    simp only [bind_run, pure_run]
    cases unknownEmit cfg.policy i ch s with
    | error e => rfl
    | ok r => rfl

mutual

theorem emitNodeWith_supplied (cfg : Cfg) : ∀ (anc : List Str) (n : HNode), emitNodeWith (supplied cfg.policy) cfg anc n = emitNode cfg anc n
  | anc, .mk i children => by
    rw [emitNodeWith_run, emitNode_run, emitNodesWith_supplied cfg (i.kind :: anc) children, runNodeWith_supplied]

theorem emitNodesWith_supplied (cfg : Cfg) : ∀ (anc : List Str) (ns : List HNode), emitNodesWith (supplied cfg.policy) cfg anc ns = emitNodes cfg anc ns
  | anc, [] => by rw [emitNodesWith_nil, emitNodes_nil]
  | anc, n :: ns => by
    rw [emitNodesWith_cons, emitNodes_cons, emitNodeWith_supplied cfg anc n, emitNodesWith_supplied cfg anc ns]

end

theorem emitWith_supplied (cfg : Cfg) (root : HNode) : emitWith (supplied cfg.policy) cfg root = emit cfg root := by
  rw [emitWith, emit_eq, emitNodeWith_supplied]
  cases emitNode cfg [] root {} with
  | error e => rfl
  | ok r => rfl

end Verif.Emit
