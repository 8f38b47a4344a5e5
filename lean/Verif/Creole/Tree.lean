import Verif.Py.Str

/-!
# Errors and document trees

Models the exceptions the code can raise and `DocNode` (`/repo/creole/shared/document_tree.py` 16-36) as used
by the creole parser.
-/

namespace Verif

/-- Python exceptions, as values.  The last two are *representation failures of the model*: they are returned
where the model's representation of the Python object graph would no longer be faithful.  The theorems
of `Props/C01` show that the creole parser never produces them. -/
inductive PyErr where
  | typeError (msg : Str)
  | valueError
  | keyError
  | indexError
  | attributeError
  | assertionError
  | notImplementedError
  | recursionError
  | overflowError
  /-- `Html2restException` (html2rest_emitter.py 38) -/
  | html2rest
  /-- model: Python goes on with a `str` that contains a lone surrogate, which the model cannot represent -/
  | surrogate
  /-- any other exception, raised by user supplied code -/
  | user
  /-- model: `self.cur` would become `None` or leave the path to the root -/
  | badCursor
  /-- model: `self.text` would refer to a node that is not the last child of `self.cur` -/
  | staleText
  deriving DecidableEq, Repr

instance {α : Type} [DecidableEq α] : DecidableEq (Except PyErr α) := fun a b =>
  match a, b with
  | .ok x, .ok y => if h : x = y then isTrue (by rw [h]) else isFalse (by simp [h])
  | .error x, .error y => if h : x = y then isTrue (by rw [h]) else isFalse (by simp [h])
  | .ok _, .error _ => isFalse (by simp)
  | .error _, .ok _ => isFalse (by simp)

namespace Creole

/-- The values of `DocNode.kind` created by `creol2html_parser.py`. -/
inductive Kind where
  | document | paragraph | text | link | image | macro_inline | macro_block | separator
  | number_list | bullet_list | list_item | header | table | table_row | table_cell | table_head
  | pre_block | line | pre_inline | brk
  | emphasis | strong | monospace | superscript | subscript | underline | small | delete
  deriving DecidableEq, Repr

/-- The attributes of a `DocNode` (document_tree.py 23-36; creol2html_parser.py 192-194 for the macro
attributes).  `attrs` and `sect` are never read by the HTML emitter and are not modelled. -/
structure Info where
  kind : Kind
  content : Option Str := none
  level : Option Nat := none
  macroName : Str := []
  macroArgs : Str := []
  deriving DecidableEq, Repr

/-- A finished `DocNode` with its children. -/
inductive Node where
  | mk (info : Info) (children : List Node)
  deriving Repr

def Node.info : Node → Info | .mk i _ => i
def Node.children : Node → List Node | .mk _ c => c
def Node.kind (n : Node) : Kind := n.info.kind

end Creole
end Verif
