import Verif.Creole.Emitter

/-!
# The argument `block_rules` of `creole2html`

`creole2html(markup, block_rules=...)` takes an object with the attributes `rules` (regular expressions) and `re_flags`, such as
a changed `BlockRules` object.  Modelled: `rules` is any sequence of rules of `BlockRules` (with the text rule for either kind of
line breaks), in any order; `re_flags` are those of `BlockRules`.  Not modelled: regular expressions of the user.
-/

namespace Verif.Creole

open Verif

/-- the attributes of a `BlockRules` object that are rules (creol2html_rules.py 112-159); `text` is the one made by
`BlockRules(blog_line_breaks=blog)` -/
inductive BRule where
  | macro_block
  | line
  | head
  | separator
  | pre_block
  | list
  | table
  | text (blog : Bool)
  deriving DecidableEq, Repr

/-- the regular expression of a rule (creol2html_rules.py 112-159) -/
def BRule.re : BRule → R
  | .macro_block => macroBlockRule
  | .line => lineRule
  | .head => headRule
  | .separator => separatorRule
  | .pre_block => preBlockRule
  | .list => listRule
  | .table => tableRule
  | .text blog => textRule blog

/-- `BlockRules(blog_line_breaks=blog).rules` (creol2html_rules.py 161-166) -/
def BRule.defaults (blog : Bool) : List BRule :=
  [.macro_block, .line, .head, .separator, .pre_block, .list, .table, .text blog]

/-- What `creole2html(block_rules=...)` raises. -/
inductive RulesErr where
  /-- `re.error` of `re.compile`: redefinition of a group name -/
  | reError
  | raised (e : PyErr)
  deriving DecidableEq, Repr

/-- creol2html_parser.py 72: `'|'.join(block_rules.rules)`; without rules this is the empty expression -/
def chosenRe (rules : List BRule) : R := Re.alts (rules.map BRule.re)

/-- creol2html_parser.py 450-462: `parse` with the expression of the chosen rules -/
def parseRules (rules : List BRule) (raw : Str) : Except PyErr Doc :=
  (subAll (chosenRe rules) blockRepl (normNewlines raw) PS.init).map PS.finish

/-- `creole2html(markup, block_rules=..., macros=macros, ...)` (`/repo/creole/__init__.py` 34-66, creol2html_parser.py 61-80):
`re.compile` refuses an expression in which a group name is defined twice, before anything is parsed.  `o.blog`
(`blog_line_breaks`) is only used to make the default rules. -/
def creole2htmlRules (rules : List BRule) (o : Opts) (macros : Macros) (markup : Str) : Except RulesErr (Str × Macros) :=
  if (rules.flatMap fun r => groupOrder r.re).Nodup then
    match parseRules rules markup with
    | .error e => .error (.raised e)
    | .ok d =>
      match emitDoc o.verbose o.strict d macros with
      | .error e => .error (.raised e)
      | .ok x => .ok x
  else .error .reError

end Verif.Creole
