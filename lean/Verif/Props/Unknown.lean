import Verif.Emit.EmitLemmas
import Verif.Spec.Emit
import Verif.Spec.HtmlTree
import Verif.Creole.SafeLemmas
import Verif.Props.StripHtml
import Verif.Py.StripLemmas

/-!
# C34, C35: unknown tags

`emit cfg root` is `emit()` of the emitter for `cfg.lang` with the given `unknown_emit` (`cfg.policy`).
-/

namespace Verif.Props

open Verif Py Html Emit Spec

/-! ## Which kinds have a method -/

theorem lookup_none {α : Type} {k : Str} : ∀ {l : List (Str × α)}, l.lookup k = none → k ∉ l.map (·.1)
  | [], _ => by simp
  | (k', v') :: l, h => by
    rw [List.lookup_cons] at h
    split at h
    · cases h
    · next hk =>
      rw [List.map_cons, List.mem_cons, not_or]
      exact ⟨by simpa using hk, lookup_none h⟩

/-- the table of a converter -/
def methTable (lang : Lang) : List (Str × Meth) :=
  baseMethods ++ match lang with
    | .creole => creoleMethods
    | .textile => textileMethods
    | .markdown => markdownMethods
    | .rest => restMethods

theorem methodOf_table (lang : Lang) (kind : Str) : methodOf lang kind = (methTable lang).lookup kind := rfl

theorem known_table : ∀ lang : Lang, (∀ k ∈ knownKinds lang, k ∈ (methTable lang).map (·.1)) ∧
    ∀ k ∈ (methTable lang).map (·.1), k ∈ knownKinds lang
  | .creole => by decide +kernel
  | .textile => by decide +kernel
  | .markdown => by decide +kernel
  | .rest => by decide +kernel

theorem methodOf_known {lang : Lang} {kind : Str} (h : kind ∈ knownKinds lang) : ∃ m, methodOf lang kind = some m := by
  cases hm : methodOf lang kind with
  | some m => exact ⟨m, rfl⟩
  | none => exact absurd ((known_table lang).1 kind h) (lookup_none hm)

theorem methodOf_unknown {lang : Lang} {kind : Str} (h : kind ∉ knownKinds lang) : methodOf lang kind = none := by
  cases hm : methodOf lang kind with
  | none => rfl
  | some m =>
    exact absurd ((known_table lang).2 kind (List.mem_map_of_mem (f := (·.1)) (lookup_mem hm))) h

theorem leaf_table : ∀ lang : Lang, ∀ km ∈ methTable lang, km.2.usesChildren = !leafKinds.contains km.1
  | .creole => by decide +kernel
  | .textile => by decide +kernel
  | .markdown => by decide +kernel
  | .rest => by decide +kernel

theorem usesChildren_iff {lang : Lang} {kind : Str} {m : Meth} (h : methodOf lang kind = some m) :
    m.usesChildren = !leafKinds.contains kind :=
  leaf_table lang (kind, m) (lookup_mem h)

theorem leaf_known {lang : Lang} {kind : Str} (h : kind ∉ knownKinds lang) : leafKinds.contains kind = false := by
  have : ∀ k ∈ leafKinds, k ∈ commonKinds := by decide +kernel
  cases hc : leafKinds.contains kind with
  | false => rfl
  | true =>
    refine absurd ?_ h
    exact List.mem_append.mpr (.inl (this kind (by simpa using hc)))

/-! ## C34 -/

/-- the same emitter with another policy -/
def withPolicy (cfg : Cfg) (p : Policy) : Cfg := { cfg with policy := p }

theorem runMeth_policy (cfg : Cfg) (p : Policy) (anc : List Str) (i : HInfo) (m : Meth) (ch : EmM Str) :
    runMeth (withPolicy cfg p) anc i m ch = runMeth cfg anc i m ch := by
  cases m <;> rfl

mutual

theorem emitNode_policy (cfg : Cfg) (p q : Policy) (anc : List Str) : ∀ n : HNode,
    (∀ i ∈ visited n, i.kind ∈ knownKinds cfg.lang) →
    emitNode (withPolicy cfg p) anc n = emitNode (withPolicy cfg q) anc n
  | .mk i children, h => by
    rw [visited] at h
    obtain ⟨m, hm⟩ := methodOf_known (h i List.mem_cons_self)
    have hrun : ∀ r : Policy, ∀ ch, runNode (withPolicy cfg r) anc i ch = runMeth cfg anc i m ch := by
      intro r ch
      rw [runNode]
      show (match methodOf cfg.lang i.kind with | some m => _ | none => _) = _
      rw [hm]
      exact runMeth_policy cfg r anc i m ch
    rw [emitNode_run, emitNode_run, hrun, hrun]
    by_cases hl : leafKinds.contains i.kind
    · have hu : m.usesChildren = false := by rw [usesChildren_iff hm, hl]; rfl
      rw [runMeth_leaf hu]
      rfl
    · rw [if_neg hl] at h
      rw [emitNodes_policy cfg p q (i.kind :: anc) children fun j hj => h j (List.mem_cons_of_mem _ hj)]
      rfl

theorem emitNodes_policy (cfg : Cfg) (p q : Policy) (anc : List Str) : ∀ ns : List HNode,
    (∀ i ∈ visitedL ns, i.kind ∈ knownKinds cfg.lang) →
    emitNodes (withPolicy cfg p) anc ns = emitNodes (withPolicy cfg q) anc ns
  | [], _ => by rw [emitNodes_nil, emitNodes_nil]
  | n :: ns, h => by
    rw [visitedL] at h
    rw [emitNodes_cons, emitNodes_cons, emitNode_policy cfg p q anc n fun i hi => h i (List.mem_append.mpr (.inl hi)),
      emitNodes_policy cfg p q anc ns fun i hi => h i (List.mem_append.mpr (.inr hi))]

end

/-- **C34, known tags only.**  If every converted node is of a known kind, the result does not depend on the policy for
unknown tags. -/
theorem C34_known_tags (cfg : Cfg) (p q : Policy) (root : HNode) (h : ∀ i ∈ visited root, i.kind ∈ knownKinds cfg.lang) :
    emit { cfg with policy := p } root = emit { cfg with policy := q } root := by
  have := emitNode_policy cfg p q [] root h
  rw [emit, emit]
  show (do let (text, _) ← (emitNode (withPolicy cfg p) [] root).run {}; _) = _
  rw [this]
  rfl

mutual

theorem emitNode_raise (cfg : Cfg) (q : Policy) (anc : List Str) : ∀ n : HNode,
    (∃ i ∈ visited n, i.kind ∉ knownKinds cfg.lang) → ∀ s,
    (∃ e, emitNode (withPolicy cfg .raise) anc n s = .error e) ∧
    (∀ t s', emitNode (withPolicy cfg q) anc n s = .ok (t, s') →
      emitNode (withPolicy cfg .raise) anc n s = .error .notImplementedError)
  | .mk i children, h, s => by
    rw [visited] at h
    rw [emitNode_run, emitNode_run]
    have hpre : ∀ r : Policy, preEmit (withPolicy cfg r).lang anc = preEmit cfg.lang anc := fun r => rfl
    rw [hpre, hpre]
    generalize preEmit cfg.lang anc = pre
    -- it is enough to look at the content
    have key : ∀ s, (∃ e, runNode (withPolicy cfg .raise) anc i
          (do setLast i; emitNodes (withPolicy cfg .raise) (i.kind :: anc) children) s = .error e) ∧
        (∀ t s', runNode (withPolicy cfg q) anc i
          (do setLast i; emitNodes (withPolicy cfg q) (i.kind :: anc) children) s = .ok (t, s') →
        runNode (withPolicy cfg .raise) anc i
          (do setLast i; emitNodes (withPolicy cfg .raise) (i.kind :: anc) children) s = .error .notImplementedError) := by
      intro s
      by_cases hk : i.kind ∈ knownKinds cfg.lang
      · obtain ⟨m, hm⟩ := methodOf_known hk
        have hrun : ∀ r : Policy, ∀ ch, runNode (withPolicy cfg r) anc i ch = runMeth cfg anc i m ch := by
          intro r ch
          rw [runNode]
          show (match methodOf cfg.lang i.kind with | some m => _ | none => _) = _
          rw [hm]
          exact runMeth_policy cfg r anc i m ch
        rw [hrun, hrun]
        have hl : ¬ leafKinds.contains i.kind = true := by
          intro hl
          rw [if_pos hl] at h
          obtain ⟨j, hj, hj'⟩ := h
          rw [List.mem_singleton] at hj
          subst hj
          exact hj' hk
        rw [if_neg hl] at h
        have hch : ∃ j ∈ visitedL children, j.kind ∉ knownKinds cfg.lang := by
          obtain ⟨j, hj, hj'⟩ := h
          rcases List.mem_cons.mp hj with hj | hj
          · subst hj; exact absurd hk hj'
          · exact ⟨j, hj, hj'⟩
        have hu : m.usesChildren = true := by rw [usesChildren_iff hm, Bool.eq_false_iff.mpr hl]; rfl
        obtain ⟨A, pre, post, hf⟩ := runMeth_form (cfg := cfg) (anc := anc) (i := i) hu
        rw [hf, hf]
        have ih := fun s => emitNodes_raise cfg q (i.kind :: anc) children hch s
        constructor
        · rw [bind_run]
          cases hp : pre s with
          | error e => exact ⟨e, rfl⟩
          | ok r =>
            obtain ⟨a, s1⟩ := r
            dsimp only
            rw [bind_run, bind_run, setLast_run]
            dsimp only
            obtain ⟨e, he⟩ := (ih { s1 with last := some (i.kind, i.content) }).1
            exact ⟨e, by rw [he]⟩
        · intro t s' ht
          obtain ⟨a, s1, h1, h2⟩ := bind_ok.mp ht
          obtain ⟨c, s2, h3, h4⟩ := bind_ok.mp h2
          rw [bind_run, setLast_run] at h3
          rw [bind_run, h1]
          dsimp only
          rw [bind_run, bind_run, setLast_run]
          dsimp only
          rw [(ih _).2 c s2 h3]
      · have hrun : ∀ r : Policy, ∀ ch, runNode (withPolicy cfg r) anc i ch = unknownEmit r i ch := by
          intro r ch
          rw [runNode]
          show (match methodOf cfg.lang i.kind with | some m => _ | none => _) = _
          rw [methodOf_unknown hk]
          rfl
        rw [hrun, hrun]
        have hraise : ∀ ch : EmM Str, unknownEmit .raise i ch = ch >>= fun _ => raise .notImplementedError := fun ch => rfl
        rw [hraise]
        by_cases hch : ∃ j ∈ visitedL children, j.kind ∉ knownKinds cfg.lang
        · have ih := fun s => emitNodes_raise cfg q (i.kind :: anc) children hch s
          rw [bind_run, bind_run, setLast_run]
          dsimp only
          constructor
          · obtain ⟨e, he⟩ := (ih { s with last := some (i.kind, i.content) }).1
            exact ⟨e, by rw [he]⟩
          · intro t s' ht
            rw [unknownEmit] at ht
            obtain ⟨c, s2, h3, h4⟩ := bind_ok.mp ht
            rw [bind_run, setLast_run] at h3
            rw [(ih _).2 c s2 h3]
        · have heq := emitNodes_policy cfg .raise q (i.kind :: anc) children fun j hj => by
            by_cases hj' : j.kind ∈ knownKinds cfg.lang
            · exact hj'
            · exact absurd ⟨j, hj, hj'⟩ hch
          rw [heq, bind_run]
          constructor
          · cases (do setLast i; emitNodes (withPolicy cfg q) (i.kind :: anc) children : EmM Str) s with
            | error e => exact ⟨e, rfl⟩
            | ok r => exact ⟨_, rfl⟩
          · intro t s' ht
            rw [unknownEmit] at ht
            obtain ⟨c, s2, h3, h4⟩ := bind_ok.mp ht
            rw [h3]
            rfl
    constructor
    · rw [bind_run]
      cases pre s with
      | error e => exact ⟨e, rfl⟩
      | ok r =>
        obtain ⟨a, s1⟩ := r
        dsimp only
        obtain ⟨e, he⟩ := (key s1).1
        rw [bind_run, he]
        exact ⟨e, rfl⟩
    · intro t s' ht
      obtain ⟨a, s1, h1, h2⟩ := bind_ok.mp ht
      obtain ⟨c, s2, h3, h4⟩ := bind_ok.mp h2
      rw [bind_run, h1]
      dsimp only
      rw [bind_run, (key s1).2 c s2 h3]

theorem emitNodes_raise (cfg : Cfg) (q : Policy) (anc : List Str) : ∀ ns : List HNode,
    (∃ i ∈ visitedL ns, i.kind ∉ knownKinds cfg.lang) → ∀ s,
    (∃ e, emitNodes (withPolicy cfg .raise) anc ns s = .error e) ∧
    (∀ t s', emitNodes (withPolicy cfg q) anc ns s = .ok (t, s') →
      emitNodes (withPolicy cfg .raise) anc ns s = .error .notImplementedError)
  | [], h, _ => by obtain ⟨i, hi, _⟩ := h; cases hi
  | n :: ns, h, s => by
    rw [emitNodes_cons, emitNodes_cons]
    by_cases hn : ∃ i ∈ visited n, i.kind ∉ knownKinds cfg.lang
    · obtain ⟨h1, h2⟩ := emitNode_raise cfg q anc n hn s
      constructor
      · obtain ⟨e, he⟩ := h1
        exact ⟨e, by rw [bind_run, he]⟩
      · intro t s' ht
        obtain ⟨a, s1, h3, h4⟩ := bind_ok.mp ht
        rw [bind_run, h2 a s1 h3]
    · have hns : ∃ i ∈ visitedL ns, i.kind ∉ knownKinds cfg.lang := by
        obtain ⟨i, hi, hi'⟩ := h
        rw [visitedL] at hi
        rcases List.mem_append.mp hi with hi | hi
        · exact absurd ⟨i, hi, hi'⟩ hn
        · exact ⟨i, hi, hi'⟩
      have heq := emitNode_policy cfg .raise q anc n fun j hj => by
        by_cases hj' : j.kind ∈ knownKinds cfg.lang
        · exact hj'
        · exact absurd ⟨j, hj, hj'⟩ hn
      rw [heq]
      constructor
      · rw [bind_run]
        cases emitNode (withPolicy cfg q) anc n s with
        | error e => exact ⟨e, rfl⟩
        | ok r =>
          obtain ⟨a, s1⟩ := r
          obtain ⟨e, he⟩ := (emitNodes_raise cfg q anc ns hns s1).1
          exact ⟨e, by dsimp only; rw [bind_run, he]⟩
      · intro t s' ht
        obtain ⟨a, s1, h3, h4⟩ := bind_ok.mp ht
        obtain ⟨b, s2, h5, h6⟩ := bind_ok.mp h4
        rw [bind_run, h3]
        dsimp only
        rw [bind_run, (emitNodes_raise cfg q anc ns hns s1).2 b s2 h5]

end

/-- **C34, unknown tags.**  With `raise_unknown_node`, a document with an unknown tag is never converted; and if no other
exception occurs (the conversion with some other policy succeeds), the exception is `NotImplementedError`. -/
theorem C34_unknown_tags_raise (cfg : Cfg) (root : HNode) (h : ∃ i ∈ visited root, i.kind ∉ knownKinds cfg.lang) :
    (∃ e, emit { cfg with policy := .raise } root = .error e) ∧
    (∀ q text, emit { cfg with policy := q } root = .ok text →
      emit { cfg with policy := .raise } root = .error .notImplementedError) := by
  have e1 : emit { cfg with policy := .raise } root = _ := emit_eq (withPolicy cfg .raise) root
  constructor
  · obtain ⟨e, he⟩ := (emitNode_raise cfg .raise [] root h {}).1
    rw [e1, he]
    exact ⟨e, rfl⟩
  · intro q text ht
    have e2 : emit { cfg with policy := q } root = _ := emit_eq (withPolicy cfg q) root
    rw [e2] at ht
    cases hq : emitNode (withPolicy cfg q) [] root {} with
    | error e => rw [hq] at ht; cases ht
    | ok r =>
      obtain ⟨t, s'⟩ := r
      rw [e1, (emitNode_raise cfg q [] root h {}).2 t s' hq]

/-- the tree of `<p>x <foo>y</foo></p>` -/
def fooTree : HNode := .mk { kind := c!"document" } [.mk { kind := c!"p" } [
  .mk { kind := c!"data", content := some c!"x " } [],
  .mk { kind := c!"foo", attrs := [(c!"k", some c!"v")] } [.mk { kind := c!"data", content := some c!"y" } []]]]

example : (∃ i ∈ visited fooTree, i.kind ∉ knownKinds .creole) ∧ emit { lang := .creole } fooTree = .ok c!"x y" ∧
    emit { lang := .creole, policy := .raise } fooTree = .error .notImplementedError := by
  refine ⟨⟨{ kind := c!"foo", attrs := [(c!"k", some c!"v")] }, by decide +kernel, by decide +kernel⟩, ?_⟩
  decide +kernel
example : (∀ i ∈ visited (.mk { kind := c!"document" } [.mk { kind := c!"p" } []]), i.kind ∈ knownKinds .textile) := by
  decide +kernel

/-! ## C35 -/

/-- how an unknown tag is emitted (anywhere but directly below the root in html2rest, where substitution definitions
may precede it) -/
theorem emitNode_unknown {cfg : Cfg} {anc : List Str} {i : HInfo} {children : List HNode} {s s1 : ESt} {content : Str}
    (hk : i.kind ∉ knownKinds cfg.lang) (ha : cfg.lang = .rest → anc.length ≠ 1)
    (hc : emitNodes cfg (i.kind :: anc) children (enter i s) = .ok (content, s1)) (hp : cfg.policy ≠ .raise) :
    emitNode cfg anc (.mk i children) s = .ok (match cfg.policy with
      | .transparent => emitContent i.kind content
      | .htmlMacro => maskContent i.kind i.attrs c!"html" content
      | .preformat => maskContent i.kind i.attrs c!"pre" content
      | .escape => escapeUnknown i.kind i.attrs content
      | .raise => [], enter i s1) := by
  rw [emitNode_run]
  have hpre : preEmit cfg.lang anc s = .ok ([], s) := by
    rw [preEmit]
    split
    · next hr =>
      rw [flushSubst, bind_run, get_run]
      dsimp only
      rw [if_neg]
      · rfl
      · simp [ha hr]
    · rfl
  rw [bind_run, hpre]
  dsimp only
  have hrun : ∀ ch, runNode cfg anc i ch = unknownEmit cfg.policy i ch := by
    intro ch
    rw [runNode, methodOf_unknown hk]
  rw [bind_run, hrun]
  have : (do setLast i; emitNodes cfg (i.kind :: anc) children : EmM Str) s = .ok (content, s1) := by
    rw [bind_run, setLast_run]; exact hc
  rw [unknownEmit, bind_run, this]
  dsimp only
  cases hpol : cfg.policy with
  | raise => exact absurd hpol hp
  | transparent => rfl
  | htmlMacro => rfl
  | preformat => rfl
  | escape => rfl

theorem escaped_eq (s : Str) : Creole.htmlEscape s = escaped s := by
  rw [Creole.htmlEscape_eq]; rfl

/-- **C35, transparent.**  The default policy replaces an unknown inline tag by its content: the non-blank lines of the
content joined by a forced line break, without backslashes at the ends. -/
theorem C35_transparent {cfg : Cfg} {anc : List Str} {i : HInfo} {children : List HNode} {s s1 : ESt} {content : Str}
    (hp : cfg.policy = .transparent) (hk : i.kind ∉ knownKinds cfg.lang) (ha : cfg.lang = .rest → anc.length ≠ 1)
    (hb : i.kind ∉ blockNames) (hc : emitNodes cfg (i.kind :: anc) children (enter i s) = .ok (content, s1)) :
    emitNode cfg anc (.mk i children) s =
      .ok (stripP (· == '\\') (join c!"\\\\" (contentLines (strip content))), enter i s1) := by
  rw [emitNode_unknown hk ha hc (by rw [hp]; decide), hp]
  have : blockTags.contains i.kind = false := by
    rw [show blockTags = blockNames from rfl]
    simpa using hb
  simp only [emitContent, this]
  rfl

/-- a one-line content without blanks or backslashes at its ends is not changed at all -/
theorem C35_one_line {content : Str} (h1 : '\n' ∉ content) (h2 : strip content = content)
    (h3 : stripP (· == '\\') content = content) :
    stripP (· == '\\') (join c!"\\\\" (contentLines (strip content))) = content := by
  rw [h2, contentLines, splitChar_of_not_mem h1, List.map_singleton, h2]
  by_cases hc : content = []
  · subst hc; rfl
  · simp only [List.filter_cons, hc, ne_eq, not_false_eq_true, decide_true, if_true, List.filter_nil, join, h3]

/-- **C35, macro.**  With `use_html_macro` the content stands between the start and the end tag, each one in an `html`
macro; an empty element is one empty tag in a macro.  `preformat_unknown_nodes` does the same with `pre`. -/
theorem C35_macro {cfg : Cfg} {anc : List Str} {i : HInfo} {children : List HNode} {s s1 : ESt} {content name : Str}
    (hp : cfg.policy = .htmlMacro ∧ name = c!"html" ∨ cfg.policy = .preformat ∧ name = c!"pre")
    (hk : i.kind ∉ knownKinds cfg.lang) (ha : cfg.lang = .rest → anc.length ≠ 1)
    (hc : emitNodes cfg (i.kind :: anc) children (enter i s) = .ok (content, s1)) :
    emitNode cfg anc (.mk i children) s = .ok (taggedBy (inMacro name) i.kind i.attrs content, enter i s1) := by
  have hm : ∀ name : Str, maskContent i.kind i.attrs name content = taggedBy (inMacro name) i.kind i.attrs content := by
    intro name
    rw [maskContent, taggedBy]
    have ha : attrText i.attrs = attrsText i.attrs := rfl
    simp only [ha, inMacro, emptyTag, startTag, endTag, List.append_assoc, List.cons_append, List.nil_append]
  rcases hp with ⟨hp, rfl⟩ | ⟨hp, rfl⟩
  · rw [emitNode_unknown hk ha hc (by rw [hp]; decide), hp]
    simp only [hm]
  · rw [emitNode_unknown hk ha hc (by rw [hp]; decide), hp]
    simp only [hm]

/-- **C35, escape.**  With `escape_unknown_nodes` the content stands between the escaped start and end tag. -/
theorem C35_escape {cfg : Cfg} {anc : List Str} {i : HInfo} {children : List HNode} {s s1 : ESt} {content : Str}
    (hp : cfg.policy = .escape) (hk : i.kind ∉ knownKinds cfg.lang) (ha : cfg.lang = .rest → anc.length ≠ 1)
    (hc : emitNodes cfg (i.kind :: anc) children (enter i s) = .ok (content, s1)) :
    emitNode cfg anc (.mk i children) s = .ok (taggedBy escaped i.kind i.attrs content, enter i s1) := by
  rw [emitNode_unknown hk ha hc (by rw [hp]; decide), hp]
  have ha : attrText i.attrs = attrsText i.attrs := rfl
  simp only [escapeUnknown, taggedBy, escaped_eq, ha, emptyTag, startTag, endTag, List.append_assoc, List.cons_append,
    List.nil_append]

example : emit { lang := .creole, policy := .htmlMacro } fooTree
    = .ok c!"x <<html>><foo k=\"v\"><</html>>y<<html>></foo><</html>>" := by decide +kernel
example : emit { lang := .textile, policy := .escape } fooTree = .ok c!"x &lt;foo k=\"v\"&gt;y&lt;/foo&gt;" := by
  decide +kernel

end Verif.Props
