import Verif.Props.Macros
import Verif.Props.Documents
import Verif.Props.Inline

/-!
# C17, C18: calls of macros

`CallGives verbose macros c s` (`Verif.Spec.Calls`) says what a call of a macro gives: the string the macro returns
when it is called with the arguments and the text of the call, or the line `[Error: ...]`.  `ReadWith o macros cx` says
that the context `cx` says the same about the calls of a document.
-/

namespace Verif.Props

open Verif Py Creole Spec Spec.Cr

/-! ## What a call gives -/

/-- a call does not give two different texts -/
theorem callGives_unique {verbose : Int} {macros : Macros} {c : Call} {s t : Str} (hs : CallGives verbose macros c s)
    (ht : CallGives verbose macros c t) : s = t := by
  cases hs <;> cases ht <;> simp_all
  rename_i h1 _ _ h2
  rcases h1 with h1 | h1 <;> rcases h2 with h2 | h2 <;> simp_all

theorem readWith_call {o : Opts} {macros : Macros} {cx : Ctx} (hcx : ReadWith o macros cx) {c : Call} {s : Str}
    (hc : CallGives o.verbose macros c s) (h : (cx.mac c).isSome = true) : cx.call c = s := by
  obtain ⟨t, ht⟩ := Option.isSome_iff_exists.mp h
  rw [Ctx.call, ht]
  exact callGives_unique (hcx.calls c t ht) hc

/-- **C18.** With `verbose <= 2` and macros that are functions and raise nothing but `Exception`s, each call gives
the string its macro returns, or an error line, and nothing instead of the line with `verbose = 0`. -/
theorem C18_each_call (verbose : Int) (macros : Macros) (c : Call) (hv : verbose ≤ 2) (hm : OnlyFunctions macros)
    (hb : ∀ name m, dictGet name macros = some m → ¬ m.May .baseExc) :
    (∃ f kwargs s, dictGet c.name macros = some (.fn f) ∧ string2dict c.args = .ok kwargs ∧
        f (withText c.text kwargs) = .ret s ∧ CallGives verbose macros c (s ++ (if c.block then c!"\n" else []))) ∨
      ∃ text, CallGives verbose macros c (if verbose ≥ 1 then c!"[Error: " ++ text ++ c!"]\n" else []) := by
  cases ha : string2dict c.args with
  | error e =>
    have := string2dict_err ha
    subst this
    exact .inr ⟨_, .wrongArgs ha⟩
  | ok kw =>
    cases hd : dictGet c.name macros with
    | none => exact .inr ⟨_, .unknown ha hd⟩
    | some m =>
      obtain ⟨f, rfl⟩ := hm _ _ hd
      cases hf : f (withText c.text kw) with
      | ret s => exact .inl ⟨f, kw, s, rfl, rfl, hf, .returns hd ha hf⟩
      | other d => exact .inr ⟨_, .notString hd ha hf⟩
      | typeError msg => exact .inr ⟨_, .raises hd ha (.inr ⟨hf, hv⟩)⟩
      | exc msg => exact .inr ⟨_, .raises hd ha (.inl hf)⟩
      | baseExc => exact absurd ⟨_, hf⟩ (hb _ _ hd)

/-! ## Calls in a text -/

theorem wfs_mem {cx : Ctx} {b : List Cr.Inl} {i : Cr.Inl} : ∀ {a : List Cr.Inl} {prev : Option Char},
    wfs cx prev (a ++ i :: b) = true → ∃ p, i.wf cx p (prints b) = true
  | [], prev, h => by
    simp only [List.nil_append, wfs, Bool.and_eq_true] at h
    exact ⟨prev, h.1⟩
  | j :: a, prev, h => by
    simp only [List.cons_append, wfs, Bool.and_eq_true] at h
    exact wfs_mem h.2

/-- **C17.** A call `<<name args>>` (or `<<name args />>`) in a line of text puts what it gives, unchanged, between the
HTML of the text before it and of the text after it.  The macro is called with the arguments that are written
down, and with `text=None`. -/
theorem C17_tag (o : Opts) (macros : Macros) (markup : Str) (cx : Ctx) (hcx : ReadWith o macros cx) (a b : List Cr.Inl) (name args s : Str)
    (hc : CallGives o.verbose macros ⟨name, strip (dropSlashes args), none, false⟩ s)
    (h1 : wfs cx none (a ++ .mac name args :: b) = true) (h2 : lineText (prints (a ++ .mac name args :: b)) = true)
    (h3 : plainStart .all (prints (a ++ .mac name args :: b)) = true) (h4 : ((a ++ .mac name args :: b).getLast?).all Inl.notBr = true)
    (hl : textLines markup = [prints a ++ (c!"<<" ++ name ++ args ++ c!">>") ++ prints b]) :
    creole2htmlM o macros markup =
      .ok (c!"<p>" ++ htmls cx c!"<br />\n" a ++ s ++ htmls cx c!"<br />\n" b ++ c!"</p>", macros) := by
  have := C12_inline o macros markup (a ++ .mac name args :: b) cx hcx h1 h2 h3 h4 (by
    rw [hl, prints_append, prints, Inl.print]; simp)
  obtain ⟨p, hp⟩ := wfs_mem h1
  simp only [Inl.wf, Bool.and_eq_true] at hp
  rw [this, htmls_append, htmls, Inl.html, readWith_call hcx hc hp.1.2]
  simp

/-- **C17.** The same for a call with a text, `<<name args>>text<</name>>`. -/
theorem C17_tag_text (o : Opts) (macros : Macros) (markup : Str) (cx : Ctx) (hcx : ReadWith o macros cx) (a b : List Cr.Inl) (name args text s : Str)
    (hc : CallGives o.verbose macros ⟨name, strip args, some (strip text), false⟩ s)
    (h1 : wfs cx none (a ++ .macText name args text :: b) = true) (h2 : lineText (prints (a ++ .macText name args text :: b)) = true)
    (h3 : plainStart .all (prints (a ++ .macText name args text :: b)) = true) (h4 : ((a ++ .macText name args text :: b).getLast?).all Inl.notBr = true)
    (hl : textLines markup = [prints a ++ (c!"<<" ++ name ++ args ++ c!">>" ++ text ++ c!"<</" ++ name ++ c!">>") ++ prints b]) :
    creole2htmlM o macros markup =
      .ok (c!"<p>" ++ htmls cx c!"<br />\n" a ++ s ++ htmls cx c!"<br />\n" b ++ c!"</p>", macros) := by
  have := C12_inline o macros markup (a ++ .macText name args text :: b) cx hcx h1 h2 h3 h4 (by
    rw [hl, prints_append, prints, Inl.print]; simp)
  obtain ⟨p, hp⟩ := wfs_mem h1
  simp only [Inl.wf, Bool.and_eq_true] at hp
  rw [this, htmls_append, htmls, Inl.html, readWith_call hcx hc hp.1.1.2]
  simp

/-! ## Calls as blocks -/

/-- what stands between the HTML of a document and that of a block added to it -/
def gapAfter (d : Cr.Doc) (gap : List Str) : Str :=
  match d.getLast? with
  | none => []
  | some (_, b) => gapHtml b gap

theorem docTail_add (cx : Ctx) (blog : Bool) (gap : List Str) (x : Block) (d' : Cr.Doc) : ∀ (d : Cr.Doc) (b : Block),
    docTail cx blog b (d ++ (gap, x) :: d') = docTail cx blog b d ++
      (gapHtml (match d.getLast? with | none => b | some (_, b') => b') gap ++ x.html cx blog ++ docTail cx blog x d')
  | [], b => by simp [docTail]
  | (g, b') :: d, b => by
    rw [List.cons_append, docTail, docTail_add cx blog gap x d' d b', docTail]
    cases d with
    | nil => simp
    | cons y d =>
      rw [List.getLast?_cons_cons]
      cases h : (y :: d).getLast? with
      | none => simp at h
      | some z => simp

theorem docBody_add (cx : Ctx) (blog : Bool) (gap : List Str) (x : Block) (d d' : Cr.Doc) :
    docBody cx blog (d ++ (gap, x) :: d') = docBody cx blog d ++ gapAfter d gap ++ x.html cx blog ++ docTail cx blog x d' := by
  cases d with
  | nil => simp [docBody, gapAfter]
  | cons y d =>
    obtain ⟨g, b⟩ := y
    rw [List.cons_append, docBody, docTail_add, docBody, gapAfter]
    cases d with
    | nil => simp
    | cons y d =>
      rw [List.getLast?_cons_cons]
      cases h : (y :: d).getLast? with
      | none => simp at h
      | some z => simp

theorem tailOk_mem (cx : Ctx) (blog : Bool) (gap : List Str) (x : Block) (d' : Cr.Doc) : ∀ (d : Cr.Doc) (b : Block),
    tailOk cx blog b (d ++ (gap, x) :: d') = true → ∃ st, x.ok cx blog st = true
  | [], b, h => by
    simp only [List.nil_append, tailOk, Bool.and_eq_true, Bool.or_eq_true] at h
    rcases h.1.2 with h | h
    · exact ⟨_, h.2⟩
    · exact ⟨_, h.2⟩
  | (g, b') :: d, b, h => by
    simp only [List.cons_append, tailOk, Bool.and_eq_true] at h
    exact tailOk_mem cx blog gap x d' d b' h.2

theorem docOk_mem {cx : Ctx} {blog : Bool} {gap : List Str} {x : Block} {d d' : Cr.Doc}
    (h : docOk cx blog (d ++ (gap, x) :: d') = true) : ∃ st, x.ok cx blog st = true := by
  cases d with
  | nil =>
    simp only [List.nil_append, docOk, Bool.and_eq_true] at h
    exact ⟨_, h.1.2⟩
  | cons y d =>
    simp only [List.cons_append, docOk, Bool.and_eq_true] at h
    exact tailOk_mem _ _ _ _ _ _ _ h.2

/-- **C17.** A block `<<name args>>`, lines, `<</name>>` anywhere in a document puts what the call gives, unchanged,
between the HTML of the blocks before it and of the blocks after it (the blanks at the ends of the document are
removed).  The string a macro returns is followed by a newline.  The macro is called with the arguments that are
written down, and with the lines as `text`, without the blanks at its ends. -/
theorem C17_block (o : Opts) (macros : Macros) (markup : Str) (cx : Ctx) (hcx : ReadWith o macros cx) (d d' : Cr.Doc) (gap trail : List Str)
    (name args : Str) (text : List Str) (s : Str)
    (hc : CallGives o.verbose macros ⟨name, strip args, some (strip (joinLines c!"\n" text)), true⟩ s)
    (hd : docOk cx o.blog (d ++ (gap, .mac name args text) :: d') = true) (ht : trail.all blank = true)
    (hl : textLines markup = docLines (d ++ (gap, .mac name args text) :: d') ++ trail) :
    creole2htmlM o macros markup =
      .ok (strip (docBody cx o.blog d ++ gapAfter d gap ++ s ++ docTail cx o.blog (.mac name args text) d'), macros) := by
  have := creole2html_doc (cx := cx) o macros markup _ trail hd hcx ht hl
  obtain ⟨st, hok⟩ := docOk_mem hd
  simp only [Block.ok, Bool.and_eq_true] at hok
  rw [this, docHtml, docBody_add, Block.html]
  have hx : (cx.mac (blockCall name args text)).isSome = true := by simp_all
  rw [readWith_call hcx (c := blockCall name args text) hc hx]

/-! ## A concrete case -/

/-- a macro that shows its arguments, and one that fails -/
def exampleMacros : Macros :=
  [(c!"show", .fn fun kwargs =>
      match dictGet c!"key" kwargs, dictGet c!"text" kwargs with
      | some (.str k), some (.str t) => .ret (c!"<b>" ++ k ++ c!": " ++ t ++ c!"</b>")
      | some (.str k), _ => .ret (c!"<b>" ++ k ++ c!"</b>")
      | _, _ => .other c!"returns None"),
   (c!"fail", .fn fun _ => .exc c!"broken")]

def call1 : Call := ⟨c!"show", c!"key=\"v\"", none, false⟩
def call2 : Call := ⟨c!"show", c!"key='v'", some c!"some text", false⟩
def call3 : Call := ⟨c!"show", c!"key=\"v\"", some c!"* some\n\n* text", true⟩
def call4 : Call := ⟨c!"fail", [], some c!"x", true⟩
def call5 : Call := ⟨c!"nothing", [], none, false⟩
def call6 : Call := ⟨c!"show", c!"key", none, false⟩
def call7 : Call := ⟨c!"show", [], none, false⟩

/-- what the calls give -/
def exampleCtx : Ctx where
  mac c :=
    if c = call1 then some c!"<b>v</b>"
    else if c = call2 then some c!"<b>v: some text</b>"
    else if c = call3 then some c!"<b>v: * some\n\n* text</b>\n"
    else if c = call4 then some c!"[Error: Macro 'fail' error: broken]\n"
    else if c = call5 then some c!"[Error: Macro 'nothing' doesn't exist]\n"
    else if c = call6 then some c!"[Error: Wrong macro arguments: \"key\" for macro 'show' (maybe wrong macro tag syntax?)]\n"
    else if c = call7 then some c!"[Error: Macro 'show' doesn't return a unicode string!]\n"
    else none

theorem exampleCtx_ok : ReadWith {} exampleMacros exampleCtx where
  strict := rfl
  anchors := rfl
  calls := by
    intro c s h
    simp only [exampleCtx] at h
    split at h
    · rename_i e; subst e; cases h
      exact .returns (kwargs := [(c!"key", .str c!"v")]) (s := c!"<b>v</b>") rfl (by decide +kernel) (by decide +kernel)
    split at h
    · rename_i e; subst e; cases h
      exact .returns (kwargs := [(c!"key", .str c!"v")]) (s := c!"<b>v: some text</b>") rfl (by decide +kernel) (by decide +kernel)
    split at h
    · rename_i e; subst e; cases h
      exact .returns (kwargs := [(c!"key", .str c!"v")]) (s := c!"<b>v: * some\n\n* text</b>") rfl (by decide +kernel) (by decide +kernel)
    split at h
    · rename_i e; subst e; cases h
      exact .raises (kwargs := []) (msg := c!"broken") rfl (by decide +kernel) (.inl rfl)
    split at h
    · rename_i e; subst e; cases h
      exact .unknown (kwargs := []) (by decide +kernel) rfl
    split at h
    · rename_i e; subst e; cases h
      exact .wrongArgs (by decide +kernel)
    split at h
    · rename_i e; subst e; cases h
      exact .notString (kwargs := []) (descr := c!"returns None") rfl (by decide +kernel) (by decide +kernel)
    · cases h

/-- calls in a text, with and without errors, meet the hypotheses of `C17_tag` -/
example : let a : List Cr.Inl := [.chr 'a', .chr ' ', .macText c!"show" c!" key='v'" c!" some text ", .mac c!"show" c!" key"]
    let b : List Cr.Inl := [.face .strong [.mac c!"nothing" [], .mac c!"show" []], .chr '&']
    let l := a ++ .mac c!"show" c!" key=\"v\" /" :: b
    wfs exampleCtx none l = true ∧ lineText (prints l) = true ∧ plainStart .all (prints l) = true ∧
      prints l = c!"a <<show key='v'>> some text <</show>><<show key>><<show key=\"v\" />>**<<nothing>><<show>>**&" := by
  decide +kernel

/-- a block between other blocks meets the hypotheses of `C17_block` -/
example : let d : Cr.Doc := [([], .para [[.chr 'a']])]
    let d' : Cr.Doc := [([], .mac c!"fail" [] [[], c!"x", []]), ([[]], .head 1 c!" " c!"h" [])]
    docOk exampleCtx true (d ++ ([], .mac c!"show" c!" key=\"v\" " [[], c!"* some", [], c!"* text", []]) :: d') = true ∧
      docLines (d ++ ([], .mac c!"show" c!" key=\"v\" " [[], c!"* some", [], c!"* text", []]) :: d') =
        [c!"a", c!"<<show key=\"v\" >>", c!"* some", [], c!"* text", c!"<</show>>", c!"<<fail>>", c!"x", c!"<</fail>>", [], c!"= h"] ∧
      docHtml exampleCtx true (d ++ ([], .mac c!"show" c!" key=\"v\" " [[], c!"* some", [], c!"* text", []]) :: d') =
        c!"<p>a</p>\n<b>v: * some\n\n* text</b>\n[Error: Macro 'fail' error: broken]\n\n<h1>h</h1>" := by
  decide +kernel

/-! ## C18: documents with a table of contents -/

/-- the table of contents is in the dict, and all functions raise nothing but `Exception`s -/
def WithToc (ms : Macros) : Prop :=
  NoBase ms ∧ (∀ k t, dictGet k ms = some (.toc t) → k = c!"toc") ∧
    ∃ t : Toc, dictGet c!"toc" ms = some (.toc t) ∧ ∀ x ∈ t.headlines, 1 ≤ x.1

theorem WithToc.set {ms : Macros} (h : WithToc ms) {t : Toc} (ht : ∀ x ∈ t.headlines, 1 ≤ x.1) :
    WithToc (dictSet c!"toc" (.toc t) ms) := by
  refine ⟨h.1.setToc _ _, ?_, t, dictGet_dictSet_self .., ht⟩
  intro k t' hk
  by_cases e : k = c!"toc"
  · exact e
  · rw [dictGet_dictSet_ne e] at hk; exact h.2.1 k t' hk

theorem WithToc.record {ms : Macros} (h : WithToc ms) (c : MacroCall) : WithToc (ms.map fun (k, m) => (k, m.record c)) := by
  obtain ⟨h1, h2, t, h3, h4⟩ := h
  refine ⟨h1.record c, ?_, t, by rw [dictGet_record, h3]; rfl, h4⟩
  intro k t' hk
  rw [dictGet_record] at hk
  cases hd : dictGet k ms with
  | none => rw [hd] at hk; cases hk
  | some m =>
    rw [hd] at hk
    cases m with
    | toc t' => exact h2 k t' hd
    | fn f => cases hk
    | obj p f => cases hk

theorem macroEmit_withToc {env : Env} (hv : env.verbose ≤ 2) (i : Info) (ms : Macros) (h : WithToc ms) :
    Good WithToc (fun e => ∃ msg, e = .typeError msg) (macroEmit env i ms) := by
  unfold macroEmit
  simp only
  cases hs : string2dict i.macroArgs with
  | error e => rw [string2dict_err hs]; exact h
  | ok kw =>
    simp only
    cases hm : dictGet i.macroName ms with
    | none => exact h
    | some m =>
      simp only
      obtain ⟨h1, -⟩ := callMacro_noBase (kw := dictSet c!"text" (optVal i.content) kw) h.1 hm
      have h2 : WithToc (callMacro i.macroName m (dictSet c!"text" (optVal i.content) kw) ms).2 := by
        cases m with
        | fn f => exact h
        | obj past f => exact h.record _
        | toc t =>
          have hk := h.2.1 _ _ hm
          unfold callMacro
          simp only
          split
          · exact h
          · rw [hk]
            refine h.set ?_
            rw [hk] at hm
            obtain ⟨t', ht', hl⟩ := h.2.2
            rw [hm] at ht'
            cases ht'
            rw [Toc.call_headlines]
            exact hl
      cases hc : callMacro i.macroName m (dictSet c!"text" (optVal i.content) kw) ms with
      | mk out ms' =>
        rw [hc] at h1 h2
        cases out with
        | typeError msg => simp only [if_neg (show ¬ env.verbose > 2 by omega)]; exact h2
        | baseExc => exact absurd rfl h1
        | _ => exact h2

theorem headerEmit_withToc {env : Env} (hu : env.useToc = true) (n : Nat) (s : Str) (ms : Macros)
    (h : WithToc ms) : Good WithToc (fun e => ∃ msg, e = .typeError msg) (headerEmit env (n + 1) s ms) := by
  obtain ⟨t, hg, ht⟩ := h.2.2
  have hadd : ∀ x ∈ t.headlines ++ [(n + 1, s)], 1 ≤ x.1 := by
    intro x hx
    simp only [List.mem_append, List.mem_singleton] at hx
    rcases hx with hx | rfl
    · exact ht x hx
    · simp
  unfold headerEmit
  simp only [hu, if_true, hg]
  unfold Toc.addHeadline
  cases hd : t.maxDepth with
  | none => exact h.set hadd
  | some d =>
    simp only
    cases hl : levelLe (n + 1) d with
    | error e =>
      unfold levelLe at hl
      split at hl <;> simp at hl <;> exact ⟨_, hl.symm⟩
    | ok b =>
      refine h.set ?_
      split
      · exact hadd
      · exact ht

/-- **C18**, all documents, also those with a table of contents: with `verbose <= 2` and a dict of macros that raise
nothing but `Exception`s and among which there is no `toc` (and no `TableOfContent` under another name), the only exception that can leave `creole2html` is
`TypeError` (it comes from the depth of the table of contents, C24). -/
theorem C18_with_toc (o : Opts) (macros : Macros) (markup : Str) (hv : o.verbose ≤ 2)
    (hm : ∀ name t, dictGet name macros ≠ some (.toc t)) (hb : ∀ name m, dictGet name macros = some m → ¬ m.May .baseExc) (ht : dictGet c!"toc" macros = none) :
    (∃ html macros', creole2htmlM o macros markup = .ok (html, macros')) ∨
      ∃ msg, creole2htmlM o macros markup = .error (.typeError msg) := by
  obtain ⟨d, h1, h2, -⟩ := parse_ok (p := InfoOK True) (blog := o.blog) (raw := markup)
    (by have := allows_infoOK True; exact { this with macros := fun nm _ => this.macros nm trivial })
  have key : Good (fun _ => True) (fun e => ∃ msg, e = .typeError msg) (emitDoc o.verbose o.strict d macros) := by
    cases hu : d.used.contains c!"toc" with
    | false =>
      have := emitDoc_noToc (verbose := o.verbose) (strict := o.strict) (macros := macros) (Inv := NoBase)
        (E := fun e => ∃ msg, e = .typeError msg) h2 hu (fun i ms hi => by
          have := macroEmit_noBase (env := { verbose := o.verbose, strict := o.strict, useToc := false }) hv i ms hi
          cases hr : macroEmit { verbose := o.verbose, strict := o.strict, useToc := false } i ms with
          | error e => rw [hr] at this; exact absurd this id
          | ok x => rw [hr] at this; exact this) hb
      cases hr : emitDoc o.verbose o.strict d macros with
      | error e => rw [hr] at this; exact this
      | ok x => trivial
    | true =>
      unfold emitDoc
      simp only [hu, if_true, ht, Option.isNone_none, Bool.and_self]
      have h0 : WithToc (dictSet c!"toc" (.toc {}) macros) := by
        refine ⟨NoBase.setToc hb _ _, ?_, {}, dictGet_dictSet_self .., by simp⟩
        intro k t hk
        by_cases e : k = c!"toc"
        · exact e
        · rw [dictGet_dictSet_ne e] at hk
          exact absurd hk (hm _ _)
      have := emitNode_good (mac := True) (Inv := WithToc) (E := fun e => ∃ msg, e = .typeError msg)
        (env := { verbose := o.verbose, strict := o.strict, useToc := true })
        (fun i ms _ h => macroEmit_withToc hv i ms h)
        (fun n s ms h => headerEmit_withToc rfl n s ms h) d.root { kind := .document } _ trivial h2 h0
      cases hr : emitNode { verbose := o.verbose, strict := o.strict, useToc := true } { kind := .document } d.root
        (dictSet c!"toc" (.toc {}) macros) with
      | error e => rw [hr] at this; exact this
      | ok x =>
        obtain ⟨s, ms⟩ := x
        rw [hr] at this
        obtain ⟨t, hg, hl⟩ := this.2.2
        obtain ⟨a, ha, -⟩ := flatToNest_spec t.headlines hl
        simp only [ok_bind, hg]
        unfold Toc.emit
        rw [ha, ok_bind]
        split <;> trivial
  unfold creole2htmlM
  rw [h1, ok_bind]
  cases hr : emitDoc o.verbose o.strict d macros with
  | error e =>
    rw [hr] at key
    obtain ⟨msg, rfl⟩ := key
    exact .inr ⟨msg, rfl⟩
  | ok x => exact .inl ⟨x.1, x.2, rfl⟩

example : OnlyFunctions exampleMacros ∧ dictGet c!"toc" exampleMacros = none := by
  refine ⟨?_, rfl⟩
  intro name m h
  simp only [exampleMacros, dictGet, List.lookup] at h
  split at h
  · exact ⟨_, (Option.some.inj h).symm⟩
  · split at h
    · exact ⟨_, (Option.some.inj h).symm⟩
    · simp at h

end Verif.Props
