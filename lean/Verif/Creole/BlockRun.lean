import Verif.Creole.PreText
import Verif.Creole.InlineMain

/-!
# Parsing and emitting blocks: blank lines, headings, rules, preformatted blocks, paragraphs
-/

namespace Verif.Creole

open Verif Re Py Spec Spec.Cr

variable {env : Env} {sg : Stage} {ms : Macros} {cx : Ctx} [hcx : CxOk env ms cx]

/-! ## States between blocks -/

def docInfo : Info := { kind := .document }

def docSt (us : List Str) (cs : List Node) : PS := { cur := { info := docInfo, children := cs }, used := us }

/-- the nodes of a document give the text `t` and lead to the macros `ms` -/
def EmitsD (env : Env) (sg : Stage) (ms : Macros) (cs : List Node) (t : Str) : Prop :=
  emitNodes env docInfo cs sg.first = .ok (t, ms)

omit hcx in
theorem emitsD_snoc {ms' : Macros} {a : List Node} {n : Node} {s t : Str} (ha : EmitsD env sg ms a s)
    (h : emitNode env docInfo n ms = .ok (t, ms')) : EmitsD env sg ms' (a ++ [n]) (s ++ t) := by
  unfold EmitsD at *
  rw [emitNodes_append, ha]
  simp only
  rw [emitNodes, h]
  simp only
  rw [emitNodes]
  simp

/-- if the blocks that are open were closed now, the document would give `t` -/
structure Top (env : Env) (sg : Stage) (ms : Macros) (st : PS) (t : Str) : Prop where
  text : st.text = false
  used : UsedOk sg st.used
  doc : ∃ cs, st.uptoBlock = docSt st.used cs ∧ EmitsD env sg ms cs t
  here : st.cur.kind = .document → st.uptoBlock = st

/-- the kinds of the nodes that are open -/
def path (st : PS) : List Kind := (st.cur :: st.up).map Frame.kind

theorem uptoBlock_doc {us : List Str} {cs : List Node} (h : ∀ n, cs.getLast? = some n → n.kind ≠ .brk) : (docSt us cs).uptoBlock = docSt us cs := by
  unfold PS.uptoBlock PS.upto
  have : (docSt us cs).cleanupBreak = docSt us cs := by
    unfold PS.cleanupBreak docSt
    simp only
    cases hl : cs.getLast? with
    | none => rfl
    | some n => simp only; rw [if_neg (h n hl)]
  rw [this]
  rfl

theorem top_doc {us : List Str} {cs : List Node} {t : Str} (hu : UsedOk sg us) (h : ∀ n, cs.getLast? = some n → n.kind ≠ .brk) (he : EmitsD env sg ms cs t) :
    Top env sg ms (docSt us cs) t :=
  ⟨rfl, hu, ⟨cs, uptoBlock_doc h, he⟩, fun _ => uptoBlock_doc h⟩

theorem top_init : Top env ⟨ms, false⟩ ms PS.init [] := top_doc (us := []) rfl (by simp) (by unfold EmitsD; rw [emitNodes])

/-- a handler succeeds; then the document gives `t`, and the open nodes are among `ks` -/
def Puts (env : Env) (sg : Stage) (ms : Macros) (r : PM) (t : Str) (ks : List Kind) : Prop :=
  ∃ st', r = .ok st' ∧ Top env sg ms st' t ∧ ∀ k ∈ path st', k ∈ ks

theorem top_leaf {ms' : Macros} {st : PS} {t s : Str} {i : Info} (h : Top env sg ms st t) (he : emitNode env docInfo (.mk i []) ms = .ok (s, ms'))
    (hk : i.kind ≠ .brk) : Top env sg ms' (st.uptoBlock.leaf i) (t ++ s) ∧ ∀ k ∈ path (st.uptoBlock.leaf i), k ∈ [Kind.document] := by
  obtain ⟨cs, h1, h2⟩ := h.doc
  rw [h1]
  have : (docSt st.used cs).leaf i = docSt st.used (cs ++ [.mk i []]) := rfl
  rw [this]
  refine ⟨top_doc h.used ?_ (emitsD_snoc h2 he), by simp [path, docSt, docInfo, Frame.kind]⟩
  intro n hn
  rw [List.getLast?_append, List.getLast?_singleton, Option.some_or, Option.some.injEq] at hn
  rw [← hn]; exact hk

theorem checkText_ok {st : PS} (h : st.text = false) : st.checkText = .ok st := by
  unfold PS.checkText; rw [h]; rfl

theorem lineRepl_puts {st : PS} {t : Str} (h : Top env sg ms st t) : Puts env sg ms (lineRepl st) (t ++ c!"\n") [.document] := by
  obtain ⟨h1, h2⟩ := top_leaf (ms' := ms) (i := { kind := .line, content := some [] }) (s := c!"\n") h (by rw [emitNode]) (by decide)
  refine ⟨_, ?_, h1, h2⟩
  unfold lineRepl
  rw [checkText_ok h.text]; rfl

theorem separatorRepl_puts {st : PS} {t : Str} (h : Top env sg ms st t) : Puts env sg ms (separatorRepl st) (t ++ c!"<hr />\n") [.document] := by
  obtain ⟨h1, h2⟩ := top_leaf (ms' := ms) (i := { kind := .separator }) (s := c!"<hr />\n") h (by rw [emitNode]) (by decide)
  refine ⟨_, ?_, h1, h2⟩
  unfold separatorRepl
  rw [checkText_ok h.text]; rfl

theorem noText_top {st : PS} {t : Str} (h : Top env sg ms st t) : st.noText = st := by
  unfold PS.noText
  have := h.text
  cases st; simp_all

theorem headRepl_puts {ms' : Macros} {st : PS} {t : Str} {n : Nat} {x title s : Str} {w : Str} (h : Top env sg ms st t) (ht : strip title = title)
    (hs : headerEmit env n title ms = .ok (s, ms')) :
    Puts env sg ms' (headRepl ⟨w, [(.head, x), (.head_text, title), (.head_head, List.replicate n '=')]⟩ st) (t ++ s) [.document] := by
  obtain ⟨h1, h2⟩ := top_leaf (ms' := ms') (i := { kind := .header, content := some title, level := some n }) (s := s) h (by
      rw [emitNode]
      simp only [Info.levelE, Info.contentE, hs]) (by simp)
  refine ⟨_, ?_, h1, h2⟩
  unfold headRepl
  have hn1 : need (Match.mk w [(G.head, x), (G.head_text, title), (G.head_head, List.replicate n '=')]) .head_text = .ok title := rfl
  have hn2 : need (Match.mk w [(G.head, x), (G.head_text, title), (G.head_head, List.replicate n '=')]) .head_head =
    .ok (List.replicate n '=') := rfl
  simp only [hn1, hn2, ok_bind, ht, List.length_replicate]
  rw [noText_top h1]; rfl

omit hcx in
/-- a heading without a table of contents -/
theorem header_plain (hu : env.useToc = false) (n : Nat) (title : Str) :
    headerEmit env n title ms = .ok (headHtml false n title ++ c!"\n", ms) := by
  simp only [headerEmit, hu, Bool.false_eq_true, if_false, htmlEscape_spec, headHtml]
  simp [decimal, Py.natDigits, pure, Except.pure]

omit hcx in
/-- a heading with a table of contents -/
theorem header_toc {tc tc' : Toc} (hu : env.useToc = true) (hm : dictGet c!"toc" ms = some (.toc tc)) {n : Nat} {title : Str}
    (ha : tc.addHeadline n title = .ok tc') :
    headerEmit env n title ms = .ok (headHtml true n title ++ c!"\n", dictSet c!"toc" (.toc tc') ms) := by
  simp only [headerEmit, hu, if_true, hm, ha, htmlEscape_spec, headHtml]
  simp [decimal, Py.natDigits, pure, Except.pure, bind, Except.bind]

/-! ## Preformatted text -/

theorem textHtml_ended (ls : List Str) : textHtml (ended ls) = ls.flatMap (fun l => textHtml l ++ c!"\n") := by
  induction ls with
  | nil => rfl
  | cons l ls ih =>
    have : textHtml ('\n' :: ended ls) = '\n' :: textHtml (ended ls) := rfl
    rw [ended_cons, textHtml_append, this, ih, List.flatMap_cons]
    simp

theorem preRepl_puts {st : PS} {t x w : Str} {ls : List Str} (h : Top env sg ms st t) (hl : ∀ l ∈ ls, '\n' ∉ l) :
    Puts env sg ms (preBlockRepl ⟨w, [(.pre_block, x), (.pre_block_text, '\n' :: ended ls)]⟩ st)
      (t ++ (c!"<pre>\n" ++ ls.flatMap (fun l => textHtml (preLine l) ++ c!"\n") ++ c!"</pre>\n")) [.document] := by
  obtain ⟨h1, h2⟩ := top_leaf (ms' := ms) (i := { kind := .pre_block, content := some ('\n' :: ended (ls.map preLine)) })
    (s := c!"<pre>\n" ++ ls.flatMap (fun l => textHtml (preLine l) ++ c!"\n") ++ c!"</pre>\n") h (by
      rw [emitNode]
      have : textHtml ('\n' :: ended (ls.map preLine)) = '\n' :: textHtml (ended (ls.map preLine)) := rfl
      simp only [Info.contentE, pureText, Except.map, htmlEscape_spec, this, textHtml_ended, List.flatMap_map]
      simp) (by simp)
  refine ⟨_, ?_, h1, h2⟩
  unfold preBlockRepl
  have hn1 : need (Match.mk w [(G.pre_block, x), (G.pre_block_text, '\n' :: ended ls)]) .pre_block_text = .ok ('\n' :: ended ls) := rfl
  simp only [hn1, ok_bind, removeTilde_lines hl]
  rw [noText_top h1]; rfl

/-! ## Paragraphs -/

def paraInfo : Info := { kind := .paragraph }

/-- inside a paragraph that gives `u` so far; the blocks before it give `t` -/
structure ParaSt (env : Env) (sg : Stage) (ms : Macros) (st : PS) (t u : Str) : Prop where
  text : st.text = false
  used : UsedOk sg st.used
  info : st.cur.info = paraInfo
  up : ∃ cs, st.up = [⟨docInfo, cs⟩] ∧ EmitsD env sg ms cs t
  emits : Emits env ms paraInfo st.cur.children u

/-- the second half of `textRepl` -/
def textBody (m : Match G) (st : PS) : PM := do
  let text ← need m .text
  let text := if (m.get .space).getD [] ≠ [] && !st.cur.children.isEmpty then ' ' :: text else text
  let st ← parseInline text st
  let st := if (m.get .brk).getD [] ≠ [] && breakKinds st.cur.kind
    then st.leaf { kind := .brk, content := some [] } else st
  return st.noText

theorem textRepl_para {st : PS} {t u : Str} (h : ParaSt env sg ms st t u) (m : Match G) : textRepl m st = textBody m st := by
  have hk : st.cur.kind = .paragraph := by unfold Frame.kind; rw [h.info]; rfl
  unfold textRepl textBody
  rw [checkText_ok h.text, ok_bind]
  simp [hk, isDoc]

/-- a paragraph is opened -/
theorem textRepl_enter {st : PS} {t : Str} (h : Top env sg ms st t) (hk : st.cur.kind = .document ∨ st.cur.kind = .table) :
    ∃ st1, ParaSt env sg ms st1 t [] ∧ st1.cur.children = [] ∧ ∀ m, textRepl m st = textBody m st1 := by
  obtain ⟨cs, h1, h2⟩ := h.doc
  refine ⟨(docSt st.used cs).push { kind := .paragraph }, ⟨rfl, h.used, rfl, ⟨cs, rfl, h2⟩, emits_nil⟩, rfl, ?_⟩
  intro m
  unfold textRepl textBody
  rw [checkText_ok h.text, ok_bind]
  rcases hk with hk | hk
  · have : st = docSt st.used cs := by rw [← h1, h.here hk]
    generalize st.used = us at this
    subst this
    rfl
  · rw [if_pos (by simp [hk]), h1]
    rfl

theorem uptoBlock_para {us : List Str} {cs xs : List Node} {i : Info} (hi : i.kind = .paragraph) (h : ∀ n, xs.getLast? = some n → n.kind ≠ .brk) :
    PS.uptoBlock ⟨⟨i, xs⟩, [⟨docInfo, cs⟩], false, us⟩ = docSt us (cs ++ [.mk i xs]) := by
  unfold PS.uptoBlock PS.upto
  have : PS.cleanupBreak ⟨⟨i, xs⟩, [⟨docInfo, cs⟩], false, us⟩ = ⟨⟨i, xs⟩, [⟨docInfo, cs⟩], false, us⟩ := by
    unfold PS.cleanupBreak
    simp only
    cases hl : xs.getLast? with
    | none => rfl
    | some n => simp only; rw [if_neg (h n hl)]
  rw [this]
  simp [climb, isDoc, Frame.kind, hi, docSt, Frame.add, Frame.close]

theorem uptoBlock_para_brk {us : List Str} {cs xs : List Node} {i : Info} {n : Node} (hi : i.kind = .paragraph) (hn : n.kind = .brk) :
    PS.uptoBlock ⟨⟨i, xs ++ [n]⟩, [⟨docInfo, cs⟩], false, us⟩ = docSt us (cs ++ [.mk i xs]) := by
  unfold PS.uptoBlock PS.upto
  have : PS.cleanupBreak ⟨⟨i, xs ++ [n]⟩, [⟨docInfo, cs⟩], false, us⟩ = ⟨⟨i, xs⟩, [⟨docInfo, cs⟩], false, us⟩ := by
    unfold PS.cleanupBreak
    simp [hn]
  rw [this]
  simp [climb, isDoc, Frame.kind, hi, docSt, Frame.add, Frame.close]

theorem emit_para {parent : Info} {xs : List Node} {u : Str} (h : Emits env ms paraInfo xs u) :
    emitNode env parent (.mk paraInfo xs) ms = .ok (c!"<p>" ++ u ++ c!"</p>\n", ms) := by
  unfold Emits at h
  rw [emitNode]
  simp only [paraInfo] at h ⊢
  simp [h, emap, Except.map]

theorem wfs_space (l : List Inl) : wfs cx (some ' ') l = wfs cx none l := by
  cases l with
  | nil => rfl
  | cons i l =>
    rw [wfs, wfs]
    congr 1
    have h1 : ∀ s, urlHere (some ' ') s = urlHere none s := by intro s; rfl
    have h2 : ∀ c s, pairHere (some ' ') c s = pairHere none c s := by intro c s; rfl
    cases i <;> simp only [Inl.wf, h1, h2] <;> rfl

theorem wfs_lead {l : List Inl} (h : wfs cx none l = true) : wfs cx none (.chr ' ' :: l) = true := by
  rw [wfs]
  simp only [Inl.print, List.getLast?_singleton, wfs_space, h, Bool.and_true, Inl.wf]
  have : urlHere none (' ' :: prints l) = false := by
    simp [urlHere, startsUrl, protocols, List.isPrefixOf]
  rw [this]
  rfl

/-- one line of a paragraph -/
theorem textBody_para {st : PS} {t u : Str} {l : List Inl} {m : Match G} {sp bk : Bool} (h : ParaSt env sg ms st t u) (hwf : wfs cx none l = true)
    (hne : l ≠ []) (hm : need m .text = .ok (prints l)) (hs : m.get .space = if sp then some c!"\n" else none)
    (hb : m.get .brk = if bk then some c!"\n" else none) :
    ∃ st', textBody m st = .ok st' ∧
      ParaSt env sg ms st' t (u ++ (if sp && !st.cur.children.isEmpty then c!" " else []) ++ htmls cx c!"<br />\n" l ++ (if bk then c!"<br />\n" else [])) ∧
      st'.cur.children ≠ [] ∧ ((l.getLast?).all Inl.notBr = true →
        Puts env sg ms (.ok st') (t ++ (c!"<p>" ++ (u ++ (if sp && !st.cur.children.isEmpty then c!" " else []) ++ htmls cx c!"<br />\n" l) ++ c!"</p>\n"))
          [.paragraph, .document]) ∧ (bk = false → (l.getLast?).all Inl.notBr = true → NoBrk st') := by
  have hbr : breakEmit st.cur.info = .ok c!"<br />\n" := by rw [h.info]; rfl
  have hsp : ((m.get .space).getD [] ≠ [] && !st.cur.children.isEmpty) = (sp && !st.cur.children.isEmpty) := by
    rw [hs]; cases sp <;> simp
  have key : Did env ms st (parseInline (if (sp && !st.cur.children.isEmpty) = true then ' ' :: prints l else prints l) st)
      ((if sp && !st.cur.children.isEmpty then c!" " else []) ++ htmls cx c!"<br />\n" l) ((l.getLast?).all Inl.notBr) := by
    split
    · have := parseInline_did (env := env) (ms := ms) (cx := cx) (l := .chr ' ' :: l) (st := st) (wfs_lead hwf) (by simp) (textOK_of_false h.text) hbr
      have e : prints (.chr ' ' :: l) = ' ' :: prints l := rfl
      have e' : htmls cx c!"<br />\n" (.chr ' ' :: l) = c!" " ++ htmls cx c!"<br />\n" l := rfl
      have e'' : (Inl.chr ' ' :: l).getLast? = l.getLast? := by
        rw [List.getLast?_cons, List.getLast?_eq_some_getLast hne]; rfl
      rw [e, e', e''] at this
      exact this
    · exact parseInline_did hwf hne (textOK_of_false h.text) hbr
  obtain ⟨st1, hst, ha, hc, hn⟩ := key
  obtain ⟨cs, hup, hcs⟩ := h.up
  have hem := ha.emits u (by rw [h.info]; exact h.emits)
  rw [h.info] at hem
  have hinfo : st1.cur.info = paraInfo := by rw [ha.info, h.info]
  have hup1 : st1.up = [⟨docInfo, cs⟩] := by rw [ha.up, hup]
  have hus : UsedOk sg st1.used := ha.used h.used
  have hbody : textBody m st = .ok ((if bk then st1.leaf { kind := .brk, content := some [] } else st1).noText) := by
    unfold textBody
    rw [hm]
    simp only [ok_bind, hsp]
    rw [hst]
    have hk : breakKinds st1.cur.kind = true := by unfold Frame.kind; rw [hinfo]; rfl
    simp only [ok_bind, hk, Bool.and_true, hb]
    cases bk <;> rfl
  refine ⟨_, hbody, ?_, ?_, ?_, ?_⟩
  · cases bk with
    | false =>
      simp only [Bool.false_eq_true, if_false, List.append_nil]
      rw [← List.append_assoc] at hem
      exact ⟨rfl, hus, hinfo, ⟨cs, hup1, hcs⟩, hem⟩
    | true =>
      simp only [if_true]
      rw [← List.append_assoc] at hem
      exact ⟨rfl, hus, hinfo, ⟨cs, hup1, hcs⟩, emits_snoc hem (by rw [emitNode]; rfl)⟩
  · cases bk with
    | false => exact hc
    | true => simp [PS.leaf, PS.noText, Frame.add]
  · intro hl
    refine ⟨_, rfl, ⟨?_, ?_, ?_, ?_⟩, ?_⟩
    · cases bk <;> rfl
    · cases bk <;> exact hus
    · refine ⟨cs ++ [.mk paraInfo st1.cur.children], ?_, emitsD_snoc hcs (emit_para (by rw [List.append_assoc]; exact hem))⟩
      obtain ⟨⟨i, xs⟩, up, tx, us⟩ := st1
      simp only at hinfo hup1 hc hn
      subst hinfo hup1
      cases bk with
      | false => exact uptoBlock_para (i := paraInfo) rfl (hn hl)
      | true => exact uptoBlock_para_brk (i := paraInfo) (n := .mk { kind := .brk, content := some [] } []) rfl rfl
    · intro hk
      exfalso
      have : ((if bk then st1.leaf { kind := .brk, content := some [] } else st1).noText).cur.kind = .paragraph := by
        unfold Frame.kind
        cases bk
        · simp only [Bool.false_eq_true, if_false, PS.noText]; rw [hinfo]; rfl
        · simp only [if_true, PS.noText, PS.leaf, Frame.add]; rw [hinfo]; rfl
      rw [this] at hk
      exact absurd hk (by decide)
    · obtain ⟨⟨i, xs⟩, up, tx, us⟩ := st1
      simp only at hinfo hup1
      subst hinfo hup1
      cases bk <;> simp [path, PS.noText, PS.leaf, Frame.add, Frame.kind, paraInfo, docInfo]
  · rintro rfl hl
    exact hn hl

end Verif.Creole
