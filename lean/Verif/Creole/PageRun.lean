import Verif.Creole.DocMain
import Verif.Spec.Pages

/-!
# Documents with calls of macros on lines of their own
-/

namespace Verif.Creole

open Verif Re Py Spec Spec.Cr

variable {env : Env} {sg : Stage} {ms : Macros} {cx : Ctx}

/-! ## Reading the line of a call -/

/-- the macros that have been called, after a further call -/
def Stage.called (sg : Stage) (name : Str) : Stage := ⟨sg.first, sg.toc || name == c!"toc"⟩

theorem usedOk_called {us : List Str} (name : Str) (h : UsedOk sg us) : UsedOk (sg.called name) (name :: us) := by
  unfold UsedOk Stage.called at *
  simp only [List.contains_cons, h]
  rw [Bool.or_comm]
  congr 1
  rw [Bool.eq_iff_iff, beq_iff_eq, beq_iff_eq]
  exact eq_comm

theorem emitsD_called {name : Str} {cs : List Node} {t : Str} (h : EmitsD env sg ms cs t) : EmitsD env (sg.called name) ms cs t := h

/-- the line of a call, as inline markup -/
theorem inline_call {n a : Str} {st : PS} (h : NameArgs n a) :
    parseInline (c!"<<" ++ n ++ a ++ c!">>") st =
      .ok { (st.addNode (.mk (callInfo (lineCall n a)) [])).noText with used := n :: st.used } := by
  obtain ⟨w, hw, hm⟩ := match_mac (p := none) (rest := []) h (by intro k _; rfl)
  unfold parseInline parseInlineN
  rw [subAll_eq]
  have e : c!"<<" ++ n ++ a ++ c!">>" = c!"<<" ++ (n ++ (a ++ (c!">>" ++ []))) := by simp
  rw [runR_take' (w := c!"<<" ++ n ++ a ++ c!">>") (rest := []) (by simp) (by simp) (by rw [e]; exact hm), onHit_mac]
  have e : ∀ k, inlineRepl (parseInlineN k) .macro_tag ⟨c!"<<" ++ n ++ a ++ c!">>", [(.macro_tag, c!"<<" ++ n ++ a ++ c!">>"), (.macro_tag_args, w),
      (.macro_tag_name, n)]⟩ st = .ok { (st.addNode (.mk { kind := .macro_inline, macroName := n, macroArgs := strip w } [])).noText with
        used := n :: st.used } := fun _ => rfl
  rw [e, ok_bind, runR_nil inlineRe_nullable, hw]
  rfl

theorem emit_call {parent : Info} {n a u : Str} {ms' : Macros} (h : macroEmit env (callInfo (lineCall n a)) ms = .ok (u, ms')) :
    emitNode env parent (.mk paraInfo [.mk (callInfo (lineCall n a)) []]) ms = .ok (c!"<p>" ++ u ++ c!"</p>\n", ms') := by
  have hc : ∀ p, emitNode env p (.mk (callInfo (lineCall n a)) []) ms = .ok (u, ms') := by
    intro p
    rw [emitNode]
    exact h
  rw [emitNode]
  simp only [paraInfo]
  rw [emitNodes, hc]
  simp only
  rw [emitNodes]
  simp [emap, Except.map]

theorem textBody_call {st : PS} {t n a u : Str} {ms' : Macros} {m : Match G} {bk : Bool} (hna : NameArgs n a) (h : ParaSt env sg ms st t [])
    (hch : st.cur.children = []) (hm : need m .text = .ok (c!"<<" ++ n ++ a ++ c!">>")) (hb : m.get .brk = if bk then some c!"\n" else none)
    (he : macroEmit env (callInfo (lineCall n a)) ms = .ok (u, ms')) :
    ∃ st', textBody m st = .ok st' ∧ Top env (sg.called n) ms' st' (t ++ (c!"<p>" ++ u ++ c!"</p>\n")) ∧
      (∀ k ∈ path st', k ∈ [Kind.paragraph, .document]) ∧ (bk = false → NoBrk st') := by
  obtain ⟨cs, hup, hcs⟩ := h.up
  have hus := h.used
  have hinfo := h.info
  obtain ⟨⟨i, xs⟩, up, tx, us⟩ := st
  simp only at hup hinfo hch hus
  subst hup hinfo hch
  have hbody : textBody m ⟨⟨paraInfo, []⟩, [⟨docInfo, cs⟩], tx, us⟩ =
      .ok ⟨⟨paraInfo, .mk (callInfo (lineCall n a)) [] :: if bk then [.mk { kind := .brk, content := some [] } []] else []⟩, [⟨docInfo, cs⟩], false, n :: us⟩ := by
    unfold textBody
    rw [hm]
    simp only [ok_bind, List.isEmpty_nil, Bool.not_true, Bool.and_false, Bool.false_eq_true, if_false]
    rw [inline_call hna]
    simp only [ok_bind, hb]
    cases bk <;> rfl
  refine ⟨_, hbody, ⟨rfl, usedOk_called n hus, ?_, ?_⟩, ?_, ?_⟩
  · refine ⟨cs ++ [.mk paraInfo [.mk (callInfo (lineCall n a)) []]], ?_, emitsD_snoc (emitsD_called hcs) (emit_call he)⟩
    cases bk with
    | false => exact uptoBlock_para (i := paraInfo) rfl (by intro x hx; simp at hx; subst hx; simp [Node.kind, Node.info, callInfo, lineCall])
    | true => exact uptoBlock_para_brk (i := paraInfo) (xs := [.mk (callInfo (lineCall n a)) []]) (n := .mk { kind := .brk, content := some [] } []) rfl rfl
  · intro hk
    simp [Frame.kind, paraInfo] at hk
  · simp [path, Frame.kind, paraInfo, docInfo]
  · rintro rfl x hx
    simp at hx; subst hx; simp [Node.kind, Node.info, callInfo, lineCall]

/-- what reading a chunk does -/
def DidC (env : Env) (sg : Stage) (ms : Macros) (blog : Bool) (b : Block) (gap : List Str) (o : Option Str) (r : PM) (t : Str) : Prop :=
  ∃ st' cont, r = cont st' ∧ Cont blog b gap o cont ∧ Top env sg ms st' t ∧ After b st' ∧ (o = none → NoBrk st')

theorem Entry.line' {blog : Bool} {b : Start} {line r : Str} {run : PS → PM} (h : Entry blog b (line ++ r) run) (hl : lineText line = true)
    (hs : plainStart .indented line = true) (hr : atEol true r = true) : ∃ sp, LEntry blog b sp (line ++ r) run := by
  cases blog with
  | true =>
    have hb : b = .all := by cases h <;> rfl
    subst hb
    obtain ⟨p, hp, rfl⟩ := h.start hl hs hr
    exact ⟨_, .bol hp⟩
  | false =>
    generalize hS : line ++ r = s at h
    cases h with
    | bol hp => exact ⟨_, .bol hp⟩
    | forced hp => exact ⟨_, .forced rfl hp⟩
    | mid hp hh => exact ⟨_, .mid rfl hp (by simpa using hh)⟩

theorem call_line {n a : Str} (h : NameArgs n a) : lineText (c!"<<" ++ n ++ a ++ c!">>") = true := by
  simp only [lineText, Bool.and_eq_true, Bool.not_eq_true', List.contains_eq_mem, decide_eq_false_iff_not]
  refine ⟨by rw [show c!"<<" ++ n ++ a ++ c!">>" = '<' :: '<' :: (n ++ a ++ c!">>") from by simp, List.all_cons, show isSpace '<' = false by decide]; rfl, ?_⟩
  intro hm
  simp only [List.mem_append] at hm
  rcases hm with ((hm | hm) | hm) | hm
  · exact absurd hm (by decide)
  · exact absurd rfl (word_ne (h.word _ hm) (d := '\n') (by decide))
  · exact h.nonl hm
  · exact absurd hm (by decide)

theorem call_plain (s : Str) : plainStart .indented (c!"<<" ++ s) = true := by
  simp only [plainStart, List.cons_append, List.nil_append]
  rw [List.dropWhile_cons_of_neg (by decide)]
  simp [List.isPrefixOf]

theorem call_rules {n a r : Str} {p : Option Char} (h : NameArgs n a) (hend : ∀ k, k < n.length → hasEnd (n.take (k + 1)) r = false)
    (hr : atEol true r = true) : ∀ q ∈ macroBlockRule :: bolRules, q.res ⟨p, c!"<<" ++ n ++ a ++ c!">>" ++ r, []⟩ = [] := by
  have hl := call_line h
  obtain ⟨h1, h2, h3⟩ := plain_indented (p := p) (caps := []) (w := []) (b := .indented) (by simp) (by simp) hl
    (by simpa using call_plain (n ++ a ++ c!">>")) hr
  intro q hq
  simp only [bolRules, List.mem_cons, List.not_mem_nil, or_false] at hq
  rcases hq with rfl | rfl | rfl | rfl | rfl | rfl | rfl
  · have := macRule_nil (g := .macro_block) (gs := .macro_block_start) (ga := .macro_block_args) (gt := .macro_block_text) (p := p) h hend (by decide) (by decide)
    simpa [macroBlock_mac] using this
  · exact line_nil (nonblank_of_lineText hl r)
  · exact head_nil (by simp)
  · exact h1
  · exact preBlock_nil (by intro t ht; simp at ht)
  · exact h2
  · exact h3

theorem step_call {blog : Bool} {start : Start} {gap : List Str} {o : Option Str} {run : PS → PM} {st : PS} {t n a u : Str} {ms' : Macros} {ls : List (List Inl)}
    (hna : NameArgs n a) (hend : ∀ k, k < n.length → hasEnd (n.take (k + 1)) (rest gap o) = false)
    (he : Entry blog start (c!"<<" ++ n ++ a ++ c!">>" ++ rest gap o) run) (hR : Rest gap o)
    (ht : Top env sg ms st t) (hen : EnterOk (.para ls) st) (hm : macroEmit env (callInfo (lineCall n a)) ms = .ok (u, ms')) :
    DidC env (sg.called n) ms' blog (.para ls) gap o (run st) (t ++ (c!"<p>" ++ u ++ c!"</p>\n")) := by
  have hcap : ∀ (w line : Str) (sp bk : Bool), need (Match.mk w (lineCaps line sp bk)) .text = .ok line ∧
      (Match.mk w (lineCaps line sp bk)).get .space = (if sp then some c!"\n" else none) ∧
      (Match.mk w (lineCaps line sp bk)).get .brk = (if bk then some c!"\n" else none) := by
    intro w line sp bk; cases sp <;> cases bk <;> exact ⟨rfl, rfl, rfl⟩
  have hlt := call_line hna
  have hl' := hlt
  simp only [lineText, Bool.and_eq_true, Bool.not_eq_true', List.contains_eq_mem, decide_eq_false_iff_not] at hl'
  have hps : plainStart .indented (c!"<<" ++ n ++ a ++ c!">>") = true := by simpa using call_plain (n ++ a ++ c!">>")
  obtain ⟨sp, he'⟩ := he.line' hlt hps (rest_eol gap o)
  obtain ⟨st1, h1, h2, h3⟩ := textRepl_enter ht hen
  obtain ⟨w, h⟩ := line_hit' he' hlt (fun _ p => call_rules hna hend (rest_eol gap o)) (fun _ => hps) (rest_eol gap o) (fun _ => by
    rcases rest_cases hR (c!"<<" ++ n ++ a ++ c!">>").getLast? with ⟨h1, s, h2, h3, _⟩ | h
    · exact .inl ⟨h1, s, h2, h3⟩
    · exact .inr h)
  rcases h with ⟨rfl, rfl, hbs, s, hs1, hs2, hrun⟩ | ⟨hh, hrun⟩
  · obtain ⟨c1, _, c3⟩ := hcap w (c!"<<" ++ n ++ a ++ c!">>") false true
    obtain ⟨st', e1, e2, e3, _⟩ := textBody_call hna h1 h2 c1 c3 hm
    obtain ⟨hg, ho⟩ : gap = [] ∧ o = some s := by
      rcases rest_cases hR (c!"<<" ++ n ++ a ++ c!">>").getLast? with ⟨_, s', h2, _, h3, h4⟩ | h
      · rw [hs1] at h2
        simp only [List.cons.injEq, true_and] at h2
        subst h2
        exact ⟨h3, h4⟩
      · rw [hs1] at h
        exact absurd (h.nonblank hs2) hbs
    refine ⟨st', _, by rw [hrun, h3, e1, ok_bind], ?_, e2, e3, by rw [ho]; simp⟩
    exact .inr ⟨rfl, hg, s, ho, rfl⟩
  · obtain ⟨c1, _, c3⟩ := hcap w (c!"<<" ++ n ++ a ++ c!">>") sp false
    obtain ⟨st', e1, e2, e3, e4⟩ := textBody_call hna h1 h2 c1 c3 hm
    refine ⟨st', _, by rw [hrun, h3, e1, ok_bind], ?_, e2, e3, fun _ => e4 rfl⟩
    exact .inl ⟨_, atBol_last hl'.2 (by simp), rfl⟩

/-! ## Reading a chunk -/

/-- the text of a chunk -/
def ctext (c : Chunk) : Str := joinLines c!"\n" c.lines

/-- a chunk is emitted as `s`, and this turns the macros `ms` into `ms'` -/
def Emitted (env : Env) (cx : Ctx) (blog : Bool) (ms : Macros) (c : Chunk) (s : Str) (ms' : Macros) : Prop :=
  match c with
  | .block (.head n _ title _) => s = headHtml cx.anchors n title ∧ headerEmit env n title ms = .ok (s ++ c!"\n", ms')
  | .block b => s = b.html cx blog ∧ ms' = ms
  | .call n a => ∃ u, s = c!"<p>" ++ u ++ c!"</p>" ∧ macroEmit env (callInfo (lineCall n a)) ms = .ok (u, ms')

/-- calls are read as calls if they are followed by this text -/
def CallFine (after : Str) : Chunk → Prop
  | .block _ => True
  | .call n a => NameArgs n a ∧ ∀ k, k < n.length → hasEnd (n.take (k + 1)) after = false

/-- the macros that have been called, after a further chunk -/
def Stage.seen (sg : Stage) : Chunk → Stage
  | .block _ => sg
  | .call n _ => sg.called n

theorem did_did {blog : Bool} {b : Block} {gap : List Str} {o : Option Str} {r : PM} {t : Str} (h : Did1 env sg ms cx blog b gap o r t) :
    DidC env sg ms blog b gap o r (t ++ (b.html cx blog ++ sep b)) := h

theorem step_chunk {blog : Bool} {start : Start} {c : Chunk} {gap : List Str} {o : Option Str} {run : PS → PM} {st : PS} {t s : Str} {ms' : Macros}
    (hcx : CxOk env ms cx) (hok : c.like.ok cx blog start = true) (he : Entry blog start (ctext c ++ rest gap o) run) (hR : Rest gap o)
    (ht : Top env sg ms st t) (hen : EnterOk c.like st) (hfo : ∀ i l, c.like = .list i l → Follow blog c.like gap o)
    (hem : Emitted env cx blog ms c s ms') (hca : CallFine (rest gap o) c) :
    DidC env (sg.seen c) ms' blog c.like gap o (run st) (t ++ (s ++ sep c.like)) := by
  cases c with
  | call n a =>
    obtain ⟨u, rfl, hm⟩ := hem
    have := step_call (sg := sg) hca.1 hca.2 he hR ht hen hm
    simpa [Chunk.like, sep, Stage.seen] using this
  | block b =>
    simp only [Chunk.like, Stage.seen] at *
    cases b with
    | head n pad title tail => 
      obtain ⟨rfl, hm⟩ := hem
      exact did_did (step_head hm hok he ht)
    | para ls => obtain ⟨rfl, rfl⟩ := hem; exact did_did (step_para hok he hR ht hen)
    | hr => obtain ⟨rfl, rfl⟩ := hem; exact did_did (step_hr hok he ht)
    | pre ls => obtain ⟨rfl, rfl⟩ := hem; exact did_did (step_pre hok he ht)
    | list i l => obtain ⟨rfl, rfl⟩ := hem; exact did_did (step_list hok he hR ht hen (hfo i l rfl))
    | table rows => obtain ⟨rfl, rfl⟩ := hem; exact did_did (step_table hok he hR ht hen)
    | mac n a ts => obtain ⟨rfl, rfl⟩ := hem; exact did_did (step_mac hok he ht)

/-! ## From chunk to chunk -/

/-- the document of blocks that is separated like this one -/
def likes (d : Page) : Cr.Doc := d.map fun x => (x.1, x.2.like)

/-- the blank lines behind a chunk -/
def gapOfP (trail : List Str) : Page → List Str
  | [] => trail
  | (gap, _) :: _ => gap

/-- the text behind these lines -/
def nextOfP (trail : List Str) : Page → Option Str
  | [] => none
  | (_, c) :: d => some (ctext c ++ nls (pageLines d ++ trail))

theorem chunk_ne {blog : Bool} {start : Start} {c : Chunk} (h : c.like.ok cx blog start = true) : c.lines ≠ [] := by
  cases c with
  | block b => exact lines_ne h
  | call n a => simp [Chunk.lines]

theorem nls_ctext {c : Chunk} (h : c.lines ≠ []) : nls c.lines = '\n' :: ctext c := by
  unfold ctext
  cases hl : c.lines with
  | nil => exact absurd hl h
  | cons a L => rw [joinLines_cons, nls_cons]

theorem ctext_nonblank {blog : Bool} {start : Start} {c : Chunk} (h : c.like.ok cx blog start = true) (s : Str) : Nonblank (ctext c ++ s) := by
  cases c with
  | block b => exact btext_nonblank h s
  | call n a => exact nonblank_cons (by decide)

theorem tailOk_cons {blog : Bool} {b : Block} {gap : List Str} {c : Chunk} {d : Page} (h : tailOk cx blog b (likes ((gap, c) :: d)) = true) :
    (∀ g ∈ gap, blank g = true) ∧ (∃ start, c.like.ok cx blog start = true) ∧ tailOk cx blog c.like (likes d) = true := by
  simp only [likes, List.map_cons, tailOk, Bool.and_eq_true, Bool.or_eq_true, List.all_eq_true] at h
  refine ⟨h.1.1, ?_, h.2⟩
  rcases h.1.2 with h | h
  · exact ⟨_, h.2⟩
  · exact ⟨_, h.2⟩

theorem rest_page {blog : Bool} {b : Block} {d : Page} {trail : List Str} (h : tailOk cx blog b (likes d) = true) :
    nls (pageLines d ++ trail) = rest (gapOfP trail d) (nextOfP trail d) := by
  cases d with
  | nil => simp [pageLines, gapOfP, nextOfP, rest, tailStr]
  | cons x d =>
    obtain ⟨gap, c⟩ := x
    obtain ⟨_, ⟨_, hok⟩, _⟩ := tailOk_cons h
    simp only [pageLines, gapOfP, nextOfP, rest, tailStr, nls_append, nls_ctext (chunk_ne hok)]
    simp

theorem rest_okP {blog : Bool} {b : Block} {d : Page} {trail : List Str} (h : tailOk cx blog b (likes d) = true) (ht : ∀ g ∈ trail, blank g = true) :
    Rest (gapOfP trail d) (nextOfP trail d) := by
  cases d with
  | nil => exact ⟨ht, by simp [nextOfP]⟩
  | cons x d =>
    obtain ⟨gap, c⟩ := x
    obtain ⟨hg, ⟨_, hok⟩, _⟩ := tailOk_cons h
    refine ⟨hg, ?_⟩
    intro s hs
    simp only [nextOfP, Option.some.injEq] at hs
    rw [← hs]
    exact ctext_nonblank hok _

theorem follow_page {blog : Bool} {b : Block} {d : Page} {trail : List Str} (h : tailOk cx blog b (likes d) = true) {i : Item} {l : List Item}
    (hb : b = .list i l) : Follow blog b (gapOfP trail d) (nextOfP trail d) := by
  cases d with
  | nil => subst hb; intro _ s hs; simp [nextOfP] at hs
  | cons x d =>
    obtain ⟨gap, c⟩ := x
    cases c with
    | call n a =>
      subst hb
      intro hg s hs
      simp only [gapOfP] at hg
      subst hg
      simp only [likes, List.map_cons, tailOk, Chunk.like, closed, List.isEmpty_nil, Bool.not_true, Bool.false_and, Bool.false_or,
        Bool.and_eq_true, mayTouch] at h
      cases blog <;> simp at h
    | block b' =>
      have h1 : tailOk cx blog b [(gap, b')] = true := by
        simp only [likes, List.map_cons, Chunk.like, tailOk, Bool.and_eq_true, Bool.and_true] at h ⊢
        exact h.1
      have := follow_doc (trail := pageLines d ++ trail) h1 hb
      simpa [gapOf, nextOf, gapOfP, nextOfP, docLines, btext, ctext, Chunk.lines] using this

/-- the chunks after `b` are emitted as `t` -/
inductive Emitteds (env : Env) (cx : Ctx) (blog : Bool) : Macros → Block → Page → Str → Macros → Prop
  | nil {ms : Macros} {b : Block} : Emitteds env cx blog ms b [] [] ms
  | cons {ms ms' ms'' : Macros} {b : Block} {gap : List Str} {c : Chunk} {d : Page} {s t : Str} (hcx : CxOk env ms cx)
      (h : Emitted env cx blog ms c s ms') (hs : Emitteds env cx blog ms' c.like d t ms'') :
      Emitteds env cx blog ms b ((gap, c) :: d) (gapHtml b gap ++ s ++ t) ms''

/-- all calls are read as calls -/
def CallsFine (trail : List Str) : Page → Prop
  | [] => True
  | (_, c) :: d => CallFine (nls (pageLines d ++ trail)) c ∧ CallsFine trail d

/-- the macros that have been called, after further chunks -/
def Stage.seens (sg : Stage) : Page → Stage
  | [] => sg
  | (_, c) :: d => (sg.seen c).seens d

theorem sep_space (b : Block) : ∀ c ∈ sep b, isSpace c = true := by
  cases b <;> simp [sep] <;> decide

theorem page_go {blog : Bool} {trail : List Str} (htr : ∀ g ∈ trail, blank g = true) : ∀ {d : Page} {c : Chunk} {start : Start}
    {run : PS → PM} {st : PS} {t s u : Str} {sg : Stage} {ms ms' ms'' : Macros}, CxOk env ms cx → c.like.ok cx blog start = true →
    tailOk cx blog c.like (likes d) = true → Entry blog start (ctext c ++ nls (pageLines d ++ trail)) run → Top env sg ms st t →
    EnterOk c.like st → Emitted env cx blog ms c s ms' → Emitteds env cx blog ms' c.like d u ms'' →
    CallFine (nls (pageLines d ++ trail)) c → CallsFine trail d →
    ∃ st' w, run st = .ok st' ∧ Done env ((sg.seen c).seens d) ms'' st' (t ++ (s ++ u) ++ w) ∧ ∀ c ∈ w, isSpace c = true := by
  intro d
  induction d with
  | nil =>
    intro c start run st t s u sg ms ms' ms'' hcx hok htail he ht hen hem hems hca hcas
    rw [rest_page htail] at he hca
    obtain ⟨st1, cont, h1, h2, h3, h4, h5⟩ := step_chunk hcx hok he (rest_okP htail htr) ht hen (fun i l hb => follow_page htail hb) hem hca
    cases hems
    obtain ⟨st', w, h6, h7, h8⟩ := last_block htr h2 h3 (h5 rfl)
    refine ⟨st', sep c.like ++ w, by rw [h1, h6], by simpa [Stage.seens] using h7, ?_⟩
    intro x hx
    rw [List.mem_append] at hx
    exact hx.elim (sep_space _ x) (h8 x)
  | cons x d ih =>
    obtain ⟨gap, c'⟩ := x
    intro c start run st t s u sg ms ms' ms'' hcx hok htail he ht hen hem hems hca hcas
    rw [rest_page htail] at he hca
    have hR := rest_okP (trail := trail) htail htr
    obtain ⟨st1, cont, h1, h2, h3, h4, _⟩ := step_chunk hcx hok he hR ht hen (fun i l hb => follow_page htail hb) hem hca
    simp only [gapOfP, nextOfP] at h2 hR
    obtain ⟨st2, run2, start2, h5, h6, h7, h8, h9⟩ := next_block hR h2 h3
    have htail' := htail
    simp only [likes, List.map_cons, tailOk, Bool.and_eq_true, Bool.or_eq_true] at htail'
    obtain ⟨⟨_, hor⟩, htail2⟩ := htail'
    have touch : mayTouch blog c.like c'.like = true → c'.like.ok cx blog .all = true → ∀ s, blog = true ∧ s = .all ∨ blog = false → c'.like.ok cx blog s = true := by
      intro hm hk s hs
      rcases hs with ⟨_, rfl⟩ | rfl
      · exact hk
      · generalize c.like = b at hm
        generalize c'.like = b' at hm hk ⊢
        cases b' with
        | para ls => exact para_all hk s
        | _ => cases b <;> simp [mayTouch] at hm
    have hgo : c'.like.ok cx blog start2 = true ∧ EnterOk c'.like st2 := by
      cases hcl : closed c.like gap with
      | true =>
        obtain ⟨rfl, hpath⟩ := h8 hcl
        refine ⟨?_, enter_doc hpath⟩
        rcases hor with h | h
        · exact h.2
        · refine touch h.1 h.2 _ ?_
          cases blog <;> simp [startAfter]
      | false =>
        obtain ⟨rfl, hs⟩ := h9 hcl
        rw [hcl] at hor
        have h : mayTouch blog c.like c'.like = true ∧ c'.like.ok cx blog .all = true := by simpa using hor
        refine ⟨?_, enter_touch h.1 h4⟩
        rcases hs with rfl | ⟨rfl, rfl⟩
        · exact h.2
        · exact touch h.1 h.2 _ (.inr rfl)
    cases hems with
    | cons hcx' hem' hems' =>
      obtain ⟨st', w, h10, h11, h12⟩ := ih hcx' hgo.1 htail2 h6 h7 hgo.2 hem' hems' hcas.1 hcas.2
      refine ⟨st', w, by rw [h1, h5, h10], ?_, h12⟩
      rw [← sep_gap]
      simpa [Stage.seens] using h11

/-! ## Whole documents -/

/-- a document, from its beginning, is emitted as `t` -/
def EmittedPage (env : Env) (cx : Ctx) (blog : Bool) (ms : Macros) (d : Page) (t : Str) (ms' : Macros) : Prop :=
  match d with
  | [] => t = [] ∧ ms' = ms
  | (_, c) :: d => ∃ s u ms1, CxOk env ms cx ∧ Emitted env cx blog ms c s ms1 ∧ Emitteds env cx blog ms1 c.like d u ms' ∧ t = s ++ u

theorem page_run {blog : Bool} {trail : List Str} {d : Page} {t : Str} {ms ms' : Macros} (htr : ∀ g ∈ trail, blank g = true)
    (hd : docOk cx blog (likes d) = true) (hca : CallsFine trail d) (hem : EmittedPage env cx blog ms d t ms') :
    ∃ st' u w, runR (blockRe blog) blockRepl none (joinLines c!"\n" (pageLines d ++ trail)) PS.init = .ok st' ∧
      Done env (Stage.seens ⟨ms, false⟩ d) ms' st' (u ++ t ++ w) ∧ (∀ c ∈ u, isSpace c = true) ∧ ∀ c ∈ w, isSpace c = true := by
  have ht := top_init (env := env) (ms := ms)
  cases d with
  | nil =>
    obtain ⟨rfl, rfl⟩ := hem
    have hw : ∀ c ∈ joinLines c!"\n" (pageLines [] ++ trail), isSpace c = true := by
      simp only [pageLines, List.nil_append]
      cases trail with
      | nil => simp [joinLines]
      | cons a L =>
        rw [joinLines_cons]
        intro c hc
        rw [List.mem_append] at hc
        rcases hc with hc | hc
        · exact (blank_iff (htr a (by simp))).1 c hc
        · exact nls_space (fun g hg => htr g (by simp [hg])) c hc
    obtain ⟨st', v, h1, h2, h3⟩ := blank_run (blog := blog) hw ht
    exact ⟨st', [], v, h1, by simpa [Stage.seens] using h2, by simp, h3⟩
  | cons x d =>
    obtain ⟨gap, c⟩ := x
    obtain ⟨s, u, ms1, hcx, he1, he2, rfl⟩ := hem
    simp only [likes, List.map_cons, docOk, Bool.and_eq_true, List.all_eq_true] at hd
    obtain ⟨⟨hgap, hok⟩, htail⟩ := hd
    have hne := chunk_ne hok
    cases gap with
    | nil =>
      have e : joinLines c!"\n" (pageLines (([], c) :: d) ++ trail) = ctext c ++ nls (pageLines d ++ trail) := by
        unfold ctext
        simp only [pageLines, List.nil_append, List.append_assoc]
        cases hb : c.lines with
        | nil => exact absurd hb hne
        | cons a L => rw [List.cons_append, joinLines_cons, joinLines_cons, nls_append, List.append_assoc]
      rw [e]
      have hst : startAfter blog true [] = .all := by simp [startAfter]
      rw [hst] at hok
      obtain ⟨st', w, h1, h2, h3⟩ := page_go (run := runR (blockRe blog) blockRepl none (ctext c ++ nls (pageLines d ++ trail)))
        htr hcx hok htail (.bol rfl) ht (enter_doc (by simp [path, PS.init, Frame.kind])) he1 he2 hca.1 hca.2
      exact ⟨st', [], w, h1, h2, by simp, h3⟩
    | cons g gs =>
      have e : joinLines c!"\n" (pageLines ((g :: gs, c) :: d) ++ trail) = g ++ nls gs ++ '\n' :: (ctext c ++ nls (pageLines d ++ trail)) := by
        simp only [pageLines, List.cons_append, joinLines_cons, nls_append, nls_ctext hne]
        simp
      rw [e]
      have hst : startAfter blog true (g :: gs) = startAfter blog false (g :: gs) := by simp [startAfter]
      rw [hst] at hok
      obtain ⟨st1, run, h1, h2, h3, h4⟩ := gapRun (blog := blog) (p := none) (env := env) (ms := ms) rfl hgap (ctext_nonblank hok _) ht
      obtain ⟨st', w, h5, h6, h7⟩ := page_go htr hcx hok htail h2 h3 (enter_doc h4) he1 he2 hca.1 hca.2
      refine ⟨st', _, w, by rw [h1, h5], h6, ?_, h7⟩
      split <;> decide

end Verif.Creole
