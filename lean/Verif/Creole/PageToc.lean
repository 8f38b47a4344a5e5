import Verif.Creole.PageRun

/-!
# The emission of documents with and without a table of contents
-/

namespace Verif.Creole

open Verif Re Py Spec Spec.Cr

variable {env : Env} {cx : Ctx}

theorem callArgs_iff {n a : Str} {after : Str} (h : (Chunk.call n a).callOk cx after = true) : CallFine after (.call n a) := by
  simp only [Chunk.callOk, Bool.and_eq_true, List.all_eq_true, List.mem_range, Bool.not_eq_true'] at h
  obtain ⟨⟨ha, hc⟩, hend⟩ := h
  refine ⟨?_, hend⟩
  by_cases ht : n = c!"toc"
  · subst ht
    have := (nameArgs_iff (n := c!"to") (by decide) ha).1
    exact ⟨by simp, by decide, this.stop, this.nonl, this.occ⟩
  · rw [if_neg ht, Bool.and_eq_true] at hc
    exact (nameArgs_iff hc.1 ha).1

theorem callsFine {trail : List Str} : ∀ {d : Page}, callsOk cx trail d = true → CallsFine trail d
  | [], _ => trivial
  | (_, c) :: d, h => by
    simp only [callsOk, Bool.and_eq_true] at h
    refine ⟨?_, callsFine h.2⟩
    cases c with
    | block b => trivial
    | call n a => exact callArgs_iff h.1

theorem seens_first (sg : Stage) (d : Page) : (sg.seens d).first = sg.first := by
  induction d generalizing sg with
  | nil => rfl
  | cons x d ih =>
    obtain ⟨gap, c⟩ := x
    rw [Stage.seens, ih]
    cases c <;> rfl

theorem seens_toc (sg : Stage) (d : Page) : (sg.seens d).toc = (sg.toc || hasToc d) := by
  induction d generalizing sg with
  | nil => simp [Stage.seens, hasToc]
  | cons x d ih =>
    obtain ⟨gap, c⟩ := x
    rw [Stage.seens, ih]
    cases c <;> simp [Stage.seen, Stage.called, hasToc, Chunk.isToc, Bool.or_assoc]

theorem seens_eq (ms : Macros) (d : Page) : Stage.seens ⟨ms, false⟩ d = ⟨ms, hasToc d⟩ := by
  have h1 := seens_first ⟨ms, false⟩ d
  have h2 := seens_toc ⟨ms, false⟩ d
  generalize Stage.seens ⟨ms, false⟩ d = x at h1 h2
  cases x
  simp only [Bool.false_or] at h1 h2
  rw [h1, h2]

/-! ## Without a table of contents -/

theorem emitted_plain {ms : Macros} {blog : Bool} {toc : Str} (hcx : CxOk env ms cx) (hu : env.useToc = false) (ha : cx.anchors = false) {c : Chunk} (ht : c.isToc = false)
    {after : Str} (hc : c.callOk cx after = true) : Emitted env cx blog ms c (c.html cx blog toc) ms := by
  cases c with
  | block b =>
    cases b with
    | head n pad title tail =>
      refine ⟨rfl, ?_⟩
      simp only [Chunk.html, Block.html, ha]
      exact header_plain hu n title
    | _ => exact ⟨rfl, rfl⟩
  | call n a =>
    have hn : n ≠ c!"toc" := by simpa [Chunk.isToc] using ht
    simp only [Chunk.callOk, Bool.and_eq_true, if_neg hn] at hc
    obtain ⟨s, hs⟩ := Option.isSome_iff_exists.mp hc.1.2.2
    refine ⟨s, ?_, hcx.mac _ s hs hn⟩
    simp only [Chunk.html, if_neg hn, Ctx.call, hs, Option.getD_some]

theorem emitteds_plain {ms : Macros} {blog : Bool} {trail : List Str} {toc : Str} (hcx : CxOk env ms cx) (hu : env.useToc = false) (ha : cx.anchors = false) :
    ∀ {d : Page} {b : Block}, hasToc d = false → callsOk cx trail d = true → Emitteds env cx blog ms b d (pageTail cx blog toc b d) ms
  | [], _, _, _ => .nil
  | (gap, c) :: d, b, ht, hc => by
    simp only [hasToc, List.any_cons, Bool.or_eq_false_iff] at ht
    simp only [callsOk, Bool.and_eq_true] at hc
    rw [pageTail, ht.1]
    exact .cons hcx (emitted_plain hcx hu ha ht.1 hc.1) (emitteds_plain hcx hu ha ht.2 hc.2)

theorem emittedPage_plain {ms : Macros} {blog : Bool} {trail : List Str} {toc : Str} (hcx : CxOk env ms cx) (hu : env.useToc = false) (ha : cx.anchors = false)
    {d : Page} (ht : hasToc d = false) (hc : callsOk cx trail d = true) : EmittedPage env cx blog ms d (pageBody cx blog toc d) ms := by
  cases d with
  | nil => exact ⟨rfl, rfl⟩
  | cons x d =>
    obtain ⟨gap, c⟩ := x
    simp only [hasToc, List.any_cons, Bool.or_eq_false_iff] at ht
    simp only [callsOk, Bool.and_eq_true] at hc
    refine ⟨_, _, ms, hcx, emitted_plain (toc := toc) hcx hu ha ht.1 hc.1, emitteds_plain (trail := trail) (toc := toc) hcx hu ha ht.2 hc.2, ?_⟩
    rw [pageBody, ht.1]; rfl

/-! ## With a table of contents -/

theorem dictSet_set {α : Type} (k : Str) (v w : α) (d : Dict α) : dictSet k v (dictSet k w d) = dictSet k v d := by
  induction d with
  | nil => simp [dictSet]
  | cons x d ih =>
    obtain ⟨k', v'⟩ := x
    by_cases h : k' = k
    · simp [dictSet, h]
    · simp [dictSet, h, ih]

theorem callGives_set {v : Int} {macros : Macros} {c : Call} {s : Str} {x : Macro} (hn : c.name ≠ c!"toc") (h : CallGives v macros c s) :
    CallGives v (dictSet c!"toc" x macros) c s := by
  have e : dictGet c.name (dictSet c!"toc" x macros) = dictGet c.name macros := dictGet_dictSet_ne hn x macros
  cases h with
  | returns hm ha hs => exact .returns (e.trans hm) ha hs
  | wrongArgs ha => exact .wrongArgs ha
  | unknown ha hm => exact .unknown ha (e.trans hm)
  | raises hm ha hs => exact .raises (e.trans hm) ha hs
  | notString hm ha hs => exact .notString (e.trans hm) ha hs

/-- the dict of macros while the table of contents is in the state `t` -/
def withToc (macros : Macros) (t : Toc) : Macros := dictSet c!"toc" (.toc t) macros

theorem _root_.Verif.Spec.Cr.ReadToc.ok {o : Opts} {macros : Macros} (h : ReadToc o macros cx) (t : Toc) :
    CxOk { verbose := o.verbose, strict := o.strict, useToc := true } (withToc macros t) cx :=
  ⟨h.strict, fun c s hs hn => callGives_emit (callGives_set hn (h.calls c s hs))⟩

/-- a depth as an argument -/
def depthVal : Option Int → PVal
  | some k => .int k
  | none => .none

/-- the state of the table of contents after a chunk -/
def tocChunk (t : Toc) : Chunk → Toc
  | .block (.head n _ title _) => match t.addHeadline n title with | .ok t' => t' | .error _ => t
  | .block _ => t
  | .call n a => if n = c!"toc" then (t.call (depthVal ((depthArg (lineCall n a).args).getD none))).2 else t

def tocPage (t : Toc) : Page → Toc
  | [] => t
  | (_, c) :: d => tocPage (tocChunk t c) d

/-- the depth is a number -/
def DepthOk (t : Toc) : Prop := ∃ d : Option Int, t.maxDepth = d.map .int

theorem addHeadline_ok {t : Toc} (h : DepthOk t) (n : Nat) (s : Str) : ∃ t', t.addHeadline n s = .ok t' ∧ t'.maxDepth = t.maxDepth ∧ t'.created = t.created := by
  obtain ⟨d, h⟩ := h
  obtain ⟨md, hl, cr⟩ := t
  simp only at h
  subst h
  cases d with
  | none => exact ⟨_, rfl, rfl, rfl⟩
  | some k =>
    simp only [Toc.addHeadline, Option.map_some, levelLe, ok_bind]
    by_cases hk : (n : Int) ≤ k <;> simp [hk, pure, Except.pure]

/-- the paragraph of the placeholder -/
def tocHere : Str := c!"<p><<toc>></p>"

def tocText (t : Toc) : Str := if t.created then tocAgain else tocHere

theorem emitted_toc {macros : Macros} {t : Toc} {blog : Bool} (hcx : CxOk env (withToc macros t) cx) (hu : env.useToc = true) (ha : cx.anchors = true)
    (hd : DepthOk t) {c : Chunk} {after : Str} (hc : c.callOk cx after = true) :
    Emitted env cx blog (withToc macros t) c (c.html cx blog (tocText t)) (withToc macros (tocChunk t c)) ∧
      DepthOk (tocChunk t c) ∧ tocText (tocChunk t c) = if c.isToc then tocAgain else tocText t := by
  cases c with
  | block b =>
    cases b with
    | head n pad title tail =>
      obtain ⟨t', h1, h2, h3⟩ := addHeadline_ok hd n title
      have e : tocChunk t (.block (.head n pad title tail)) = t' := by simp only [tocChunk, h1]
      rw [e]
      refine ⟨⟨rfl, ?_⟩, ?_, ?_⟩
      · have := header_toc (env := env) (ms := withToc macros t) hu (dictGet_dictSet_self _ _ _) h1
        simp only [Chunk.html, Block.html, ha]
        rw [this, withToc, dictSet_set]; rfl
      · obtain ⟨d, hd⟩ := hd; exact ⟨d, h2.trans hd⟩
      · simp [tocText, h3, Chunk.isToc]
    | _ => exact ⟨⟨rfl, rfl⟩, hd, by simp [Chunk.isToc, tocChunk]⟩
  | call n a =>
    by_cases hn : n = c!"toc"
    · subst hn
      simp only [Chunk.callOk, Bool.and_eq_true, if_pos] at hc
      obtain ⟨dep, hdep⟩ := Option.isSome_iff_exists.mp hc.1.2
      have hdep' := hdep
      unfold depthArg at hdep'
      simp only [Chunk.html, if_pos, tocChunk, hdep, Chunk.isToc, beq_self_eq_true]
      cases hk : string2dict (lineCall c!"toc" a).args with
      | error e => rw [hk] at hdep'; simp at hdep'
      | ok kw =>
        rw [hk] at hdep'
        simp only at hdep'
        have hself : (dictGet c!"self" kw).isSome = false := by
          cases h : (dictGet c!"self" kw).isSome with
          | false => rfl
          | true => rw [h] at hdep'; simp at hdep'
        rw [hself] at hdep'
        simp only [Bool.false_eq_true, if_false] at hdep'
        have hval : ((dictGet c!"depth" kw).getD .none) = depthVal dep := by
          cases hx : dictGet c!"depth" kw with
          | none => rw [hx] at hdep'; simp at hdep'; subst hdep'; rfl
          | some v =>
            rw [hx] at hdep'
            cases v <;> simp at hdep'
            subst hdep'; rfl
        rw [Option.getD_some]
        generalize hv : depthVal dep = v at hval ⊢
        have hm : macroEmit env (callInfo (lineCall c!"toc" a)) (withToc macros t) = .ok ((t.call v).1, withToc macros (t.call v).2) := by
          unfold macroEmit
          have e1 : (callInfo (lineCall c!"toc" a)).macroArgs = (lineCall c!"toc" a).args := rfl
          have e2 : (callInfo (lineCall c!"toc" a)).macroName = c!"toc" := rfl
          have e3 : dictGet c!"toc" (withToc macros t) = some (.toc t) := dictGet_dictSet_self _ _ _
          have e4 : ∀ x, dictGet c!"self" (dictSet c!"text" x kw) = dictGet c!"self" kw := fun x => dictGet_dictSet_ne (by decide) x kw
          have e5 : ∀ x, dictGet c!"depth" (dictSet c!"text" x kw) = dictGet c!"depth" kw := fun x => dictGet_dictSet_ne (by decide) x kw
          have e6 : (callInfo (lineCall c!"toc" a)).kind ≠ .macro_block := by simp [callInfo, lineCall]
          simp only [e1, e2, hk, e3, callMacro, e4, hself, Bool.false_eq_true, if_false, e5, hval, if_neg e6]
          rw [withToc, dictSet_set]; rfl
        refine ⟨⟨(t.call v).1, ?_, hm⟩, ?_, ?_⟩
        · unfold tocText Toc.call
          cases t.created <;> rfl
        · obtain ⟨d, hd⟩ := hd
          unfold Toc.call
          cases t.created with
          | true => exact ⟨d, hd⟩
          | false =>
            cases dep with
            | none => subst hv; exact ⟨d, hd⟩
            | some k => subst hv; exact ⟨some k, rfl⟩
        · unfold tocText Toc.call
          cases hcr : t.created with
          | true => simp [hcr]
          | false => simp only [Bool.false_eq_true, if_false]; split <;> rfl
    · simp only [Chunk.callOk, Bool.and_eq_true, if_neg hn] at hc
      obtain ⟨s, hs⟩ := Option.isSome_iff_exists.mp hc.1.2.2
      have e : tocChunk t (.call n a) = t := by simp only [tocChunk, if_neg hn]
      rw [e]
      refine ⟨⟨s, ?_, hcx.mac _ s hs hn⟩, hd, by simp [Chunk.isToc, hn]⟩
      simp only [Chunk.html, if_neg hn, Ctx.call, hs, Option.getD_some]

theorem emitteds_toc {macros : Macros} {blog : Bool} {trail : List Str} (hcx : ∀ t, CxOk env (withToc macros t) cx) (hu : env.useToc = true) (ha : cx.anchors = true) :
    ∀ {d : Page} {b : Block} {t : Toc}, DepthOk t → callsOk cx trail d = true →
      Emitteds env cx blog (withToc macros t) b d (pageTail cx blog (tocText t) b d) (withToc macros (tocPage t d))
  | [], _, _, _, _ => .nil
  | (gap, c) :: d, b, t, hd, hc => by
    simp only [callsOk, Bool.and_eq_true] at hc
    obtain ⟨h1, h2, h3⟩ := emitted_toc (blog := blog) (hcx t) hu ha hd hc.1
    rw [pageTail, ← h3]
    exact .cons (hcx t) h1 (emitteds_toc hcx hu ha h2 hc.2)

theorem emittedPage_toc {macros : Macros} {blog : Bool} {trail : List Str} (hcx : ∀ t, CxOk env (withToc macros t) cx) (hu : env.useToc = true) (ha : cx.anchors = true)
    {d : Page} {t : Toc} (hd : DepthOk t) (hc : callsOk cx trail d = true) :
    EmittedPage env cx blog (withToc macros t) d (pageBody cx blog (tocText t) d) (withToc macros (tocPage t d)) := by
  cases d with
  | nil => exact ⟨rfl, rfl⟩
  | cons x d =>
    obtain ⟨gap, c⟩ := x
    simp only [callsOk, Bool.and_eq_true] at hc
    obtain ⟨h1, h2, h3⟩ := emitted_toc (blog := blog) (hcx t) hu ha hd hc.1
    refine ⟨_, _, _, hcx t, h1, emitteds_toc (trail := trail) hcx hu ha h2 hc.2, ?_⟩
    rw [pageBody, h3]

/-! ## The headings -/

theorem addHeadline_none {t : Toc} (h : t.maxDepth = none) (n : Nat) (s : Str) :
    t.addHeadline n s = .ok { t with headlines := t.headlines ++ [(n, s)] } := by
  unfold Toc.addHeadline; rw [h]

theorem headings_cons (gap : List Str) (c : Chunk) (d : Page) : headings ((gap, c) :: d) =
    (match c with | .block (.head n _ title _) => [(n, title)] | _ => []) ++ headings d := by
  unfold headings
  cases c with
  | call n a => rfl
  | block b => cases b <;> rfl

theorem tocPage_before : ∀ {d : Page} {t : Toc}, hasToc d = false → t.maxDepth = none →
    tocPage t d = { t with headlines := t.headlines ++ headings d }
  | [], t, _, _ => by simp [tocPage, headings]
  | (gap, c) :: d, t, h, hm => by
    simp only [hasToc, List.any_cons, Bool.or_eq_false_iff] at h
    rw [tocPage, headings_cons]
    have skip : ∀ {c : Chunk}, tocChunk t c = t → tocPage (tocChunk t c) d = { t with headlines := t.headlines ++ ([] ++ headings d) } := by
      intro c hc
      rw [hc, tocPage_before h.2 hm]; rfl
    cases c with
    | call n a =>
      have hn : n ≠ c!"toc" := by simpa [Chunk.isToc] using h.1
      exact skip (by simp only [tocChunk, if_neg hn])
    | block b =>
      cases b with
      | head n pad title tail =>
        simp only [tocChunk, addHeadline_none hm]
        have := tocPage_before (d := d) (t := { t with headlines := t.headlines ++ [(n, title)] }) h.2 hm
        rw [this]; simp
      | _ => exact skip rfl

theorem tocPage_after : ∀ {d : Page} {t : Toc} {k : Option Int}, t.created = true → t.maxDepth = k.map .int →
    tocPage t d = { t with headlines := t.headlines ++ inDepth k (headings d) }
  | [], t, k, _, _ => by cases k <;> simp [tocPage, headings, inDepth]
  | (gap, c) :: d, t, k, h, hm => by
    rw [tocPage, headings_cons]
    have skip : ∀ {c : Chunk}, tocChunk t c = t → tocPage (tocChunk t c) d = { t with headlines := t.headlines ++ inDepth k ([] ++ headings d) } := by
      intro c hc
      rw [hc, tocPage_after h hm]; rfl
    cases c with
    | call n a =>
      refine skip ?_
      simp only [tocChunk, Toc.call, h, if_true, ite_self]
    | block b =>
      cases b with
      | head n pad title tail =>
        obtain ⟨md, hl, cr⟩ := t
        simp only at h hm
        subst h hm
        cases k with
        | none =>
          simp only [tocChunk, Toc.addHeadline, Option.map_none]
          have := tocPage_after (d := d) (t := { headlines := hl ++ [(n, title)], created := true }) (k := none) rfl rfl
          rw [this]; simp [inDepth]
        | some k =>
          simp only [tocChunk, Toc.addHeadline, Option.map_some, levelLe, ok_bind, pure, Except.pure]
          by_cases hk : (n : Int) ≤ k
          · simp only [hk, decide_true, if_true]
            have := tocPage_after (d := d) (t := { maxDepth := some (.int k), headlines := hl ++ [(n, title)], created := true }) (k := some k) rfl rfl
            rw [this]; simp [inDepth, hk]
          · simp only [hk, decide_false, Bool.false_eq_true, if_false]
            have := tocPage_after (d := d) (t := { maxDepth := some (.int k), headlines := hl, created := true }) (k := some k) rfl rfl
            rw [this]; simp [inDepth, hk]
      | _ => exact skip rfl

theorem tocPage_append (t : Toc) (d e : Page) : tocPage t (d ++ e) = tocPage (tocPage t d) e := by
  induction d generalizing t with
  | nil => rfl
  | cons x d ih => obtain ⟨gap, c⟩ := x; exact ih _

theorem tocPage_headings {d1 d2 : Page} {gap : List Str} {a : Str} {k : Option Int} (h : hasToc d1 = false) (hk : depthArg (lineCall c!"toc" a).args = some k) :
    (tocPage {} (d1 ++ (gap, .call c!"toc" a) :: d2)).headlines = headings d1 ++ inDepth k (headings d2) := by
  rw [tocPage_append, tocPage_before h rfl, tocPage]
  simp only [tocChunk, if_true, hk, Option.getD_some]
  cases k with
  | none => rw [tocPage_after (k := none) rfl rfl]; simp [Toc.call, depthVal]
  | some k => rw [tocPage_after (k := some k) rfl rfl]; simp [Toc.call, depthVal]

/-! ## Whole documents -/

theorem likes_eq (d : Page) : (d.map fun x => (x.1, x.2.like)) = likes d := rfl

theorem pageOk_iff {blog : Bool} {d : Page} {trail : List Str} (h : pageOk cx blog d trail = true) :
    docOk cx blog (likes d) = true ∧ callsOk cx trail d = true ∧ ∀ g ∈ trail, blank g = true := by
  simp only [pageOk, likes_eq, Bool.and_eq_true, List.all_eq_true] at h
  exact ⟨h.1.1, h.1.2, h.2⟩

theorem norm_page {markup : Str} {d : Page} {trail : List Str} (hl : textLines markup = pageLines d ++ trail) :
    normNewlines markup = joinLines c!"\n" (pageLines d ++ trail) := by
  rw [normNewlines, crlf_eq, Props.crlf_textLines, hl]

/-- **Documents** with calls of macros on lines of their own, without a table of contents. -/
theorem creole2html_page (o : Opts) (macros : Macros) (markup : Str) (d : Page) (trail : List Str) (hd : pageOk cx o.blog d trail = true)
    (hcx : ReadWith o macros cx) (ht : hasToc d = false) (hl : textLines markup = pageLines d ++ trail) (toc : Str) :
    creole2htmlM o macros markup = .ok (pageHtml cx o.blog toc d, macros) := by
  have hc := hcx.ok
  obtain ⟨blog, verbose, strict⟩ := o
  simp only at hd hc ⊢
  obtain ⟨h1, h2, h3⟩ := pageOk_iff hd
  obtain ⟨st', u, w, e1, e2, e3, e4⟩ := page_run h3 h1 (callsFine h2) (emittedPage_plain (blog := blog) (trail := trail) (toc := toc) hc rfl hcx.anchors ht h2)
  unfold creole2htmlM parse parseBlock
  simp only
  rw [subAll_eq, norm_page hl, e1]
  show emitDoc verbose strict st'.finish macros = _
  rw [seens_eq, ht] at e2
  rw [emitDoc_done e2, strip_pad e3 e4]; rfl

theorem emitDoc_toc {verbose : Int} {strict : Bool} {st : PS} {t : Str} {macros : Macros} {tc : Toc} (hm : dictGet c!"toc" macros = none)
    (h : Done { verbose, strict, useToc := true } ⟨withToc macros {}, true⟩ (withToc macros tc) st t) :
    emitDoc verbose strict st.finish macros = (tc.emit (strip t)).map fun s => (s, withToc macros tc) := by
  obtain ⟨hu, cs, hc, he⟩ := h
  unfold EmitsD at he
  unfold emitDoc PS.finish
  have hu' : st.used.contains c!"toc" = true := hu
  rw [hu', hc, hm]
  simp only [Option.isNone_none, Bool.and_self, if_true]
  have : emitNode { verbose, strict, useToc := true } { kind := .document } (.mk docInfo cs) (dictSet c!"toc" (.toc {}) macros) = .ok (t, withToc macros tc) := by
    rw [emitNode]
    exact he
  rw [this]
  have e3 : dictGet c!"toc" (withToc macros tc) = some (.toc tc) := dictGet_dictSet_self _ _ _
  simp only [ok_bind, e3]
  cases tc.emit (strip t) <;> rfl

/-- the conversion of a document with a table of contents -/
theorem creole2html_toc (o : Opts) (macros : Macros) (markup : Str) (d : Page) (trail : List Str) (hd : pageOk cx o.blog d trail = true)
    (hcx : ReadToc o macros cx) (ht : hasToc d = true) (hl : textLines markup = pageLines d ++ trail) :
    creole2htmlM o macros markup = ((tocPage {} d).emit (pageHtml cx o.blog tocHere d)).map fun s => (s, withToc macros (tocPage {} d)) := by
  have hc := hcx.ok
  obtain ⟨blog, verbose, strict⟩ := o
  simp only at hd hc ⊢
  obtain ⟨h1, h2, h3⟩ := pageOk_iff hd
  obtain ⟨st', u, w, e1, e2, e3, e4⟩ := page_run h3 h1 (callsFine h2) (emittedPage_toc (blog := blog) (trail := trail) (t := {}) hc rfl hcx.anchors ⟨none, rfl⟩ h2)
  unfold creole2htmlM parse parseBlock
  simp only
  rw [subAll_eq, norm_page hl, e1]
  show emitDoc verbose strict st'.finish macros = _
  rw [seens_eq, ht] at e2
  rw [emitDoc_toc hcx.noToc e2, strip_pad e3 e4]; rfl

end Verif.Creole
