import Verif.Spec.CodeBlock
import Verif.Html.ReadAny
import Verif.Html.ReadPreAny
import Verif.Emit.BackPre
import Verif.Props.ArticleRest

/-!
# C88: a block of code
-/

namespace Verif.Props

open Verif Py Re Html Emit Spec Spec.Cr Spec.Hd Spec.Cb

/-! ## One area -/

/-- no `</pre>` begins in `x`, if another one follows -/
def NoEnd (x : Str) : Prop := ∀ u t r, x = u ++ t → t ≠ [] → t ++ c!"</pre>" ≠ c!"</pre>" ++ r

theorem noEnd_plain {x : Str} (h : '<' ∉ x) : NoEnd x := by
  intro u t r hu ht e
  cases t with
  | nil => exact ht rfl
  | cons c t =>
    simp only [List.cons_append, List.cons.injEq, List.nil_append] at e
    exact h (by rw [hu, e.1]; simp)

/-- An area that is not a block is cut out completely. -/
theorem cut_single {C : Str} (h : NoEnd C) :
    cutSegs (inlineRe.scanAux none (c!"<pre>" ++ C ++ c!"</pre>") 0) [] = (Props.placeholderTag inlinePlaceholder 0, [C]) := by
  cases hm : inlineRe.matchAt false none (c!"<pre>" ++ C ++ c!"</pre>") with
  | none => exact absurd (by rw [InlineArea, List.append_nil]) (Props.inline_none hm C [])
  | some st =>
    obtain ⟨C1, ha, hc, hmin⟩ := Props.inline_some hm
    have hs : C ++ c!"</pre>" = C1 ++ (c!"</pre>" ++ st.rest) := by
      have : c!"<pre>" ++ (C ++ c!"</pre>") = c!"<pre>" ++ (C1 ++ (c!"</pre>" ++ st.rest)) := by
        rw [InlineArea] at ha
        simpa using ha
      exact List.append_cancel_left this
    have hle : C1.length ≤ C.length := hmin C [] (by rw [InlineArea, List.append_nil])
    have hCC : C = C1 := by
      obtain ⟨t, ht⟩ : ∃ t, C = C1 ++ t := ⟨C.drop C1.length, by
        have e1 : C1 = (C ++ c!"</pre>").take C1.length := by rw [hs]; simp
        rw [List.take_append_of_le_length hle] at e1
        conv => lhs; rw [← List.take_append_drop C1.length C]
        rw [← e1]⟩
      cases t with
      | nil => simpa using ht
      | cons c t =>
        rw [ht, List.append_assoc] at hs
        exact absurd (List.append_cancel_left hs) (h C1 (c :: t) st.rest ht (by simp))
    subst hCC
    have hr : st.rest = [] := by
      have := List.append_cancel_left hs
      have : c!"</pre>" ++ [] = c!"</pre>" ++ st.rest := by rw [List.append_nil]; exact this
      exact (List.append_cancel_left this).symm
    have hne : c!"<pre>" ++ C ++ c!"</pre>" ≠ [] := by simp
    have hcut : ∀ a, preCutOut [] ⟨a, st.caps⟩ = (Props.placeholderTag inlinePlaceholder 0, [C]) := by
      intro a
      unfold preCutOut
      have e1 : (⟨a, st.caps⟩ : Match PG).get .pre_inline = some C := by unfold Match.get; rw [hc]; rfl
      rw [e1]
      exact Props.preCut_eq [] C inlinePlaceholder
    generalize c!"<pre>" ++ C ++ c!"</pre>" = a at hm hne
    have := Re.scanAux_take (r := inlineRe) (prev := none) (w := a) (s' := st) hne (by rw [hr, List.append_nil]; exact hm)
    rw [hr, List.append_nil] at this
    rw [this, cutSegs, hcut]
    have e0 : cutSegs (inlineRe.scanAux a.getLast? [] 0) [C] = ([], [C]) :=
      cutSegs_none (by decide) _ _ _ fun u t p e => inlineRe_none fun r hr => by
        rw [hr] at e
        simp at e
    simp [e0]

/-- The parser on a single area that is no block: one node with the text between the tags, as it is written. -/
theorem parse_single {C : Str} (h : NoEnd C) (hs : Skips C c!"</pre>") (hl : lineFirst C = true) {w w' : Str}
    (hw : ∀ c ∈ w, isSpace c = true) (hw' : ∀ c ∈ w', isSpace c = true) :
    parseHtml (w ++ (c!"<pre>" ++ C ++ c!"</pre>") ++ w') =
      .ok (.mk { kind := c!"document" } [.mk { kind := c!"inlinedata_pre", content := some C } []]) := by
  have hst : strip (w ++ (c!"<pre>" ++ C ++ c!"</pre>") ++ w') = c!"<pre>" ++ C ++ c!"</pre>" := by
    rw [strip_pad hw hw']
    refine strip_id ?_ ?_
    · intro c hc
      simp at hc; subst hc; rfl
    · intro c hc
      rw [show c!"<pre>" ++ C ++ c!"</pre>" = (c!"<pre>" ++ C ++ c!"</pre") ++ ['>'] from by simp, List.getLast?_concat] at hc
      cases hc; rfl
  have hb : cutSegs (blockRe.scanAux none (c!"<pre>" ++ C ++ c!"</pre>") 0) [] = (c!"<pre>" ++ C ++ c!"</pre>", []) := by
    refine cutSegs_none (by decide) _ _ _ ?_
    intro u t p e
    cases hm : blockRe.matchAt false p t with
    | none => rfl
    | some st =>
      exfalso
      by_cases hu : u = []
      · subst hu
        obtain ⟨v, content, ha, _⟩ := Props.block_some hm
        obtain ⟨_, hv, hh, _, w'', _, _, _, he⟩ := ha
        rw [List.nil_append] at e
        rw [← e] at he
        have he : c!"<pre>" ++ (C ++ c!"</pre>") = c!"<pre>" ++ (v ++ (content ++ (c!"</pre>" ++ (w'' ++ st.rest)))) := by simpa using he
        have he := List.append_cancel_left he
        cases content with
        | nil => cases hh
        | cons d content =>
          simp only [List.head?_cons, Option.some.injEq] at hh
          subst hh
          obtain ⟨c, hc, hsp⟩ := List.any_eq_true.mp hl
          have hc' : c ∈ (C ++ c!"</pre>").takeWhile (· != '\n') := by
            have hpre : C.takeWhile (· != '\n') <+: (C ++ c!"</pre>").takeWhile (· != '\n') := by
              rw [List.takeWhile_append]
              split
              · rename_i hlen
                rw [List.IsPrefix.eq_of_length (List.takeWhile_prefix _) hlen]
                exact List.prefix_append _ _
              · exact List.prefix_rfl
            exact hpre.subset hc
          rw [he, List.cons_append] at hc'
          have := hv c (mem_firstLine hc')
          rw [this] at hsp
          cases hsp
      · have hsk : Skips (c!"pre>" ++ C ++ c!"</pre>") [] := by
          rw [List.append_assoc]
          refine Skips.append (by decide) ?_
          intro u t r h ht e
          rcases List.append_eq_append_iff.mp h with ⟨a, h1, h2⟩ | ⟨a, h1, h2⟩
          · have : Skips c!"</pre>" [] := by
              intro u t r h ht e
              cases u with
              | nil => simp only [List.nil_append] at h; rw [← h] at e; simp at e
              | cons c u =>
                simp only [List.cons_append, List.cons.injEq] at h
                have h2 : Skips c!"/pre>" [] := by
                  have := Skips.append (a := c!"/pre>") (b := []) (rest := []) (by decide) (Skips.nil [])
                  simpa using this
                exact h2 u t r h.2 ht e
            exact this a t r h2 ht e
          · by_cases ha : a = []
            · subst ha
              rw [List.nil_append] at h2
              subst h2
              simp at e
            · refine hs u a r h1 ha ?_
              rw [h2] at e
              simpa using e
        cases u with
        | nil => exact hu rfl
        | cons c u =>
          have e' : c!"pre>" ++ C ++ c!"</pre>" = u ++ t := by
            have : '<' :: (c!"pre>" ++ C ++ c!"</pre>") = c :: (u ++ t) := by simpa using e
            injection this
          have hn : blockRe.matchAt false p t = none := blockRe_none fun r hr => by
            by_cases ht : t = []
            · rw [ht] at hr; simp at hr
            · exact hsk u t r e' ht (by rw [List.append_nil]; exact hr)
          rw [hn] at hm
          cases hm
  have hp : preprocess (w ++ (c!"<pre>" ++ C ++ c!"</pre>") ++ w') = (c!"<inlinedata type=\"pre\" id=\"0\" />", [C]) := by
    unfold preprocess Re.scan
    rw [hst]
    simp only [hb, cut_single h]
    have : stripHtml (Props.placeholderTag inlinePlaceholder 0) = c!"<inlinedata type=\"pre\" id=\"0\" />" := by decide +kernel
    rw [this]
  unfold parseHtml
  rw [hp]
  simp only [show tokens c!"<inlinedata type=\"pre\" id=\"0\" />" =
    ([.startend c!"inlinedata" [(c!"type", some c!"pre"), (c!"id", some c!"0")]], none) by decide +kernel]
  rfl

/-- the converters on a single area -/
theorem convert_single {cfg : Cfg} {C : Str} (h : NoEnd C) (hs : Skips C c!"</pre>") (hl : lineFirst C = true) {w w' : Str}
    (hw : ∀ c ∈ w, isSpace c = true) (hw' : ∀ c ∈ w', isSpace c = true) {t : Str}
    (hm : ∀ s, inlinePreEmit cfg.lang (some C) s = .ok (t, s)) :
    convert cfg (w ++ (c!"<pre>" ++ C ++ c!"</pre>") ++ w') = .ok (if cfg.lang = .rest then rstrip t else strip t) := by
  unfold convert
  rw [parse_single h hs hl hw hw']
  have hk : methodOf cfg.lang c!"inlinedata_pre" = some .inlinePre := by cases cfg.lang <;> rfl
  refine emit_document (s := enter { kind := c!"inlinedata_pre", content := some C } (enter { kind := c!"document" } {})) ?_ fun _ => rfl
  rw [emitNodes_cons, bind_run, emitNode_known (m := .inlinePre) hk fun _ => .inl rfl]
  simp only [runMeth, hm]
  rw [bind_run, emitNodes_nil, pure_run]
  simp only [pure_run, List.append_nil]

theorem convert_single_error {cfg : Cfg} {C : Str} (h : NoEnd C) (hs : Skips C c!"</pre>") (hl : lineFirst C = true) {w w' : Str}
    (hw : ∀ c ∈ w, isSpace c = true) (hw' : ∀ c ∈ w', isSpace c = true) {e : PyErr} (hn : cfg.lang ≠ .rest)
    (hm : ∀ s, inlinePreEmit cfg.lang (some C) s = .error e) :
    convert cfg (w ++ (c!"<pre>" ++ C ++ c!"</pre>") ++ w') = .error e := by
  unfold convert
  rw [parse_single h hs hl hw hw']
  have hk : methodOf cfg.lang c!"inlinedata_pre" = some .inlinePre := by cases cfg.lang <;> rfl
  have hc : childrenM cfg [] { kind := c!"document" } [.mk { kind := c!"inlinedata_pre", content := some C } []] {} = .error e := by
    rw [childrenM_run]
    change emitNodes _ _ _ (enter { kind := c!"document" } {}) = _
    rw [emitNodes_cons, bind_run, emitNode_known (m := .inlinePre) hk fun _ => .inl rfl]
    simp only [runMeth, hm]
  change emit cfg _ = _
  rw [emit_eq, emitNode_known (i := { kind := c!"document" }) (method_document _) (fun _ => .inl rfl)]
  simp only [runMeth]
  rw [if_neg hn, hc]

/-! ## Decoding -/

theorem repl_text (s r : Str) (p : Option Char) : repl p (textHtml s ++ r) = (repl none r).map (s ++ ·) := by
  induction s generalizing p with
  | nil =>
    rw [show textHtml [] ++ r = r from rfl, repl_prev p none]
    cases repl none r <;> rfl
  | cons c s ih =>
    have e : textHtml (c :: s) ++ r = textChar c ++ (textHtml s ++ r) := by simp [textHtml]
    have he : (repl none r).map (fun x => c :: s ++ x) = ((repl none r).map (s ++ ·)).map (c :: ·) := by
      cases repl none r <;> rfl
    rw [e, textChar, he]
    split
    · rename_i h
      subst h
      have := repl_named (prev := p) (w := c!"amp") (rest := textHtml s ++ r) (by decide) (by decide)
      rw [ih] at this
      exact this.trans (by rw [show replaceNamed c!"amp" = .ok c!"&" by decide +kernel]; cases repl none r <;> rfl)
    · split
      · rename_i h
        subst h
        have := repl_named (prev := p) (w := c!"lt") (rest := textHtml s ++ r) (by decide) (by decide)
        rw [ih] at this
        exact this.trans (by rw [show replaceNamed c!"lt" = .ok c!"<" by decide +kernel]; cases repl none r <;> rfl)
      · split
        · rename_i h
          subst h
          have := repl_named (prev := p) (w := c!"gt") (rest := textHtml s ++ r) (by decide) (by decide)
          rw [ih] at this
          exact this.trans (by rw [show replaceNamed c!"gt" = .ok c!">" by decide +kernel]; cases repl none r <;> rfl)
        · rename_i h _ _
          rw [List.singleton_append, repl_noAmp h, ih]

theorem repl_raw {a : Str} (h : '&' ∉ a) (r : Str) (p : Option Char) : repl p (a ++ r) = (repl none r).map (a ++ ·) := by
  induction a generalizing p with
  | nil =>
    rw [List.nil_append, repl_prev p none]
    cases repl none r <;> rfl
  | cons c a ih =>
    simp only [List.mem_cons, not_or] at h
    rw [List.cons_append, repl_noAmp (fun e => h.1 e.symm), ih h.2]
    cases repl none r <;> rfl

theorem replaceAll_raw {a : Str} (h : '&' ∉ a) : replaceAll a = .ok a := by
  rw [replaceAll_repl, ← List.append_nil a, repl_raw h, repl_nil, List.append_nil]
  simp [Except.map]

/-! ## Code -/

theorem attrHtml_unquoted {v : Str} (h : '"' ∉ v) : attrHtml v = textHtml v := by
  unfold attrHtml textHtml
  induction v with
  | nil => rfl
  | cons c v ih =>
    simp only [List.mem_cons, not_or] at h
    rw [List.flatMap_cons, List.flatMap_cons, ih h.2, if_neg (fun e => h.1 e.symm)]

theorem textHtml_noLt (s : Str) : '<' ∉ textHtml s := by
  unfold textHtml
  simp only [List.mem_flatMap, not_exists, not_and]
  exact fun c _ => (textChar_clean c).1

/-- the tag of a code -/
def codeStart (cls : Option Str) : Str :=
  c!"code" ++ (match cls with | some v => c!" class=\"" ++ attrHtml v ++ c!"\"" | none => []) ++ c!">"

theorem codeHtml_eq (cls : Option Str) (code : Str) : codeHtml cls code = '<' :: (codeStart cls ++ textHtml code) ++ '<' :: c!"/code>" := by
  unfold codeHtml codeStart
  cases cls <;> simp

theorem codeStart_noLt (cls : Option Str) : '<' ∉ codeStart cls := by
  unfold codeStart
  cases cls with
  | none => decide
  | some v =>
    simp only [List.mem_append, not_or]
    exact ⟨⟨by decide, ⟨by decide, attrHtml_clean.1⟩, by decide⟩, by decide⟩

theorem NoEnd.cons {c : Char} {x : Str} (h1 : ∀ r, c :: x ++ c!"</pre>" ≠ c!"</pre>" ++ r) (h2 : NoEnd x) : NoEnd (c :: x) := by
  intro u t r hu ht
  cases u with
  | nil => rw [List.nil_append] at hu; rw [← hu]; exact h1 r
  | cons d u =>
    simp only [List.cons_append, List.cons.injEq] at hu
    exact h2 u t r hu.2 ht

theorem NoEnd.append {a x : Str} (ha : '<' ∉ a) (h : NoEnd x) : NoEnd (a ++ x) := by
  induction a with
  | nil => exact h
  | cons c a ih =>
    simp only [List.mem_cons, not_or] at ha
    refine NoEnd.cons ?_ (ih ha.2)
    intro r e
    simp only [List.cons_append, List.cons.injEq] at e
    exact ha.1 e.1.symm

theorem skips_cons {c : Char} {x rest : Str} (h1 : ∀ r, c :: x ++ rest ≠ c!"<pre>" ++ r) (h2 : Skips x rest) : Skips (c :: x) rest := by
  intro u t r hu ht
  cases u with
  | nil => rw [List.nil_append] at hu; rw [← hu]; exact h1 r
  | cons d u =>
    simp only [List.cons_append, List.cons.injEq] at hu
    exact h2 u t r hu.2 ht

theorem code_noEnd (cls : Option Str) (code : Str) : NoEnd (codeHtml cls code) := by
  rw [codeHtml_eq, List.cons_append]
  refine NoEnd.cons ?_ (NoEnd.append ?_ (NoEnd.cons ?_ (noEnd_plain (by decide))))
  · intro r
    unfold codeStart
    simp
  · simp only [List.mem_append, not_or]
    exact ⟨codeStart_noLt cls, textHtml_noLt code⟩
  · intro r
    simp

theorem code_skips (cls : Option Str) (code : Str) : Skips (codeHtml cls code) c!"</pre>" := by
  rw [codeHtml_eq, List.cons_append]
  refine skips_cons ?_ (Skips.append ?_ (skips_cons ?_ ?_))
  · intro r
    unfold codeStart
    simp
  · simp only [List.mem_append, not_or]
    exact ⟨codeStart_noLt cls, textHtml_noLt code⟩
  · intro r
    simp
  · have := Skips.append (a := c!"/code>") (rest := c!"</pre>") (by decide) (Skips.nil _)
    simpa using this

theorem code_lineFirst (cls : Option Str) (code : Str) : lineFirst (codeHtml cls code) = true := by
  rw [codeHtml_eq, List.cons_append, lineFirst, List.takeWhile_cons_of_pos (by decide), List.any_cons,
    show isSpace '<' = false from by decide]
  rfl

theorem textHtml_lineFirst {s : Str} (h : lineFirst s = true) : lineFirst (textHtml s) = true := by
  unfold lineFirst at h ⊢
  induction s with
  | nil => cases h
  | cons c s ih =>
    have e : textHtml (c :: s) = textChar c ++ textHtml s := by simp [textHtml]
    by_cases hn : c = '\n'
    · subst hn; simp at h
    · rw [List.takeWhile_cons_of_pos (by simpa using hn), List.any_cons, Bool.or_eq_true] at h
      rw [e, textChar]
      split
      · rfl
      · split
        · rfl
        · split
          · rfl
          · rw [List.singleton_append, List.takeWhile_cons_of_pos (by simpa using hn), List.any_cons, Bool.or_eq_true]
            exact h.imp id ih

theorem code_decoded {cls : Option Str} (hc : classOk cls = true) (code : Str) : replaceAll (codeHtml cls code) = .ok (codeTags cls code) := by
  have e0 : repl none (textHtml code ++ c!"</code>") = .ok (code ++ c!"</code>") := by
    rw [repl_text, ← List.append_nil c!"</code>", repl_raw (by decide), repl_nil]; simp [Except.map]
  cases cls with
  | none =>
    rw [replaceAll_repl, show codeHtml none code = c!"<code>" ++ (textHtml code ++ c!"</code>") by simp [codeHtml],
      repl_raw (by decide), e0]
    simp [codeTags, Except.map]
  | some v =>
    simp only [classOk, Option.all_some, Bool.and_eq_true, Bool.not_eq_true', List.contains_eq_mem, decide_eq_false_iff_not] at hc
    rw [replaceAll_repl, show codeHtml (some v) code = c!"<code class=\"" ++ (textHtml v ++ (c!"\">" ++ (textHtml code ++ c!"</code>"))) by
      simp [codeHtml, attrHtml_unquoted hc.1], repl_raw (by decide), repl_text, repl_raw (by decide), e0]
    simp [codeTags, Except.map]

/-- the first piece of a code -/
theorem first_piece (c : Char) (s : Str) : ∃ d rest, (c :: s).foldr addChar [] = d :: rest ∧
    (∀ name, entityOf c = some name → d = .entity name) ∧
    (entityOf c = none → d = .text ((c :: s).takeWhile fun x => (entityOf x).isNone)) := by
  induction s generalizing c with
  | nil =>
    cases h : entityOf c with
    | some name => exact ⟨.entity name, [], by simp [addChar, h], by simp, by simp⟩
    | none => exact ⟨.text [c], [], by simp [addChar, h], by simp, by simp [h]⟩
  | cons b s ih =>
    obtain ⟨d, rest, h1, h2, h3⟩ := ih b
    rw [List.foldr_cons, h1]
    unfold addChar
    cases h : entityOf c with
    | some name => exact ⟨_, _, rfl, by simp, by simp⟩
    | none =>
      cases hb : entityOf b with
      | some name =>
        rw [h2 name hb]
        exact ⟨_, _, rfl, by simp, by simp [h, hb]⟩
      | none =>
        rw [h3 hb]
        refine ⟨_, _, rfl, by simp, fun _ => ?_⟩
        rw [List.takeWhile_cons_of_pos (a := c) (by simp [h])]

theorem wfL_pieces (s : Str) (b : Bool) : wfL b (s.foldr addChar []) = true := by
  suffices h : ∀ l, wfL b l = true → wfL b (s.foldr addChar l) = true from h [] (by simp [wfL])
  intro l hl
  induction s with
  | nil => exact hl
  | cons c s ih =>
    rw [List.foldr_cons]
    generalize s.foldr addChar l = m at ih
    unfold addChar
    split
    · simp [wfL, El.wf, ih]
    · split
      · simpa [wfL, El.wf] using ih
      · simp [wfL, El.wf, ih]

/-- the attributes of a code -/
def codeAttrs : Option Str → Dict (Option Str)
  | some v => [(c!"class", some v)]
  | none => []

/-- the tree of a code alone -/
theorem parse_code {cls : Option Str} (hc : classOk cls = true) (code : Str) :
    parseRaw (codeHtml cls code) = .ok (.mk { kind := c!"document" } [.mk { kind := c!"code", attrs := codeAttrs cls }
      (nodesL 0 (code.foldr addChar []))]) := by
  have hok : okL [.el c!"code" (cls.toList.map fun v => (c!"class", v)) [.text code]] = true := by
    cases cls with
    | none => simp only [okL, Ht.ok, Option.toList_none, List.map_nil, List.all_nil]; decide
    | some v =>
      simp only [classOk, Option.all_some] at hc
      simp only [okL, Ht.ok, Option.toList_some, List.map_cons, List.map_nil, List.all_cons, List.all_nil, attrOk, Bool.and_true]
      simp only [Bool.and_eq_true] at hc ⊢
      exact ⟨by decide, ⟨⟨by decide, hc.1⟩, hc.2⟩⟩
  have hw : codeHtml cls code = solidPrints [.el c!"code" (cls.toList.map fun v => (c!"class", v)) [.text code]] := by
    cases cls <;> simp [codeHtml, solidPrints, solidPrint, tagStart, attrPrint]
  have hst : strip (codeHtml cls code) = codeHtml cls code := by
    refine strip_id ?_ ?_
    · intro c hc
      rw [codeHtml_eq] at hc
      simp at hc; subst hc; rfl
    · intro c hc
      rw [codeHtml_eq, show '<' :: (codeStart cls ++ textHtml code) ++ '<' :: c!"/code>" =
        ('<' :: (codeStart cls ++ textHtml code) ++ '<' :: c!"/code") ++ ['>'] from by simp, List.getLast?_concat] at hc
      cases hc; rfl
  unfold parseRaw
  rw [hst, hw]
  dsimp only
  rw [run_doc [] hok, C29_wellformed_tree]
  · cases cls <;> simp [elsL, Ht.els, nodesL, El.nodes, headline?, dictOf, dictSet, codeAttrs]
  · cases cls <;> simp [elsL, Ht.els, wfL, El.wf, wfL_pieces, blockNames]

/-- what html2markdown makes of a code -/
theorem md_code {cls : Option Str} (hc : classOk cls = true) (c : Char) (s : Str) (st : ESt) :
    mdInlinePre (some (codeHtml cls (c :: s))) st =
      .ok (c!"\n```" ++ (language cls ++ codeLeft (c :: s)) ++ c!"```\n", st) := by
  have hsuf : c!"</code>".isSuffixOf (codeHtml cls (c :: s)) = true := by
    rw [List.isSuffixOf_iff_suffix]
    exact List.suffix_append _ _
  obtain ⟨d, rest, h1, h2, h3⟩ := first_piece c s
  have hd : ∃ i ch ns, nodesL 0 ((c :: s).foldr addChar []) = .mk i ch :: ns ∧ i.content = some (codeLeft (c :: s)) ∧
      '&' ∉ codeLeft (c :: s) := by
    rw [h1]
    cases he : entityOf c with
    | some name =>
      rw [h2 name he]
      refine ⟨_, _, _, rfl, by simp [codeLeft, he], ?_⟩
      simp only [codeLeft, he, Option.getD_some]
      unfold entityOf at he
      split at he
      · cases he; decide
      · split at he
        · cases he; decide
        · split at he
          · cases he; decide
          · cases he
    | none =>
      rw [h3 he]
      refine ⟨_, _, _, rfl, by simp [codeLeft, he], ?_⟩
      simp only [codeLeft, he, Option.getD_none]
      intro hm
      have := List.all_eq_true.mp List.all_takeWhile _ hm
      simp [entityOf] at this
  obtain ⟨i, ch, ns, hn, hi, ha⟩ := hd
  unfold mdInlinePre
  simp only [hsuf, if_true]
  rw [bind_run, parse_code hc, hn]
  rw [ofExcept_run]
  simp only [Except.map, HNode.children]
  rw [bind_run, HNode.info, hi]
  simp only [deentityM, replaceAll_raw ha, ofExcept_run, Except.map]
  have hlang : (codeLanguage (codeAttrs cls)).getD [] = language cls := by
    cases cls with
    | none => rfl
    | some v =>
      by_cases hp : c!"language-".isPrefixOf v = true
      · simp only [codeAttrs, codeLanguage, dictGet, List.lookup, language, beq_self_eq_true, hp, if_true, Option.getD_some]
      · simp only [codeAttrs, codeLanguage, dictGet, List.lookup, language, beq_self_eq_true, hp]
        rfl
  rw [← hlang]
  simp only [HNode.info]
  generalize codeLanguage (codeAttrs cls) = o
  cases o <;> simp [pure_run]

theorem md_code_empty {cls : Option Str} (hc : classOk cls = true) (st : ESt) :
    mdInlinePre (some (codeHtml cls [])) st = .error .indexError := by
  have hsuf : c!"</code>".isSuffixOf (codeHtml cls []) = true := by
    rw [List.isSuffixOf_iff_suffix]
    exact List.suffix_append _ _
  unfold mdInlinePre
  simp only [hsuf, if_true]
  rw [bind_run, parse_code hc]
  rfl

theorem strip_fenced {a x b : Str} (ha : (a.head?).any (fun c => !isSpace c) = true) (hb : (b.getLast?).any (fun c => !isSpace c) = true) :
    strip (a ++ x ++ b) = a ++ x ++ b := by
  refine strip_id ?_ ?_
  · intro c h
    cases a with
    | nil => cases ha
    | cons d a =>
      simp only [List.cons_append, List.head?_cons, Option.some.injEq] at h
      subst h
      simpa using ha
  · intro c h
    cases hb' : b.getLast? with
    | none => rw [hb'] at hb; cases hb
    | some d =>
      rw [List.getLast?_append, hb'] at h
      cases h
      rw [hb'] at hb
      simpa using hb

theorem rstrip_fenced {x b : Str} (hb : (b.getLast?).any (fun c => !isSpace c) = true) : rstrip (x ++ b) = x ++ b := by
  refine dropEndWhile_last fun c h => ?_
  cases hb' : b.getLast? with
  | none => rw [hb'] at hb; cases hb
  | some d =>
    rw [List.getLast?_append, hb'] at h
    cases h
    rw [hb'] at hb
    simpa using hb

/-! ## Theorems -/

/-- **C88.**  Preformatted text whose first line is not blank, with white space around it: each of the four converters
gives exactly this text between its delimiters, with the entities replaced. -/
theorem C88_preformatted (netlocOk : Str → Bool) (policy : Policy) (strict : Bool) {code w w' : Str} (hl : lineFirst code = true)
    (hw : ∀ c ∈ w, isSpace c = true) (hw' : ∀ c ∈ w', isSpace c = true) :
    Emit.html2creole (w ++ (c!"<pre>" ++ textHtml code ++ c!"</pre>") ++ w') policy strict = .ok (c!"{{{" ++ code ++ c!"}}}") ∧
    html2textile (w ++ (c!"<pre>" ++ textHtml code ++ c!"</pre>") ++ w') policy = .ok (c!"<pre>" ++ code ++ c!"</pre>") ∧
    html2markdown netlocOk (w ++ (c!"<pre>" ++ textHtml code ++ c!"</pre>") ++ w') policy = .ok (c!"```" ++ code ++ c!"```") ∧
    html2rest (w ++ (c!"<pre>" ++ textHtml code ++ c!"</pre>") ++ w') policy = .ok (c!"<pre>" ++ code ++ c!"</pre>") := by
  have h1 : NoEnd (textHtml code) := noEnd_plain (textHtml_noLt code)
  have h2 : Skips (textHtml code) c!"</pre>" := by
    have := Skips.append (rest := c!"</pre>") (textHtml_noLt code) (Skips.nil _)
    simpa using this
  have h3 := textHtml_lineFirst hl
  have hd : replaceAll (textHtml code) = .ok code := by rw [← Creole.htmlEscape_spec]; exact C31_deentity_escape code
  have hsuf : c!"</code>".isSuffixOf (textHtml code) = false := by
    rw [Bool.eq_false_iff, Ne, List.isSuffixOf_iff_suffix]
    exact fun h => textHtml_noLt code (h.subset (by decide))
  refine ⟨?_, ?_, ?_, ?_⟩
  · refine (convert_single h1 h2 h3 hw hw' (t := c!"{{{" ++ code ++ c!"}}}") ?_).trans ?_
    · intro s
      simp only [inlinePreEmit, deentityM, hd]
      rfl
    · rw [if_neg (by simp), strip_fenced (by decide) (by decide)]
  · refine (convert_single h1 h2 h3 hw hw' (t := c!"<pre>" ++ code ++ c!"</pre>") ?_).trans ?_
    · intro s
      simp only [inlinePreEmit, deentityM, hd]
      rfl
    · rw [if_neg (by simp), strip_fenced (by decide) (by decide)]
  · refine (convert_single h1 h2 h3 hw hw' (t := c!"\n" ++ (c!"```" ++ code ++ c!"```") ++ c!"\n") ?_).trans ?_
    · intro s
      simp only [inlinePreEmit, mdInlinePre, hsuf, hd]
      simp [bind_run, ofExcept_run, Except.map, pure_run]
    · rw [if_neg (by simp), strip_pad newline_space newline_space, strip_fenced (by decide) (by decide)]
  · refine (convert_single h1 h2 h3 hw hw' (t := c!"<pre>" ++ code ++ c!"</pre>") ?_).trans ?_
    · intro s
      simp only [inlinePreEmit, deentityM, hd]
      rfl
    · rw [if_pos rfl, rstrip_fenced (by decide)]

/-- Two lines with an indented second one, between blank lines. -/
example : lineFirst c!"if a < b:\n  x &= 1\n" = true ∧
    Emit.html2creole c!"\n <pre>if a &lt; b:\n  x &amp;= 1\n</pre>\n" = .ok c!"{{{if a < b:\n  x &= 1\n}}}" := by decide +kernel

/-- **C88.**  A block of code: html2creole, html2textile and html2rest keep the tags of the code as text, and the code with
its entities replaced. -/
theorem C88_code_tags (policy : Policy) (strict : Bool) {cls : Option Str} (hc : classOk cls = true) (code : Str) {w w' : Str}
    (hw : ∀ c ∈ w, isSpace c = true) (hw' : ∀ c ∈ w', isSpace c = true) :
    Emit.html2creole (w ++ (c!"<pre>" ++ codeHtml cls code ++ c!"</pre>") ++ w') policy strict =
      .ok (c!"{{{" ++ codeTags cls code ++ c!"}}}") ∧
    html2textile (w ++ (c!"<pre>" ++ codeHtml cls code ++ c!"</pre>") ++ w') policy = .ok (c!"<pre>" ++ codeTags cls code ++ c!"</pre>") ∧
    html2rest (w ++ (c!"<pre>" ++ codeHtml cls code ++ c!"</pre>") ++ w') policy = .ok (c!"<pre>" ++ codeTags cls code ++ c!"</pre>") := by
  have h1 := code_noEnd cls code
  have h2 := code_skips cls code
  have h3 := code_lineFirst cls code
  have hd := code_decoded hc code
  refine ⟨?_, ?_, ?_⟩
  · refine (convert_single h1 h2 h3 hw hw' (t := c!"{{{" ++ codeTags cls code ++ c!"}}}") ?_).trans ?_
    · intro s
      simp only [inlinePreEmit, deentityM, hd]
      rfl
    · rw [if_neg (by simp), strip_fenced (by decide) (by decide)]
  · refine (convert_single h1 h2 h3 hw hw' (t := c!"<pre>" ++ codeTags cls code ++ c!"</pre>") ?_).trans ?_
    · intro s
      simp only [inlinePreEmit, deentityM, hd]
      rfl
    · rw [if_neg (by simp), strip_fenced (by decide) (by decide)]
  · refine (convert_single h1 h2 h3 hw hw' (t := c!"<pre>" ++ codeTags cls code ++ c!"</pre>") ?_).trans ?_
    · intro s
      simp only [inlinePreEmit, deentityM, hd]
      rfl
    · rw [if_pos rfl, rstrip_fenced (by decide)]

/-- a class without a language -/
example : classOk (some c!"x") = true ∧ codeTags (some c!"x") c!"a < b" = c!"<code class=\"x\">a < b</code>" ∧
    html2rest c!"<pre><code class=\"x\">a &lt; b</code></pre>" = .ok c!"<pre><code class=\"x\">a < b</code></pre>" := by
  decide +kernel

/-- **C88.**  html2markdown writes the language of the class and the code between the delimiters, but of the code only
what stands before its first `&`, `<` or `>`; when it begins with one of them, only the name of its entity.  The language
and the code stand on the same line, unless the code begins with a line break. -/
theorem C88_markdown_code (netlocOk : Str → Bool) (policy : Policy) {cls : Option Str} (hc : classOk cls = true) {code : Str}
    (hne : code ≠ []) {w w' : Str} (hw : ∀ c ∈ w, isSpace c = true) (hw' : ∀ c ∈ w', isSpace c = true) :
    html2markdown netlocOk (w ++ (c!"<pre>" ++ codeHtml cls code ++ c!"</pre>") ++ w') policy =
      .ok (c!"```" ++ (language cls ++ codeLeft code) ++ c!"```") := by
  cases code with
  | nil => exact absurd rfl hne
  | cons c s =>
    refine (convert_single (code_noEnd _ _) (code_skips _ _) (code_lineFirst _ _) hw hw'
      (t := c!"\n" ++ (c!"```" ++ (language cls ++ codeLeft (c :: s)) ++ c!"```") ++ c!"\n") ?_).trans ?_
    · intro st
      simp only [inlinePreEmit]
      rw [md_code hc]
      simp
    · rw [if_neg (by simp), strip_pad newline_space newline_space, strip_fenced (by decide) (by decide)]

/-- **C88.**  Exactly the code without `&`, `<` and `>` is kept completely by html2markdown. -/
theorem C88_markdown_kept {code : Str} : codeLeft code = code ↔ ∀ c ∈ code, c ≠ '&' ∧ c ≠ '<' ∧ c ≠ '>' := by
  have hn : ∀ c, (entityOf c).isNone = true ↔ c ≠ '&' ∧ c ≠ '<' ∧ c ≠ '>' := by
    intro c
    unfold entityOf
    split
    · simp_all
    · split
      · simp_all
      · split <;> simp_all
  simp only [← hn]
  cases code with
  | nil => simp [codeLeft]
  | cons c s =>
    cases he : entityOf c with
    | some name =>
      simp only [codeLeft, he, Option.getD_some]
      refine ⟨fun h => ?_, fun h => absurd (h c (by simp)) (by simp [he])⟩
      exfalso
      unfold entityOf at he
      have h1 : name.head? = some c := by rw [h]; rfl
      split at he
      · cases he; subst c; cases h1
      · split at he
        · cases he; subst c; cases h1
        · split at he
          · cases he; subst c; cases h1
          · cases he
    | none =>
      simp only [codeLeft, he, Option.getD_none]
      refine ⟨fun h d hd => ?_, fun h => ?_⟩
      · rw [← h] at hd
        exact List.all_eq_true.mp (List.all_takeWhile (p := fun d => (entityOf d).isNone)) _ hd
      · generalize c :: s = x at h
        induction x with
        | nil => rfl
        | cons d x ih =>
          rw [List.takeWhile_cons_of_pos (p := fun d => (entityOf d).isNone) (h d (by simp)), ih fun y hy => h y (by simp [hy])]

/-- **C88.**  html2markdown fails for an empty code. -/
theorem C88_markdown_empty (netlocOk : Str → Bool) (policy : Policy) {cls : Option Str} (hc : classOk cls = true)
    {w w' : Str} (hw : ∀ c ∈ w, isSpace c = true) (hw' : ∀ c ∈ w', isSpace c = true) :
    html2markdown netlocOk (w ++ (c!"<pre>" ++ codeHtml cls [] ++ c!"</pre>") ++ w') policy = .error .indexError :=
  convert_single_error (code_noEnd _ _) (code_skips _ _) (code_lineFirst _ _) hw hw' (by simp) fun s => by
    simp only [inlinePreEmit]
    exact md_code_empty hc s

/-- Code without special characters survives in markdown, other code does not. -/
example : classOk (some c!"language-python") = true ∧ codeHtml (some c!"language-python") c!"\nif a < b: c()\n" =
      c!"<code class=\"language-python\">\nif a &lt; b: c()\n</code>" ∧
    language (some c!"language-python") = c!"python" ∧ codeLeft c!"\nif a < b: c()\n" = c!"\nif a " ∧ codeLeft c!"<b>" = c!"lt" ∧
    codeLeft c!"\nprint(1)\n" = c!"\nprint(1)\n" ∧
    html2markdown (fun _ => true) c!"<pre><code class=\"language-python\">\nif a &lt; b: c()\n</code></pre>" =
      .ok c!"```python\nif a ```" := by decide +kernel

end Verif.Props
