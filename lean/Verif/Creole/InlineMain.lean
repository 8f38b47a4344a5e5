import Verif.Creole.InlineRun
import Verif.Creole.MacroScan

/-!
# The inline parser reads written markup

The main result of the inline layer: the text written for well-formed pieces is parsed and emitted as the HTML of
these pieces.
-/

namespace Verif.Creole

open Verif Spec Py Spec.Cr

variable {env : Env} {ms : Macros} {parent : Info} {cx : Ctx} [hcx : CxOk env ms cx]

theorem inlineRe_nullable : inlineRe.nullable = false := by decide

section
variable (h : G → Match G → PS → PM) (st : PS) (w : Str)
theorem onHit_mac (x y z : Str) : onHit inlineRe h st ⟨w, [(.macro_tag, x), (.macro_tag_args, y), (.macro_tag_name, z)]⟩ =
    h .macro_tag ⟨w, [(.macro_tag, x), (.macro_tag_args, y), (.macro_tag_name, z)]⟩ st := rfl
theorem onHit_macText (x y z u : Str) : onHit inlineRe h st
    ⟨w, [(.macro_inline, x), (.macro_inline_text, u), (.macro_inline_args, y), (.macro_inline_start, z)]⟩ =
    h .macro_inline ⟨w, [(.macro_inline, x), (.macro_inline_text, u), (.macro_inline_args, y), (.macro_inline_start, z)]⟩ st := rfl
end

/-- the node of a call that stands inside a text gives the text of the call -/
theorem call_emit {c : Call} (hb : c.block = false) (hs : (cx.mac c).isSome = true) (hn : c.name ≠ c!"toc") :
    emitNode env parent (.mk { kind := .macro_inline, content := c.text, macroName := c.name, macroArgs := c.args } []) ms =
      .ok (cx.call c, ms) := by
  obtain ⟨s, hs⟩ := Option.isSome_iff_exists.mp hs
  have := CxOk.mac (env := env) (ms := ms) c s hs hn
  rw [emitNode]
  simp only [callInfo, hb] at this
  simp only [Ctx.call, hs, Option.getD_some]
  exact this

theorem toc_used {n : Str} {us : List Str} {sg : Stage} (hn : n ≠ c!"toc") (h : UsedOk sg us) : UsedOk sg (n :: us) := by
  unfold UsedOk at h ⊢
  rw [List.contains_cons, h, beq_eq_false_iff_ne.mpr fun e => hn e.symm, Bool.false_or]

/-- does the text end with something else than a line break? `b` is the answer for what stands before it -/
def lastOk : Bool → List Inl → Bool
  | b, [] => b
  | _, i :: l => lastOk i.notBr l

theorem lastOk_of : ∀ {l : List Inl} {b : Bool}, l ≠ [] → (l.getLast?).all Inl.notBr = lastOk b l := by
  intro l
  induction l with
  | nil => intro b h; exact absurd rfl h
  | cons i l ih =>
    intro b _
    cases l with
    | nil => simp [lastOk]
    | cons j l =>
      have := @ih i.notBr (by simp)
      rw [List.getLast?_cons_cons, this]
      rfl

/-- the statement for texts parsed with the given fuel -/
def InlineOk (env : Env) (ms : Macros) (cx : Ctx) (n : Nat) : Prop :=
  ∀ (l : List Inl) (prev : Option Char) (st : PS) (br : Str) (b : Bool), (prints l).length < n → wfs cx prev l = true → TextOK st →
    breakEmit st.cur.info = .ok br → (l ≠ [] ∨ st.cur.children ≠ []) → (l = [] → b = true → NoBrk st) →
    Did env ms st (runR inlineRe (inlineRepl (parseInlineN (n - 1))) prev (prints l) st) (htmls cx br l) (lastOk b l)

theorem inlineOk_succ {n : Nat} (ihn : InlineOk env ms cx n) : InlineOk env ms cx (n + 1) := by
  intro l
  simp only [Nat.add_sub_cancel]
  induction l with
  | nil =>
    intro prev st br b _ _ ht _ hne hb
    simp only [prints, htmls, lastOk]
    rw [runR_nil inlineRe_nullable]
    exact did_done ht (by simpa using hne) (hb rfl)
  | cons i l ih =>
    intro prev st br b hlen hwf ht hbr _ _
    simp only [wfs, Bool.and_eq_true] at hwf
    obtain ⟨hi, hl⟩ := hwf
    have hlen' : (prints l).length < n + 1 := by simp only [prints, List.length_append] at hlen; omega
    have next : ∀ {r : PM} {s : Str}, Did env ms st r s i.notBr → s = i.html cx br →
        Did env ms st (r >>= runR inlineRe (inlineRepl (parseInlineN n)) i.print.getLast? (prints l))
          (htmls cx br (i :: l)) (lastOk b (i :: l)) := by
      rintro r s h rfl
      simp only [htmls, lastOk]
      refine did_bind h ?_
      intro st' h1 h2 h3
      exact ih _ st' br _ hlen' hl h1.text (by rw [h1.info]; exact hbr) (.inr h2) (fun _ => h3)
    have step : ∀ {p : Option Char} {caps : List (G × Str)} {s : Str}, i.print ≠ [] →
        inlineRe.matchAt false prev (prints (i :: l)) = some ⟨p, prints l, caps⟩ →
        Did env ms st (onHit inlineRe (inlineRepl (parseInlineN n)) st ⟨i.print, caps⟩) s i.notBr → s = i.html cx br →
        Did env ms st (runR inlineRe (inlineRepl (parseInlineN n)) prev (prints (i :: l)) st)
          (htmls cx br (i :: l)) (lastOk b (i :: l)) := by
      intro p caps s hne hm h hs
      rw [runR_take' (w := i.print) (by rw [prints]) hne hm]
      exact next h hs
    cases i with
    | chr c =>
      refine step (by simp [Inl.print]) (by simpa [prints, Inl.print] using match_chr hi) ?_ rfl
      rw [onHit_char]
      exact addChars_did ht [c]
    | esc c =>
      refine step (by simp [Inl.print]) (by simpa [prints, Inl.print] using match_esc hi) ?_ rfl
      rw [onHit_esc]
      exact addChars_did ht [c]
    | br =>
      refine step (by simp [Inl.print]) (by simpa [prints, Inl.print] using match_br) ?_ rfl
      rw [onHit_br]
      exact leaf_did (emit_brk hbr) (by simp [Inl.notBr])
    | nowiki s =>
      simp only [Inl.wf, Bool.and_eq_true, Bool.not_eq_true', List.contains_eq_mem, decide_eq_false_iff_not] at hi
      refine step (by simp [Inl.print]) (by simpa [prints, Inl.print] using match_nowiki hi.1 hi.2) ?_ rfl
      rw [onHit_nowiki]
      refine leaf_did (i := { kind := .pre_inline, content := some s }) ?_ (by simp)
      rw [emitNode]
      simp [Info.contentE, Inl.html, htmlEscape_spec, pureText, Except.map]
    | url s =>
      simp only [Inl.wf, Bool.and_eq_true] at hi
      obtain ⟨p, w, hp, rfl, hw, hc⟩ := isUrl_parts hi.1.1
      refine step (by simp [Inl.print]) (by simpa [prints, Inl.print] using match_url hp hw hc hi.2 hi.1.2) ?_ rfl
      rw [onHit_url]
      refine addNode_did (n := .mk { kind := .link, content := some _ } [.mk { kind := .text, content := some _ } []]) ?_ (by simp [Node.kind, Node.info])
      refine emit_link (by simp) ?_
      exact emits_one (emit_text _ _)
    | escUrl s =>
      simp only [Inl.wf, Bool.and_eq_true] at hi
      obtain ⟨p, w, hp, rfl, hw, hc⟩ := isUrl_parts hi.1.1
      refine step (by simp [Inl.print]) (by simpa [prints, Inl.print] using match_escUrl hp hw hc hi.2 hi.1.2) ?_ rfl
      rw [onHit_escUrl]
      exact addChars_did ht _
    | link t x =>
      simp only [Inl.wf, Bool.and_eq_true, Bool.or_eq_true] at hi
      have htg := targetOk_iff hi.1.1
      cases x with
      | nil =>
        refine step (by simp [Inl.print]) (by simpa [prints, Inl.print] using match_link htg) ?_ rfl
        rw [onHit_link]
        exact linkRepl_none
      | cons y x =>
        have hb : barText ']' (prints (y :: x)) = true := by simpa using hi.1.2
        have hx : htmls cx c!"<br />\n" (y :: x) = y.html cx c!"<br />\n" ++ htmls cx c!"<br />\n" x := by
          rw [htmls]
        refine step (s := linkHtml t (htmls cx c!"<br />\n" (y :: x))) (by simp [Inl.print])
          (by simpa [prints, Inl.print] using match_linkText htg (barText_iff hb) (rest := prints l)) ?_ ?_
        · rw [onHit_linkText]
          have := linkRepl_text (env := env) (ms := ms) (cx := cx) (st := st) (w := (Inl.link t (y :: x)).print)
            (x := c!"[[" ++ t ++ '|' :: prints (y :: x) ++ c!"]]") (t := t) hi.2 hb (by simp)
          simpa [prints, Inl.print, inlineRepl, Inl.notBr] using this
        · rw [hx]; simp [Inl.html]
    | image t s =>
      simp only [Inl.wf, Bool.and_eq_true, Bool.or_eq_true, Bool.not_eq_true', List.contains_eq_mem, decide_eq_false_iff_not] at hi
      obtain ⟨htg, hst, hhd⟩ := imageTarget_iff hi.1
      cases s with
      | nil =>
        refine step (by simp [Inl.print]) (by simpa [prints, Inl.print] using match_image htg hhd) ?_ rfl
        rw [onHit_image]
        exact imageRepl_none hst htg.nobar rfl
      | cons c s =>
        have hs' : barText '}' (c :: s) = true ∧ '|' ∉ c :: s := by simpa using hi.2
        obtain ⟨h1, h2⟩ := barText_strip hs'.1
        refine step (by simp [Inl.print]) (by simpa [prints, Inl.print] using match_imageText htg (barText_iff hs'.1) hhd (rest := prints l)) ?_ rfl
        rw [onHit_imageText]
        have := imageRepl_text (env := env) (ms := ms) (st := st) (w := (Inl.image t (c :: s)).print)
          (x := c!"{{" ++ t ++ '|' :: (c :: s) ++ c!"}}") hst h1 h2 rfl
        rw [image_plain hs'.2] at this
        simpa [inlineRepl, leafRepl, Inl.notBr, Inl.html] using this
    | sized t s w h =>
      simp only [Inl.wf, Bool.and_eq_true, Bool.not_eq_true', List.contains_eq_mem, decide_eq_false_iff_not] at hi
      obtain ⟨⟨⟨⟨hit, hs⟩, hb⟩, hw⟩, hh⟩ := hi
      obtain ⟨htg, hst, hhd⟩ := imageTarget_iff hit
      obtain ⟨h1, h2⟩ := sized_bar (w := w) (h := h) hs
      refine step (by simp [Inl.print]) (by simpa [prints, Inl.print] using match_imageText htg h1 hhd (rest := prints l)) ?_ rfl
      rw [onHit_imageText]
      have : Did env ms st (inlineRepl (parseInlineN n) .image _ st) _ true := imageRepl_text (env := env) (ms := ms) (st := st) (w := (Inl.sized t s w h).print)
        (x := c!"{{" ++ t ++ '|' :: (s ++ c!"|" ++ decimal w ++ c!"x" ++ decimal h) ++ c!"}}") hst h2 h1.ne rfl
      rw [image_sized (CxOk.strict (cx := cx) ms) hb (barText_iff hs).ne hw hh] at this
      simpa [Inl.notBr, Inl.html] using this
    | mac n' a =>
      simp only [Inl.wf, Bool.and_eq_true, Bool.not_eq_true', List.all_eq_true, List.mem_range] at hi
      obtain ⟨⟨⟨hn, ha⟩, hs⟩, hend⟩ := hi
      obtain ⟨hna, htoc⟩ := nameArgs_iff hn ha
      obtain ⟨w, hw, hm⟩ := match_mac (p := prev) (rest := prints l) hna hend
      refine step (by simp [Inl.print]) (by simpa [prints, Inl.print] using hm) ?_ rfl
      rw [onHit_mac]
      have e : inlineRepl (parseInlineN n) .macro_tag ⟨(Inl.mac n' a).print, [(.macro_tag, c!"<<" ++ n' ++ a ++ c!">>"), (.macro_tag_args, w),
          (.macro_tag_name, n')]⟩ st = .ok { (st.addNode (.mk { kind := .macro_inline, macroName := n', macroArgs := strip w } [])).noText with
            used := n' :: st.used } := rfl
      simp only [Inl.print, List.append_assoc, List.cons_append, List.nil_append] at e ⊢
      rw [e, hw]
      exact addNodeU_did (call_emit (c := ⟨n', _, none, false⟩) rfl hs htoc) (by simp [Node.kind, Node.info]) (toc_used htoc)
    | macText n' a t =>
      simp only [Inl.wf, Bool.and_eq_true, Bool.not_eq_true'] at hi
      obtain ⟨⟨⟨⟨hn, ha⟩, hs⟩, _⟩, hend⟩ := hi
      obtain ⟨hna, htoc⟩ := nameArgs_iff hn ha
      refine step (by simp [Inl.print]) (by simpa [prints, Inl.print] using match_macText (p := prev) (rest := prints l) hna hend) ?_ rfl
      have hm' : inlineRepl (parseInlineN n) .macro_inline ⟨(Inl.macText n' a t).print, [(.macro_inline, c!"<<" ++ n' ++ a ++ c!">>" ++ t ++ c!"<</" ++ n' ++ c!">>"),
          (.macro_inline_text, t), (.macro_inline_args, strip a), (.macro_inline_start, n')]⟩ st =
          .ok { (st.addNode (.mk { kind := .macro_inline, content := some (strip t), macroName := n', macroArgs := strip (strip a) } [])).noText with
            used := n' :: st.used } := rfl
      rw [onHit_macText]
      simp only [Inl.print, List.append_assoc, List.cons_append, List.nil_append] at hm' ⊢
      rw [hm', strip_strip]
      exact addNodeU_did (call_emit (c := ⟨n', _, some _, false⟩) rfl hs htoc) (by simp [Node.kind, Node.info]) (toc_used htoc)
    | face f x =>
      simp only [Inl.wf, Bool.and_eq_true] at hi
      obtain ⟨⟨⟨hx, hf⟩, hlast⟩, hemph⟩ := hi
      have hxne : x ≠ [] := by
        rintro rfl
        simp [faceText, prints] at hf
      refine step (by simp [Inl.print])
        (by simpa [prints, Inl.print] using match_face (rest := prints l) (prev := prev) (by rintro rfl; simpa using hemph) hf) ?_ rfl
      rw [onHit_face, inlineRepl_face]
      simp only [Inl.html, Inl.notBr]
      refine inlineMark_did ?_
      have hlx : (prints x).length < n := by
        simp only [prints, Inl.print, List.length_append, List.length_cons, List.length_nil] at hlen; omega
      have := ihn x none ((st.push { kind := faceKind f }).noText) c!"<br />\n" true hlx hx (by intro h; simp [PS.noText] at h)
        (faceKind_break f) (.inl hxne) (fun h => absurd h hxne)
      rw [← lastOk_of hxne, hlast] at this
      cases n with
      | zero => simp at hlx
      | succ n =>
        simp only [Nat.add_sub_cancel] at this
        show Did env ms _ (subAll inlineRe (inlineRepl (parseInlineN n)) (prints x) _) _ true
        rw [subAll_eq]
        exact this

theorem inlineOk (n : Nat) : InlineOk env ms cx n := by
  induction n with
  | zero => intro l prev st br b h; simp at h
  | succ n ih => exact inlineOk_succ ih

/-- the text written for well-formed pieces is parsed into children that give their HTML -/
theorem parseInline_did {l : List Inl} {st : PS} {br : Str} (hwf : wfs cx none l = true) (hne : l ≠ []) (ht : TextOK st)
    (hbr : breakEmit st.cur.info = .ok br) :
    Did env ms st (parseInline (prints l) st) (htmls cx br l) ((l.getLast?).all Inl.notBr) := by
  have := inlineOk (env := env) (ms := ms) (cx := cx) ((prints l).length + 1) l none st br true (by omega) hwf ht hbr (.inl hne)
    (fun h => absurd h hne)
  rw [← lastOk_of hne] at this
  simp only [Nat.add_sub_cancel] at this
  unfold parseInline parseInlineN
  rw [subAll_eq]
  exact this

end Verif.Creole
