import Verif.Creole.TableRun
import Verif.Spec.Calls
import Verif.Props.LineEndings

/-!
# The parser and the emitter on whole documents
-/

namespace Verif.Creole

open Verif Re Py Spec Spec.Cr

variable {env : Env} {sg : Stage} {ms : Macros} {cx : Ctx} [hcx : CxOk env ms cx]

/-! ## The text of a document -/

/-- the blank lines behind a block -/
def gapOf (trail : List Str) : Cr.Doc → List Str
  | [] => trail
  | (gap, _) :: _ => gap

/-- the text behind these lines -/
def nextOf (trail : List Str) : Cr.Doc → Option Str
  | [] => none
  | (_, b) :: d => some (btext b ++ nls (docLines d ++ trail))

theorem lines_ne {blog : Bool} {start : Start} {b : Block} (h : b.ok cx blog start = true) : b.lines ≠ [] := by
  cases b with
  | para ls => cases ls <;> simp [Block.ok, paraOk, Block.lines] at h ⊢
  | head n pad title tail => simp [Block.lines]
  | hr => simp [Block.lines]
  | pre ls => simp [Block.lines]
  | list i l => simp [Block.lines]
  | table rows =>
    simp only [Block.ok, Bool.and_eq_true, Bool.not_eq_true'] at h
    cases rows with
    | nil => simp at h
    | cons r rows => simp [Block.lines]
  | mac n a ts => cases ts with
    | nil => simp [Block.lines, enclose]
    | cons x ts => cases ts <;> simp [Block.lines, enclose]

theorem nls_btext {b : Block} (h : b.lines ≠ []) : nls b.lines = '\n' :: btext b := by
  unfold btext
  cases hl : b.lines with
  | nil => exact absurd hl h
  | cons a L => rw [joinLines_cons, nls_cons]

theorem rest_doc {blog : Bool} {b : Block} {d : Cr.Doc} {trail : List Str} (h : tailOk cx blog b d = true) :
    nls (docLines d ++ trail) = rest (gapOf trail d) (nextOf trail d) := by
  cases d with
  | nil => simp [docLines, gapOf, nextOf, rest, tailStr]
  | cons x d =>
    obtain ⟨gap, b'⟩ := x
    simp only [tailOk, Bool.and_eq_true, Bool.or_eq_true] at h
    have hne : b'.lines ≠ [] := by
      rcases h.1.2 with h | h
      · exact lines_ne h.2
      · exact lines_ne h.2
    simp only [docLines, gapOf, nextOf, rest, tailStr, nls_append, nls_btext hne]
    simp

theorem btext_para (l : List Inl) (ls : List (List Inl)) : btext (.para (l :: ls)) = prints l ++ nls (ls.map prints) := joinLines_cons _ _

theorem btext_head (m : Nat) (pad title tail : Str) :
    btext (.head (m + 1) pad title tail) = '=' :: (List.replicate m '=' ++ pad ++ title ++ tail) := rfl

theorem btext_table (r : List Cell) (rows : List (List Cell)) : btext (.table (r :: rows)) = rowLine r ++ nls (rows.map rowLine) := joinLines_cons _ _

theorem btext_nonblank {blog : Bool} {start : Start} {b : Block} (h : b.ok cx blog start = true) (s : Str) : Nonblank (btext b ++ s) := by
  cases b with
  | para ls =>
    cases ls with
    | nil => simp [Block.ok, paraOk] at h
    | cons l ls =>
      obtain ⟨_, hlt, _⟩ := paraOk_head (show paraOk cx blog start (l :: ls) = true from h)
      rw [btext_para, List.append_assoc]
      exact nonblank_of_lineText hlt _
  | head n pad title tail =>
    simp only [Block.ok, Bool.and_eq_true, decide_eq_true_eq] at h
    obtain ⟨m, rfl⟩ : ∃ m, n = m + 1 := ⟨n - 1, by omega⟩
    rw [btext_head]
    exact nonblank_cons (by decide)
  | hr => exact nonblank_cons (by decide)
  | pre ls => 
    unfold btext Block.lines
    rw [joinLines_cons]
    exact nonblank_cons (by decide)
  | list i l =>
    simp only [Block.ok, Bool.and_eq_true, List.isEmpty_iff] at h
    unfold btext Block.lines
    simp only [List.map_cons, Item.line, h.1.2, List.cons_append, List.nil_append, joinLines_cons]
    exact nonblank_cons (by cases i.kind <;> decide)
  | table rows =>
    simp only [Block.ok, Bool.and_eq_true, Bool.not_eq_true', List.all_eq_true] at h
    cases rows with
    | nil => simp at h
    | cons r rows =>
      rw [btext_table, List.append_assoc]
      have := h.2 r (by simp)
      refine rows_nonblank ⟨?_, fun c hc => this.2 c hc⟩ _
      rintro rfl; simp at this
  | mac n a ts => rw [btext_mac]; exact nonblank_cons (by decide)

theorem rest_ok {blog : Bool} {b : Block} {d : Cr.Doc} {trail : List Str} (h : tailOk cx blog b d = true) (ht : ∀ g ∈ trail, blank g = true) :
    Rest (gapOf trail d) (nextOf trail d) := by
  cases d with
  | nil => exact ⟨ht, by simp [nextOf]⟩
  | cons x d =>
    obtain ⟨gap, b'⟩ := x
    simp only [tailOk, Bool.and_eq_true, Bool.or_eq_true, List.all_eq_true] at h
    refine ⟨h.1.1, ?_⟩
    intro s hs
    simp only [nextOf, Option.some.injEq] at hs
    rw [← hs]
    rcases h.1.2 with h | h
    · exact btext_nonblank h.2 _
    · exact btext_nonblank h.2 _

/-! ## From block to block -/

theorem sep_gap (b : Block) (gap : List Str) : sep b ++ gapNl b gap = gapHtml b gap := by
  cases b <;> simp only [sep, gapNl, gapHtml, isTable, Bool.false_eq_true, if_false, if_true, List.nil_append] <;> (repeat' split) <;> rfl

theorem plainStart_all {s : Str} (h : plainStart .all s = true) (b : Start) : plainStart b s = true := by
  simp only [plainStart, Bool.and_eq_true] at h ⊢
  obtain ⟨h1, h2⟩ := h
  refine ⟨?_, ?_⟩
  · rw [show (Start.all != Start.all) = false from rfl, Bool.false_or] at h1
    rw [h1, Bool.or_true]
  · rw [show (Start.all == Start.none) = false from rfl, Bool.false_or] at h2
    rw [h2, Bool.or_true]

theorem para_all {blog : Bool} {ls : List (List Inl)} (h : (Block.para ls).ok cx blog .all = true) (b : Start) : (Block.para ls).ok cx blog b = true := by
  have h : paraOk cx blog .all ls = true := h
  show paraOk cx blog b ls = true
  cases ls with
  | nil => simp [paraOk] at h
  | cons l ls =>
    cases ls with
    | nil =>
      simp only [paraOk, Bool.and_eq_true] at h ⊢
      exact ⟨⟨h.1.1, plainStart_all h.1.2 b⟩, h.2⟩
    | cons m ls =>
      rw [paraOk, Bool.and_eq_true, Bool.and_eq_true] at h ⊢
      exact ⟨⟨h.1.1, plainStart_all h.1.2 b⟩, h.2⟩

theorem enter_doc {b : Block} {st : PS} (h : ∀ k ∈ path st, k ∈ [Kind.document]) : EnterOk b st := by
  have h' : ∀ k ∈ path st, k = .document := fun k hk => by simpa using h k hk
  cases b with
  | para ls => exact .inl (h' _ (by simp [path]))
  | list i l => intro κ hκ; rw [h' κ hκ]; decide
  | table rows => intro κ hκ; rw [h' κ hκ]; decide
  | _ => trivial

theorem enter_touch {blog : Bool} {b b' : Block} {st : PS} (h : mayTouch blog b b' = true) (ha : After b st) : EnterOk b' st := by
  have hdoc : (∀ k ∈ path st, k ∈ [Kind.document]) → EnterOk b' st := enter_doc
  cases b with
  | head n pad title tail => exact hdoc ha
  | hr => exact hdoc ha
  | pre ls => exact hdoc ha
  | mac n a ts => exact hdoc ha
  | para ls =>
    have ha : ∀ k ∈ path st, k ∈ [Kind.paragraph, .document] := ha
    cases b' with
    | para ls => cases blog <;> simp [mayTouch] at h
    | list i l => intro κ hκ; have := ha κ hκ; simp at this; rcases this with rfl | rfl <;> decide
    | table rows => intro κ hκ; have := ha κ hκ; simp at this; rcases this with rfl | rfl <;> decide
    | _ => trivial
  | list i l =>
    have ha : ∀ k ∈ path st, k ∈ [Kind.list_item, .bullet_list, .number_list, .document] := ha
    cases b' with
    | para ls => cases blog <;> simp [mayTouch] at h
    | list i l => cases blog <;> simp [mayTouch] at h
    | table rows => intro κ hκ; have := ha κ hκ; simp at this; rcases this with rfl | rfl | rfl | rfl <;> decide
    | _ => trivial
  | table rows =>
    obtain ⟨hk, ha⟩ : st.cur.kind = .table ∧ ∀ k ∈ path st, k ∈ [Kind.table, .document] := ha
    cases b' with
    | para ls => exact .inr hk
    | list i l => intro κ hκ; have := ha κ hκ; simp at this; rcases this with rfl | rfl <;> decide
    | table rows => cases blog <;> simp [mayTouch] at h
    | _ => trivial

theorem follow_doc {blog : Bool} {b : Block} {d : Cr.Doc} {trail : List Str} (h : tailOk cx blog b d = true) {i : Item} {l : List Item}
    (hb : b = .list i l) : Follow blog b (gapOf trail d) (nextOf trail d) := by
  subst hb
  intro hg s hs
  cases d with
  | nil => simp [nextOf] at hs
  | cons x d =>
    obtain ⟨gap, b'⟩ := x
    simp only [gapOf] at hg
    subst hg
    simp only [nextOf, Option.some.injEq] at hs
    simp only [tailOk, Bool.and_eq_true, Bool.or_eq_true] at h
    have h' : mayTouch blog (.list i l) b' = true ∧ b'.ok cx blog .all = true := by
      rcases h.1.2 with h | h
      · simp [closed] at h
      · exact h
    obtain ⟨hm, hok⟩ := h'
    cases blog with
    | false => simp [mayTouch] at hm
    | true =>
      cases b' with
      | para ls => simp [mayTouch] at hm
      | list i l => simp [mayTouch] at hm
      | head n pad title tail =>
        simp only [Block.ok, Bool.and_eq_true, decide_eq_true_eq] at hok
        obtain ⟨m, rfl⟩ : ∃ m, n = m + 1 := ⟨n - 1, by omega⟩
        exact ⟨'=', _, by rw [← hs, btext_head]; rfl, by decide, by decide, by decide⟩
      | hr => exact ⟨'-', _, by rw [← hs]; rfl, by decide, by decide, by decide⟩
      | pre ls => exact ⟨'{', _, by rw [← hs]; unfold btext Block.lines; rw [joinLines_cons]; rfl, by decide, by decide, by decide⟩
      | mac n a ts => exact ⟨'<', _, by rw [← hs, btext_mac]; rfl, by decide, by decide, by decide⟩
      | table rows =>
        simp only [Block.ok, Bool.and_eq_true, Bool.not_eq_true', List.all_eq_true] at hok
        cases rows with
        | nil => simp at hok
        | cons r rows =>
          have := (hok.2 r (by simp)).1
          cases r with
          | nil => simp at this
          | cons c r =>
            exact ⟨'|', _, by
              rw [← hs, btext_table, rowLine]; rfl, by decide, by decide, by decide⟩

/-- reading one block -/
theorem step_block {blog : Bool} {start : Start} {b : Block} {gap : List Str} {o : Option Str} {run : PS → PM} {st : PS} {t : Str}
    (hu : env.useToc = false) (hax : cx.anchors = false) (hok : b.ok cx blog start = true) (he : Entry blog start (btext b ++ rest gap o) run) (hR : Rest gap o)
    (ht : Top env sg ms st t) (hen : EnterOk b st) (hfo : ∀ i l, b = .list i l → Follow blog b gap o) :
    Did1 env sg ms cx blog b gap o (run st) t := by
  cases b with
  | para ls => exact step_para hok he hR ht hen
  | head n pad title tail => exact step_head (by rw [hax]; exact header_plain hu n title) hok he ht
  | hr => exact step_hr hok he ht
  | pre ls => exact step_pre hok he ht
  | list i l => exact step_list hok he hR ht hen (hfo i l rfl)
  | table rows => exact step_table hok he hR ht hen
  | mac n a ts => exact step_mac hok he ht

theorem doc_go {blog : Bool} {trail : List Str} (hu : env.useToc = false) (hax : cx.anchors = false) (htr : ∀ g ∈ trail, blank g = true) : ∀ {d : Cr.Doc} {b : Block} {start : Start}
    {run : PS → PM} {st : PS} {t : Str}, b.ok cx blog start = true → tailOk cx blog b d = true →
    Entry blog start (btext b ++ nls (docLines d ++ trail)) run → Top env sg ms st t → EnterOk b st →
    ∃ st' w, run st = .ok st' ∧ Done env sg ms st' (t ++ (b.html cx blog ++ docTail cx blog b d) ++ w) ∧ ∀ c ∈ w, isSpace c = true := by
  intro d
  induction d with
  | nil =>
    intro b start run st t hok htail he ht hen
    rw [rest_doc htail] at he
    obtain ⟨st1, cont, h1, h2, h3, h4, h5⟩ := step_block hu hax hok he (rest_ok htail htr) ht hen (fun i l hb => follow_doc htail hb)
    obtain ⟨st', w, h6, h7, h8⟩ := last_block htr h2 h3 (h5 rfl)
    refine ⟨st', sep b ++ w, by rw [h1, h6], ?_, ?_⟩
    · simp only [docTail, List.append_nil]
      simpa using h7
    · intro c hc
      rw [List.mem_append] at hc
      rcases hc with hc | hc
      · have : ∀ c ∈ sep b, isSpace c = true := by
          cases b <;> simp [sep] <;> decide
        exact this c hc
      · exact h8 c hc
  | cons x d ih =>
    obtain ⟨gap, b'⟩ := x
    intro b start run st t hok htail he ht hen
    rw [rest_doc htail] at he
    have hR := rest_ok (trail := trail) htail htr
    obtain ⟨st1, cont, h1, h2, h3, h4, _⟩ := step_block hu hax hok he hR ht hen (fun i l hb => follow_doc htail hb)
    simp only [gapOf, nextOf] at h2 hR
    obtain ⟨st2, run2, start2, h5, h6, h7, h8, h9⟩ := next_block hR h2 h3
    have htail' := htail
    simp only [tailOk, Bool.and_eq_true, Bool.or_eq_true] at htail'
    obtain ⟨⟨_, hor⟩, htail2⟩ := htail'
    have touch : mayTouch blog b b' = true → b'.ok cx blog .all = true → ∀ s, blog = true ∧ s = .all ∨ blog = false → b'.ok cx blog s = true := by
      intro hm hk s hs
      rcases hs with ⟨_, rfl⟩ | rfl
      · exact hk
      · cases b' with
        | para ls => exact para_all hk s
        | _ => cases b <;> simp [mayTouch] at hm
    have hgo : b'.ok cx blog start2 = true ∧ EnterOk b' st2 := by
      cases hcl : closed b gap with
      | true =>
        obtain ⟨rfl, hpath⟩ := h8 hcl
        refine ⟨?_, enter_doc hpath⟩
        rcases hor with h | h
        · exact h.2
        · refine touch h.1 h.2 _ ?_
          cases blog <;> simp [startAfter]
      | false =>
        obtain ⟨rfl, hs⟩ := h9 hcl
        rw [hcl] at hor
        have h : mayTouch blog b b' = true ∧ b'.ok cx blog .all = true := by simpa using hor
        refine ⟨?_, enter_touch h.1 h4⟩
        rcases hs with rfl | ⟨rfl, rfl⟩
        · exact h.2
        · exact touch h.1 h.2 _ (.inr rfl)
    obtain ⟨st', w, h10, h11, h12⟩ := ih hgo.1 htail2 h6 h7 hgo.2
    refine ⟨st', w, by rw [h1, h5, h10], ?_, h12⟩
    rw [docTail, ← sep_gap]
    simpa using h11

/-! ## Whole documents -/

theorem emitDoc_done {verbose : Int} {strict : Bool} {st : PS} {t : Str} (h : Done { verbose, strict, useToc := false } ⟨ms, false⟩ ms st t) :
    emitDoc verbose strict st.finish ms = .ok (strip t, ms) := by
  obtain ⟨hu, cs, hc, he⟩ := h
  unfold EmitsD at he
  unfold emitDoc PS.finish
  have hu' : st.used.contains c!"toc" = false := hu
  rw [hu', hc]
  simp only [Bool.false_and, Bool.false_eq_true, if_false]
  have : emitNode { verbose, strict, useToc := false } { kind := .document } (.mk docInfo cs) ms = .ok (t, ms) := by
    rw [emitNode]
    exact he
  rw [this]
  rfl

/-- not a call of a macro -/
def _root_.Verif.Spec.Cr.Block.notMac : Block → Bool
  | .mac _ _ _ => false
  | _ => true

theorem html_first (cx : Ctx) (blog : Bool) (b : Block) (hb : b.notMac = true) : ∃ s, b.html cx blog = '<' :: s := by
  cases b with
  | mac n a ts => simp [Block.notMac] at hb
  | head n pad title tail => rw [Block.html]; cases cx.anchors <;> exact ⟨_, rfl⟩
  | _ => exact ⟨_, rfl⟩

theorem endLists_last : ∀ {S : List (Mark × Nat)}, S ≠ [] → (S.flatMap endList).getLast? = some '>' := by
  intro S
  induction S with
  | nil => intro h; exact absurd rfl h
  | cons a S ih =>
    intro _
    rw [List.flatMap_cons, List.getLast?_append]
    cases S with
    | nil => unfold endList; rw [List.flatMap_nil, List.getLast?_nil, List.getLast?_append]; rfl
    | cons b S => rw [ih (by simp)]; rfl

theorem itemsHtml_last (cx : Ctx) : ∀ (l : List Item) {S : List (Mark × Nat)}, S ≠ [] → (itemsHtml cx S l).getLast? = some '>' := by
  intro l
  induction l with
  | nil => intro S h; rw [itemsHtml]; exact endLists_last h
  | cons i l ih =>
    intro S h
    rw [itemsHtml]
    split
    · split
      · rw [List.getLast?_append, ih (by simp)]; rfl
      · rw [List.getLast?_append, ih (by simp)]; rfl
    · rw [List.getLast?_append, ih (by simp)]; rfl

theorem html_last (cx : Ctx) (blog : Bool) (b : Block) (hb : b.notMac = true) : (b.html cx blog).getLast? = some '>' := by
  cases b with
  | para ls => unfold Block.html; rw [List.getLast?_append]; rfl
  | head n pad title tail =>
    rw [Block.html]
    cases cx.anchors <;>
      simp only [headHtml, if_true, Bool.false_eq_true, if_false, List.getLast?_append] <;> rfl
  | hr => rfl
  | pre ls => unfold Block.html; rw [List.getLast?_append]; rfl
  | list i l =>
    unfold Block.html listHtml
    rw [List.getLast?_append, itemsHtml_last _ _ (by simp)]; rfl
  | table rows => unfold Block.html; rw [List.getLast?_append]; rfl
  | mac n a ts => simp [Block.notMac] at hb

theorem docTail_last (cx : Ctx) (blog : Bool) (d : Cr.Doc) (b : Block) (hb : b.notMac = true) (hd : ∀ x ∈ d, x.2.notMac = true) : (b.html cx blog ++ docTail cx blog b d).getLast? = some '>' := by
  induction d generalizing b with
  | nil => rw [docTail, List.append_nil]; exact html_last cx blog b hb
  | cons x d ih =>
    obtain ⟨gap, b'⟩ := x
    rw [docTail, List.append_assoc, ← List.append_assoc, List.getLast?_append, ih b' (hd (gap, b') (by simp)) fun x hx => hd x (by simp [hx])]; rfl

/-- without calls of macros there are no blanks around the HTML of a document -/
theorem docHtml_eq (cx : Ctx) (blog : Bool) {d : Cr.Doc} (hd : ∀ x ∈ d, x.2.notMac = true) : docHtml cx blog d = docBody cx blog d := by
  unfold docHtml
  cases d with
  | nil => rfl
  | cons x d =>
    obtain ⟨gap, b⟩ := x
    have hb := hd (gap, b) (by simp)
    refine strip_id ?_ ?_
    · intro c hc
      obtain ⟨s, hs⟩ := html_first cx blog b hb
      rw [docBody, hs, List.cons_append, List.head?_cons, Option.some.injEq] at hc
      rw [← hc]; decide
    · intro c hc
      rw [docBody, docTail_last cx blog d b hb (fun x hx => hd x (by simp [hx])), Option.some.injEq] at hc
      rw [← hc]; decide

/-- a text of blanks, at the beginning -/
theorem blank_run {blog : Bool} {w : Str} {st : PS} {t : Str} (hw : ∀ c ∈ w, isSpace c = true) (ht : Top env sg ms st t) :
    ∃ st' v, runR (blockRe blog) blockRepl none w st = .ok st' ∧ Done env sg ms st' (t ++ v) ∧ ∀ c ∈ v, isSpace c = true := by
  have hnl : ∀ c ∈ c!"\n", isSpace c = true := by decide
  have one : ∀ {p : Option Char} {st : PS} {t : Str}, atBol true p = true → Top env sg ms st t → ∃ st', runR (blockRe blog) blockRepl p [] st = .ok st' ∧
      Done env sg ms st' (t ++ c!"\n") := by
    intro p st t hp ht
    have hm := end_match (blog := blog) (p := p) (w := []) hp (by simp)
    obtain ⟨st', h1, h2, h3⟩ := line_puts (blog := blog) (w := []) (x := []) ht
    exact ⟨st', by rw [runR_empty_nil hm, h1], done_of_top h2 (noBrk_doc h2 h3)⟩
  cases w with
  | nil =>
    obtain ⟨st', h1, h2⟩ := one (p := none) rfl ht
    exact ⟨st', _, h1, h2, hnl⟩
  | cons c w =>
    have hm := end_match (blog := blog) (p := none) (w := c :: w) rfl hw
    obtain ⟨st1, h1, h2, h3⟩ := line_puts (blog := blog) (w := c :: w) (x := c :: w) ht
    have e := runR_take (h := blockRepl) (st := st) (w := c :: w) (rest := []) (by simp) (by rw [List.append_nil]; exact hm)
    rw [List.append_nil, h1, ok_bind] at e
    rw [e]
    cases hl : atBol true (c :: w).getLast? with
    | true =>
      obtain ⟨st', h4, h5⟩ := one hl h2
      exact ⟨st', c!"\n" ++ c!"\n", h4, by simpa using h5, by decide⟩
    | false => exact ⟨st1, c!"\n", runR_nil' (nil_match hl), done_of_top h2 (noBrk_doc h2 h3), hnl⟩

theorem errorText_eq (env : Env) (text : Str) : errorText env text = errorLine env.verbose text := by
  unfold errorText errorLine
  have : env.verbose > 0 ↔ env.verbose ≥ 1 := by omega
  simp only [this]

theorem withText_eq (text : Option Str) (kw : Dict PVal) : withText text kw = dictSet c!"text" (optVal text) kw := by
  cases text <;> rfl

theorem callGives_emit {env : Env} {macros : Macros} {c : Call} {s : Str} (h : CallGives env.verbose macros c s) :
    macroEmit env (callInfo c) macros = .ok (s, macros) := by
  unfold macroEmit callInfo
  simp only
  cases h with
  | returns hm ha hs =>
    rw [withText_eq] at hs
    simp only [ha, hm, callMacro, hs]
    cases c.block <;> simp
  | wrongArgs ha => simp only [ha, errorText_eq]
  | unknown ha hm => simp only [ha, hm, errorText_eq]
  | raises hm ha hs =>
    rw [withText_eq] at hs
    rcases hs with hs | ⟨hs, hv⟩
    · simp only [ha, hm, callMacro, hs, errorText_eq]
    · simp only [ha, hm, callMacro, hs, errorText_eq]
      rw [if_neg (by omega)]
  | notString hm ha hs =>
    rw [withText_eq] at hs
    simp only [ha, hm, callMacro, hs, errorText_eq]

theorem _root_.Verif.Spec.Cr.ReadWith.ok {o : Opts} {macros : Macros} {cx : Ctx} (h : ReadWith o macros cx) :
    CxOk { verbose := o.verbose, strict := o.strict, useToc := false } macros cx :=
  ⟨h.strict, fun c s hs _ => callGives_emit (h.calls c s hs)⟩

/-- **Documents.**  A text made of the lines of a well-formed document, whatever characters end them, gives the
HTML of that document, and the macros dictionary stays as it is. -/
theorem creole2html_doc (o : Opts) (macros : Macros) (markup : Str) (d : Cr.Doc) (trail : List Str) (hd : docOk cx o.blog d = true)
    (hcx : ReadWith o macros cx)
    (htr : trail.all blank = true) (hl : textLines markup = docLines d ++ trail) :
    creole2htmlM o macros markup = .ok (docHtml cx o.blog d, macros) := by
  have := hcx.ok
  obtain ⟨blog, verbose, strict⟩ := o
  simp only at hd this ⊢
  rw [List.all_eq_true] at htr
  unfold creole2htmlM parse parseBlock
  simp only
  rw [subAll_eq]
  have hn : normNewlines markup = joinLines c!"\n" (docLines d ++ trail) := by
    rw [normNewlines, crlf_eq, Props.crlf_textLines, hl]
  rw [hn]
  let env : Env := { verbose, strict, useToc := false }
  suffices h : ∃ st' u w, runR (blockRe blog) blockRepl none (joinLines c!"\n" (docLines d ++ trail)) PS.init = .ok st' ∧
      Done env ⟨macros, false⟩ macros st' (u ++ docBody cx blog d ++ w) ∧ (∀ c ∈ u, isSpace c = true) ∧ ∀ c ∈ w, isSpace c = true by
    obtain ⟨st', u, w, h1, h2, h3, h4⟩ := h
    rw [h1]
    show emitDoc verbose strict st'.finish macros = _
    rw [emitDoc_done h2]
    rw [strip_pad h3 h4]; rfl
  have ht := top_init (env := env) (ms := macros)
  cases d with
  | nil =>
    have hw : ∀ c ∈ joinLines c!"\n" (docLines [] ++ trail), isSpace c = true := by
      simp only [docLines, List.nil_append]
      cases trail with
      | nil => simp [joinLines]
      | cons a L =>
        rw [joinLines_cons]
        intro c hc
        rw [List.mem_append] at hc
        rcases hc with hc | hc
        · exact (blank_iff (htr a (by simp))).1 c hc
        · exact nls_space (fun g hg => htr g (by simp [hg])) c hc
    obtain ⟨st', v, h1, h2, h3⟩ := blank_run (blog := blog) hw ht
    exact ⟨st', [], v, h1, by simpa [docBody] using h2, by simp, h3⟩
  | cons x d =>
    obtain ⟨gap, b⟩ := x
    simp only [docOk, Bool.and_eq_true, List.all_eq_true] at hd
    obtain ⟨⟨hgap, hok⟩, htail⟩ := hd
    have hne := lines_ne hok
    cases gap with
    | nil =>
      have e : joinLines c!"\n" (docLines (([], b) :: d) ++ trail) = btext b ++ nls (docLines d ++ trail) := by
        unfold btext
        simp only [docLines, List.nil_append, List.append_assoc]
        cases hb : b.lines with
        | nil => exact absurd hb hne
        | cons a L => rw [List.cons_append, joinLines_cons, joinLines_cons, nls_append, List.append_assoc]
      rw [e]
      have hst : startAfter blog true [] = .all := by simp [startAfter]
      rw [hst] at hok
      obtain ⟨st', w, h1, h2, h3⟩ := doc_go (env := env) (ms := macros) (run := runR (blockRe blog) blockRepl none (btext b ++ nls (docLines d ++ trail)))
        rfl hcx.anchors htr hok htail (.bol rfl) ht (enter_doc (by simp [path, PS.init, Frame.kind]))
      exact ⟨st', [], w, h1, h2, by simp, h3⟩
    | cons g gs =>
      have e : joinLines c!"\n" (docLines ((g :: gs, b) :: d) ++ trail) = g ++ nls gs ++ '\n' :: (btext b ++ nls (docLines d ++ trail)) := by
        simp only [docLines, List.cons_append, joinLines_cons, nls_append, nls_btext hne]
        simp
      rw [e]
      have hst : startAfter blog true (g :: gs) = startAfter blog false (g :: gs) := by simp [startAfter]
      rw [hst] at hok
      obtain ⟨st1, run, h1, h2, h3, h4⟩ := gapRun (blog := blog) (p := none) (env := env) (ms := macros) rfl hgap (btext_nonblank hok _) ht
      obtain ⟨st', w, h5, h6, h7⟩ := doc_go (env := env) (ms := macros) rfl hcx.anchors htr hok htail h2 h3 (enter_doc h4)
      refine ⟨st', _, w, by rw [h1, h5], h6, ?_, h7⟩
      split <;> decide

/-- documents without calls of macros as blocks -/
theorem creole2html_noMac (o : Opts) (macros : Macros) (markup : Str) (d : Cr.Doc) (trail : List Str) (hd : docOk cx o.blog d = true)
    (hcx : ReadWith o macros cx) (htr : trail.all blank = true) (hl : textLines markup = docLines d ++ trail)
    (hm : ∀ x ∈ d, x.2.notMac = true) : creole2htmlM o macros markup = .ok (docBody cx o.blog d, macros) := by
  rw [creole2html_doc o macros markup d trail hd hcx htr hl, docHtml_eq cx o.blog hm]

end Verif.Creole
