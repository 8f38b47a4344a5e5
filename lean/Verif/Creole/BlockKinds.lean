import Verif.Creole.BlockSteps

/-!
# Reading one block: paragraphs, headings, rules, preformatted text
-/

namespace Verif.Creole

open Verif Re Py Spec Spec.Cr

variable {env : Env} {sg : Stage} {ms : Macros} {cx : Ctx} [hcx : CxOk env ms cx]

/-- the text of a block -/
def btext (b : Block) : Str := joinLines c!"\n" b.lines

/-- the newline of the output that belongs to a block -/
def sep : Block → Str
  | .list _ _ | .mac _ _ _ => []
  | _ => c!"\n"

/-- the nodes that may be open before a block -/
def EnterOk (b : Block) (st : PS) : Prop :=
  match b with
  | .para _ => st.cur.kind = .document ∨ st.cur.kind = .table
  | .list _ _ => ∀ k ∈ path st, k ≠ .bullet_list ∧ k ≠ .number_list ∧ k ≠ .list_item
  | .table _ => ∀ k ∈ path st, k ≠ .table
  | _ => True

/-- the nodes that may be open after a block -/
def After (b : Block) (st : PS) : Prop :=
  match b with
  | .para _ => ∀ k ∈ path st, k ∈ [Kind.paragraph, .document]
  | .list _ _ => ∀ k ∈ path st, k ∈ [Kind.list_item, .bullet_list, .number_list, .document]
  | .table _ => st.cur.kind = .table ∧ ∀ k ∈ path st, k ∈ [Kind.table, .document]
  | _ => ∀ k ∈ path st, k ∈ [Kind.document]

/-- what may follow a block immediately -/
def Follow (blog : Bool) (b : Block) (gap : List Str) (o : Option Str) : Prop :=
  match b with
  | .para _ => blog = false → gap = [] → o = none
  | .list _ _ => gap = [] → ∀ s, o = some s → ∃ c s', s = c :: s' ∧ isSpace c = false ∧ c ≠ '*' ∧ c ≠ '#'
  | _ => True

/-- what reading a block does -/
def Did1 (env : Env) (sg : Stage) (ms : Macros) (cx : Ctx) (blog : Bool) (b : Block) (gap : List Str) (o : Option Str) (r : PM) (t : Str) : Prop :=
  ∃ st' cont, r = cont st' ∧ Cont blog b gap o cont ∧ Top env sg ms st' (t ++ (b.html cx blog ++ sep b)) ∧ After b st' ∧
    (o = none → NoBrk st')

omit hcx in
theorem did1_doc {blog : Bool} {b : Block} {gap : List Str} {o : Option Str} {p : Option Char} {r : PM} {t : Str} (hb : isTable b = false)
    (hp : atBol true p = false) (ha : ∀ st : PS, (∀ k ∈ path st, k ∈ [Kind.document]) → After b st)
    (h : Puts env sg ms r (t ++ (b.html cx blog ++ sep b)) [.document]) :
    Did1 env sg ms cx blog b gap o (r >>= runR (blockRe blog) blockRepl p (rest gap o)) t := by
  obtain ⟨st', h1, h2, h3⟩ := h
  refine ⟨st', _, by rw [h1, ok_bind], ?_, h2, ha st' h3, fun _ => noBrk_doc h2 h3⟩
  unfold Cont
  rw [hb]
  exact .inl ⟨p, hp, rfl⟩

omit hcx in
theorem step_hr {blog : Bool} {start : Start} {gap : List Str} {o : Option Str} {run : PS → PM} {st : PS} {t : Str}
    (hok : Block.hr.ok cx blog start = true) (he : Entry blog start (btext .hr ++ rest gap o) run) (ht : Top env sg ms st t) :
    Did1 env sg ms cx blog .hr gap o (run st) t := by
  obtain ⟨p, lead, hp, rfl⟩ := he.lead (by simpa [Block.ok] using hok)
  rw [show btext .hr = c!"----" from rfl, hr_hit hp (rest_eol gap o)]
  refine did1_doc rfl (by decide) (fun _ h => h) ?_
  have := separatorRepl_puts ht
  simpa [Block.html, sep] using this

theorem atBol_last {w : Str} (h : '\n' ∉ w) (hne : w ≠ []) : atBol true w.getLast? = false := by
  rw [List.getLast?_eq_some_getLast hne]
  have : w.getLast hne ≠ '\n' := by
    intro hh; apply h; rw [← hh]; exact List.getLast_mem _
  simp [atBol, this]

omit hcx in
theorem step_head {blog : Bool} {start : Start} {gap : List Str} {o : Option Str} {run : PS → PM} {st : PS} {t : Str} {n : Nat}
    {pad title tail : Str} {ms' : Macros} (hh' : headerEmit env n title ms = .ok (headHtml cx.anchors n title ++ c!"\n", ms')) (hok : (Block.head n pad title tail).ok cx blog start = true)
    (he : Entry blog start (btext (.head n pad title tail) ++ rest gap o) run) (ht : Top env sg ms st t) :
    Did1 env sg ms' cx blog (.head n pad title tail) gap o (run st) t := by
  simp only [Block.ok, Bool.and_eq_true, beq_iff_eq, decide_eq_true_eq, bne_iff_ne, ne_eq, List.all_eq_true, Bool.not_eq_true',
    List.contains_eq_mem, decide_eq_false_iff_not] at hok
  obtain ⟨⟨⟨⟨⟨⟨⟨rfl, hn⟩, hpad⟩, htr⟩, hh⟩, hl⟩, htail⟩, hnl⟩ := hok
  obtain ⟨hpad1, hpad2⟩ := blank_iff hpad
  obtain ⟨h0, h1, h2, h3⟩ := trimmed_iff htr
  have hbt : btext (.head n pad title tail) = List.replicate n '=' ++ pad ++ title ++ tail := rfl
  rw [hbt] at he
  have hnl' : '\n' ∉ List.replicate n '=' ++ pad ++ title ++ tail := by
    simp only [List.mem_append, not_or]
    refine ⟨⟨⟨?_, hpad2⟩, h3⟩, hnl⟩
    intro h
    rw [List.mem_replicate] at h
    exact absurd h.2 (by decide)
  obtain ⟨m, rfl⟩ : ∃ m, n = m + 1 := ⟨n - 1, by omega⟩
  have hlt : lineText (List.replicate (m + 1) '=' ++ pad ++ title ++ tail) = true := by
    simp only [lineText, Bool.and_eq_true, Bool.not_eq_true', List.contains_eq_mem, decide_eq_false_iff_not]
    refine ⟨?_, hnl'⟩
    rw [List.replicate_succ]
    simp only [List.cons_append, List.all_cons]
    rw [show isSpace '=' = false by decide]; rfl
  obtain ⟨p, hp, rfl⟩ := he.start hlt (by
    rw [List.replicate_succ]
    simp only [plainStart, List.cons_append]
    rw [List.dropWhile_cons_of_neg (by decide)]
    generalize List.replicate m '=' ++ pad ++ title ++ tail = x
    cases x <;> simp [List.isPrefixOf]) (rest_eol gap o)
  rw [runR_take (by simp) (head_match hp hn hpad1 htr hh hl htail hnl (rest_eol gap o)), onHitB_head]
  refine did1_doc rfl (atBol_last hnl' (by simp)) (fun _ h => h) ?_
  have := headRepl_puts (n := m + 1) (x := List.replicate (m + 1) '=' ++ pad ++ title ++ tail)
    (w := List.replicate (m + 1) '=' ++ pad ++ title ++ tail) ht (trimmed_strip htr).1 hh'
  simpa [Block.html, sep, blockRepl] using this

theorem nls_ended (ls : List Str) (x : Str) : nls (ls ++ [x]) = '\n' :: (ended ls ++ x) := by
  induction ls with
  | nil => simp [nls, ended]
  | cons l ls ih =>
    rw [List.cons_append, nls_cons, ih, ended_cons]; simp

omit hcx in
theorem step_pre {blog : Bool} {start : Start} {gap : List Str} {o : Option Str} {run : PS → PM} {st : PS} {t : Str} {ls : List Str}
    (hok : (Block.pre ls).ok cx blog start = true)
    (he : Entry blog start (btext (.pre ls) ++ rest gap o) run) (ht : Top env sg ms st t) :
    Did1 env sg ms cx blog (.pre ls) gap o (run st) t := by
  simp only [Block.ok, Bool.and_eq_true, beq_iff_eq, List.all_eq_true, Bool.not_eq_true',
    List.contains_eq_mem, decide_eq_false_iff_not] at hok
  obtain ⟨⟨⟨rfl, hfst⟩, hne⟩, hall⟩ := hok
  cases ls with
  | nil => simp at hne
  | cons l ls =>
    have hbt : btext (.pre (l :: ls)) = c!"{{{" ++ ('\n' :: ended (l :: ls)) ++ c!"}}}" := by
      unfold btext Block.lines
      rw [joinLines_cons, nls_ended]; simp
    rw [hbt] at he
    have e : c!"{{{" ++ ('\n' :: ended (l :: ls)) ++ c!"}}}" ++ rest gap o = c!"{{{" ++ ('\n' :: (ended (l :: ls) ++ c!"}}}" ++ rest gap o)) := by simp
    obtain ⟨p, hp, rfl⟩ := (e ▸ he).start (by decide) (by decide) (by rfl)
    rw [← e]
    rw [runR_take (by simp) (pre_match hp (by simpa using hfst) (fun x hx => (hall x hx).1) (by
      intro x hx t hh
      have := (hall x hx).2
      rw [hh] at this
      simp at this)), onHitB_pre]
    have hl : (c!"{{{" ++ ('\n' :: ended (l :: ls)) ++ c!"}}}").getLast? = some '}' := by
      rw [List.getLast?_append]; rfl
    rw [hl]
    refine did1_doc rfl (by decide) (fun _ h => h) ?_
    have := preRepl_puts (x := c!"{{{" ++ ('\n' :: ended (l :: ls)) ++ c!"}}}") (w := c!"{{{" ++ ('\n' :: ended (l :: ls)) ++ c!"}}}")
      (ls := l :: ls) ht (fun x hx => (hall x hx).1)
    simpa [Block.html, sep, blockRepl] using this

/-! ## Calls of macros -/

theorem join_between (b : Str) : ∀ (ls : List Str) (a : Str), joinLines c!"\n" (enclose a b ls) = a ++ joinLines c!"\n" ls ++ b := by
  intro ls
  induction ls with
  | nil => intro a; simp [enclose, joinLines]
  | cons l ls ih =>
    intro a
    cases ls with
    | nil => simp [enclose, joinLines]
    | cons m ls =>
      have := ih []
      rw [enclose]
      have hne : enclose [] b (m :: ls) ≠ [] := by cases ls <;> simp [enclose]
      rw [joinLines_cons, joinLines_cons]
      cases hb : enclose [] b (m :: ls) with
      | nil => exact absurd hb hne
      | cons x xs =>
        rw [hb] at this
        rw [nls_cons, nls_cons]
        rw [joinLines_cons, joinLines_cons] at this
        rw [this]; simp

theorem btext_mac (n a : Str) (ts : List Str) : btext (.mac n a ts) =
    c!"<<" ++ (n ++ (a ++ (c!">>" ++ (joinLines c!"\n" ts ++ (c!"<</" ++ (n ++ c!">>")))))) := by
  unfold btext Block.lines
  rw [join_between]; simp

theorem onHitB_mac (blog : Bool) (h : G → Match G → PS → PM) (st : PS) (w x y z u : Str) : onHit (blockRe blog) h st
    ⟨w, [(.macro_block, x), (.macro_block_text, u), (.macro_block_args, y), (.macro_block_start, z)]⟩ =
    h .macro_block ⟨w, [(.macro_block, x), (.macro_block_text, u), (.macro_block_args, y), (.macro_block_start, z)]⟩ st := by cases blog <;> rfl

theorem macRepl_puts {st : PS} {t n a x w : Str} {u : Str} (h : Top env sg ms st t) (hn : n ≠ c!"toc")
    (hs : (cx.mac ⟨n, strip a, some (strip u), true⟩).isSome = true) :
    Puts env sg ms (macroBlockRepl ⟨w, [(.macro_block, x), (.macro_block_text, u), (.macro_block_args, strip a), (.macro_block_start, n)]⟩ st)
      (t ++ cx.call ⟨n, strip a, some (strip u), true⟩) [.document] := by
  obtain ⟨s, hs⟩ := Option.isSome_iff_exists.mp hs
  have hm := CxOk.mac (env := env) (ms := ms) (cx := cx) _ s hs hn
  obtain ⟨cs, h1, h2⟩ := h.doc
  have he := emitsD_snoc h2 (ms' := ms) (n := .mk (callInfo ⟨n, strip a, some (strip u), true⟩) []) (t := s) (by rw [emitNode]; exact hm)
  have hc : cx.call ⟨n, strip a, some (strip u), true⟩ = s := by simp [Ctx.call, hs]
  rw [hc]
  refine ⟨docSt (n :: st.used) (cs ++ [.mk (callInfo ⟨n, strip a, some (strip u), true⟩) []]), ?_, top_doc (toc_used hn h.used) ?_ he, ?_⟩
  · unfold macroBlockRepl
    rw [h1]
    have hcl : climb (fun _ => false) (docSt st.used cs).cur (docSt st.used cs).up = (⟨docInfo, cs⟩, []) := rfl
    simp only [hcl]
    have e : callInfo ⟨n, strip a, some (strip u), true⟩ =
      { kind := .macro_block, content := some (strip u), macroName := n, macroArgs := strip (strip a) } := by rw [strip_strip]; rfl
    rw [e]
    rfl
  · intro m hm
    rw [List.getLast?_append, List.getLast?_singleton, Option.some_or, Option.some.injEq] at hm
    rw [← hm]; simp [Node.kind, Node.info, callInfo]
  · simp [path, docSt, Frame.kind, docInfo]

theorem step_mac {blog : Bool} {start : Start} {gap : List Str} {o : Option Str} {run : PS → PM} {st : PS} {t n a : Str} {ts : List Str}
    (hok : (Block.mac n a ts).ok cx blog start = true)
    (he : Entry blog start (btext (.mac n a ts) ++ rest gap o) run) (ht : Top env sg ms st t) :
    Did1 env sg ms cx blog (.mac n a ts) gap o (run st) t := by
  simp only [Block.ok, Bool.and_eq_true, beq_iff_eq, List.all_eq_true, Bool.not_eq_true',
    List.contains_eq_mem, decide_eq_false_iff_not] at hok
  obtain ⟨⟨⟨⟨⟨rfl, hn⟩, ha⟩, hs⟩, hnl⟩, hend⟩ := hok
  obtain ⟨hna, htoc⟩ := nameArgs_iff hn ha
  rw [btext_mac] at he
  generalize hT : joinLines c!"\n" ts = T at he hend
  -- the first line
  obtain ⟨line, r, e, hl, hr⟩ : ∃ line r, c!"<<" ++ (n ++ (a ++ (c!">>" ++ (T ++ (c!"<</" ++ (n ++ c!">>")))))) ++ rest gap o = c!"<<" ++ line ++ r ∧
      '\n' ∉ line ∧ atEol true r = true := by
    refine ⟨(n ++ (a ++ (c!">>" ++ (T ++ (c!"<</" ++ (n ++ c!">>"))))) ++ rest gap o).takeWhile (· != '\n'),
      (n ++ (a ++ (c!">>" ++ (T ++ (c!"<</" ++ (n ++ c!">>"))))) ++ rest gap o).dropWhile (· != '\n'), ?_, ?_, ?_⟩
    · rw [List.append_assoc c!"<<" _ (List.dropWhile _ _), List.takeWhile_append_dropWhile, List.append_assoc]
    · intro h
      have := takeWhile_true h
      simp at this
    · cases hd : (n ++ (a ++ (c!">>" ++ (T ++ (c!"<</" ++ (n ++ c!">>"))))) ++ rest gap o).dropWhile (· != '\n') with
      | nil => rfl
      | cons c x =>
        have := dropWhile_head_false (p := (· != '\n')) _ c (by rw [hd]; rfl)
        simp only [bne_eq_false_iff_eq] at this
        rw [this]; rfl
  rw [e] at he
  obtain ⟨p, hp, rfl⟩ := he.start (by
    simp only [lineText, Bool.and_eq_true, Bool.not_eq_true', List.contains_eq_mem, decide_eq_false_iff_not]
    refine ⟨by rw [show c!"<<" ++ line = '<' :: '<' :: line from rfl, List.all_cons, show isSpace '<' = false by decide]; rfl, ?_⟩
    intro h
    simp only [List.cons_append, List.nil_append, List.mem_cons] at h
    rcases h with h | h | h
    · exact absurd h (by decide)
    · exact absurd h (by decide)
    · exact hl h) (by
    simp only [plainStart, List.cons_append, List.nil_append]
    rw [List.dropWhile_cons_of_neg (by decide)]
    simp [List.isPrefixOf]) hr
  rw [← e]
  have hm := block_rule (blog := blog) (l₁ := []) (p := p) (s := c!"<<" ++ (n ++ (a ++ (c!">>" ++ (T ++ (c!"<</" ++ (n ++ c!">>")))))) ++ rest gap o)
    (a := macroBlockRule) rfl (by simp) (by
      have := macRule_head (g := .macro_block) (gs := .macro_block_start) (ga := .macro_block_args) (gt := .macro_block_text) (p := p)
        (rest := rest gap o) hna hend (by decide) (by decide)
      simpa [macroBlock_mac] using this)
  rw [runR_take (by simp) hm, onHitB_mac]
  have hlast : (c!"<<" ++ (n ++ (a ++ (c!">>" ++ (T ++ (c!"<</" ++ (n ++ c!">>"))))))).getLast? = some '>' := by
    simp only [← List.append_assoc, List.getLast?_append]; rfl
  rw [hlast]
  refine did1_doc rfl (by decide) (fun _ h => h) ?_
  rw [show (Block.mac n a ts).html cx blog = cx.call ⟨n, strip a, some (strip T), true⟩ by rw [← hT]; rfl, show sep (Block.mac n a ts) = [] from rfl,
    List.append_nil]
  exact macRepl_puts ht htoc (by rw [← hT]; exact hs)

/-! ## Paragraphs -/

/-- the parser is about to read a line of a paragraph; `sp` says if a space is put before its text -/
inductive LEntry (blog : Bool) : Start → Bool → Str → (PS → PM) → Prop
  | bol {p : Option Char} {s : Str} (hp : atBol true p = true) : LEntry blog .all false s (runR (blockRe blog) blockRepl p s)
  | forced {p : Option Char} {s : Str} (hb : blog = false) (hp : atBol true p = true) :
      LEntry blog .indented true s (runT (blockRe blog) blockRepl p ('\n' :: s))
  | mid {p : Option Char} {s : Str} (hb : blog = false) (hp : atBol true p = false) (hh : p ≠ some '\\') :
      LEntry blog .none true s (runR (blockRe blog) blockRepl p ('\n' :: s))

theorem Entry.line {blog : Bool} {b : Start} {line r : Str} {run : PS → PM} (h : Entry blog b (line ++ r) run) (hl : lineText line = true)
    (hs : plainStart b line = true) (hr : atEol true r = true) : ∃ sp, LEntry blog b sp (line ++ r) run := by
  cases blog with
  | true =>
    have hb : b = .all := by cases h <;> rfl
    subst hb
    obtain ⟨p, hp, rfl⟩ := h.start hl (plainStart_indented hs) hr
    exact ⟨_, .bol hp⟩
  | false =>
    generalize hS : line ++ r = s at h
    cases h with
    | bol hp => exact ⟨_, .bol hp⟩
    | forced hp => exact ⟨_, .forced rfl hp⟩
    | mid hp hh => exact ⟨_, .mid rfl hp (by simpa using hh)⟩

/-- the groups that match on a line of text -/
def lineCaps (line : Str) (sp bk : Bool) : List (G × Str) :=
  (if bk then [(.brk, c!"\n")] else []) ++ [(.text, line)] ++ (if sp then [(.space, c!"\n")] else [])

/-- reading one line of a paragraph -/
theorem line_hit' {blog : Bool} {b : Start} {sp : Bool} {line r : Str} {run : PS → PM} (h : LEntry blog b sp (line ++ r) run)
    (hl : lineText line = true) (hfp : b = .all → ∀ p, ∀ q ∈ macroBlockRule :: bolRules, q.res ⟨p, line ++ r, []⟩ = [])
    (hs : b = .indented → plainStart .indented line = true) (hr : atEol true r = true)
    (hb : blog = true → (line.getLast? ≠ some '\\' ∧ ∃ s, r = '\n' :: s ∧ Nonblank s) ∨ Hard line.getLast? r) :
    ∃ w, (blog = true ∧ sp = false ∧ line.getLast? ≠ some '\\' ∧ ∃ s, r = '\n' :: s ∧ Nonblank s ∧
        ∀ st, run st = (textRepl ⟨w, lineCaps line sp true⟩ st >>= runR (blockRe blog) blockRepl (some '\n') s)) ∨
      ((blog = true → Hard line.getLast? r) ∧
        ∀ st, run st = (textRepl ⟨w, lineCaps line sp false⟩ st >>= runR (blockRe blog) blockRepl line.getLast? r)) := by
  have hl' := hl
  simp only [lineText, Bool.and_eq_true, Bool.not_eq_true', List.contains_eq_mem, decide_eq_false_iff_not] at hl'
  have hne : line ≠ [] := by rintro rfl; simp at hl'
  have he : blockRules blog = (macroBlockRule :: bolRules) ++ textRule blog :: [] := rfl
  generalize hS : line ++ r = s at h
  cases h with
  | @bol p _ hp =>
    subst hS
    have hf := hfp rfl p
    cases blog with
    | true =>
      rcases hb rfl with ⟨h1, s, rfl, h2⟩ | hh
      · refine ⟨line ++ c!"\n", .inl ⟨rfl, rfl, h1, s, rfl, h2, fun st => ?_⟩⟩
        have hm := block_rule he hf (text_blog_soft hne hl'.2 h1 h2)
        rw [runR_take' (w := line ++ c!"\n") (by simp) (by simp) hm, onHitB_brk, List.getLast?_append]
        rfl
      · refine ⟨line, .inr ⟨fun _ => hh, fun st => ?_⟩⟩
        rw [runR_take hne (block_rule he hf (text_blog_hard hne hl'.2 hr hh)), onHitB_text]
        rfl
    | false =>
      refine ⟨line, .inr ⟨fun h => absurd h (by simp), fun st => ?_⟩⟩
      rw [runR_take hne (block_rule he hf (text_wiki_at hne hl'.2 hr)), onHitB_text]
      rfl
  | @forced p _ hbl hp =>
    subst hS hbl
    refine ⟨'\n' :: line, .inr ⟨fun h => absurd h (by simp), fun st => ?_⟩⟩
    have hp' : p ≠ some '\\' := by rintro rfl; exact absurd hp (by decide)
    rw [runT_take (w := '\n' :: line) (rest := r) (by simp) (p := line.getLast?) (caps := [(.text, line), (.space, c!"\n")]) ?_, onHitB_space]
    · have : ('\n' :: line).getLast? = line.getLast? := by
        rw [List.getLast?_cons, List.getLast?_eq_some_getLast hne]; rfl
      rw [this]; rfl
    · rw [Re.matchAt_true]
      unfold blockRe
      rw [he]
      refine alts_find (lead_empty hl (hs rfl) hr hp) (text_wiki_lead hl hp' hr) ?_
      simp only [List.length_cons, List.length_append, bne_iff_ne, ne_eq]
      omega
  | @mid p _ hbl hp hh =>
    subst hS hbl
    refine ⟨'\n' :: line, .inr ⟨fun h => absurd h (by simp), fun st => ?_⟩⟩
    have hf : ∀ q ∈ macroBlockRule :: bolRules, q.res ⟨p, '\n' :: (line ++ r), []⟩ = [] := by
      intro q hq
      rw [List.mem_cons] at hq
      rcases hq with rfl | hq
      · exact macro_nil_head (by decide)
      · exact bolRules_nil hp q hq
    rw [runR_take' (w := '\n' :: line) (rest := r) (by simp) (by simp) (block_rule he hf (text_wiki_lead hl hh hr)), onHitB_space]
    have : ('\n' :: line).getLast? = line.getLast? := by
      rw [List.getLast?_cons, List.getLast?_eq_some_getLast hne]; rfl
    rw [this]; rfl

theorem line_hit {blog : Bool} {b : Start} {sp : Bool} {line r : Str} {run : PS → PM} (h : LEntry blog b sp (line ++ r) run)
    (hl : lineText line = true) (hs : plainStart b line = true) (hr : atEol true r = true)
    (hb : blog = true → (line.getLast? ≠ some '\\' ∧ ∃ s, r = '\n' :: s ∧ Nonblank s) ∨ Hard line.getLast? r) :
    ∃ w, (blog = true ∧ sp = false ∧ line.getLast? ≠ some '\\' ∧ ∃ s, r = '\n' :: s ∧ Nonblank s ∧
        ∀ st, run st = (textRepl ⟨w, lineCaps line sp true⟩ st >>= runR (blockRe blog) blockRepl (some '\n') s)) ∨
      ((blog = true → Hard line.getLast? r) ∧
        ∀ st, run st = (textRepl ⟨w, lineCaps line sp false⟩ st >>= runR (blockRe blog) blockRepl line.getLast? r)) :=
  line_hit' h hl (fun e p => by subst e; exact plain_all hl hs hr) (fun e => by subst e; exact hs) hr hb

theorem Hard.nonblank {p : Option Char} {s : Str} (h : Hard p ('\n' :: s)) (hs : Nonblank s) : p = some '\\' := by
  rcases h with h | h | ⟨s', h1, h2⟩
  · exact h
  · simp at h
  · simp only [List.cons.injEq, true_and] at h1
    subst h1
    have h3 := hs.spsEol none []
    have h4 := h2.spsEol none []
    rw [h3] at h4
    simp at h4

theorem paraOk_head {blog : Bool} {b : Start} {l : List Inl} {ls : List (List Inl)} (h : paraOk cx blog b (l :: ls) = true) :
    wfs cx none l = true ∧ lineText (prints l) = true ∧ plainStart b (prints l) = true := by
  cases ls with
  | nil => simp only [paraOk, Bool.and_eq_true] at h; exact ⟨h.1.1.1, h.1.1.2, h.1.2⟩
  | cons m ls => simp only [paraOk, Bool.and_eq_true] at h; exact ⟨h.1.1.1, h.1.1.2, h.1.2⟩

theorem lineText_ne {l : List Inl} (h : lineText (prints l) = true) : l ≠ [] := by
  rintro rfl; exact absurd h (by decide)

/-- the rest behind a paragraph: a soft break or not -/
theorem rest_cases {gap : List Str} {o : Option Str} (hR : Rest gap o) (p : Option Char) :
    (p ≠ some '\\' ∧ ∃ s, rest gap o = '\n' :: s ∧ Nonblank s ∧ gap = [] ∧ o = some s) ∨ Hard p (rest gap o) := by
  cases gap with
  | nil =>
    cases o with
    | none => exact .inr (.inr (.inl rfl))
    | some s =>
      by_cases hp : p = some '\\'
      · exact .inr (.inl hp)
      · exact .inl ⟨hp, s, rfl, hR.next s rfl, rfl, rfl⟩
  | cons g gs =>
    rw [rest_cons]
    exact .inr (.inr (.inr ⟨_, rfl, blankLine_gap (hR.gap g (by simp))⟩))

theorem para_go {blog : Bool} {gap : List Str} {o : Option Str} {t : Str} (hR : Rest gap o) :
    ∀ {ls : List (List Inl)} {l : List Inl} {b : Start} {sp : Bool} {run : PS → PM} {st0 st1 : PS} {u : Str},
    LEntry blog b sp (prints l ++ (nls (ls.map prints) ++ rest gap o)) run → paraOk cx blog b (l :: ls) = true →
    (∀ m, textRepl m st0 = textBody m st1) → ParaSt env sg ms st1 t u →
    ∃ st' cont, run st0 = cont st' ∧
      ((∃ p, atBol true p = false ∧ cont = runR (blockRe blog) blockRepl p (rest gap o)) ∨
        (blog = true ∧ gap = [] ∧ ∃ s, o = some s ∧ cont = runR (blockRe blog) blockRepl (some '\n') s)) ∧
      Top env sg ms st' (t ++ (c!"<p>" ++ (u ++ (if sp && !st1.cur.children.isEmpty then c!" " else []) ++
        paraHtml cx (if blog then c!"<br />\n" else c!" ") (l :: ls)) ++ c!"</p>\n")) ∧
      (∀ k ∈ path st', k ∈ [Kind.paragraph, .document]) ∧ (o = none → NoBrk st') := by
  have hcap : ∀ (w line : Str) (sp bk : Bool), need (Match.mk w (lineCaps line sp bk)) .text = .ok line ∧
      (Match.mk w (lineCaps line sp bk)).get .space = (if sp then some c!"\n" else none) ∧
      (Match.mk w (lineCaps line sp bk)).get .brk = (if bk then some c!"\n" else none) := by
    intro w line sp bk; cases sp <;> cases bk <;> exact ⟨rfl, rfl, rfl⟩
  intro ls
  induction ls with
  | nil =>
    intro l b sp run st0 st1 u he hok hst hp
    obtain ⟨hwf, hlt, hps⟩ := paraOk_head hok
    have hlast : (l.getLast?).all Inl.notBr = true := by
      simp only [paraOk, Bool.and_eq_true] at hok; exact hok.2
    have hl' := hlt
    simp only [lineText, Bool.and_eq_true, Bool.not_eq_true', List.contains_eq_mem, decide_eq_false_iff_not] at hl'
    have hne : prints l ≠ [] := by intro h; rw [h] at hl'; simp at hl'
    simp only [List.map_nil, nls, List.flatMap_nil, List.nil_append] at he
    obtain ⟨w, h⟩ := line_hit he hlt hps (rest_eol gap o) (fun _ => by
      rcases rest_cases hR (prints l).getLast? with ⟨h1, s, h2, h3, _⟩ | h
      · exact .inl ⟨h1, s, h2, h3⟩
      · exact .inr h)
    rcases h with ⟨rfl, rfl, hbs, s, hs1, hs2, hrun⟩ | ⟨hh, hrun⟩
    · obtain ⟨c1, c2, c3⟩ := hcap w (prints l) false true
      obtain ⟨st', h1, _, _, h4, _⟩ := textBody_para (l := l) hp hwf (lineText_ne hlt) c1 c2 c3
      obtain ⟨st2, h5, h6, h7⟩ := h4 hlast
      simp only [Except.ok.injEq] at h5
      subst h5
      obtain ⟨hg, ho⟩ : gap = [] ∧ o = some s := by
        rcases rest_cases hR (prints l).getLast? with ⟨_, s', h2, _, h3, h4⟩ | h
        · rw [hs1] at h2
          simp only [List.cons.injEq, true_and] at h2
          subst h2
          exact ⟨h3, h4⟩
        · rw [hs1] at h
          exact absurd (h.nonblank hs2) hbs
      refine ⟨st', _, by rw [hrun, hst, h1, ok_bind], .inr ⟨rfl, hg, s, ho, rfl⟩, h6, h7, ?_⟩
      rw [ho]; simp
    · obtain ⟨c1, c2, c3⟩ := hcap w (prints l) sp false
      obtain ⟨st', h1, _, _, h4, h8⟩ := textBody_para (l := l) hp hwf (lineText_ne hlt) c1 c2 c3
      obtain ⟨st2, h5, h6, h7⟩ := h4 hlast
      simp only [Except.ok.injEq] at h5
      subst h5
      exact ⟨st', _, by rw [hrun, hst, h1, ok_bind], .inl ⟨_, atBol_last hl'.2 hne, rfl⟩, h6, h7, fun _ => h8 rfl hlast⟩
  | cons m ls ih =>
    intro l b sp run st0 st1 u he hok hst hp
    obtain ⟨hwf, hlt, hps⟩ := paraOk_head hok
    have hok' : paraOk cx blog (if blog || (prints l).getLast? == some '\\' then .all else .none) (m :: ls) = true := by
      simp only [paraOk, Bool.and_eq_true] at hok; exact hok.2
    have hl' := hlt
    simp only [lineText, Bool.and_eq_true, Bool.not_eq_true', List.contains_eq_mem, decide_eq_false_iff_not] at hl'
    have hne : prints l ≠ [] := by intro h; rw [h] at hl'; simp at hl'
    have hm := (paraOk_head hok').2.1
    have hnb : Nonblank (prints m ++ (nls (ls.map prints) ++ rest gap o)) := nonblank_of_lineText hm _
    have hr : nls ((m :: ls).map prints) ++ rest gap o = '\n' :: (prints m ++ (nls (ls.map prints) ++ rest gap o)) := by
      rw [List.map_cons, nls_cons]; simp
    rw [hr] at he
    obtain ⟨w, h⟩ := line_hit he hlt hps rfl (fun _ => by
      by_cases hb : (prints l).getLast? = some '\\'
      · exact .inr (.inl hb)
      · exact .inl ⟨hb, _, rfl, hnb⟩)
    have hpar : ∀ nl, paraHtml cx nl (l :: m :: ls) = htmls cx c!"<br />\n" l ++
        (if (prints l).getLast? = some '\\' then [] else nl) ++ paraHtml cx nl (m :: ls) := fun _ => rfl
    rcases h with ⟨rfl, rfl, hbs, s, hs1, hs2, hrun⟩ | ⟨hh, hrun⟩
    · obtain ⟨c1, c2, c3⟩ := hcap w (prints l) false true
      obtain ⟨st', h1, h2, h3, _, _⟩ := textBody_para (l := l) hp hwf (lineText_ne hlt) c1 c2 c3
      simp only [List.cons.injEq, true_and] at hs1
      subst hs1
      simp only [Bool.true_or, if_true] at hok'
      have := ih (.bol (p := some '\n') rfl) hok' (textRepl_para h2) h2
      rw [hrun, hst, h1, ok_bind]
      rw [hpar, if_neg hbs]
      simpa using this
    · obtain ⟨c1, c2, c3⟩ := hcap w (prints l) sp false
      obtain ⟨st', h1, h2, h3, _, _⟩ := textBody_para (l := l) hp hwf (lineText_ne hlt) c1 c2 c3
      rw [hrun, hst, h1, ok_bind, hpar]
      have hab := atBol_last hl'.2 hne
      by_cases hb : (prints l).getLast? = some '\\'
      · rw [skip_mid hab (.inr (.inl hb)), if_pos hb]
        rw [hb] at hok'
        simp only [beq_self_eq_true, Bool.or_true, if_true] at hok'
        have := ih (.bol (p := some '\n') rfl) hok' (textRepl_para h2) h2
        simpa using this
      · cases blog with
        | true => exact absurd ((hh rfl).nonblank hnb) hb
        | false =>
          rw [if_neg hb]
          have hb' : ((prints l).getLast? == some '\\') = false := by simpa using hb
          simp only [hb', Bool.or_self, Bool.false_eq_true, if_false] at hok'
          have := ih (.mid (p := (prints l).getLast?) rfl hab hb) hok' (textRepl_para h2) h2
          have he : st'.cur.children.isEmpty = false := by simpa using h3
          simpa [he] using this

theorem step_para {blog : Bool} {start : Start} {gap : List Str} {o : Option Str} {run : PS → PM} {st : PS} {t : Str} {ls : List (List Inl)}
    (hok : (Block.para ls).ok cx blog start = true) (he : Entry blog start (btext (.para ls) ++ rest gap o) run) (hR : Rest gap o)
    (ht : Top env sg ms st t) (hen : EnterOk (.para ls) st) : Did1 env sg ms cx blog (.para ls) gap o (run st) t := by
  cases ls with
  | nil => simp [Block.ok, paraOk] at hok
  | cons l ls =>
    have hok' : paraOk cx blog start (l :: ls) = true := hok
    obtain ⟨_, hlt, hps⟩ := paraOk_head hok'
    have hbt : btext (.para (l :: ls)) ++ rest gap o = prints l ++ (nls (ls.map prints) ++ rest gap o) := by
      show joinLines c!"\n" (prints l :: ls.map prints) ++ _ = _
      rw [joinLines_cons, List.append_assoc]
    rw [hbt] at he
    obtain ⟨sp, he'⟩ := he.line hlt hps (by
      cases ls with
      | nil => exact rest_eol gap o
      | cons m ls => rw [List.map_cons, nls_cons]; rfl)
    obtain ⟨st1, h1, h2, h3⟩ := textRepl_enter ht hen
    obtain ⟨st', cont, h4, h5, h6, h7, h8⟩ := para_go hR he' hok' h3 h1
    refine ⟨st', cont, h4, ?_, ?_, h7, h8⟩
    · unfold Cont; exact h5
    · simpa [h2, Block.html, sep] using h6

end Verif.Creole
