import Verif.Emit.Steps
import Verif.Props.Unknown
import Verif.Props.StripHtml
import Verif.Props.Lists

/-!
# C41, C42, C45, C46: texts in table cells, headlines, code and pictures
-/

namespace Verif.Props

open Verif Py Html Emit Spec

/-! ## C41 -/

theorem stripP_sublist (p : Char → Bool) (s : Str) : (stripP p s).Sublist s :=
  (dropEndWhile_sublist _ _).trans (List.dropWhile_sublist _)

theorem oneLine_eq (s : Str) : escapeLinebreaks s = oneLine s := rfl

theorem oneLine_newline (s : Str) : '\n' ∉ oneLine s := by
  intro h
  refine join_not_mem (by decide) ?_ ((stripP_sublist _ _).mem h)
  intro a ha
  obtain ⟨l, hl, rfl⟩ := List.mem_map.mp (List.mem_filter.mp ha).1
  exact fun hm => splitChar_not_mem '\n' _ l hl ((strip_sublist l).mem hm)

theorem emitContent_eq (kind content : Str) :
    emitContent kind content = if kind ∈ blockNames then oneLine content ++ c!"\n\n" else oneLine content := by
  rw [emitContent]
  rw [show blockTags = blockNames from rfl, oneLine_eq]
  by_cases h : kind ∈ blockNames
  · rw [if_pos (by simpa using h), if_pos h]
  · rw [if_neg (by simpa using h), if_neg h]

/-- a table without line ends in its cells -/
def FlatTable (t : Table) : Prop := '\n' ∉ t.headPrefix ∧ ∀ row ∈ t.rows, ∀ cell ∈ row, '\n' ∉ cell

theorem addLast_cells {P : Str → Prop} {text : Str} (ht : P text) : ∀ {rows : List (List Str)},
    (∀ row ∈ rows, ∀ c ∈ row, P c) → ∀ row ∈ addLast text rows, ∀ c ∈ row, P c
  | [], _ => by simp [addLast]
  | [r], h => by
    intro row hrow c hc
    simp only [addLast, List.mem_singleton] at hrow
    subst hrow
    rcases List.mem_append.mp hc with hc | hc
    · exact h r (by simp) c hc
    · rw [List.mem_singleton.mp hc]; exact ht
  | r :: r' :: rs, h => by
    intro row hrow c hc
    rw [addLast] at hrow
    rcases List.mem_cons.mp hrow with hrow | hrow
    · subst hrow; exact h _ (by simp) c hc
    · exact addLast_cells ht (fun row hr => h row (List.mem_cons_of_mem _ hr)) row hrow c hc

theorem FlatTable.addTr {t : Table} (h : FlatTable t) : FlatTable t.addTr := by
  refine ⟨h.1, ?_⟩
  intro row hrow c hc
  rcases List.mem_append.mp hrow with hr | hr
  · exact h.2 row hr c hc
  · rw [List.mem_singleton.mp hr] at hc; cases hc

theorem FlatTable.addTd {t : Table} (h : FlatTable t) {text : Str} (ht : '\n' ∉ text) : FlatTable (t.addTd text) := by
  rw [Table.addTd]
  have h' : FlatTable (if t.rows.isEmpty then t.addTr else t) := by
    split
    · exact h.addTr
    · exact h
  exact ⟨h'.1, addLast_cells ht h'.2⟩

theorem FlatTable.addTh {t : Table} (h : FlatTable t) {text : Str} (ht : '\n' ∉ text) : FlatTable (t.addTh text) := by
  rw [Table.addTh]
  refine FlatTable.addTd (t := { t with hasHeader := true }) h ?_
  intro hm
  rcases List.mem_append.mp hm with hm | hm
  · exact h.1 hm
  · exact ht hm

/-- the table of the state has no line ends in its cells -/
def FlatState (s : ESt) : Prop := ∀ t, s.table = some t → FlatTable t

theorem flatState_step {lang : Lang} (hl : lang ≠ .markdown) {s s' : ESt} (h : Emit.Step lang s s') (hs : FlatState s) :
    FlatState s' := by
  have hcell : ∀ c, '\n' ∉ cellText lang c := by
    intro c
    rw [cellText, if_neg hl]
    exact oneLine_newline c
  cases h with
  | newTable =>
    intro t ht
    cases ht
    constructor
    · cases lang <;> decide
    · cases lang <;> simp [newTable]
  | addTr t h => intro t' ht; cases ht; exact (hs t h).addTr
  | addTh t c h => intro t' ht; cases ht; exact (hs t h).addTh (hcell c)
  | addTd t c h => intro t' ht; cases ht; exact (hs t h).addTd (hcell c)
  | _ => exact hs

theorem preformatCell_newline {p c : Str} (h : '\n' ∉ c) : '\n' ∉ preformatCell p c := by
  have hs : '\n' ∉ strip c := fun hm => h ((strip_sublist _).mem hm)
  rw [preformatCell]
  split
  · simp
  · split <;> simp [hs]

theorem ljust_newline {s : Str} {w : Nat} (h : '\n' ∉ s) : '\n' ∉ ljust s w := by
  rw [ljust]
  simp [h]

theorem padRow_newline {ws : List Nat} {row : List Str} (h : ∀ c ∈ row, '\n' ∉ c) : ∀ c ∈ padRow ws row, '\n' ∉ c := by
  induction row generalizing ws with
  | nil => simp [padRow]
  | cons a row ih =>
    cases ws with
    | nil => simp [padRow]
    | cons w ws =>
      intro c hc
      rw [padRow, List.zipWith_cons_cons] at hc
      rcases List.mem_cons.mp hc with hc | hc
      · subst hc; exact ljust_newline (h a (by simp))
      · exact ih (fun c hc => h c (by simp [hc])) c hc

/-- a line of a table: a line that starts and ends with a border -/
def TableLine (border : Str) (line : Str) : Prop :=
  '\n' ∉ line ∧ ∃ b ∈ border, line.head? = some b ∧ line.getLast? = some b

theorem barLine_line {cells : List Str} (h : ∀ c ∈ cells, '\n' ∉ c) : TableLine c!"|" (barLine cells) := by
  refine ⟨?_, '|', by simp, ?_, ?_⟩
  · rw [barLine]
    have := join_not_mem (sep := c!"|") (by decide) h
    simp [this]
  · rw [barLine]; rfl
  · rw [barLine, List.getLast?_append]; rfl

theorem plusLine_line {c : Char} (hc : c ≠ '\n') (ws : List Nat) : TableLine c!"+" (plusLine c ws) := by
  refine ⟨?_, '+', by simp, ?_, ?_⟩
  · rw [plusLine]
    have := join_not_mem (c := '\n') (sep := c!"+") (l := ws.map fun w => List.replicate w c) (by decide) (by
      intro a ha hm
      obtain ⟨w, hw, rfl⟩ := List.mem_map.mp ha
      exact hc (List.eq_of_mem_replicate hm).symm)
    simp [this]
  · rw [plusLine]; rfl
  · rw [plusLine, List.getLast?_append]; rfl

theorem TableLine.mono {a b line : Str} (h : TableLine a line) (hab : ∀ c ∈ a, c ∈ b) : TableLine b line := by
  obtain ⟨h1, c, hc, h2⟩ := h
  exact ⟨h1, c, hab c hc, h2⟩

theorem preformat_newline {t : Table} (h : FlatTable t) : ∀ row ∈ t.preformat.1, ∀ c ∈ row, '\n' ∉ c := by
  intro row hrow c hc
  rw [Table.preformat] at hrow
  obtain ⟨row', hr, rfl⟩ := List.mem_map.mp hrow
  obtain ⟨c', hc', rfl⟩ := List.mem_map.mp hc
  exact preformatCell_newline (h.2 row' hr c' hc')

theorem restLines_line {hasHeader : Bool} {ws : List Nat} : ∀ {no : Nat} {rows : List (List Str)},
    (∀ row ∈ rows, ∀ c ∈ row, '\n' ∉ c) → ∀ line ∈ restLines hasHeader ws no rows, TableLine c!"+|" line
  | _, [], _ => by
    intro line hl
    rw [restLines, List.mem_singleton] at hl
    subst hl
    exact (plusLine_line (by decide) _).mono (by simp)
  | no, row :: rows, h => by
    intro line hl
    rw [restLines] at hl
    rcases List.mem_cons.mp hl with hl | hl
    · subst hl
      split
      · exact (plusLine_line (by decide) _).mono (by simp)
      · exact (plusLine_line (by decide) _).mono (by simp)
    · rcases List.mem_cons.mp hl with hl | hl
      · subst hl
        exact (barLine_line (padRow_newline (h row (by simp)))).mono (by simp)
      · exact restLines_line (fun row hr => h row (by simp [hr])) line hl

theorem method_table (lang : Lang) : methodOf lang c!"table" = some .table := by cases lang <;> rfl

/-- the text of a table -/
def tableText (lang : Lang) (t : Table) : Str :=
  match lang with
  | .creole | .textile => t.markup ++ c!"\n"
  | .markdown => '\n' :: t.markdown ++ c!"\n"
  | .rest => t.rest ++ c!"\n\n"

theorem tableEmit_form (lang : Lang) (ch : EmM Str) : tableEmit lang ch =
    setTable (newTable lang) >>= fun _ => ch >>= fun _ => getTable >>= fun t => pure (tableText lang t) := by
  cases lang <;> rfl

/-- **C41, tables.**  Whatever is in the cells of a table, the text that html2creole, html2textile and html2rest emit for it
consists of lines that start and end with a border character: no cell content breaks a line.  (`Quiet`: in html2rest
substitution definitions may be emitted before a child of the root.) -/
theorem C41_table_lines {cfg : Cfg} (hl : cfg.lang ≠ .markdown) {anc : List Str} {i : HInfo} (hk : i.kind = c!"table")
    {children : List HNode} {s s' : ESt} {text : Str} (hq : Quiet s anc)
    (h : emitNode cfg anc (.mk i children) s = .ok (text, s')) :
    ∃ lines, (∀ line ∈ lines, TableLine (if cfg.lang = .rest then c!"+|" else c!"|") line) ∧
      text = join c!"\n" lines ++ (if cfg.lang = .rest then c!"\n\n" else c!"\n") := by
  rw [emitNode_known (m := .table) (by rw [hk]; exact method_table _) hq.pre] at h
  have hrun : runMeth cfg anc i .table (childrenM cfg anc i children) = tableEmit cfg.lang (childrenM cfg anc i children) := rfl
  rw [hrun] at h
  rw [tableEmit_form, bind_run, show setTable (newTable cfg.lang) s = .ok ((), { s with table := some (newTable cfg.lang) }) from rfl] at h
  dsimp only at h
  have hflat0 : FlatState { s with table := some (newTable cfg.lang) } := by
    intro t ht
    cases ht
    constructor
    · cases cfg.lang <;> decide
    · cases cfg.lang <;> simp [newTable]
  cases hr : (childrenM cfg anc i children >>= fun _ => getTable >>= fun t => (pure (tableText cfg.lang t) : EmM Str))
      { s with table := some (newTable cfg.lang) } with
  | error e => rw [hr] at h; cases h
  | ok r =>
    rw [hr] at h
    cases h
    obtain ⟨c, s1, h1, h2⟩ := bind_ok.mp hr
    obtain ⟨t, s2, h3, h4⟩ := bind_ok.mp h2
    have hs1 : FlatState s1 :=
      ((via_setLast i).bind fun _ => via_emitNodes cfg (i.kind :: anc) children) _ _ _ h1 |>.inv
        (fun _ _ hst hs => flatState_step hl hst hs) hflat0
    obtain ⟨rfl, ht⟩ := getTable_ok h3
    have hft := hs1 t ht
    rw [(pure_ok.mp h4).1]
    have hmark : ∃ lines, (∀ line ∈ lines, TableLine c!"|" line) ∧ t.markup = join c!"\n" lines := by
      rw [Table.markup]
      split
      · refine ⟨_, ?_, rfl⟩
        intro line hline
        obtain ⟨row, hrow, rfl⟩ := List.mem_map.mp hline
        exact barLine_line (hft.2 row hrow)
      · refine ⟨_, ?_, rfl⟩
        intro line hline
        obtain ⟨row, hrow, rfl⟩ := List.mem_map.mp hline
        exact barLine_line (padRow_newline (preformat_newline hft row hrow))
    cases hlang : cfg.lang with
    | creole =>
      obtain ⟨lines, h1, h2⟩ := hmark
      exact ⟨lines, h1, by rw [tableText, h2]; rfl⟩
    | textile =>
      obtain ⟨lines, h1, h2⟩ := hmark
      exact ⟨lines, h1, by rw [tableText, h2]; rfl⟩
    | markdown => exact absurd hlang hl
    | rest => exact ⟨_, restLines_line (preformat_newline hft), rfl⟩

/-- **C41, `div` and `span`.**  Whatever a `div` contains, its text is one line followed by an empty line. -/
theorem C41_div {cfg : Cfg} {anc : List Str} {i : HInfo} (hk : i.kind = c!"div") {children : List HNode} {s s' : ESt}
    {text : Str} (hq : Quiet s anc) (h : emitNode cfg anc (.mk i children) s = .ok (text, s')) :
    ∃ line, '\n' ∉ line ∧ text = line ++ c!"\n\n" := by
  rw [emitNode_known (m := .content) (by rw [hk]; cases cfg.lang <;> rfl) hq.pre] at h
  have hrun : runMeth cfg anc i .content (childrenM cfg anc i children) =
    childrenM cfg anc i children >>= fun c => pure (emitContent i.kind c) := rfl
  rw [hrun, bind_run] at h
  cases hc : childrenM cfg anc i children s with
  | error e => rw [hc] at h; cases h
  | ok r =>
    rw [hc] at h
    cases h
    refine ⟨oneLine r.1, oneLine_newline _, ?_⟩
    rw [emitContent_eq, if_pos (by rw [hk]; decide)]

/-- The text of a `span` has no line end (html2textile has a markup for `span`). -/
theorem C41_span {cfg : Cfg} (hl : cfg.lang ≠ .textile) {anc : List Str} {i : HInfo} (hk : i.kind = c!"span")
    {children : List HNode} {s s' : ESt} {text : Str} (hq : Quiet s anc)
    (h : emitNode cfg anc (.mk i children) s = .ok (text, s')) : '\n' ∉ text := by
  rw [emitNode_known (m := .content) (by
    rw [hk]; cases hlang : cfg.lang <;> first | exact absurd hlang hl | rfl) hq.pre] at h
  have hrun : runMeth cfg anc i .content (childrenM cfg anc i children) =
    childrenM cfg anc i children >>= fun c => pure (emitContent i.kind c) := rfl
  rw [hrun, bind_run] at h
  cases hc : childrenM cfg anc i children s with
  | error e => rw [hc] at h; cases h
  | ok r =>
    rw [hc] at h
    cases h
    rw [emitContent_eq, if_neg (by rw [hk]; decide)]
    exact oneLine_newline _

/-- **C41 fails for html2markdown:** a line break in a cell ends the line of the table. -/
theorem C41_markdown_breaks_line :
    html2markdown (fun _ => true) c!"<table><tr><td>a<br />b</td><td>c</td></tr></table>" = .ok c!"| a\nb | c |" := by
  decide +kernel

example : html2creole c!"<table><tr><td>a<br />b</td><td>c</td></tr></table>" = .ok c!"| a\\\\b | c |" := by decide +kernel
example : html2creole c!"<div>one<br />two</div><p>three</p>" = .ok c!"one\\\\two\n\nthree" := by decide +kernel

/-! ## C42 -/

theorem method_headline (lang : Lang) : methodOf lang c!"headline" = some .headline := by cases lang <;> rfl

/-- **C42.**  html2rest emits a headline of the levels 1 to 6, whatever its text `c` is, as the text with a line of
exactly its length below (and above for the levels 1 and 2); higher levels are treated like 6. -/
theorem C42_rest_headline {cfg : Cfg} (hl : cfg.lang = .rest) {anc : List Str} {i : HInfo} (hk : i.kind = c!"headline")
    {level : Int} (hlevel : i.level = some level) (h1 : 1 ≤ level) {children : List HNode} {s s1 : ESt} {c : Str}
    (hq : Quiet s anc) (hc : emitNodes cfg (i.kind :: anc) children (enter i s) = .ok (c, s1)) :
    emitNode cfg anc (.mk i children) s = .ok (restHeading (min level 6) c ++ c!"\n\n", enter i s1) := by
  have hch : childrenM cfg anc i children s = .ok (c, s1) := by rw [childrenM_run]; exact hc
  rw [emitNode_known (m := .headline) (by rw [hk]; exact method_headline _) hq.pre]
  have hrun : runMeth cfg anc i .headline (childrenM cfg anc i children) = restHeadline i (childrenM cfg anc i children) := by
    rw [runMeth, hl]; rfl
  rw [hrun, restHeadline, bind_run, hch]
  dsimp only
  rw [bind_run, levelM, hlevel]
  dsimp only
  rw [pure_run]
  dsimp only
  have hm : (if level > 6 then 6 else level) = min level 6 := by omega
  rw [hm]
  have h16 : min level 6 = 1 ∨ min level 6 = 2 ∨ min level 6 = 3 ∨ min level 6 = 4 ∨ min level 6 = 5 ∨ min level 6 = 6 := by omega
  rcases h16 with h | h | h | h | h | h <;> rw [h] <;>
    simp [headlineData, restHeading, underlineChar, pure_run]

/-- A headline without a level that ReSt knows is refused (`<h0>`). -/
theorem C42_level_zero {cfg : Cfg} (hl : cfg.lang = .rest) {anc : List Str} {i : HInfo} (hk : i.kind = c!"headline")
    {level : Int} (hlevel : i.level = some level) (h1 : level < 1) {children : List HNode} {s s1 : ESt} {c : Str}
    (hq : Quiet s anc) (hc : emitNodes cfg (i.kind :: anc) children (enter i s) = .ok (c, s1)) :
    emitNode cfg anc (.mk i children) s = .error .keyError := by
  have hch : childrenM cfg anc i children s = .ok (c, s1) := by rw [childrenM_run]; exact hc
  rw [emitNode_known (m := .headline) (by rw [hk]; exact method_headline _) hq.pre]
  have hrun : runMeth cfg anc i .headline (childrenM cfg anc i children) = restHeadline i (childrenM cfg anc i children) := by
    rw [runMeth, hl]; rfl
  rw [hrun, restHeadline, bind_run, hch]
  dsimp only
  rw [bind_run, levelM, hlevel]
  dsimp only
  rw [pure_run]
  dsimp only
  have hm : (if level > 6 then 6 else level) = level := by omega
  rw [hm]
  have hd : headlineData level = none := by
    unfold headlineData
    split <;> first | omega | rfl
  rw [hd]
  rfl

/-- **C42, documents.**  A document that consists of one headline, its text being any texts and typefaces. -/
theorem C42_rest_headline_document {cfg : Cfg} (hl : cfg.lang = .rest) (level : Int) (h1 : 1 ≤ level) (ns : List HNode)
    (t : Str) (h : inlineTexts .rest ns = some t) (ht : t ≠ []) :
    emit cfg (.mk { kind := c!"document" } [.mk { kind := c!"headline", level := some level } ns]) =
      .ok (restHeading (min level 6) t) := by
  obtain ⟨s1, h2, h3⟩ := inlineTexts_emit cfg ns t (by rw [hl]; exact h) [c!"headline", c!"document"]
    (enter { kind := c!"headline", level := some level } (enter { kind := c!"document" } {})) (.inl rfl)
  have hsub : s1.subst = [] := (core_subst h3).trans rfl
  have hn := C42_rest_headline (i := { kind := c!"headline", level := some level }) hl rfl rfl h1 (.inl rfl) h2
  rw [emit_document (emitNodes_one hn) (fun _ => hsub), if_pos hl]
  congr 1
  -- the last character of the line is no blank
  have hline : ∃ x c, restHeading (min level 6) t = x ++ [c] ∧ isSpace c = false := by
    obtain ⟨n, hn⟩ : ∃ n, t.length = n + 1 := ⟨t.length - 1, by
      cases t with
      | nil => exact absurd rfl ht
      | cons a t => simp⟩
    refine ⟨(if min level 6 ≤ 2 then List.replicate t.length (underlineChar (min level 6)) ++ c!"\n" else []) ++ t ++ c!"\n"
        ++ List.replicate n (underlineChar (min level 6)), underlineChar (min level 6), ?_, ?_⟩
    · rw [restHeading, hn, List.replicate_succ', List.append_assoc, List.append_assoc, List.append_assoc, List.append_assoc]
      simp only [List.append_assoc]
    · rw [underlineChar]
      repeat' split
      all_goals decide
  obtain ⟨x, c, hx, hc⟩ := hline
  rw [hx, rstrip, dropEndWhile_append newlines_space, dropEndWhile_append_last _ hc]

example : html2rest c!"<h2>My <b>headline</b></h2>" = .ok c!"---------------\nMy **headline**\n---------------" := by decide +kernel
example : html2rest c!"<h9>deep</h9>" = .ok c!"deep\n''''" := by decide +kernel

/-! ## C45 -/

/-- **C45.**  In html2markdown a `code` element never raises an exception of its own (in particular no
`AssertionError`), and its text is the content on one line between single back-ticks, or between double ones exactly if
the content contains a back-tick. -/
theorem C45_markdown_code {cfg : Cfg} (hl : cfg.lang = .markdown) {anc : List Str} {i : HInfo} (hk : i.kind = c!"code")
    {children : List HNode} {s : ESt} :
    emitNode cfg anc (.mk i children) s = match emitNodes cfg (i.kind :: anc) children (enter i s) with
      | .error e => .error e
      | .ok (c, s1) =>
        let fence := if '`' ∈ oneLine c then c!"``" else c!"`"
        .ok (fence ++ oneLine c ++ fence, enter i s1) := by
  rw [emitNode_known (m := .code) (by rw [hk, hl]; rfl) (fun h => by rw [hl] at h; cases h)]
  have hrun : runMeth cfg anc i .code (childrenM cfg anc i children) = mdCode i.kind (childrenM cfg anc i children) := by
    rw [runMeth, if_pos hl]
  rw [hrun, mdCode, bind_run, childrenM_run]
  cases emitNodes cfg (i.kind :: anc) children (enter i s) with
  | error e => rfl
  | ok r =>
    obtain ⟨c, s1⟩ := r
    dsimp only
    have he : emitContent i.kind c = oneLine c := by rw [emitContent_eq, if_neg (by rw [hk]; decide)]
    rw [he, if_neg (by simpa using oneLine_newline c)]
    by_cases hb : '`' ∈ oneLine c
    · rw [if_pos (by simpa using hb)]
      simp only [hb, if_true]
      rfl
    · rw [if_neg (by simpa using hb)]
      simp only [hb, if_false]
      rfl

example : html2markdown (fun _ => true) c!"<p><code>a</code> and <code>b `c`</code></p>" = .ok c!"`a` and ``b `c```" := by
  decide +kernel

/-! ## C46 -/

theorem data_head {src : Str} : (splitChar ':' src).head? = some c!"data" ↔ isDataUri src := by
  constructor
  · intro h
    have hj := join_splitChar ':' src
    cases hs : splitChar ':' src with
    | nil => exact absurd hs (splitChar_ne_nil _ _)
    | cons a l =>
      rw [hs] at h hj
      cases h
      cases l with
      | nil => exact .inl hj.symm
      | cons b l =>
        right
        refine ⟨join c!":" (b :: l), ?_⟩
        rw [← hj, join_cons_cons]
        simp
  · rintro (h | ⟨r, h⟩)
    · subst h; rfl
    · rw [← h, show c!"data:" ++ r = c!"data" ++ ':' :: r from rfl, splitChar_append (by decide)]
      rfl

theorem splitLastSlash_spec (src : Str) : IsFileName src (splitLastSlash src).2 := by
  induction src with
  | nil => exact ⟨by simp [splitLastSlash], [], rfl, .inl rfl⟩
  | cons c cs ih =>
    rw [splitLastSlash]
    split
    · next h =>
      obtain ⟨h1, dir, h2, h3⟩ := ih
      refine ⟨h1, c :: dir, by rw [List.cons_append, ← h2], ?_⟩
      rcases h3 with h3 | ⟨d, h3⟩
      · subst h3
        rw [List.nil_append] at h2
        rw [← h2] at h1
        exact absurd (by simpa using h) h1
      · exact .inr ⟨c :: d, by rw [h3]; rfl⟩
    · next h =>
      have h' : '/' ∉ cs := by simpa using h
      split
      · next hc => exact ⟨h', [c], rfl, .inr ⟨[], by rw [hc]; rfl⟩⟩
      · next hc =>
        refine ⟨?_, [], rfl, .inl rfl⟩
        simp only [List.mem_cons, not_or]
        exact ⟨Ne.symm hc, h'⟩

theorem method_img (lang : Lang) : methodOf lang c!"img" = some .img := by cases lang <;> rfl

theorem imgSrc_run {attrs : Dict (Option Str)} {src : Str} (h : dictGet c!"src" attrs = some (some src)) (s : ESt) :
    (isDataUri src → imgSrc attrs s = .ok (none, s)) ∧ (¬ isDataUri src → imgSrc attrs s = .ok (some src, s)) := by
  rw [imgSrc, h]
  dsimp only
  constructor
  · intro hd; rw [if_pos (data_head.mpr hd)]; rfl
  · intro hd; rw [if_neg (fun h => hd (data_head.mp h))]; rfl

/-- **C46, data URIs.**  html2creole, html2textile and html2rest emit nothing for a picture whose URL is a data URI,
whatever its other attributes are. -/
theorem C46_data_uri {cfg : Cfg} (hl : cfg.lang ≠ .markdown) {anc : List Str} {i : HInfo} (hk : i.kind = c!"img")
    {children : List HNode} {s : ESt} (hq : Quiet s anc) {src : Str} (hsrc : dictGet c!"src" i.attrs = some (some src))
    (hd : isDataUri src) : emitNode cfg anc (.mk i children) s = .ok ([], enter i s) := by
  rw [emitNode_known (m := .img) (by rw [hk]; exact method_img _) hq.pre]
  have hrun : runMeth cfg anc i .img (childrenM cfg anc i children) s = .ok ([], s) := by
    rw [runMeth]
    have h0 := (imgSrc_run hsrc s).1 hd
    cases hlang : cfg.lang with
    | markdown => exact absurd hlang hl
    | creole => dsimp only; rw [creoleImg, bind_run, h0]; rfl
    | textile => dsimp only; rw [textileImg, bind_run, h0]; rfl
    | rest => dsimp only; rw [restImg, bind_run, h0]; rfl
  rw [hrun]

theorem imgText_run {attrs : Dict (Option Str)} {src alt title : Str} (ha : attrOr c!"alt" attrs = some alt)
    (ht : attrOr c!"title" attrs = some title) :
    ∃ text, IsPictureText src alt title text ∧ ∀ s, imgText attrs src s = .ok (text, s) := by
  have h : imgText attrs src =
      if (if alt.length > title.length then alt else title) = [] then pure (splitLastSlash src).2
      else pure (if alt.length > title.length then alt else title) := by
    unfold imgText
    rw [show (dictGet c!"alt" attrs).getD (some []) = some alt from ha,
      show (dictGet c!"title" attrs).getD (some []) = some title from ht]
  rw [h]
  by_cases h0 : alt = [] ∧ title = []
  · obtain ⟨rfl, rfl⟩ := h0
    refine ⟨(splitLastSlash src).2, ?_, fun s => rfl⟩
    rw [IsPictureText, if_pos ⟨rfl, rfl⟩]
    exact splitLastSlash_spec src
  · refine ⟨if alt.length > title.length then alt else title, ?_, fun s => ?_⟩
    · rw [IsPictureText, if_neg h0]
      split <;> rfl
    · rw [if_neg]
      · rfl
      · split
        · intro h; subst h; next hlen => simp at hlen
        · next hlen =>
          intro h
          subst h
          refine h0 ⟨?_, rfl⟩
          cases alt with
          | nil => rfl
          | cons a as => simp at hlen

theorem truthy_attr (k : Str) (attrs : Dict (Option Str)) : truthy (dictGet k attrs) =
    match attrOr k attrs with
    | some (c :: cs) => some (c :: cs)
    | _ => none := by
  rw [attrOr]
  cases dictGet k attrs with
  | none => rfl
  | some v =>
    cases v with
    | none => rfl
    | some v => cases v <;> rfl

theorem creoleImg_run {strict : Bool} {attrs : Dict (Option Str)} {src text : Str} {s : ESt}
    (h0 : imgSrc attrs s = .ok (some src, s)) (h2 : imgText attrs src s = .ok (text, s)) :
    creoleImg strict attrs s = .ok (c!"{{" ++ src ++ c!"|" ++ text ++ pictureSize strict attrs ++ c!"}}", s) := by
  rw [creoleImg, bind_run, h0]
  dsimp only
  rw [bind_run, h2]
  dsimp only
  rw [truthy_attr, truthy_attr]
  unfold pictureSize
  cases strict with
  | true => simp [pure_run]
  | false =>
    rcases attrOr c!"width" attrs with _ | _ | ⟨w, ws⟩ <;> rcases attrOr c!"height" attrs with _ | _ | ⟨h, hs⟩ <;>
      simp [pure_run]

/-- **C46, other pictures.**  Otherwise the text is the longer one of `alt` and `title`, or the file name; html2creole
writes `{{src|text}}`, with the sizes if it is not strict and both are given; html2textile `!src(text)!`;
html2rest `|text|` unless the text was used for another URL before. -/
theorem C46_picture_text {cfg : Cfg} {anc : List Str} {i : HInfo} (hk : i.kind = c!"img")
    {children : List HNode} {s : ESt} (hq : Quiet s anc) {src : Str} (hsrc : dictGet c!"src" i.attrs = some (some src))
    (hd : ¬ isDataUri src) {alt title : Str} (ha : attrOr c!"alt" i.attrs = some alt)
    (ht : attrOr c!"title" i.attrs = some title) :
    ∃ text, IsPictureText src alt title text ∧
      match cfg.lang with
      | .creole => emitNode cfg anc (.mk i children) s =
          .ok (c!"{{" ++ src ++ c!"|" ++ text ++ pictureSize cfg.strict i.attrs ++ c!"}}", enter i s)
      | .textile => emitNode cfg anc (.mk i children) s = .ok (c!"!" ++ src ++ c!"(" ++ text ++ c!")!", enter i s)
      | .rest => emitNode cfg anc (.mk i children) s = .error .html2rest ∨
          ∃ s', emitNode cfg anc (.mk i children) s = .ok (c!"|" ++ text ++ c!"|", s')
      | .markdown => True := by
  obtain ⟨text, h1, h2⟩ := imgText_run (src := src) ha ht
  refine ⟨text, h1, ?_⟩
  have h0 := fun s => (imgSrc_run hsrc s).2 hd
  rw [emitNode_known (m := .img) (by rw [hk]; exact method_img _) hq.pre, runMeth]
  cases hlang : cfg.lang with
  | markdown => trivial
  | textile =>
    dsimp only
    rw [textileImg, bind_run, h0]
    dsimp only
    rw [bind_run, h2]
    dsimp only
    rw [pure_run]
    simp
  | creole =>
    dsimp only
    rw [creoleImg_run (h0 s) (h2 s)]
  | rest =>
    dsimp only
    rw [restImg, bind_run, h0]
    dsimp only
    rw [bind_run, h2]
    dsimp only
    rw [bind_run, get_run]
    dsimp only
    rw [bind_run, ofExcept_run]
    cases ho : oldSubst s.usedImages text (some src) with
    | error e =>
      left
      have he : e = .html2rest := by
        rw [oldSubst] at ho
        split at ho
        · cases ho
        · split at ho <;> cases ho; rfl
      subst he
      rfl
    | ok r =>
      right
      obtain ⟨old, d⟩ := r
      dsimp only [Except.map]
      rw [bind_run, modify_run]
      dsimp only
      by_cases hold : isOld old = true
      · rw [if_neg (by simp [hold]), pure_run]
        exact ⟨_, rfl⟩
      · rw [if_pos (by simp [hold]), bind_run, modify_run]
        dsimp only
        rw [pure_run]
        exact ⟨_, rfl⟩

/-- A picture without `src` is refused by all four converters. -/
theorem C46_no_src {cfg : Cfg} {anc : List Str} {i : HInfo} (hk : i.kind = c!"img")
    {children : List HNode} {s : ESt} (hq : Quiet s anc) (hsrc : dictGet c!"src" i.attrs = none) :
    emitNode cfg anc (.mk i children) s = .error .keyError := by
  rw [emitNode_known (m := .img) (by rw [hk]; exact method_img _) hq.pre]
  have h0 : imgSrc i.attrs s = .error .keyError := by rw [imgSrc, hsrc]; rfl
  have hrun : runMeth cfg anc i .img (childrenM cfg anc i children) s = .error .keyError := by
    rw [runMeth]
    cases hlang : cfg.lang with
    | markdown => dsimp only; rw [mdImg, hsrc, bind_run]; rfl
    | creole => dsimp only; rw [creoleImg, bind_run, h0]
    | textile => dsimp only; rw [textileImg, bind_run, h0]
    | rest => dsimp only; rw [restImg, bind_run, h0]
  rw [hrun]

example : isDataUri c!"data:image/png;base64,AAAA" ∧
    html2creole c!"<p>a<img src=\"data:image/png;base64,AAAA\" alt=\"x\" />b</p>" = .ok c!"ab" :=
  ⟨.inr ⟨_, rfl⟩, by decide +kernel⟩
example : html2creole c!"<p><img src=\"/a/b.png\" /></p>" = .ok c!"{{/a/b.png|b.png}}" ∧
    html2textile c!"<p><img src=\"/a/b.png\" alt=\"x\" title=\"yz\" /></p>" = .ok c!"!/a/b.png(yz)!" := by decide +kernel

end Verif.Props
