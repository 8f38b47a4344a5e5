import Verif.Emit.Table
import Verif.Py.StripLemmas
import Verif.Spec.Table
import Verif.Props.StripHtml

/-!
# C38, C39, C40: tables

`Table.markup`, `Table.rest` and `Table.markdown` are the texts returned by `get_table_markup`, `get_rest_table` and
`get_markdown_table`.
-/

namespace Verif.Props

open Verif Py Emit Spec

/-! ## C40: building a table -/

/-- one operation on a table -/
def tableStep (t : Table) : TableOp → Table
  | .tr => t.addTr
  | .th text => t.addTh text
  | .td text => t.addTd text

theorem addLast_concat (text : Str) (rows : List (List Str)) (row : List Str) :
    addLast text (rows ++ [row]) = rows ++ [row ++ [text]] := by
  induction rows with
  | nil => rfl
  | cons r rows ih =>
    cases rows with
    | nil => rfl
    | cons r' rows => rw [List.cons_append, List.cons_append, addLast, ← List.cons_append, ih]; rfl

theorem addLast_append (text : Str) {rows : List (List Str)} (h : rows ≠ []) :
    ∃ init row, rows = init ++ [row] ∧ addLast text rows = init ++ [row ++ [text]] := by
  refine ⟨rows.dropLast, rows.getLast h, (List.dropLast_concat_getLast h).symm, ?_⟩
  conv => lhs; rw [← List.dropLast_concat_getLast h]
  exact addLast_concat _ _ _

/-- the operations after which a row exists -/
theorem tableStep_rows (p : Str) (ops : List TableOp) : ∀ (t : Table) (rows : List (List Str)) (row : List Str),
    t.headPrefix = p → t.rows = rows ++ [row] →
    (ops.foldl tableStep t).rows = rows ++ (row ++ (tableGroups p ops).1) :: (tableGroups p ops).2 := by
  induction ops with
  | nil => intro t rows row _ h; simp [tableGroups, h]
  | cons op ops ih =>
    intro t rows row hp h
    rw [List.foldl_cons]
    cases op with
    | tr =>
      rw [ih (tableStep t .tr) (rows ++ [row]) [] hp (by simp [tableStep, Table.addTr, h])]
      simp [tableGroups]
    | th text =>
      rw [ih (tableStep t (.th text)) rows (row ++ [p ++ text]) (by simp [tableStep, Table.addTh, Table.addTd, h, hp])
        (by simp [tableStep, Table.addTh, Table.addTd, h, hp, addLast_concat])]
      simp [tableGroups]
    | td text =>
      rw [ih (tableStep t (.td text)) rows (row ++ [text]) (by simp [tableStep, Table.addTd, h, hp])
        (by simp [tableStep, Table.addTd, h, addLast_concat])]
      simp [tableGroups]

theorem tableStep_header (ops : List TableOp) : ∀ t : Table,
    (ops.foldl tableStep t).hasHeader = true ↔ t.hasHeader = true ∨ tableHasTh ops := by
  induction ops with
  | nil => intro t; simp [tableHasTh]
  | cons op ops ih =>
    intro t
    rw [List.foldl_cons, ih]
    cases op with
    | tr => simp [tableStep, Table.addTr, tableHasTh]
    | th text =>
      have : (tableStep t (.th text)).hasHeader = true := by
        simp only [tableStep, Table.addTh, Table.addTd]
        split <;> simp [Table.addTr]
      constructor
      · intro _; exact .inr ⟨text, List.mem_cons_self⟩
      · intro _; exact .inl this
    | td text =>
      have : (tableStep t (.td text)).hasHeader = t.hasHeader := by
        simp only [tableStep, Table.addTd]
        split <;> simp [Table.addTr]
      rw [this]
      simp [tableHasTh]

/-- **C40.**  After any sequence of `add_tr`, `add_th` and `add_td` the rows are the groups of cells separated by the
`tr`s (cells before the first `tr` form a row that is created on demand), a header cell gets the prefix of the table, and
the header flag is set iff a header cell was added. -/
theorem C40_table_operations (p : Str) (auto : Bool) (ops : List TableOp) :
    (ops.foldl tableStep { headPrefix := p, autoWidth := auto }).rows = tableRows p ops ∧
    ((ops.foldl tableStep { headPrefix := p, autoWidth := auto }).hasHeader = true ↔ tableHasTh ops) := by
  refine ⟨?_, by simpa using tableStep_header ops { headPrefix := p, autoWidth := auto }⟩
  cases ops with
  | nil => rfl
  | cons op ops =>
    rw [List.foldl_cons]
    cases op with
    | tr =>
      rw [tableStep_rows p ops (tableStep _ .tr) [] [] rfl rfl]
      simp [tableRows, tableGroups]
    | th text =>
      rw [tableStep_rows p ops (tableStep _ (.th text)) [] [p ++ text] rfl rfl]
      simp [tableRows, tableGroups]
    | td text =>
      rw [tableStep_rows p ops (tableStep _ (.td text)) [] [text] rfl rfl]
      simp [tableRows, tableGroups]

/-- Two cells before the first `tr`, then a row of two cells, then an empty row. -/
example : ([.td c!"a", .th c!"b", .tr, .td c!"c", .td c!"d", .tr].foldl tableStep { headPrefix := c!"= " }).rows
    = [[c!"a", c!"= b"], [c!"c", c!"d"], []] := by decide

/-! ## Widths -/

/-- a row has a cell for every width, and it fits -/
def Fits : List Nat → List Str → Prop
  | [], _ => True
  | w :: ws, c :: cs => c.length ≤ w ∧ Fits ws cs
  | _ :: _, [] => False

theorem Fits.zip {ws : List Nat} {row : List Str} (h : Fits ws row) (other : List Nat) :
    Fits (List.zipWith max other ws) row := by
  induction ws generalizing row other with
  | nil => cases other <;> simp [Fits]
  | cons w ws ih =>
    cases row with
    | nil => exact h.elim
    | cons c cs =>
      cases other with
      | nil => simp [Fits]
      | cons o os =>
        rw [List.zipWith_cons_cons]
        exact ⟨by have := h.1; omega, ih h.2 os⟩

theorem fits_own (row : List Str) (ws : List Nat) : Fits (List.zipWith max (row.map List.length) ws) row := by
  induction row generalizing ws with
  | nil => simp [Fits]
  | cons c cs ih =>
    cases ws with
    | nil => simp [Fits]
    | cons w ws =>
      rw [List.map_cons, List.zipWith_cons_cons]
      exact ⟨by omega, ih ws⟩

theorem columns_cons (r r' : List Str) (rs : List (List Str)) :
    (columns (r :: r' :: rs)).map maxLen = List.zipWith max (r.map List.length) ((columns (r' :: rs)).map maxLen) := by
  rw [columns]
  generalize columns (r' :: rs) = cs
  induction r generalizing cs with
  | nil => simp
  | cons c r ih =>
    cases cs with
    | nil => simp
    | cons d cs => simp [ih, maxLen]

theorem columns_fits : ∀ {rows : List (List Str)}, ∀ row ∈ rows, Fits ((columns rows).map maxLen) row
  | [], _, h => by cases h
  | [r], row, h => by
    rw [List.mem_singleton] at h
    subst h
    have : (columns [row]).map maxLen = List.zipWith max (row.map List.length) (row.map List.length) := by
      rw [columns]
      induction row with
      | nil => rfl
      | cons c row ih => simp [ih, maxLen]
    rw [this]
    exact fits_own _ _
  | r :: r' :: rs, row, h => by
    rw [columns_cons]
    rcases List.mem_cons.mp h with h | h
    · subst h; exact fits_own _ _
    · exact (columns_fits row h).zip _

theorem exists_shortest (r : List Str) (rs : List (List Str)) : ∃ m, ShortestRow m (r :: rs) := by
  induction rs generalizing r with
  | nil => exact ⟨r.length, by simp, r, by simp, rfl⟩
  | cons q rs ih =>
    obtain ⟨m, hm1, y, hy, hy'⟩ := ih q
    by_cases hle : r.length ≤ m
    · refine ⟨r.length, ?_, r, by simp, rfl⟩
      intro z hz
      rcases List.mem_cons.mp hz with hz | hz
      · rw [hz]; exact Nat.le_refl _
      · exact Nat.le_trans hle (hm1 z hz)
    · refine ⟨m, ?_, y, List.mem_cons_of_mem _ hy, hy'⟩
      intro z hz
      rcases List.mem_cons.mp hz with hz | hz
      · rw [hz]; omega
      · exact hm1 z hz

theorem columns_length : ∀ {rows : List (List Str)} {n : Nat}, ShortestRow n rows → (columns rows).length = n
  | [], _, h => by obtain ⟨_, _, h, _⟩ := h; cases h
  | [r], n, h => by
    obtain ⟨_, r', hr, h⟩ := h
    rw [List.mem_singleton] at hr
    rw [columns, List.length_map, ← hr, h]
  | r :: r' :: rs, n, ⟨h1, x, hx, hx'⟩ => by
    rw [columns, List.length_zipWith]
    have hr := h1 r List.mem_cons_self
    rcases List.mem_cons.mp hx with hx | hx
    · subst hx
      have key : n ≤ (columns (r' :: rs)).length := by
        obtain ⟨m, hm⟩ := exists_shortest r' rs
        rw [columns_length hm]
        obtain ⟨hm1, y, hy, hy'⟩ := hm
        rw [← hy']
        exact h1 y (List.mem_cons_of_mem _ hy)
      omega
    · have := columns_length (n := n) (rows := r' :: rs) ⟨fun y hy => h1 y (List.mem_cons_of_mem _ hy), x, hx, hx'⟩
      omega

theorem padRow_length {ws : List Nat} {row : List Str} (h : Fits ws row) : (padRow ws row).map List.length = ws := by
  rw [padRow]
  induction ws generalizing row with
  | nil => simp
  | cons w ws ih =>
    cases row with
    | nil => exact h.elim
    | cons c cs =>
      rw [List.zipWith_cons_cons, List.map_cons, ih h.2, ljust, List.length_append, List.length_replicate]
      have := h.1
      congr 1
      omega

theorem spaces {n : Nat} : ∀ c ∈ List.replicate n ' ', isSpace c = true := by
  intro c hc
  rw [(List.mem_replicate.mp hc).2]
  rfl

theorem strip_nil : strip [] = [] := rfl

theorem strip_ljust (p cell : Str) (w : Nat) : strip (ljust (preformatCell p cell) w) = strip cell := by
  rw [ljust]
  have h0 : ∀ s : Str, strip (s ++ List.replicate (w - s.length) ' ') = strip s := fun s => by
    have := strip_pad (w := []) (w' := List.replicate (w - s.length) ' ') (by simp) spaces s
    simpa using this
  rw [h0, preformatCell]
  split
  · next h => rw [h]; rfl
  · split
    · have := strip_pad (w := []) (w' := c!" ") (by simp) (by simp; rfl) (strip cell)
      rw [List.nil_append] at this
      rw [this, strip_strip]
    · have := strip_pad (w := c!" ") (w' := c!" ") (by simp; rfl) (by simp; rfl) (strip cell)
      rw [List.singleton_append] at this
      rw [this, strip_strip]

theorem padRow_strip (p : Str) {ws : List Nat} {row : List Str} (h : Fits ws (row.map (preformatCell p))) :
    (padRow ws (row.map (preformatCell p))).map strip = (row.take ws.length).map strip := by
  rw [padRow]
  induction ws generalizing row with
  | nil => simp
  | cons w ws ih =>
    cases row with
    | nil => exact h.elim
    | cons c cs =>
      rw [List.map_cons, List.zipWith_cons_cons, List.map_cons, ih h.2, strip_ljust]
      rfl

theorem newline_preformatCell {p cell : Str} (h : '\n' ∉ cell) : '\n' ∉ preformatCell p cell := by
  have hs : '\n' ∉ strip cell := fun hc => h ((strip_sublist cell).subset hc)
  rw [preformatCell]
  split
  · simp
  · split
    · simp [hs]
    · simp [hs]

theorem newline_padRow {ws : List Nat} {row : List Str} (h : ∀ c ∈ row, '\n' ∉ c) : ∀ c ∈ padRow ws row, '\n' ∉ c := by
  rw [padRow]
  induction row generalizing ws with
  | nil => intro c hc; simp at hc
  | cons d row ih =>
    intro c hc
    cases ws with
    | nil => simp at hc
    | cons w ws =>
      rw [List.zipWith_cons_cons] at hc
      rcases List.mem_cons.mp hc with hc | hc
      · rw [hc, ljust]
        simp [h d List.mem_cons_self]
      · exact ih (fun x hx => h x (List.mem_cons_of_mem _ hx)) c hc

theorem newline_tableLine {cells : List Str} (h : ∀ c ∈ cells, '\n' ∉ c) : '\n' ∉ tableLine cells := by
  have := join_not_mem (sep := c!"|") (c := '\n') (by decide) h
  simp [tableLine, this]

/-! ## C38, C39 -/

/-- every table whose widths are computed: the padded cells -/
theorem padded_cells (t : Table) {n : Nat} (hn : ShortestRow n t.rows) :
    ∃ cells : List (List Str), ∃ ws : List Nat, t.preformat.2 = ws ∧ ws.length = n ∧
      (t.preformat.1.map (padRow ws)) = cells ∧
      cells.map (List.map strip) = t.rows.map (fun row => (row.take n).map strip) ∧
      (∀ row ∈ cells, row.map List.length = ws) ∧
      ((∀ row ∈ t.rows, ∀ c ∈ row, '\n' ∉ c) → ∀ row ∈ cells, ∀ c ∈ row, '\n' ∉ c) := by
  have hs : ShortestRow n (t.rows.map fun row => row.map (preformatCell t.headPrefix)) := by
    obtain ⟨h1, r, hr, hr'⟩ := hn
    constructor
    · intro row hrow
      obtain ⟨r0, hr0, rfl⟩ := List.mem_map.mp hrow
      rw [List.length_map]
      exact h1 r0 hr0
    · exact ⟨_, List.mem_map_of_mem hr, by rw [List.length_map, hr']⟩
  refine ⟨_, _, rfl, ?_, rfl, ?_, ?_, ?_⟩
  · simp only [Table.preformat]
    rw [List.length_map, columns_length hs]
  · simp only [Table.preformat]
    rw [List.map_map, List.map_map]
    refine List.map_congr_left fun row hrow => ?_
    simp only [Function.comp_apply]
    rw [padRow_strip _ (columns_fits _ (List.mem_map_of_mem hrow)), List.length_map, columns_length hs]
  · intro row hrow
    simp only [Table.preformat] at hrow ⊢
    obtain ⟨r, hr, rfl⟩ := List.mem_map.mp hrow
    exact padRow_length (columns_fits r hr)
  · intro h row hrow
    simp only [Table.preformat] at hrow
    obtain ⟨r, hr, rfl⟩ := List.mem_map.mp hrow
    obtain ⟨r0, hr0, rfl⟩ := List.mem_map.mp hr
    refine newline_padRow ?_
    intro c hc
    obtain ⟨c0, hc0, rfl⟩ := List.mem_map.mp hc
    exact newline_preformatCell (h r0 hr0 c0 hc0)

theorem barLine_eq (cells : List Str) : barLine cells = tableLine cells := rfl

theorem tableLine_length {a b : List Str} (h : a.map List.length = b.map List.length) :
    (tableLine a).length = (tableLine b).length := by
  simp only [tableLine, List.length_append]
  rw [join_length _ h]

/-- The lines of a creole table: one per row; `n` cells each, where `n` is the length of a shortest row; up to blanks
they are the first `n` cells of the row; all lines have the same length. -/
theorem creole_lines (t : Table) (ha : t.autoWidth = true) {n : Nat} (hn : ShortestRow n t.rows) :
    ∃ cells : List (List Str), t.markup = join c!"\n" (cells.map tableLine) ∧
      cells.map (List.map strip) = t.rows.map (fun row => (row.take n).map strip) ∧
      (∃ len, ∀ line ∈ cells.map tableLine, line.length = len) ∧
      ((∀ row ∈ t.rows, ∀ c ∈ row, '\n' ∉ c) → splitChar '\n' t.markup = cells.map tableLine) := by
  obtain ⟨cells, ws, h1, h2, h3, h4, h5, h6⟩ := padded_cells t hn
  have hm : t.markup = join c!"\n" (cells.map tableLine) := by
    rw [Table.markup, if_neg (by simp [ha])]
    simp only [← h3, ← h1, List.map_map]
    rfl
  have hne : cells ≠ [] := by
    intro h0
    obtain ⟨_, r, hr, _⟩ := hn
    rw [h0] at h4
    rw [List.map_nil, eq_comm, List.map_eq_nil_iff] at h4
    rw [h4] at hr
    cases hr
  refine ⟨cells, hm, h4, ?_, ?_⟩
  · refine ⟨(tableLine (ws.map fun w => List.replicate w ' ')).length, ?_⟩
    intro line hline
    obtain ⟨row, hrow, rfl⟩ := List.mem_map.mp hline
    refine tableLine_length ?_
    rw [h5 row hrow, List.map_map]
    simp [Function.comp_def]
  · intro hnl
    rw [hm]
    refine splitChar_join (by simpa using hne) ?_
    intro line hline
    obtain ⟨row, hrow, rfl⟩ := List.mem_map.mp hline
    exact newline_tableLine (h6 hnl row hrow)

theorem plusLine_border (c : Char) (ws : List Nat) : BorderLine c (plusLine c ws) := by
  refine ⟨rfl, by rw [plusLine]; exact List.getLast?_concat, ?_⟩
  have hj : ∀ ws : List Nat, ∀ x ∈ join c!"+" (ws.map fun w => List.replicate w c), x = '+' ∨ x = c := by
    intro ws
    induction ws with
    | nil => intro x hx; cases hx
    | cons w ws ih =>
      intro x hx
      cases ws with
      | nil =>
        simp only [List.map_cons, List.map_nil, join, List.mem_replicate] at hx
        exact .inr hx.2
      | cons w' ws =>
        rw [List.map_cons, List.map_cons, join_cons_cons, List.mem_append, List.mem_append] at hx
        rcases hx with (hx | hx) | hx
        · exact .inr (List.mem_replicate.mp hx).2
        · exact .inl (by simpa using hx)
        · exact ih x hx
  intro x hx
  simp only [plusLine, List.cons_append, List.mem_cons, List.mem_append, List.not_mem_nil, or_false] at hx
  rcases hx with hx | hx | hx
  · exact .inl hx
  · exact hj ws x hx
  · exact .inl hx

theorem restLines_eq (hh : Bool) (ws : List Nat) (rows : List (List Str)) : ∀ no : Nat,
    ∃ borders : List Str, restLines hh ws no rows = interleave borders (rows.map fun r => tableLine (padRow ws r)) ∧
      borders.length = rows.length + 1 ∧
      ∀ k, (hk : k < borders.length) →
        borders[k] = plusLine (if k + no = 1 ∧ hh = true ∧ k < rows.length then '=' else '-') ws := by
  induction rows with
  | nil =>
    intro no
    refine ⟨[plusLine '-' ws], rfl, rfl, ?_⟩
    intro k hk
    simp only [List.length_singleton, Nat.lt_one_iff] at hk
    subst hk
    simp
  | cons row rows ih =>
    intro no
    obtain ⟨borders, h1, h2, h3⟩ := ih (no + 1)
    refine ⟨(if no = 1 && hh then plusLine '=' ws else plusLine '-' ws) :: borders, ?_, by simp [h2], ?_⟩
    · rw [restLines, h1]; rfl
    · intro k hk
      cases k with
      | zero =>
        simp only [List.getElem_cons_zero, Nat.zero_add, List.length_cons, Nat.zero_lt_succ, and_true, Bool.and_eq_true,
          decide_eq_true_eq]
        split <;> rfl
      | succ k =>
        rw [List.getElem_cons_succ, h3 k (by simpa using hk)]
        congr 1
        have : (k + (no + 1) = 1 ∧ hh = true ∧ k < rows.length) = (k + 1 + no = 1 ∧ hh = true ∧ k + 1 < (row :: rows).length) := by
          simp only [List.length_cons, Nat.add_lt_add_iff_right]
          congr 1
          exact propext ⟨fun h => by omega, fun h => by omega⟩
        simp only [this]

theorem mem_interleave {x : Str} : ∀ {bs rs : List Str}, x ∈ interleave bs rs → x ∈ bs ∨ x ∈ rs
  | b :: bs, r :: rs, h => by
    rw [interleave] at h
    rcases List.mem_cons.mp h with h | h
    · subst h; exact .inl List.mem_cons_self
    · rcases List.mem_cons.mp h with h | h
      · subst h; exact .inr List.mem_cons_self
      · rcases mem_interleave h with h | h
        · exact .inl (List.mem_cons_of_mem _ h)
        · exact .inr (List.mem_cons_of_mem _ h)
  | [], [], h => by simp [interleave] at h
  | b :: bs, [], h => .inl (by simpa [interleave] using h)
  | [], r :: rs, h => .inr (by simpa [interleave] using h)

/-- The lines of a ReSt table: a border, a row, a border, ..., a border.  The border after the first row is made of `=`
if there is a header and a second row, all others of `-`. -/
theorem rest_lines (t : Table) {n : Nat} (hn : ShortestRow n t.rows) :
    ∃ (cells : List (List Str)) (borders : List Str),
      t.rest = join c!"\n" (interleave borders (cells.map tableLine)) ∧
      borders.length = t.rows.length + 1 ∧
      (∀ k, (hk : k < borders.length) →
        BorderLine (if k = 1 ∧ t.hasHeader = true ∧ k < t.rows.length then '=' else '-') borders[k]) ∧
      cells.map (List.map strip) = t.rows.map (fun row => (row.take n).map strip) ∧
      (∃ len, ∀ line ∈ interleave borders (cells.map tableLine), line.length = len) ∧
      ((∀ row ∈ t.rows, ∀ c ∈ row, '\n' ∉ c) → splitChar '\n' t.rest = interleave borders (cells.map tableLine)) := by
  obtain ⟨cells, ws, h1, h2, h3, h4, h5, h6⟩ := padded_cells t hn
  obtain ⟨borders, hb1, hb2, hb3⟩ := restLines_eq t.hasHeader ws t.preformat.1 0
  have hlen : t.preformat.1.length = t.rows.length := by simp [Table.preformat]
  rw [hlen] at hb2 hb3
  have hcells : (t.preformat.1.map fun r => tableLine (padRow ws r)) = cells.map tableLine := by
    rw [← h3, List.map_map]; rfl
  have hm : t.rest = join c!"\n" (interleave borders (cells.map tableLine)) := by
    rw [← hcells, ← hb1, ← h1]; rfl
  have hbne : interleave borders (cells.map tableLine) ≠ [] := by
    cases borders with
    | nil => simp at hb2
    | cons b bs => cases cells <;> simp [interleave]
  refine ⟨cells, borders, hm, hb2, ?_, h4, ?_, ?_⟩
  · intro k hk
    rw [hb3 k hk]
    exact plusLine_border _ _
  · refine ⟨(tableLine (ws.map fun w => List.replicate w ' ')).length, ?_⟩
    intro line hline
    rcases mem_interleave hline with hline | hline
    · obtain ⟨k, hk, rfl⟩ := List.getElem_of_mem hline
      rw [hb3 k hk]
      have : ∀ c : Char, (plusLine c ws).length = (tableLine (ws.map fun w => List.replicate w ' ')).length := by
        intro c
        simp only [plusLine, tableLine, List.length_append, List.length_cons]
        have : (join c!"+" (ws.map fun w => List.replicate w c)).length = (join c!"|" (ws.map fun w => List.replicate w ' ')).length := by
          clear h1 h2 h3 h5 h6 hb1 hb3 hcells
          induction ws with
          | nil => rfl
          | cons w ws ih =>
            cases ws with
            | nil => simp [join]
            | cons w' ws =>
              simp only [List.map_cons, join_cons_cons, List.length_append, List.length_replicate] at ih ⊢
              rw [ih]; rfl
        rw [this]
        simp only [List.length_nil]
        omega
      exact this _
    · obtain ⟨row, hrow, rfl⟩ := List.mem_map.mp hline
      refine tableLine_length ?_
      rw [h5 row hrow, List.map_map]
      simp [Function.comp_def]
  · intro hnl
    rw [hm]
    refine splitChar_join hbne ?_
    intro line hline
    rcases mem_interleave hline with hline | hline
    · obtain ⟨k, hk, rfl⟩ := List.getElem_of_mem hline
      rw [hb3 k hk]
      intro hc
      rcases (plusLine_border _ ws).2.2 _ hc with h | h
      · exact absurd h (by decide)
      · split at h <;> exact absurd h (by decide)
    · obtain ⟨row, hrow, rfl⟩ := List.mem_map.mp hline
      exact newline_tableLine (h6 hnl row hrow)

/-- **C38, creole.**  A rectangular table with computed widths is rendered as one line per row, all lines of the same
length; the line of a row contains the cells of the row in order, surrounded by blanks only.
If no cell contains a line end, the lines of the text are exactly these. -/
theorem C38_creole_table (t : Table) (ha : t.autoWidth = true) {n : Nat} (hne : t.rows ≠ [])
    (hn : ∀ row ∈ t.rows, row.length = n) :
    ∃ cells : List (List Str), t.markup = join c!"\n" (cells.map tableLine) ∧
      cells.map (List.map strip) = t.rows.map (List.map strip) ∧
      (∃ len, ∀ line ∈ cells.map tableLine, line.length = len) ∧
      ((∀ row ∈ t.rows, ∀ c ∈ row, '\n' ∉ c) → splitChar '\n' t.markup = cells.map tableLine) := by
  obtain ⟨cells, h1, h2, h3⟩ := creole_lines t ha (n := n) ⟨fun row h => Nat.le_of_eq (hn row h).symm, by
    obtain ⟨r, hr⟩ := List.exists_mem_of_ne_nil _ hne
    exact ⟨r, hr, hn r hr⟩⟩
  refine ⟨cells, h1, ?_, h3⟩
  rw [h2]
  refine List.map_congr_left fun row hrow => ?_
  rw [← hn row hrow, List.take_length]

/-- **C38, ReSt.**  The same with border lines around the rows; the one after the first row is made of `=` iff there is a
header cell (and a second row). -/
theorem C38_rest_table (t : Table) {n : Nat} (hne : t.rows ≠ []) (hn : ∀ row ∈ t.rows, row.length = n) :
    ∃ (cells : List (List Str)) (borders : List Str),
      t.rest = join c!"\n" (interleave borders (cells.map tableLine)) ∧
      borders.length = t.rows.length + 1 ∧
      (∀ k, (hk : k < borders.length) →
        BorderLine (if k = 1 ∧ t.hasHeader = true ∧ k < t.rows.length then '=' else '-') borders[k]) ∧
      cells.map (List.map strip) = t.rows.map (List.map strip) ∧
      (∃ len, ∀ line ∈ interleave borders (cells.map tableLine), line.length = len) ∧
      ((∀ row ∈ t.rows, ∀ c ∈ row, '\n' ∉ c) → splitChar '\n' t.rest = interleave borders (cells.map tableLine)) := by
  obtain ⟨cells, borders, h1, hb, hb', h2, h3⟩ := rest_lines t (n := n) ⟨fun row h => Nat.le_of_eq (hn row h).symm, by
    obtain ⟨r, hr⟩ := List.exists_mem_of_ne_nil _ hne
    exact ⟨r, hr, hn r hr⟩⟩
  refine ⟨cells, borders, h1, hb, hb', ?_, h3⟩
  rw [h2]
  refine List.map_congr_left fun row hrow => ?_
  rw [← hn row hrow, List.take_length]

/-- A table of two rows and two columns. -/
example : ({ headPrefix := c!"= ", rows := [[c!"= a", c!"= longer"], [c!"b", c!" c "]] } : Table).markup
    = c!"|= a |= longer |\n| b  | c       |" := by decide +kernel
example : ({ headPrefix := [], rows := [[c!"a", c!"longer"], [c!"b", c!" c "]], hasHeader := true } : Table).rest
    = c!"+---+--------+\n| a | longer |\n+===+========+\n| b | c      |\n+---+--------+" := by decide +kernel

/-- **C39.**  When the rows differ in length, every line of the creole and of the ReSt table has as many cells as a
shortest row: all further cells are dropped, the others are kept in order. -/
theorem C39_ragged_rows_truncated (t : Table) {n : Nat} (hn : ShortestRow n t.rows) :
    (t.autoWidth = true → ∃ cells : List (List Str), t.markup = join c!"\n" (cells.map tableLine) ∧
      cells.map (List.map strip) = t.rows.map (fun row => (row.map strip).take n)) ∧
    ∃ (cells : List (List Str)) (borders : List Str),
      t.rest = join c!"\n" (interleave borders (cells.map tableLine)) ∧ borders.length = t.rows.length + 1 ∧
      cells.map (List.map strip) = t.rows.map (fun row => (row.map strip).take n) := by
  have e : t.rows.map (fun row => (row.take n).map strip) = t.rows.map (fun row => (row.map strip).take n) :=
    List.map_congr_left fun row _ => List.map_take
  constructor
  · intro ha
    obtain ⟨cells, h1, h2, _, _⟩ := creole_lines t ha hn
    exact ⟨cells, h1, by rw [h2, e]⟩
  · obtain ⟨cells, borders, h1, hb, _, h2, _, _⟩ := rest_lines t hn
    exact ⟨cells, borders, h1, hb, by rw [h2, e]⟩

/-- **C39, witness.**  The cell `lost` of the second row is in neither table. -/
theorem C39_cell_lost :
    ({ headPrefix := c!"= ", rows := [[c!"a"], [c!"b", c!"lost"]] } : Table).markup = c!"| a |\n| b |" ∧
    ({ headPrefix := [], rows := [[c!"a"], [c!"b", c!"lost"]] } : Table).rest = c!"+---+\n| a |\n+---+\n| b |\n+---+" := by
  decide +kernel

example : ShortestRow 1 [[c!"a"], [c!"b", c!"lost"]] := by
  constructor
  · decide
  · exact ⟨[c!"a"], by simp, rfl⟩

end Verif.Props
