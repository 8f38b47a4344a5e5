import Verif.Props.Table

/-!
# C38 for markdown tables
-/

namespace Verif.Props

open Verif Py Emit Spec

/-- the lines of the rows of a markdown table, with the separator `sep` after the first one if there is a header -/
def withSeparator (header : Bool) (sep : Str) : List Str → List Str
  | first :: second :: rest => if header then first :: sep :: second :: rest else first :: second :: rest
  | lines => lines

/-- the separator of a markdown table -/
theorem mdLines_late (hh : Bool) (ws : List Nat) (rows : List (List Str)) : ∀ no, 2 ≤ no →
    mdLines hh ws no rows = rows.map fun r => tableLine (padRow ws r) := by
  induction rows with
  | nil => intro _ _; rfl
  | cons row rows ih =>
    intro no h
    rw [mdLines, ih (no + 1) (by omega), if_neg (by simp; omega)]
    rfl

theorem mdLines_separator (hh : Bool) (ws : List Nat) (rows : List (List Str)) :
    mdLines hh ws 0 rows = withSeparator hh (c!"| " ++ join c!" | " (ws.map fun w => List.replicate (w - 2) '-') ++ c!" |")
      (rows.map fun r => tableLine (padRow ws r)) := by
  match rows with
  | [] => rfl
  | [row] => rfl
  | row :: row' :: rows =>
    rw [mdLines, if_neg (by simp), mdLines, mdLines_late hh ws rows (0 + 1 + 1) (by omega)]
    cases hh <;> rfl

theorem separator_length (ws : List Nat) (hne : ws ≠ []) (h : ∀ w ∈ ws, 2 ≤ w) :
    (c!"| " ++ join c!" | " (ws.map fun w => List.replicate (w - 2) '-') ++ c!" |").length =
      (tableLine (ws.map fun w => List.replicate w ' ')).length := by
  have : (join c!" | " (ws.map fun w => List.replicate (w - 2) '-')).length + 2 = (join c!"|" (ws.map fun w => List.replicate w ' ')).length := by
    induction ws with
    | nil => exact absurd rfl hne
    | cons w ws ih =>
      have hw := h w (by simp)
      cases ws with
      | nil => simp [join]; omega
      | cons w' ws =>
        have := ih (by simp) fun w hw => h w (by simp [hw])
        simp only [List.map_cons, join_cons_cons, List.length_append, List.length_replicate, List.length_cons, List.length_nil] at this ⊢
        omega
  simp only [tableLine, List.length_append, List.length_cons, List.length_nil] at this ⊢
  omega

theorem separator_chars (ws : List Nat) :
    ∀ x ∈ c!"| " ++ join c!" | " (ws.map fun w => List.replicate (w - 2) '-') ++ c!" |", x = '|' ∨ x = ' ' ∨ x = '-' := by
  have : ∀ x ∈ join c!" | " (ws.map fun w => List.replicate (w - 2) '-'), x = '|' ∨ x = ' ' ∨ x = '-' := by
    induction ws with
    | nil => intro x hx; cases hx
    | cons w ws ih =>
      intro x hx
      cases ws with
      | nil =>
        simp only [List.map_cons, List.map_nil, join, List.mem_replicate] at hx
        exact .inr (.inr hx.2)
      | cons w' ws =>
        rw [List.map_cons, List.map_cons, join_cons_cons, List.mem_append, List.mem_append] at hx
        rcases hx with (hx | hx) | hx
        · exact .inr (.inr (List.mem_replicate.mp hx).2)
        · simp only [List.mem_cons, List.not_mem_nil, or_false] at hx
          rcases hx with rfl | rfl | rfl <;> simp
        · exact ih x hx
  intro x hx
  rcases List.mem_append.mp hx with hx | hx
  · rcases List.mem_append.mp hx with hx | hx
    · simp only [List.mem_cons, List.not_mem_nil, or_false] at hx
      rcases hx with rfl | rfl <;> simp
    · exact this x hx
  · simp only [List.mem_cons, List.not_mem_nil, or_false] at hx
    rcases hx with rfl | rfl <;> simp

theorem preformatCell_length {p c : Str} (h : strip c ≠ []) : 2 ≤ (preformatCell p c).length := by
  unfold preformatCell
  dsimp only
  rw [if_neg h]
  have : 1 ≤ (strip c).length := List.length_pos_iff.mpr h
  split
  · simp only [List.length_append, List.length_cons, List.length_nil]; omega
  · simp only [List.length_append, List.length_cons, List.length_nil]; omega

theorem mem_withSeparator {hh : Bool} {sep x : Str} {ls : List Str} (h : x ∈ withSeparator hh sep ls) : x = sep ∨ x ∈ ls := by
  unfold withSeparator at h
  split at h
  · split at h
    · simp only [List.mem_cons] at h ⊢
      rcases h with h | h | h | h
      · exact .inr (.inl h)
      · exact .inl h
      · exact .inr (.inr (.inl h))
      · exact .inr (.inr (.inr h))
    · exact .inr h
  · exact .inr h

/-- **C38, markdown.**  A rectangular table is rendered as one line per row, with a separator of dashes after the first row if there
is a header cell (and a second row). The lines of the rows contain the cells in order, surrounded by blanks only, and have the same
length; so has the separator, if there is a column and no column is empty. -/
theorem C38_markdown_table (t : Table) {n : Nat} (hne : t.rows ≠ []) (hn : ∀ row ∈ t.rows, row.length = n) :
    ∃ (cells : List (List Str)) (sep : Str),
      t.markdown = join c!"\n" (withSeparator t.hasHeader sep (cells.map tableLine)) ∧
      cells.map (List.map strip) = t.rows.map (List.map strip) ∧
      (∀ x ∈ sep, x = '|' ∨ x = ' ' ∨ x = '-') ∧
      (∃ len, (∀ line ∈ cells.map tableLine, line.length = len) ∧
        (0 < n → (∀ k, k < n → ∃ row ∈ t.rows, ∃ c, row[k]? = some c ∧ strip c ≠ []) → sep.length = len)) ∧
      ((∀ row ∈ t.rows, ∀ c ∈ row, '\n' ∉ c) → splitChar '\n' t.markdown = withSeparator t.hasHeader sep (cells.map tableLine)) := by
  obtain ⟨cells, ws, h1, h2, h3, h4, h5, h6⟩ := padded_cells t (n := n) ⟨fun row h => Nat.le_of_eq (hn row h).symm, by
    obtain ⟨r, hr⟩ := List.exists_mem_of_ne_nil _ hne
    exact ⟨r, hr, hn r hr⟩⟩
  have hm : t.markdown = join c!"\n" (withSeparator t.hasHeader
      (c!"| " ++ join c!" | " (ws.map fun w => List.replicate (w - 2) '-') ++ c!" |") (cells.map tableLine)) := by
    have : cells.map tableLine = t.preformat.1.map fun r => tableLine (padRow ws r) := by
      rw [← h3, List.map_map]; rfl
    rw [this, ← mdLines_separator, ← h1]; rfl
  have h4' : cells.map (List.map strip) = t.rows.map (List.map strip) := by
    rw [h4]
    refine List.map_congr_left fun row hrow => ?_
    rw [← hn row hrow, List.take_length]
  refine ⟨cells, _, hm, h4', separator_chars ws, ⟨(tableLine (ws.map fun w => List.replicate w ' ')).length, ?_, ?_⟩, ?_⟩
  · intro line hline
    obtain ⟨row, hrow, rfl⟩ := List.mem_map.mp hline
    refine tableLine_length ?_
    rw [h5 row hrow, List.map_map]
    simp [Function.comp_def]
  · intro hpos hcol
    refine separator_length ws (by rintro rfl; simp at h2; omega) ?_
    intro w hw
    obtain ⟨k, hk, rfl⟩ := List.getElem_of_mem hw
    obtain ⟨row, hrow, c, hc, hs⟩ := hcol k (by omega)
    have hmem : padRow ws (row.map (preformatCell t.headPrefix)) ∈ cells := by
      rw [← h3]
      exact List.mem_map_of_mem (List.mem_map_of_mem hrow)
    have hl := h5 _ hmem
    have hk' : k < row.length := by rw [hn row hrow]; omega
    have e : ((padRow ws (row.map (preformatCell t.headPrefix))).map List.length)[k]? = some (ljust (preformatCell t.headPrefix c) ws[k]).length := by
      rw [List.getElem?_map, padRow, List.getElem?_zipWith, List.getElem?_map, hc, List.getElem?_eq_getElem hk]
      rfl
    rw [hl, List.getElem?_eq_getElem hk] at e
    have e := Option.some.inj e
    have h2 := preformatCell_length (p := t.headPrefix) hs
    have : (preformatCell t.headPrefix c).length ≤ (ljust (preformatCell t.headPrefix c) ws[k]).length := by
      rw [ljust, List.length_append]; exact Nat.le_add_right _ _
    omega
  · intro hnl
    rw [hm]
    refine splitChar_join ?_ ?_
    · have : cells.map tableLine ≠ [] := by
        intro h
        rw [List.map_eq_nil_iff] at h
        rw [h, List.map_nil, eq_comm, List.map_eq_nil_iff] at h4'
        exact hne h4'
      unfold withSeparator
      split
      · split <;> simp
      · exact this
    · intro line hline
      rcases mem_withSeparator hline with rfl | hline
      · intro hc
        rcases separator_chars ws _ hc with h | h | h <;> exact absurd h (by decide)
      · obtain ⟨row, hrow, rfl⟩ := List.mem_map.mp hline
        exact newline_tableLine (h6 hnl row hrow)

example : ({ headPrefix := [], rows := [[c!"a", c!"longer"], [c!"b", c!" c "]], hasHeader := true } : Table).markdown
    = c!"| a | longer |\n| - | ------ |\n| b | c      |" := by decide +kernel

/-- **C38, witness.** In a column without any text the separator is longer than the rows. -/
theorem C38_markdown_empty_column :
    ({ headPrefix := [], rows := [[c!"a", c!""], [c!"b", c!""]], hasHeader := true } : Table).markdown
      = c!"| a ||\n| - |  |\n| b ||" := by decide +kernel

end Verif.Props
