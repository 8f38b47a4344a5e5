import Verif.Emit.BackWritten

/-!
# Documents that come back as they were written
-/

namespace Verif.Emit

open Verif Py Html Spec Spec.Hd Spec.Rt Props

mutual
theorem inl_stable : ∀ (i : Cr.Inl) (br : Str), Rt.Inl.stable i = true → (Rt.Inl.noBreak i = true ∨ br = c!"\\\\") → inlBack br i = i.print
  | .chr c, br, _, _ => by rw [inlBack, Cr.Inl.print]
  | .esc c, br, h, _ => by simp [Rt.Inl.stable] at h
  | .face f l, br, h, h' => by
    rw [Rt.Inl.stable] at h
    rw [Rt.Inl.noBreak] at h'
    rw [inlBack, Cr.Inl.print, inls_stable l br h h']
  | .link t [], br, _, _ => by
    rw [inlBack, Cr.Inl.print, linkText, if_pos rfl]
  | .link t (i :: l), br, h, h' => by
    simp only [Rt.Inl.stable, Bool.and_eq_true, bne_iff_ne] at h
    rw [Rt.Inl.noBreak, noBreaks, Bool.and_eq_true] at h'
    rw [inlBack, Cr.Inl.print, inl_stable i br h.1.1 (h'.imp And.left id), inls_stable l br h.1.2 (h'.imp And.right id), linkText,
      if_neg (by have := h.2; rwa [Cr.prints] at this)]
  | .image t [], br, h, _ => by simp [Rt.Inl.stable] at h
  | .image t (c :: s), br, h, _ => by
    simp only [Rt.Inl.stable, Bool.and_eq_true, Bool.not_eq_true', decide_eq_false_iff_not] at h
    rw [inlBack, Cr.Inl.print, imageText, if_neg h.2, List.append_nil]
  | .sized t s w y, br, h, _ => by
    simp only [Rt.Inl.stable, Bool.and_eq_true, Bool.not_eq_true', decide_eq_false_iff_not, beq_iff_eq] at h
    rw [inlBack, Cr.Inl.print, imageText, if_neg h.2, h.1.2]
    simp
  | .nowiki s, br, h, _ => by simp [Rt.Inl.stable] at h
  | .br, br, _, h => by
    rw [inlBack, Cr.Inl.print]
    rcases h with h | h
    · simp [Rt.Inl.noBreak] at h
    · exact h
  | .url s, br, h, _ => by simp [Rt.Inl.stable] at h
  | .escUrl s, br, h, _ => by simp [Rt.Inl.stable] at h
  | .mac _ _, br, h, _ => by simp [Rt.Inl.stable] at h
  | .macText _ _ _, br, h, _ => by simp [Rt.Inl.stable] at h
theorem inls_stable : ∀ (l : List Cr.Inl) (br : Str), stables l = true → (noBreaks l = true ∨ br = c!"\\\\") → inlsBack br l = Cr.prints l
  | [], br, _, _ => by rw [inlsBack, Cr.prints]
  | i :: l, br, h, h' => by
    rw [stables, Bool.and_eq_true] at h
    rw [noBreaks, Bool.and_eq_true] at h'
    rw [inlsBack, Cr.prints, inl_stable i br h.1 (h'.imp And.left id), inls_stable l br h.2 (h'.imp And.right id)]
end

theorem branchesItems_append (k : Cr.Mark) (b : Cr.Branch) (l : List Cr.Branch) :
    Cr.branchesItems k (b :: l) = b.items k ++ Cr.branchesItems k l := by rw [Cr.branchesItems]

mutual
theorem branch_stable : ∀ (b : Cr.Branch) (m : Str) (k : Cr.Mark), branchStable (m ++ [k.char]) b = true →
    branchBack (m ++ [k.char]) b = (b.items k).map Cr.Item.line
  | .mk pre text kind sub, m, k, h => by
    simp only [branchStable, Bool.and_eq_true, beq_iff_eq, List.dropLast_concat] at h
    obtain ⟨⟨h1, h2⟩, h3⟩ := h
    rw [branchBack, Cr.Branch.items, inls_stable text _ h2 (.inr rfl), branches_stable sub (m ++ [k.char]) kind h3, List.map_cons, Cr.Item.line, h1]
    simp
theorem branches_stable : ∀ (bs : List Cr.Branch) (m : Str) (k : Cr.Mark), branchesStable (m ++ [k.char]) bs = true →
    branchesBack (m ++ [k.char]) bs = (Cr.branchesItems k bs).map Cr.Item.line
  | [], m, k, _ => by rw [branchesBack, Cr.branchesItems]; rfl
  | b :: bs, m, k, h => by
    rw [branchesStable, Bool.and_eq_true] at h
    rw [branchesBack, Cr.branchesItems, branch_stable b m k h.1, branches_stable bs m k h.2, List.map_append]
end

theorem oneLine_id {s : Str} (h : Cr.trimmed s = true) (h1 : s.head? ≠ some '\\') (h2 : s.getLast? ≠ some '\\') : oneLine s = s := by
  obtain ⟨hs, hne⟩ := trimmed_strip h
  have hn : '\n' ∉ s := by
    cases s with
    | nil => exact absurd rfl hne
    | cons c s =>
      simp only [Cr.trimmed, Bool.and_eq_true, Bool.not_eq_true', List.contains_eq_mem, decide_eq_false_iff_not] at h
      exact h.2
  rw [← oneLine_eq, escapeLinebreaks, hs, splitChar_of_not_mem hn, List.map_singleton, hs, List.filter_cons_of_pos (by simpa using hne), List.filter_nil,
    show join c!"\\\\" [s] = s from rfl]
  refine stripP_id ?_ ?_
  · intro c hc
    rw [hc] at h1
    simpa using h1
  · intro c hc
    rw [hc] at h2
    simpa using h2

theorem cell_stable {c : TCell} (h : cellStable c = true) : cellBack c = Cr.prints c.text := by
  simp only [cellStable, Bool.and_eq_true, bne_iff_ne] at h
  rw [cellBack, inls_stable c.text _ h.1.1.1.1 (.inl h.1.1.1.2)]
  exact oneLine_id h.1.1.2 h.1.2 h.2

theorem cell_line {c : TCell} (h : cellStable c = true) (n : Nat) : (boxCell c n).print = fill (cellBox c) n := by
  unfold boxCell fill cellBox
  rw [cell_stable h]
  cases c.head with
  | false => simp [Cr.Cell.print, Cr.spaces, List.replicate_succ]
  | true => simp [Cr.Cell.print, Cr.spaces, List.replicate_succ]

theorem row_line : ∀ (r : List TCell) (ws : List Nat), r.all cellStable = true →
    Cr.rowLine (List.zipWith boxCell r ws) = rowBack ws r := by
  have key : ∀ (r : List TCell) (ws : List Nat), r.all cellStable = true →
      Cr.rowLine (List.zipWith boxCell r ws) = c!"|" ++ (List.zipWith fill (r.map cellBox) ws).flatMap (· ++ c!"|") := by
    intro r
    induction r with
    | nil => intro ws _; simp [Cr.rowLine]
    | cons c r ih =>
      intro ws h
      rw [List.all_cons, Bool.and_eq_true] at h
      cases ws with
      | nil => simp [Cr.rowLine]
      | cons w ws =>
        rw [List.zipWith_cons_cons, Cr.rowLine, List.map_cons, List.zipWith_cons_cons, List.flatMap_cons, ih ws h.2, cell_line h.1]
        simp
  exact key

theorem widths_length {rows : List (List TCell)} (h : (Rt.table rows).decent = true) :
    ∀ r ∈ rows, (widths (rows.map fun r => r.map cellBox)).length = r.length := by
  simp only [Rt.decent, Bool.and_eq_true, Bool.not_eq_true', List.all_eq_true, beq_iff_eq, bne_iff_ne] at h
  obtain ⟨hne, h⟩ := h
  intro r hr
  rw [← widths_columns, List.length_map, (h r hr).1.1]
  refine columns_length ⟨?_, ?_⟩
  · intro row hrow
    obtain ⟨r0, hr0, rfl⟩ := List.mem_map.mp hrow
    rw [List.length_map, (h r0 hr0).1.1]
    exact Nat.le_refl _
  · cases rows with
    | nil => cases hr
    | cons r0 rows => exact ⟨r0.map cellBox, List.mem_cons_self, by simp⟩

theorem tcell_box (c : TCell) (n : Nat) : tcell (boxCell c n) = c := by
  obtain ⟨head, text⟩ := c
  cases head <;> rfl

theorem tcell_row : ∀ (r : List TCell) (ws : List Nat), ws.length = r.length → (List.zipWith boxCell r ws).map tcell = r
  | [], ws, _ => by simp
  | c :: r, [], h => by simp at h
  | c :: r, w :: ws, h => by
    rw [List.zipWith_cons_cons, List.map_cons, tcell_box, tcell_row r ws (by simpa using h)]

theorem items_ne (k : Cr.Mark) {bs : List Cr.Branch} (h : bs ≠ []) : ∃ i l, Cr.branchesItems k bs = i :: l := by
  cases bs with
  | nil => exact absurd rfl h
  | cons b bs =>
    obtain ⟨pre, text, kind, sub⟩ := b
    rw [Cr.branchesItems, Cr.Branch.items]
    exact ⟨_, _, rfl⟩

/-- the block is written as it comes back, and stands for itself -/
theorem block_stable {b : Rt} (h : b.decent = true) (hs : b.stable = true) : b.block.lines = b.back ∧ StandsFor b.block b ∧
    b.block.notMac = true := by
  cases b with
  | para ls =>
    simp only [Rt.stable, Bool.and_eq_true, List.all_eq_true] at hs
    refine ⟨?_, ⟨rfl, hs.2⟩, rfl⟩
    rw [Rt.block, Cr.Block.lines, Rt.back]
    refine List.map_congr_left fun l hl => (inls_stable l _ (hs.1 l hl).1.1 (.inl (hs.1 l hl).1.2)).symm
  | head n title => exact ⟨by simp [Rt.block, Cr.Block.lines, Rt.back], ⟨rfl, rfl⟩, rfl⟩
  | hr => exact ⟨rfl, trivial, rfl⟩
  | list k bs =>
    simp only [Rt.decent, Bool.and_eq_true, Bool.not_eq_true'] at h
    simp only [Rt.stable, Bool.and_eq_true] at hs
    obtain ⟨i, l, hi⟩ := items_ne k (bs := bs) (by rintro rfl; simp at h)
    rw [Rt.block, hi]
    refine ⟨?_, ⟨hi, hs.2⟩, rfl⟩
    have := branches_stable bs [] k hs.1
    rw [Rt.back, Cr.Block.lines, ← hi]
    exact this.symm
  | table rows =>
    simp only [Rt.stable, List.all_eq_true] at hs
    refine ⟨?_, ?_, rfl⟩
    · rw [Rt.block, Cr.Block.lines, Rt.back, tableBack, List.map_map]
      refine List.map_congr_left fun r hr => row_line r _ (by rw [List.all_eq_true]; exact hs r hr)
    · show rows = _
      rw [List.map_map]
      refine Eq.symm (Eq.trans (List.map_congr_left fun r hr => ?_) (List.map_id rows))
      exact tcell_row r _ (widths_length h r hr)

theorem restDoc_stable : ∀ (d : List Rt) (b : Rt), (∀ x ∈ d, x.decent = true ∧ x.stable = true) →
    b.back ++ Cr.docLines (restDoc b d) = backDoc b d ∧ DocFor (restDoc b d) d ∧ ∀ x ∈ restDoc b d, x.2.notMac = true
  | [], b, _ => ⟨by simp [restDoc, Cr.docLines, backDoc], trivial, by simp [restDoc]⟩
  | b' :: d, b, h => by
    obtain ⟨h1, h2, h3⟩ := restDoc_stable d b' fun x hx => h x (List.mem_cons_of_mem _ hx)
    obtain ⟨g1, g2, g3⟩ := block_stable (h b' List.mem_cons_self).1 (h b' List.mem_cons_self).2
    rw [restDoc, backDoc, Cr.docLines, g1, ← h1]
    refine ⟨by simp, ⟨g2, h2⟩, ?_⟩
    intro x hx
    rcases List.mem_cons.mp hx with rfl | hx
    · exact g3
    · exact h3 x hx

theorem creoleDoc_stable {b : Rt} {d : List Rt} (h : ∀ x ∈ b :: d, x.decent = true ∧ x.stable = true) :
    Cr.docLines (creoleDoc b d) = backDoc b d ∧ DocFor (creoleDoc b d) (b :: d) ∧ ∀ x ∈ creoleDoc b d, x.2.notMac = true := by
  obtain ⟨h1, h2, h3⟩ := restDoc_stable d b fun x hx => h x (List.mem_cons_of_mem _ hx)
  obtain ⟨g1, g2, g3⟩ := block_stable (h b List.mem_cons_self).1 (h b List.mem_cons_self).2
  rw [creoleDoc, Cr.docLines, g1, List.nil_append, h1]
  refine ⟨rfl, ⟨g2, h2⟩, ?_⟩
  intro x hx
  rcases List.mem_cons.mp hx with rfl | hx
  · exact g3
  · exact h3 x hx

/-! ## No blanks at the ends -/

/-- the first character of the first line and the last character of the last one are no blanks -/
def Bare (l : List Str) : Prop := (∃ c t m, l = (c :: t) :: m ∧ isSpace c = false) ∧ ∃ x c, l.getLast? = some (x ++ [c]) ∧ isSpace c = false

theorem trimmed_ends {s : Str} (h : Cr.trimmed s = true) : (∃ c t, s = c :: t ∧ isSpace c = false) ∧ ∃ x c, s = x ++ [c] ∧ isSpace c = false := by
  cases s with
  | nil => simp [Cr.trimmed] at h
  | cons c t =>
    simp only [Cr.trimmed, Bool.and_eq_true, Bool.not_eq_true'] at h
    refine ⟨⟨c, t, rfl, h.1.1⟩, ?_⟩
    cases hl : (c :: t).getLast? with
    | none => simp at hl
    | some z =>
      obtain ⟨y, hy⟩ := List.getLast?_eq_some_iff.mp hl
      have := h.1.2
      rw [hl] at this
      exact ⟨y, z, hy, by simpa using this⟩

theorem row_ends {ws : List Nat} {r : List TCell} (h : r ≠ []) (hw : ws.length = r.length) : ∃ c t, rowBack ws r = c :: t ∧ isSpace c = false ∧
    ∃ x, rowBack ws r = x ++ c!"|" := by
  refine ⟨'|', _, rfl, by decide, ?_⟩
  cases r with
  | nil => exact absurd rfl h
  | cons c r =>
    cases ws with
    | nil => simp at hw
    | cons w ws =>
      rw [rowBack]
      have : ∀ l : List Str, l ≠ [] → ∃ x, l.flatMap (· ++ c!"|") = x ++ c!"|" := by
        intro l hl
        obtain ⟨y, z, rfl⟩ : ∃ y z, l = y ++ [z] := ⟨l.dropLast, l.getLast hl, (List.dropLast_concat_getLast hl).symm⟩
        exact ⟨y.flatMap (· ++ c!"|") ++ z, by simp⟩
      obtain ⟨x, hx⟩ := this (List.zipWith fill ((c :: r).map cellBox) (w :: ws)) (by simp)
      exact ⟨c!"|" ++ x, by rw [hx]; simp⟩

theorem back_bare {b : Rt} (h : b.decent = true) (hs : b.stable = true) : Bare b.back := by
  cases b with
  | para ls =>
    simp only [Rt.decent, Bool.and_eq_true, Bool.not_eq_true'] at h
    simp only [Rt.stable, Bool.and_eq_true, List.all_eq_true] at hs
    have hls : ∀ l ∈ ls, Cr.trimmed (inlsBack c!"\n" l) = true := by
      intro l hl
      rw [inls_stable l _ (hs.1 l hl).1.1 (.inl (hs.1 l hl).1.2)]
      exact (hs.1 l hl).2
    constructor
    · cases ls with
      | nil => simp at h
      | cons l ls =>
        obtain ⟨c, t, h1, h2⟩ := (trimmed_ends (hls l List.mem_cons_self)).1
        exact ⟨c, t, ls.map (inlsBack c!"\n"), by rw [Rt.back, List.map_cons, h1], h2⟩
    · rw [Rt.back, List.getLast?_map]
      cases hl : ls.getLast? with
      | none => rw [List.getLast?_eq_none_iff] at hl; rw [hl] at h; simp at h
      | some l =>
        obtain ⟨x, c, h1, h2⟩ := (trimmed_ends (hls l (List.mem_of_getLast? hl))).2
        exact ⟨x, c, by rw [Option.map_some, h1], h2⟩
  | head n title =>
    simp only [Rt.decent, Bool.and_eq_true, decide_eq_true_eq] at h
    simp only [Rt.stable] at hs
    obtain ⟨x, c, h1, h2⟩ := (trimmed_ends hs).2
    cases n with
    | zero => omega
    | succ n =>
      refine ⟨⟨'=', List.replicate n '=' ++ c!" " ++ title, [], by simp [Rt.back, List.replicate_succ], by decide⟩,
        List.replicate (n + 1) '=' ++ c!" " ++ x, c, ?_, h2⟩
      rw [Rt.back, List.getLast?_singleton, h1]
      simp
  | hr => exact ⟨⟨'-', _, _, rfl, by decide⟩, c!"---", '-', rfl, by decide⟩
  | list k bs =>
    simp only [Rt.decent, Bool.and_eq_true, Bool.not_eq_true'] at h
    have hne : bs ≠ [] := by rintro rfl; simp at h
    obtain ⟨t, l, hst⟩ := branchesBack_start [k.char] hne
    exact ⟨⟨k.char, t, l, by rw [Rt.back, hst]; rfl, by cases k <;> decide⟩, branchesBack_ends bs [k.char] hne h.2⟩
  | table rows =>
    have hw := widths_length h
    simp only [Rt.decent, Bool.and_eq_true, Bool.not_eq_true', List.all_eq_true] at h
    have hrow : ∀ r ∈ rows, r ≠ [] := by
      intro r hr h0
      have := (h.2 r hr).1.2
      rw [h0] at this
      simp at this
    constructor
    · cases rows with
      | nil => simp at h
      | cons r rows =>
        obtain ⟨c, t, h1, h2, _⟩ := row_ends (hrow r List.mem_cons_self) (hw r List.mem_cons_self)
        exact ⟨c, t, _, by rw [Rt.back, tableBack, List.map_cons, h1], h2⟩
    · rw [Rt.back, tableBack, List.getLast?_map]
      cases hl : rows.getLast? with
      | none => rw [List.getLast?_eq_none_iff] at hl; rw [hl] at h; simp at h
      | some r =>
        obtain ⟨_, _, _, _, x, hx⟩ := row_ends (hrow r (List.mem_of_getLast? hl)) (hw r (List.mem_of_getLast? hl))
        exact ⟨x, '|', by rw [Option.map_some, hx], by decide⟩

theorem backDoc_bare : ∀ (d : List Rt) (b : Rt), (∀ x ∈ b :: d, x.decent = true ∧ x.stable = true) → Bare (backDoc b d)
  | [], b, h => by rw [backDoc]; exact back_bare (h b List.mem_cons_self).1 (h b List.mem_cons_self).2
  | b' :: d, b, h => by
    obtain ⟨⟨c, t, m, h1, h2⟩, _⟩ := back_bare (h b List.mem_cons_self).1 (h b List.mem_cons_self).2
    obtain ⟨_, x, c', h3, h4⟩ := backDoc_bare d b' fun x hx => h x (List.mem_cons_of_mem _ hx)
    rw [backDoc]
    refine ⟨⟨c, t, m ++ gap b b' ++ backDoc b' d, by rw [h1]; simp, h2⟩, x, c', ?_, h4⟩
    rw [List.getLast?_append, h3]
    rfl

theorem strip_bare {l : List Str} (h : Bare l) : strip (joinLines c!"\n" l) = joinLines c!"\n" l := by
  obtain ⟨⟨c, t, m, h1, h2⟩, x, c', h3, h4⟩ := h
  refine strip_id ?_ ?_
  · intro z hz
    obtain ⟨u, hu⟩ := joinLines_first (a := c :: t) (l := m)
    rw [h1, hu] at hz
    simp only [List.cons_append, List.head?_cons, Option.some.injEq] at hz
    rw [← hz]; exact h2
  · intro z hz
    obtain ⟨y, hy⟩ := joinLines_last h3
    rw [hy] at hz
    simp only [List.getLast?_append, List.getLast?_singleton, Option.some_or, Option.some.injEq] at hz
    rw [← hz]; exact h4

end Verif.Emit
