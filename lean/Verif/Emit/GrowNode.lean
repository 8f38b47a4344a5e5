import Verif.Emit.Grow

/-!
# How large the text of a node becomes
-/

namespace Verif.Emit.Gr

open Verif Py Html Spec.Gw

/-! ## Tables -/

/-- the weight of the cells of a row, and their number -/
def rowW : List Str → Nat
  | [] => 0
  | c :: r => wt c + 1 + rowW r
def rowsW : List (List Str) → Nat
  | [] => 0
  | r :: rs => rowW r + rowsW rs
/-- the length of the cells of a row, and their number -/
def rowL : List Str → Nat
  | [] => 0
  | c :: r => c.length + 1 + rowL r
def rowsL : List (List Str) → Nat
  | [] => 0
  | r :: rs => rowL r + rowsL rs

def tau : Option Table → Nat
  | none => 0
  | some t => rowsW t.rows
def rho : Option Table → Nat
  | none => 0
  | some t => t.rows.length
def headOk : Option Table → Prop
  | none => True
  | some t => t.headPrefix.length ≤ 3

theorem rowW_append (a b : List Str) : rowW (a ++ b) = rowW a + rowW b := by
  induction a with
  | nil => simp [rowW]
  | cons c a ih => rw [List.cons_append, rowW, rowW, ih]; omega

theorem rowsW_append (a b : List (List Str)) : rowsW (a ++ b) = rowsW a + rowsW b := by
  induction a with
  | nil => simp [rowsW]
  | cons c a ih => rw [List.cons_append, rowsW, rowsW, ih]; omega

theorem rowsW_addLast (c : Str) : ∀ rows : List (List Str), rowsW (addLast c rows) ≤ rowsW rows + (wt c + 1)
  | [] => by rw [addLast]; exact Nat.zero_le _
  | [r] => by rw [addLast, rowsW, rowsW, rowW_append]; simp only [rowW, rowsW]; omega
  | r :: r' :: rs => by
    have := rowsW_addLast c (r' :: rs)
    rw [addLast, rowsW, rowsW]; omega

theorem addLast_length (c : Str) : ∀ rows : List (List Str), (addLast c rows).length = rows.length
  | [] => by rw [addLast]
  | [r] => by rw [addLast]; rfl
  | r :: r' :: rs => by rw [addLast, List.length_cons, addLast_length c (r' :: rs)]; rfl

theorem addTr_tau (t : Table) : tau (some t.addTr) = tau (some t) := by
  simp only [tau, Table.addTr, rowsW_append, rowsW, rowW, Nat.add_zero]
theorem addTr_rho (t : Table) : rho (some t.addTr) = rho (some t) + 1 := by
  simp [rho, Table.addTr]

theorem addTd_tau (t : Table) (c : Str) : tau (some (t.addTd c)) ≤ tau (some t) + (wt c + 1) := by
  unfold Table.addTd
  dsimp only
  split
  · have := addTr_tau t
    have := rowsW_addLast c t.addTr.rows
    simp only [tau] at *; omega
  · have := rowsW_addLast c t.rows
    simp only [tau]; omega

theorem addTd_rho (t : Table) (c : Str) : rho (some (t.addTd c)) ≤ rho (some t) + 1 := by
  unfold Table.addTd
  dsimp only
  split
  · have := addTr_rho t
    simp only [rho, addLast_length] at *; omega
  · simp only [rho, addLast_length]; omega

theorem addTd_head (t : Table) (c : Str) : (t.addTd c).headPrefix = t.headPrefix := by
  unfold Table.addTd
  dsimp only
  split <;> rfl

theorem addTh_tau (t : Table) (c : Str) (h : headOk (some t)) : tau (some (t.addTh c)) ≤ tau (some t) + (wt c + 7) := by
  have h1 := addTd_tau { t with hasHeader := true } (t.headPrefix ++ c)
  have h2 := wt_two t.headPrefix
  simp only [headOk] at h
  rw [wt_append] at h1
  unfold Table.addTh
  simp only [tau] at *
  omega
theorem addTh_rho (t : Table) (c : Str) : rho (some (t.addTh c)) ≤ rho (some t) + 1 :=
  addTd_rho { t with hasHeader := true } (t.headPrefix ++ c)
theorem addTh_head (t : Table) (c : Str) : (t.addTh c).headPrefix = t.headPrefix :=
  addTd_head { t with hasHeader := true } (t.headPrefix ++ c)

theorem preformat_len (p c : Str) : (preformatCell p c).length ≤ wt c + 2 := by
  have h := Nat.le_trans (len_le (strip c)) (wt_strip c)
  unfold preformatCell
  dsimp only
  (repeat' split) <;> simp only [List.length_append, List.length_cons, List.length_nil] <;> omega

theorem rowL_preformat (p : Str) (r : List Str) : rowL (r.map (preformatCell p)) ≤ 3 * rowW r := by
  induction r with
  | nil => exact Nat.le_refl _
  | cons c r ih =>
    have := preformat_len p c
    rw [List.map_cons, rowL, rowW]; omega

theorem rowsL_preformat (p : Str) (rs : List (List Str)) : rowsL (rs.map fun r => r.map (preformatCell p)) ≤ 3 * rowsW rs := by
  induction rs with
  | nil => exact Nat.le_refl _
  | cons r rs ih =>
    have := rowL_preformat p r
    rw [List.map_cons, rowsL, rowsW]; omega

theorem rowL_le {r : List Str} {rs : List (List Str)} (h : r ∈ rs) : rowL r ≤ rowsL rs := by
  induction rs with
  | nil => cases h
  | cons x rs ih =>
    rw [rowsL]
    rcases List.mem_cons.mp h with rfl | h
    · omega
    · have := ih h; omega

/-- the columns are at most as wide as all cells together -/
def colsL : List (List Str) → Nat
  | [] => 0
  | c :: cs => maxLen c + 1 + colsL cs

theorem colsL_zip : ∀ (r : List Str) (cs : List (List Str)), colsL (List.zipWith (· :: ·) r cs) ≤ rowL r + colsL cs
  | [], _ => by rw [List.zipWith_nil_left]; exact Nat.zero_le _
  | _ :: _, [] => by rw [List.zipWith_nil_right]; exact Nat.zero_le _
  | c :: r, x :: cs => by
    have := colsL_zip r cs
    rw [List.zipWith_cons_cons, colsL, colsL, rowL]
    have : maxLen (c :: x) ≤ c.length + maxLen x := by
      show max c.length (maxLen x) ≤ _
      omega
    omega

theorem columns_len : ∀ rs : List (List Str), colsL (columns rs) ≤ rowsL rs
  | [] => by rw [columns]; exact Nat.le_refl _
  | [r] => by
    rw [columns, rowsL]
    induction r with
    | nil => exact Nat.zero_le _
    | cons c r ih =>
      rw [List.map_cons, colsL, rowL]
      have : maxLen [c] = c.length := by show max c.length 0 = _; omega
      omega
  | r :: r' :: rs => by
    have := columns_len (r' :: rs)
    have := colsL_zip r (columns (r' :: rs))
    rw [columns, rowsL]
    omega

/-- the widths and their number -/
def widL : List Nat → Nat
  | [] => 0
  | w :: ws => w + 1 + widL ws

theorem widL_cols (cs : List (List Str)) : widL (cs.map maxLen) = colsL cs := by
  induction cs with
  | nil => rfl
  | cons c cs ih => rw [List.map_cons, widL, colsL, ih]

theorem rowL_pad : ∀ (ws : List Nat) (r : List Str), rowL (padRow ws r) ≤ rowL r + widL ws
  | _, [] => by rw [padRow, List.zipWith_nil_left]; exact Nat.zero_le _
  | [], _ :: _ => by rw [padRow, List.zipWith_nil_right]; exact Nat.zero_le _
  | w :: ws, c :: r => by
    have := rowL_pad ws r
    rw [padRow] at this ⊢
    rw [List.zipWith_cons_cons, rowL, rowL, widL]
    simp only [ljust, List.length_append, List.length_replicate]
    omega

theorem rowL_sum (r : List Str) : (r.map fun s => s.length + 1).sum = rowL r := by
  induction r with
  | nil => rfl
  | cons c r ih => rw [List.map_cons, List.sum_cons, ih, rowL]

theorem barLine_len (r : List Str) : (barLine r).length ≤ rowL r + 2 := by
  have := join_len (sep := c!"|") (k := 1) (by decide) r
  rw [rowL_sum] at this
  simp only [barLine, List.length_append, List.length_cons, List.length_nil]; omega

theorem lines_len {b : Nat} {ls : List Str} (h : ∀ l ∈ ls, l.length ≤ b) : (join c!"\n" ls).length ≤ ls.length * (b + 1) := by
  refine Nat.le_trans (join_len (k := 1) (by decide) ls) ?_
  induction ls with
  | nil => exact Nat.zero_le _
  | cons l ls ih =>
    have h1 := h l List.mem_cons_self
    have h2 := ih fun l' hl' => h l' (List.mem_cons_of_mem _ hl')
    rw [List.map_cons, List.sum_cons, List.length_cons, Nat.succ_mul]
    omega

theorem rowL_rowW (r : List Str) : rowL r ≤ rowW r := by
  induction r with
  | nil => exact Nat.le_refl _
  | cons c r ih => have := len_le c; rw [rowL, rowW]; omega

theorem rowW_le {r : List Str} {rs : List (List Str)} (h : r ∈ rs) : rowW r ≤ rowsW rs := by
  induction rs with
  | nil => cases h
  | cons x rs ih =>
    rw [rowsW]
    rcases List.mem_cons.mp h with rfl | h
    · omega
    · have := ih h; omega

theorem bar_len {t : Table} {row : List Str} (h : row ∈ t.preformat.1) : (barLine (padRow t.preformat.2 row)).length ≤ 9 * rowsW t.rows + 4 := by
  have h1 := barLine_len (padRow t.preformat.2 row)
  have h2 := rowL_pad t.preformat.2 row
  have h3 := rowL_le h
  have h4 : rowsL t.preformat.1 ≤ 3 * rowsW t.rows := rowsL_preformat _ _
  have h5 : widL t.preformat.2 ≤ rowsL t.preformat.1 := by
    show widL ((columns t.preformat.1).map maxLen) ≤ _
    rw [widL_cols]; exact columns_len _
  omega

theorem preformat_length (t : Table) : t.preformat.1.length = t.rows.length := by
  simp [Table.preformat]

theorem markup_len (t : Table) : t.markup.length ≤ t.rows.length * (9 * rowsW t.rows + 5) := by
  unfold Table.markup
  split
  · have := lines_len (b := 9 * rowsW t.rows + 4) (ls := t.rows.map barLine) fun l hl => by
      obtain ⟨r, hr, rfl⟩ := List.mem_map.mp hl
      have h1 := barLine_len r
      have h2 := rowL_rowW r
      have h3 := rowW_le hr
      omega
    rwa [List.length_map] at this
  · have := lines_len (b := 9 * rowsW t.rows + 4) (ls := t.preformat.1.map fun row => barLine (padRow t.preformat.2 row)) fun l hl => by
      obtain ⟨r, hr, rfl⟩ := List.mem_map.mp hl
      exact bar_len hr
    rw [List.length_map, preformat_length] at this
    exact this

theorem rule_len (ws : List Nat) : (join c!" | " (ws.map fun w => List.replicate (w - 2) '-')).length ≤ 3 * widL ws := by
  refine Nat.le_trans (join_len (k := 3) (by decide) _) ?_
  induction ws with
  | nil => exact Nat.le_refl _
  | cons w ws ih =>
    rw [List.map_cons, List.map_cons, List.sum_cons, widL, List.length_replicate]
    omega

theorem mdLines_length (b : Bool) (ws : List Nat) : ∀ (rows : List (List Str)) (no : Nat), (mdLines b ws no rows).length ≤ 2 * rows.length
  | [], _ => by rw [mdLines]; exact Nat.zero_le _
  | r :: rows, no => by
    have := mdLines_length b ws rows (no + 1)
    rw [mdLines, List.length_append, List.length_cons, List.length_cons]
    split <;> simp only [List.length_cons, List.length_nil] <;> omega

theorem mdLines_mem {b : Bool} {ws : List Nat} {l : Str} : ∀ {rows : List (List Str)} {no : Nat}, l ∈ mdLines b ws no rows →
    (∃ row ∈ rows, l = barLine (padRow ws row)) ∨ l = c!"| " ++ join c!" | " (ws.map fun w => List.replicate (w - 2) '-') ++ c!" |"
  | [], _, h => by rw [mdLines] at h; cases h
  | r :: rows, no, h => by
    rw [mdLines] at h
    rcases List.mem_append.mp h with h | h
    · split at h
      · exact .inr (List.mem_singleton.mp h)
      · cases h
    · rcases List.mem_cons.mp h with h | h
      · exact .inl ⟨r, List.mem_cons_self, h⟩
      · rcases mdLines_mem h with ⟨row, h1, h2⟩ | h
        · exact .inl ⟨row, List.mem_cons_of_mem _ h1, h2⟩
        · exact .inr h

theorem markdown_len (t : Table) : t.markdown.length ≤ 2 * (t.rows.length * (9 * rowsW t.rows + 5)) := by
  have := lines_len (b := 9 * rowsW t.rows + 4) (ls := mdLines t.hasHeader t.preformat.2 0 t.preformat.1) fun l hl => by
    rcases mdLines_mem hl with ⟨row, hr, rfl⟩ | rfl
    · exact bar_len hr
    · have h1 := rule_len t.preformat.2
      have h4 : rowsL t.preformat.1 ≤ 3 * rowsW t.rows := rowsL_preformat _ _
      have h5 : widL t.preformat.2 ≤ rowsL t.preformat.1 := by
        show widL ((columns t.preformat.1).map maxLen) ≤ _
        rw [widL_cols]; exact columns_len _
      simp only [List.length_append, List.length_cons, List.length_nil] at h1 ⊢
      omega
  have h2 := mdLines_length t.hasHeader t.preformat.2 t.preformat.1 0
  rw [preformat_length] at h2
  have h3 := Nat.mul_le_mul_right (9 * rowsW t.rows + 4 + 1) h2
  rw [Nat.mul_assoc] at h3
  exact Nat.le_trans this h3

/-! ## What an emission adds -/

/-- what `x` adds to the text and to the table is at most `C`, with at most `r` rows, if there are at most `L` list marks -/
def Pay (L C r : Nat) (x : EmM Str) : Prop := ∀ s out s', s.innerList.length ≤ L → headOk s.table → x s = .ok (out, s') →
  wt out + tau s'.table ≤ tau s.table + C ∧ rho s'.table ≤ rho s.table + r ∧ s'.innerList = s.innerList ∧ headOk s'.table

/-- `x` does not change the attributes -/
def Quiet {α : Type} (P : α → Prop) (x : EmM α) : Prop := ∀ s a s', x s = .ok (a, s') → s' = s ∧ P a

variable {L C C' r r' k : Nat} {x : EmM Str}

theorem Pay.mono (h : Pay L C r x) (hc : C ≤ C') (hr : r ≤ r') : Pay L C' r' x := by
  intro s out s' hL hh hx
  obtain ⟨h1, h2, h3, h4⟩ := h s out s' hL hh hx
  exact ⟨by omega, by omega, h3, h4⟩

theorem Pay.pure {a : Str} (h : wt a ≤ C) : Pay L C r (pure a) := by
  intro s out s' hL hh hx
  obtain ⟨rfl, rfl⟩ := pure_ok.mp hx
  exact ⟨by omega, by omega, rfl, hh⟩

theorem Pay.raise (e : PyErr) : Pay L C r (Emit.raise e) := by
  intro s out s' hL hh hx
  cases hx

theorem Pay.bind {f : Str → EmM Str} (h : Pay L C r x) (hf : ∀ t, Pay L (wt t + k) r' (f t)) : Pay L (C + k) (r + r') (x >>= f) := by
  intro s out s' hL hh hx
  obtain ⟨a, s1, h1, h2⟩ := bind_ok.mp hx
  obtain ⟨p1, p2, p3, p4⟩ := h s a s1 hL hh h1
  obtain ⟨q1, q2, q3, q4⟩ := hf a s1 out s' (by rw [p3]; exact hL) p4 h2
  exact ⟨by omega, by omega, by rw [q3, p3], q4⟩

theorem Pay.map {f : Str → Str} (h : Pay L C r x) (hf : ∀ t, wt (f t) ≤ wt t + k) (hk : C + k ≤ C') :
    Pay L C' r (x >>= fun t => Pure.pure (f t)) := (Pay.bind h fun t => Pay.pure (r := 0) (hf t)).mono hk (by omega)

theorem Pay.quiet {α : Type} {P : α → Prop} {y : EmM α} {f : α → EmM Str} (h : Quiet P y) (hf : ∀ a, P a → Pay L C r (f a)) :
    Pay L C r (y >>= f) := by
  intro s out s' hL hh hx
  obtain ⟨a, s1, h1, h2⟩ := bind_ok.mp hx
  obtain ⟨rfl, p⟩ := h s a s1 h1
  exact hf a p _ out s' hL hh h2

theorem Pay.get {f : ESt → EmM Str} (hf : ∀ s, s.innerList.length ≤ L → Pay L C r (f s)) : Pay L C r (MonadState.get >>= f) := by
  intro s out s' hL hh hx
  obtain ⟨a, s1, h1, h2⟩ := bind_ok.mp hx
  cases h1
  exact hf s hL _ out s' hL hh h2

theorem Pay.ite {p : Prop} [Decidable p] {y : EmM Str} (hx : p → Pay L C r x) (hy : ¬ p → Pay L C r y) : Pay L C r (if p then x else y) := by
  split
  · next h => exact hx h
  · next h => exact hy h

theorem Pay.setLast (i : HInfo) {f : Unit → EmM Str} (hf : Pay L C r (f ())) : Pay L C r (setLast i >>= f) := by
  intro s out s' hL hh hx
  obtain ⟨a, s1, h1, h2⟩ := bind_ok.mp hx
  cases h1
  exact hf { s with last := some (i.kind, i.content) } out s' hL hh h2

theorem Quiet.pure {α : Type} {P : α → Prop} {a : α} (h : P a) : Quiet P (pure a) := by
  intro s b s' hx
  obtain ⟨rfl, rfl⟩ := pure_ok.mp hx
  exact ⟨rfl, h⟩
theorem Quiet.raise {α : Type} {P : α → Prop} (e : PyErr) : Quiet P (Emit.raise e : EmM α) := by
  intro s b s' hx; cases hx
theorem Quiet.ofExcept {α : Type} {P : α → Prop} {y : Except PyErr α} (h : ∀ a, y = .ok a → P a) : Quiet P (Emit.ofExcept y) := by
  cases y with
  | ok a => exact Quiet.pure (h a rfl)
  | error e => exact Quiet.raise e

theorem Pay.ofExcept {y : Except PyErr Str} (h : ∀ a, y = .ok a → wt a ≤ C) : Pay L C r (Emit.ofExcept y) := by
  cases y with
  | ok a => exact Pay.pure (h a rfl)
  | error e => exact Pay.raise e

end Verif.Emit.Gr
