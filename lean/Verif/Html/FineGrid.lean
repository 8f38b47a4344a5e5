import Verif.Html.FineTidy
import Verif.Spec.Grid

/-!
# Structured documents: the tags of tables
-/

namespace Verif.Html

open Verif Py Spec Spec.Hd Spec.Gr Spec.Sh

mutual
/-- the tags of a piece -/
def tagsOf : Ht → List Str
  | .text _ => []
  | .white _ => []
  | .el tag _ ch => tag :: (tagsOfL ch ++ ['/' :: tag])
  | .void tag _ => [tag ++ c!" /"]
  | .bare _ _ => []
def tagsOfL : List Ht → List Str
  | [] => []
  | x :: xs => tagsOf x ++ tagsOfL xs
end

theorem tags_text (s rest : Str) (h : '<' ∉ s) : Gd.tags none (s ++ rest) = Gd.tags none rest := by
  induction s with
  | nil => rfl
  | cons c s ih =>
    simp only [List.mem_cons, not_or] at h
    rw [List.cons_append, Gd.tags, if_neg (fun e => h.1 e.symm), ih h.2]

theorem tags_in (tag t rest : Str) (h : '>' ∉ tag) : Gd.tags (some t) (tag ++ '>' :: rest) = (t ++ tag) :: Gd.tags none rest := by
  induction tag generalizing t with
  | nil => rw [List.nil_append, Gd.tags, if_pos rfl, List.append_nil]
  | cons c tag ih =>
    simp only [List.mem_cons, not_or] at h
    rw [List.cons_append, Gd.tags, if_neg (fun e => h.1 e.symm), ih _ h.2, List.append_assoc]
    rfl

theorem tags_tag (tag rest : Str) (h : '>' ∉ tag) : Gd.tags none ('<' :: (tag ++ '>' :: rest)) = tag :: Gd.tags none rest := by
  rw [Gd.tags, if_pos rfl, tags_in _ _ _ h]
  rfl

mutual
theorem tags_piece : ∀ (x : Ht) (c : Gr.Ctx), fine c x = true → mediaFree x = true → ∀ rest : Str,
    Gd.tags none (x.print ++ rest) = tagsOf x ++ Gd.tags none rest
  | .text s, _, _, _, rest => by rw [Ht.print, tags_text _ _ (textHtml_lt s)]; rfl
  | .white s, _, h, _, rest => by
    rw [fine, List.all_eq_true] at h
    rw [Ht.print, tags_text _ _ fun e => absurd (h _ e) (by decide)]
    rfl
  | .el tag attrs ch, c, h, hm, rest => by
    obtain ⟨c', h1, h2, h3⟩ := fine_el_inv h
    rw [mediaFree, Bool.and_eq_true] at hm
    have ha : attrs = [] := by
      generalize hn : attrs.map (·.1) = names at h1
      cases h1 with
      | link => exact absurd hm.1 (by decide)
      | _ => simpa using hn
    subst ha
    have hc : '>' ∉ tag := fun e => (inside_chars h1 _ e).1 rfl
    have e : (Ht.el tag [] ch).print ++ rest = '<' :: (tag ++ '>' :: (written ch ++ '<' :: ('/' :: tag ++ '>' :: rest))) := by
      simp [Ht.print, tagStart]
    rw [e, tags_tag _ _ hc, tags_pieces ch c' h3 hm.2, tags_tag ('/' :: tag) rest (by simp [hc]), tagsOf]
    simp
  | .void tag attrs, c, h, hm, rest => by
    rw [fine, Bool.and_eq_true] at h
    rw [mediaFree] at hm
    rcases single_cases h.1 with ⟨rfl, hn⟩ | ⟨rfl, hn⟩ | ⟨rfl, _⟩
    · rw [List.map_eq_nil_iff] at hn
      subst hn
      exact tags_tag c!"hr /" rest (by decide)
    · rw [List.map_eq_nil_iff] at hn
      subst hn
      exact tags_tag c!"br /" rest (by decide)
    · exact absurd hm (by decide)
  | .bare tag attrs, c, h, _, rest => by rw [fine] at h; cases h
theorem tags_pieces : ∀ (l : List Ht) (c : Gr.Ctx), fineL c l = true → mediaFreeL l = true → ∀ rest : Str,
    Gd.tags none (written l ++ rest) = tagsOfL l ++ Gd.tags none rest
  | [], _, _, _, rest => rfl
  | x :: xs, c, h, hm, rest => by
    rw [fineL, Bool.and_eq_true] at h
    rw [mediaFreeL, Bool.and_eq_true] at hm
    rw [written, List.append_assoc, tags_piece x c h.1 hm.1, tags_pieces xs c h.2 hm.2, tagsOfL, List.append_assoc]
end

/-- a tag that does not belong to a table -/
def offTable (t : Str) : Bool := t != c!"td" && t != c!"th" && t != c!"/tr" && t != c!"/table"

theorem level_off {t : Str} (h : offTable t = true) (rows : List Nat) (cells : Nat) (ts : List Str) :
    Gd.levelTags rows cells (t :: ts) = Gd.levelTags rows cells ts := by
  simp only [offTable, Bool.and_eq_true, bne_iff_ne] at h
  rw [Gd.levelTags, if_neg (by rintro (e | e) <;> simp [e] at h), if_neg h.1.2, if_neg h.2]

theorem level_all_off {l : List Str} (h : l.all offTable = true) (rows : List Nat) (cells : Nat) (ts : List Str) :
    Gd.levelTags rows cells (l ++ ts) = Gd.levelTags rows cells ts := by
  induction l with
  | nil => rfl
  | cons t l ih =>
    rw [List.all_cons, Bool.and_eq_true] at h
    rw [List.cons_append, level_off h.1, ih h.2]

/-- a place outside of the frame of a table -/
def offFrame : Gr.Ctx → Bool
  | .doc => false
  | .table => false
  | .row => false
  | _ => true

theorem inside_off {c c' : Gr.Ctx} {tag : Str} {names : List Str} (h : Inside c tag names c')
    (hc : offFrame c = true ∨ c = .doc ∧ tag ≠ c!"table") : offTable tag = true ∧ offTable ('/' :: tag) = true ∧ offFrame c' = true := by
  cases h with
  | heading _ hh =>
    obtain ⟨x, ds, rfl, g1, g2, g3⟩ := heading_digit hh
    exact ⟨by simp [offTable], by simp [offTable], rfl⟩
  | pre => decide
  | p => decide
  | table => rcases hc with hc | hc; exact absurd hc (by decide); exact absurd rfl hc.2
  | list _ _ _ hh => rcases hh with rfl | rfl <;> decide
  | item => decide
  | row => rcases hc with hc | hc; exact absurd hc (by decide); exact absurd hc.1 (by decide)
  | cell _ hh => rcases hc with hc | hc; exact absurd hc (by decide); exact absurd hc.1 (by decide)
  | link _ _ => decide
  | face _ _ _ hh =>
    simp only [faces, List.mem_cons, List.not_mem_nil, or_false] at hh
    rcases hh with rfl | rfl | rfl | rfl | rfl | rfl | rfl | rfl <;> decide
  | code _ _ => decide

mutual
theorem off_piece : ∀ (x : Ht) (c : Gr.Ctx), fine c x = true → offFrame c = true → (tagsOf x).all offTable = true
  | .text s, _, _, _ => rfl
  | .white s, _, _, _ => rfl
  | .el tag attrs ch, c, h, hc => by
    obtain ⟨c', h1, h2, h3⟩ := fine_el_inv h
    obtain ⟨h4, h5, h6⟩ := inside_off h1 (.inl hc)
    rw [tagsOf, List.all_cons, List.all_append, h4, off_pieces ch c' h3 h6, List.all_cons, h5]
    rfl
  | .void tag attrs, c, h, _ => by
    rw [fine, Bool.and_eq_true] at h
    rcases single_cases h.1 with ⟨rfl, _⟩ | ⟨rfl, _⟩ | ⟨rfl, _⟩ <;> rfl
  | .bare tag attrs, c, h, _ => by rw [fine] at h; cases h
theorem off_pieces : ∀ (l : List Ht) (c : Gr.Ctx), fineL c l = true → offFrame c = true → (tagsOfL l).all offTable = true
  | [], _, _, _ => rfl
  | x :: xs, c, h, hc => by
    rw [fineL, Bool.and_eq_true] at h
    rw [tagsOfL, List.all_append, off_piece x c h.1 hc, off_pieces xs c h.2 hc]
    rfl
end

theorem level_row : ∀ (l : List Ht), fineL .row l = true → ∀ (rows : List Nat) (cells : Nat) (ts : List Str),
    Gd.levelTags rows cells (tagsOfL l ++ ts) = Gd.levelTags rows (cells + cellsOf l) ts
  | [], _, rows, cells, ts => rfl
  | .text s :: xs, h, rows, cells, ts => by
    rw [fineL, Bool.and_eq_true] at h
    exact level_row xs h.2 rows cells ts
  | .white s :: xs, h, rows, cells, ts => by
    rw [fineL, Bool.and_eq_true] at h
    exact level_row xs h.2 rows cells ts
  | .el tag attrs ch :: xs, h, rows, cells, ts => by
    rw [fineL, Bool.and_eq_true] at h
    obtain ⟨c', h1, h2, h3⟩ := fine_el_inv h.1
    have hk : (tag = c!"td" ∨ tag = c!"th") ∧ offTable ('/' :: tag) = true ∧ offFrame c' = true := by
      generalize attrs.map (·.1) = names at h1
      cases h1 with
      | list _ _ hc h => rcases hc with hc | hc <;> cases hc
      | cell _ h => rcases h with rfl | rfl <;> decide
      | face _ _ hc h => rcases hc with hc | hc <;> cases hc
      | link _ hc => rcases hc with hc | hc <;> cases hc
      | code _ hc => rcases hc with hc | hc <;> cases hc
    rw [tagsOfL, tagsOf, List.cons_append, List.cons_append, Gd.levelTags, if_pos hk.1, List.append_assoc, List.append_assoc,
      level_all_off (off_pieces ch c' h3 hk.2.2), List.cons_append, level_off hk.2.1, List.nil_append, level_row xs h.2, cellsOf]
    congr 1
    omega
  | .void tag attrs :: xs, h, _, _, _ => by
    rw [fineL, fine, single, Bool.false_and, Bool.false_and] at h; cases h
    all_goals simp
  | .bare tag attrs :: xs, h, _, _, _ => by rw [fineL, fine, Bool.false_and] at h; cases h

theorem level_table : ∀ (l : List Ht), fineL .table l = true → ∀ (rows : List Nat) (ts : List Str),
    Gd.levelTags rows 0 (tagsOfL l ++ ts) = Gd.levelTags (rows ++ rowsOf l) 0 ts
  | [], _, rows, ts => by rw [rowsOf, List.append_nil]; rfl
  | .text s :: xs, h, rows, ts => by
    rw [fineL, Bool.and_eq_true] at h
    exact level_table xs h.2 rows ts
  | .white s :: xs, h, rows, ts => by
    rw [fineL, Bool.and_eq_true] at h
    exact level_table xs h.2 rows ts
  | .el tag attrs ch :: xs, h, rows, ts => by
    rw [fineL, Bool.and_eq_true] at h
    obtain ⟨c', h1, h2, h3⟩ := fine_el_inv h.1
    have hk : tag = c!"tr" ∧ c' = .row := by
      generalize attrs.map (·.1) = names at h1
      cases h1 with
      | list _ _ hc h => rcases hc with hc | hc <;> cases hc
      | row => exact ⟨rfl, rfl⟩
      | face _ _ hc h => rcases hc with hc | hc <;> cases hc
      | link _ hc => rcases hc with hc | hc <;> cases hc
      | code _ hc => rcases hc with hc | hc <;> cases hc
    obtain ⟨rfl, rfl⟩ := hk
    rw [tagsOfL, tagsOf, List.cons_append, List.cons_append, level_off (by decide), List.append_assoc, List.append_assoc,
      level_row ch h3, Nat.zero_add, List.cons_append, Gd.levelTags, if_neg (by decide), if_pos rfl, List.nil_append, level_table xs h.2,
      rowsOf, List.append_assoc]
    rfl
  | .void tag attrs :: xs, h, _, _ => by
    rw [fineL, fine, single, Bool.false_and, Bool.false_and] at h; cases h
    all_goals simp
  | .bare tag attrs :: xs, h, _, _ => by rw [fineL, fine, Bool.false_and] at h; cases h

theorem level_doc : ∀ (l : List Ht), fineL .doc l = true → Gd.levelTags [] 0 (tagsOfL l) = l.all even
  | [], _ => rfl
  | x :: xs, h => by
    rw [fineL, Bool.and_eq_true] at h
    have ih := level_doc xs h.2
    have hoff : (tagsOf x).all offTable = true → even x = true → Gd.levelTags [] 0 (tagsOfL (x :: xs)) = (x :: xs).all even := by
      intro h1 h2
      rw [tagsOfL, level_all_off h1, ih, List.all_cons, h2]; rfl
    match x, h with
    | .text s, h => exact hoff rfl rfl
    | .white s, h => exact hoff rfl rfl
    | .void tag attrs, h =>
      refine hoff ?_ rfl
      have h := h.1
      rw [fine, Bool.and_eq_true] at h
      rcases single_cases h.1 with ⟨rfl, _⟩ | ⟨rfl, _⟩ | ⟨rfl, _⟩ <;> rfl
    | .bare tag attrs, h => have h := h.1; rw [fine] at h; cases h
    | .el tag attrs ch, h =>
      obtain ⟨c', h1, h2, h3⟩ := fine_el_inv h.1
      by_cases ht : tag = c!"table"
      · subst ht
        have hc : c' = .table := by
          generalize attrs.map (·.1) = names at h1
          cases h1 with
          | heading _ h => exact absurd h (by decide)
          | table => rfl
          | list _ _ _ h => exact absurd h (by decide)
          | face _ _ _ h => exact absurd h (by decide)
        subst hc
        rw [tagsOfL, tagsOf, List.cons_append, level_off (by decide), List.append_assoc, level_table ch h3, List.nil_append, List.cons_append,
          Gd.levelTags, if_neg (by decide), if_neg (by decide), if_pos rfl, List.nil_append, ih, List.all_cons, even]
        rfl
      · obtain ⟨h4, h5, h6⟩ := inside_off h1 (.inr ⟨rfl, ht⟩)
        refine hoff ?_ (by simp [even, ht])
        rw [tagsOf, List.all_cons, List.all_append, h4, off_pieces ch c' h3 h6, List.all_cons, h5]
        rfl

/-- the tables of a structured document are even if they are so in the text -/
theorem level_written {l : List Ht} (hf : fineL .doc l = true) (hm : mediaFreeL l = true) : Gd.level (written l) = l.all even := by
  have := tags_pieces l .doc hf hm []
  rw [List.append_nil, show Gd.tags none [] = [] from rfl, List.append_nil] at this
  rw [Gd.level, this, level_doc l hf]

end Verif.Html
