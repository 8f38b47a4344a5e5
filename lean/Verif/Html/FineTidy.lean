import Verif.Html.FineText

/-!
# Structured documents: their trees are tidy
-/

namespace Verif.Html

open Verif Py Spec Spec.Hd Spec.Gr Spec.Sh

/-- where a node stands in the tree, if its element stands at a place in the document -/
def Stands (c : Gr.Ctx) (p : Place) : Prop :=
  match c with
  | .doc => p = .free
  | .table => p = .table
  | .row => p = .row
  | _ => p = .free ∨ p = .cell

theorem stands_part {c : Gr.Ctx} {p : Place} (h : Stands c p) : p ≠ .part := by
  rintro rfl
  cases c <;> simp [Stands] at h

theorem tidyL_append (lang : Emit.Lang) (p : Place) (a b : List HNode) : tidyL lang p (a ++ b) = (tidyL lang p a && tidyL lang p b) := by
  induction a with
  | nil => rw [tidyL]; rfl
  | cons n a ih => rw [List.cons_append, tidyL, tidyL, ih, Bool.and_assoc]

theorem tidy_free (lang : Emit.Lang) (i : HInfo) (ch : List HNode) : tidy lang .free (.mk i ch) =
    if leafKinds.contains i.kind then
      ch.isEmpty && !(lang = .markdown && i.kind = c!"inlinedata_pre" && c!"</code>".isSuffixOf (i.content.getD []))
    else if i.kind = c!"table" then
      tidyL lang .table ch && (lang = .textile || allSame (rowSizes ch))
    else !isRow (.mk i ch) && !isCell (.mk i ch) && tidyL lang .free ch := by
  rw [tidy]
  · simp
  all_goals intro e; cases e

/-- a text or a reference to an entity outside of tables -/
theorem tidy_leaf {lang : Emit.Lang} {p : Place} (hp : p = .free ∨ p = .cell) {k t : Str} (hk : k = c!"data" ∨ k = c!"entityref") :
    tidy lang p (.mk { kind := k, content := some t } []) = true := by
  have h1 : leafKinds.contains k = true := by rcases hk with rfl | rfl <;> decide
  have h2 : k ≠ c!"inlinedata_pre" := by rcases hk with rfl | rfl <;> decide
  rcases hp with rfl | rfl
  all_goals
    rw [tidy]
    · simp only [h1, if_pos, h2]
      simp
    all_goals intro e; cases e

theorem tidy_gap {lang : Emit.Lang} {p : Place} (hp : p = .table ∨ p = .row) {t : Str} :
    tidy lang p (.mk { kind := c!"data", content := some t } []) = t.all isSpace := by
  rcases hp with rfl | rfl
  all_goals
    rw [tidy]
    simp [isGap, isRow, isCell, isPart]

theorem entityOf_blank {c : Char} (h : isSpace c = true) : entityOf c = none := by
  have : ∀ d : Char, isSpace d = false → c ≠ d := by
    rintro d hd rfl
    rw [h] at hd; cases hd
  unfold entityOf
  rw [if_neg (this _ (by decide)), if_neg (this _ (by decide)), if_neg (this _ (by decide))]

theorem tidy_addChar {lang : Emit.Lang} {p : Place} (d : Int) {c : Char} {l : List El} (hp : p ≠ .part)
    (hc : p = .table ∨ p = .row → isSpace c = true) (h : tidyL lang p (nodesL d l) = true) : tidyL lang p (nodesL d (addChar c l)) = true := by
  have hp' : (p = .free ∨ p = .cell) ∨ p = .table ∨ p = .row := by cases p <;> simp at hp ⊢
  unfold addChar
  rcases hp' with hp' | hp'
  · split
    · rw [nodesL, El.nodes, List.cons_append, List.nil_append, tidyL, h, tidy_leaf hp' (.inr rfl)]; rfl
    · split
      · rw [nodesL, El.nodes, List.cons_append, List.nil_append, tidyL, Bool.and_eq_true] at h
        rw [nodesL, El.nodes, List.cons_append, List.nil_append, tidyL, h.2, tidy_leaf hp' (.inl rfl)]; rfl
      · rw [nodesL, El.nodes, List.cons_append, List.nil_append, tidyL, h, tidy_leaf hp' (.inl rfl)]; rfl
  · have hs := hc hp'
    rw [entityOf_blank hs]
    dsimp only
    split
    · rw [nodesL, El.nodes, List.cons_append, List.nil_append, tidyL, Bool.and_eq_true, tidy_gap hp'] at h
      rw [nodesL, El.nodes, List.cons_append, List.nil_append, tidyL, h.2, tidy_gap hp', List.all_cons, hs, h.1]; rfl
    · rw [nodesL, El.nodes, List.cons_append, List.nil_append, tidyL, h, tidy_gap hp', List.all_cons, hs]; rfl

theorem tidy_chars {lang : Emit.Lang} {p : Place} (d : Int) (s : Str) {l : List El} (hp : p ≠ .part)
    (hc : p = .table ∨ p = .row → s.all isSpace = true) (h : tidyL lang p (nodesL d l) = true) :
    tidyL lang p (nodesL d (s.foldr addChar l)) = true := by
  induction s with
  | nil => exact h
  | cons c s ih =>
    rw [List.foldr_cons]
    refine tidy_addChar d hp (fun e => ?_) (ih fun e => ?_)
    · have := hc e; rw [List.all_cons, Bool.and_eq_true] at this; exact this.1
    · have := hc e; rw [List.all_cons, Bool.and_eq_true] at this; exact this.2

/-- the node of any element -/
theorem nodes_elem (d : Int) (tag : Str) (attrs : List (Str × Option Str)) (ch : List El) :
    ∃ i d', El.nodes d (.elem tag attrs ch) = [.mk i (nodesL d' ch)] ∧ i.kind = kindOf tag := by
  rw [El.nodes]
  cases h : headline? tag with
  | some n => exact ⟨_, d, rfl, by simp [kindOf, h]⟩
  | none =>
    dsimp only
    split
    · exact ⟨_, d + 1, rfl, by simp [kindOf, h]⟩
    · split
      · exact ⟨_, d, rfl, by simp [kindOf, h]⟩
      · exact ⟨_, d, rfl, by simp [kindOf, h]⟩

/-! ## Rows -/

/-- the number of cells of a row -/
def cellsOf : List Ht → Nat
  | [] => 0
  | .el _ _ _ :: xs => cellsOf xs + 1
  | _ :: xs => cellsOf xs

/-- the numbers of cells of the rows of a table -/
def rowsOf : List Ht → List Nat
  | [] => []
  | .el _ _ ch :: xs => cellsOf ch :: rowsOf xs
  | _ :: xs => rowsOf xs

/-- a table with rows of the same length, or something else -/
def even : Ht → Bool
  | .el tag _ ch => tag != c!"table" || allSame (rowsOf ch)
  | _ => true

theorem cellsOf_chars (s : Str) (l : List Ht) : cellsOf ((s.map fun c => .text [c]) ++ l) = cellsOf l := by
  induction s with
  | nil => rfl
  | cons c s ih => rw [List.map_cons, List.cons_append, cellsOf, ih]; exact fun _ _ _ e => by cases e

theorem rowsOf_chars (s : Str) (l : List Ht) : rowsOf ((s.map fun c => .text [c]) ++ l) = rowsOf l := by
  induction s with
  | nil => rfl
  | cons c s ih => rw [List.map_cons, List.cons_append, rowsOf, ih]; exact fun _ _ _ e => by cases e

theorem cellsOf_solid : ∀ (l : List Ht), cellsOf (solidL l) = cellsOf l
  | [] => rfl
  | .text s :: xs => by rw [solidL, Ht.solid, cellsOf_chars, cellsOf_solid xs]; rfl
  | .white s :: xs => by rw [solidL, Ht.solid, List.nil_append, cellsOf_solid xs]; rfl
  | .el tag attrs ch :: xs => by rw [solidL, Ht.solid, List.cons_append, List.nil_append, cellsOf, cellsOf_solid xs, cellsOf]
  | .void tag attrs :: xs => by rw [solidL, Ht.solid]; show cellsOf (solidL xs) = cellsOf xs; exact cellsOf_solid xs
  | .bare tag attrs :: xs => by rw [solidL, Ht.solid]; show cellsOf (solidL xs) = cellsOf xs; exact cellsOf_solid xs

theorem rowsOf_solid : ∀ (l : List Ht), rowsOf (solidL l) = rowsOf l
  | [] => rfl
  | .text s :: xs => by rw [solidL, Ht.solid, rowsOf_chars, rowsOf_solid xs]; rfl
  | .white s :: xs => by rw [solidL, Ht.solid, List.nil_append, rowsOf_solid xs]; rfl
  | .el tag attrs ch :: xs => by rw [solidL, Ht.solid, List.cons_append, List.nil_append, rowsOf, rowsOf_solid xs, rowsOf, cellsOf_solid]
  | .void tag attrs :: xs => by rw [solidL, Ht.solid]; show rowsOf (solidL xs) = rowsOf xs; exact rowsOf_solid xs
  | .bare tag attrs :: xs => by rw [solidL, Ht.solid]; show rowsOf (solidL xs) = rowsOf xs; exact rowsOf_solid xs

theorem even_solid : ∀ (l : List Ht), (solidL l).all even = l.all even
  | [] => rfl
  | x :: xs => by
    rw [solidL, List.all_append, even_solid xs, List.all_cons]
    congr 1
    cases x with
    | text s =>
      rw [Ht.solid, List.all_map]
      exact List.all_eq_true.2 fun _ _ => rfl
    | white s => rfl
    | el tag attrs ch => rw [Ht.solid, List.all_cons, List.all_nil, Bool.and_true, even, even, rowsOf_solid]
    | void tag attrs => rfl
    | bare tag attrs => rfl

theorem filter_addChar (d : Int) (c : Char) (l : List El) :
    ((nodesL d (addChar c l)).filter isCell).length = ((nodesL d l).filter isCell).length := by
  unfold addChar
  split
  · rw [nodesL, El.nodes, List.cons_append, List.nil_append, List.filter_cons_of_neg (by simp [isCell])]
  · split
    · rw [nodesL, El.nodes, List.cons_append, List.nil_append, List.filter_cons_of_neg (by simp [isCell]), nodesL, El.nodes,
        List.cons_append, List.nil_append, List.filter_cons_of_neg (by simp [isCell])]
    · rw [nodesL, El.nodes, List.cons_append, List.nil_append, List.filter_cons_of_neg (by simp [isCell])]

theorem filter_chars (d : Int) (s : Str) (l : List El) :
    ((nodesL d (s.foldr addChar l)).filter isCell).length = ((nodesL d l).filter isCell).length := by
  induction s with
  | nil => rfl
  | cons c s ih => rw [List.foldr_cons, filter_addChar, ih]

theorem rowSizes_append (a b : List HNode) : rowSizes (a ++ b) = rowSizes a ++ rowSizes b := by
  induction a with
  | nil => rw [rowSizes]; rfl
  | cons n a ih => rw [List.cons_append, rowSizes, rowSizes, ih, List.append_assoc]

theorem rowSize_leaf (k t : Str) (h : k = c!"data" ∨ k = c!"entityref") : rowSize (.mk { kind := k, content := some t } []) = [] := by
  rw [rowSize]
  rcases h with rfl | rfl <;> rfl

theorem rowSizes_addChar (d : Int) (c : Char) (l : List El) : rowSizes (nodesL d (addChar c l)) = rowSizes (nodesL d l) := by
  unfold addChar
  split
  · rw [nodesL, El.nodes, rowSizes_append, rowSizes, rowSize_leaf _ _ (.inr rfl), rowSizes]; rfl
  · split
    · rw [nodesL, El.nodes, rowSizes_append, rowSizes, rowSize_leaf _ _ (.inl rfl), rowSizes, nodesL, El.nodes, rowSizes_append, rowSizes,
        rowSize_leaf _ _ (.inl rfl), rowSizes]
    · rw [nodesL, El.nodes, rowSizes_append, rowSizes, rowSize_leaf _ _ (.inl rfl), rowSizes]; rfl

theorem rowSizes_chars (d : Int) (s : Str) (l : List El) : rowSizes (nodesL d (s.foldr addChar l)) = rowSizes (nodesL d l) := by
  induction s with
  | nil => rfl
  | cons c s ih => rw [List.foldr_cons, rowSizes_addChar, ih]

theorem cells_nodes (d : Int) : ∀ (l : List Ht), fineL .row l = true → ((nodesL d (elsL (asReadL l))).filter isCell).length = cellsOf l
  | [], _ => rfl
  | .text s :: xs, h => by
    rw [fineL, Bool.and_eq_true] at h
    rw [asReadL, Ht.asRead, elsL, Ht.els, filter_chars, cells_nodes d xs h.2]; rfl
  | .white s :: xs, h => by
    rw [fineL, Bool.and_eq_true] at h
    rw [asReadL, Ht.asRead, elsL, Ht.els, filter_chars, cells_nodes d xs h.2]; rfl
  | .el tag attrs ch :: xs, h => by
    rw [fineL, Bool.and_eq_true] at h
    obtain ⟨c', h1, h2, h3⟩ := fine_el_inv h.1
    obtain ⟨i, d', h4, h5⟩ := nodes_elem d tag ((heldAttrs attrs).map fun a => (a.1, some a.2)) (elsL (asReadL ch))
    have hk : kindOf tag = c!"td" ∨ kindOf tag = c!"th" := by
      generalize attrs.map (·.1) = names at h1
      cases h1 with
      | list _ _ hc h => rcases hc with hc | hc <;> cases hc
      | cell _ h => rcases h with rfl | rfl <;> decide
      | face _ _ hc h => rcases hc with hc | hc <;> cases hc
      | link _ hc => rcases hc with hc | hc <;> cases hc
      | code _ hc => rcases hc with hc | hc <;> cases hc
    rw [asReadL, Ht.asRead, elsL, Ht.els, if_neg (fun e => (inside_nest h1).2.2.1 e.1), nodesL, h4, List.cons_append, List.nil_append,
      List.filter_cons_of_pos (by rcases hk with hk | hk <;> simp [isCell, h5, hk]), List.length_cons, cells_nodes d xs h.2, cellsOf]
  | .void tag attrs :: xs, h => by
    rw [fineL, fine, single, Bool.false_and, Bool.false_and] at h; cases h
    all_goals simp
  | .bare tag attrs :: xs, h => by rw [fineL, fine, Bool.false_and] at h; cases h

theorem rows_nodes (d : Int) : ∀ (l : List Ht), fineL .table l = true → rowSizes (nodesL d (elsL (asReadL l))) = rowsOf l
  | [], _ => by rw [asReadL, elsL, nodesL, rowSizes]; rfl
  | .text s :: xs, h => by
    rw [fineL, Bool.and_eq_true] at h
    rw [asReadL, Ht.asRead, elsL, Ht.els, rowSizes_chars, rows_nodes d xs h.2]; rfl
  | .white s :: xs, h => by
    rw [fineL, Bool.and_eq_true] at h
    rw [asReadL, Ht.asRead, elsL, Ht.els, rowSizes_chars, rows_nodes d xs h.2]; rfl
  | .el tag attrs ch :: xs, h => by
    rw [fineL, Bool.and_eq_true] at h
    obtain ⟨c', h1, h2, h3⟩ := fine_el_inv h.1
    obtain ⟨i, d', h4, h5⟩ := nodes_elem d tag ((heldAttrs attrs).map fun a => (a.1, some a.2)) (elsL (asReadL ch))
    have hk : kindOf tag = c!"tr" ∧ c' = .row := by
      generalize attrs.map (·.1) = names at h1
      cases h1 with
      | list _ _ hc h => rcases hc with hc | hc <;> cases hc
      | row => exact ⟨rfl, rfl⟩
      | face _ _ hc h => rcases hc with hc | hc <;> cases hc
      | link _ hc => rcases hc with hc | hc <;> cases hc
      | code _ hc => rcases hc with hc | hc <;> cases hc
    obtain ⟨hk, rfl⟩ := hk
    rw [asReadL, Ht.asRead, elsL, Ht.els, if_neg (fun e => (inside_nest h1).2.2.1 e.1), nodesL, h4, List.cons_append, List.nil_append,
      rowSizes, rowSize, if_pos (by simp [isRow, h5, hk]), cells_nodes d' ch h3, rows_nodes d xs h.2, rowsOf]
    rfl
  | .void tag attrs :: xs, h => by
    rw [fineL, fine, single, Bool.false_and, Bool.false_and] at h; cases h
    all_goals simp
  | .bare tag attrs :: xs, h => by rw [fineL, fine, Bool.false_and] at h; cases h

/-! ## Tidy trees -/

mutual
theorem tidy_piece {lang : Emit.Lang} : ∀ (x : Ht) (c : Gr.Ctx), fine c x = true → x.fits = true → (lang = .textile ∨ c ≠ .doc ∨ even x = true) →
    ∀ {p : Place}, Stands c p → ∀ (d : Int) {l : List El}, tidyL lang p (nodesL d l) = true → tidyL lang p (nodesL d (x.asRead.els l)) = true
  | .text s, c, h, _, _, p, hs, d, l, hl => by
    rw [Ht.asRead, Ht.els]
    refine tidy_chars d s (stands_part hs) (fun e => ?_) hl
    rw [fine] at h
    have : takesText c = false := by
      cases c <;> simp [Stands] at hs <;> first | rfl | (rcases hs with rfl | rfl <;> rcases e with e | e <;> cases e)
    rw [this] at h
    exact h
  | .white s, c, h, _, _, p, hs, d, l, hl => by
    rw [Ht.asRead, Ht.els]
    rw [fine] at h
    exact tidy_chars d s (stands_part hs) (fun e => h) hl
  | .el tag attrs ch, c, h, hfit, he, p, hs, d, l, hl => by
    obtain ⟨c', h1, h2, h3⟩ := fine_el_inv h
    rw [Ht.fits, Bool.and_eq_true, Bool.and_eq_true] at hfit
    obtain ⟨i, d', h4, h5⟩ := nodes_elem d tag ((heldAttrs attrs).map fun a => (a.1, some a.2)) (elsL (asReadL ch))
    rw [Ht.asRead, Ht.els, if_neg (fun e => (inside_nest h1).2.2.1 e.1), nodesL, h4, List.cons_append, List.nil_append, tidyL, hl, Bool.and_true]
    have hch : ∀ {p' : Place}, Stands c' p' → tidyL lang p' (nodesL d' (elsL (asReadL ch))) = true :=
      fun {p'} hp => tidy_pieces ch c' h3 hfit.2 (.inr (.inl (inside_not_doc h1))) hp d'
    -- elements that are not parts of tables
    have plain : ∀ k : Str, i.kind = k → leafKinds.contains k = false → k ≠ c!"table" → k ≠ c!"tr" → k ≠ c!"th" → k ≠ c!"td" →
        (p = .free ∨ p = .cell) → Stands c' p → tidy lang p (.mk i (nodesL d' (elsL (asReadL ch)))) = true := by
      intro k hk a1 a2 a3 a4 a5 hp hst
      subst hk
      rcases hp with rfl | rfl
      all_goals
        rw [tidy]
        · rw [a1, if_neg (by decide), if_neg a2]
          simp [isRow, isCell, a3, a4, a5, hch hst]
        all_goals intro e; cases e
    generalize hnm : attrs.map (·.1) = names at h1
    cases h1 with
    | heading _ hh =>
      obtain ⟨x, ds, rfl, g1, g2, g3⟩ := heading_digit hh
      obtain ⟨n, g4, g5⟩ := digit_level g1 g2
      have hk : i.kind = c!"headline" := by rw [h5]; simp [kindOf, headline?, g4]
      exact plain _ hk (by decide) (by decide) (by decide) (by decide) (by decide) (.inl hs) (.inl hs)
    | pre => exact absurd hfit.1.1 (by decide)
    | p => exact plain _ h5 (by decide) (by decide) (by decide) (by decide) (by decide) (.inl hs) (.inl hs)
    | table =>
      have hp : p = .free := hs
      subst hp
      have hr : lang = .textile ∨ allSame (rowsOf ch) = true := by
        rcases he with he | he | he
        · exact .inl he
        · exact absurd rfl he
        · exact .inr (by simpa [even] using he)
      have hk : i.kind = c!"table" := h5
      rw [tidy_free, hk, if_neg (by decide), if_pos rfl, hch (p' := .table) rfl, rows_nodes d' ch h3]
      rcases hr with hr | hr <;> simp [hr]
    | list _ _ hc hh =>
      have hp : p = .free ∨ p = .cell := by rcases hc with rfl | rfl; exact .inl hs; exact hs
      have hk : i.kind = tag := by rw [h5]; rcases hh with rfl | rfl <;> rfl
      have : leafKinds.contains tag = false ∧ tag ≠ c!"table" ∧ tag ≠ c!"tr" ∧ tag ≠ c!"th" ∧ tag ≠ c!"td" := by
        rcases hh with rfl | rfl <;> decide
      exact plain _ hk this.1 this.2.1 this.2.2.1 this.2.2.2.1 this.2.2.2.2 hp hp
    | item => exact plain _ h5 (by decide) (by decide) (by decide) (by decide) (by decide) hs hs
    | row =>
      have hp : p = .table := hs
      subst hp
      have hk : i.kind = c!"tr" := h5
      rw [tidy, hch (p' := .row) rfl]
      simp [isRow, hk]
    | cell _ hh =>
      have hp : p = .row := hs
      subst hp
      have hk : i.kind = c!"td" ∨ i.kind = c!"th" := by rw [h5]; rcases hh with rfl | rfl <;> decide
      rw [tidy, hch (p' := .cell) (.inr rfl)]
      rcases hk with hk | hk <;> simp [isCell, hk]
    | link _ hc =>
      have hp : p = .free ∨ p = .cell := by rcases hc with rfl | rfl <;> exact hs
      exact plain _ h5 (by decide) (by decide) (by decide) (by decide) (by decide) hp hp
    | face _ _ hc hh =>
      have hp : p = .free ∨ p = .cell := by rcases hc with rfl | rfl <;> exact hs
      have : kindOf tag = tag ∧ leafKinds.contains tag = false ∧ tag ≠ c!"table" ∧ tag ≠ c!"tr" ∧ tag ≠ c!"th" ∧ tag ≠ c!"td" := by
        simp only [faces, List.mem_cons, List.not_mem_nil, or_false] at hh
        rcases hh with rfl | rfl | rfl | rfl | rfl | rfl | rfl | rfl <;> decide
      exact plain tag (by rw [h5, this.1]) this.2.1 this.2.2.1 this.2.2.2.1 this.2.2.2.2.1 this.2.2.2.2.2 hp hp
    | code _ hc =>
      have hp : p = .free ∨ p = .cell := by rcases hc with rfl | rfl <;> exact hs
      exact plain _ h5 (by decide) (by decide) (by decide) (by decide) (by decide) hp hp
  | .void tag attrs, c, h, _, _, p, hs, d, l, hl => by
    rw [fine, Bool.and_eq_true] at h
    have hp : p = .free ∨ p = .cell := by
      cases c <;> simp [single, Stands] at h hs <;> first | exact .inl hs | exact hs
    have hk : leafKinds.contains tag = true ∧ tag ≠ c!"inlinedata_pre" := by
      rcases single_cases h.1 with ⟨rfl, _⟩ | ⟨rfl, _⟩ | ⟨rfl, _⟩ <;> decide
    rw [Ht.asRead, Ht.els, nodesL, El.nodes, List.cons_append, List.nil_append, tidyL, hl, Bool.and_true]
    rcases hp with rfl | rfl
    all_goals
      rw [tidy]
      · rw [if_pos hk.1]
        simp [hk.2]
      all_goals intro e; cases e
  | .bare tag attrs, c, h, _, _, p, hs, d, l, hl => by rw [fine] at h; cases h
theorem tidy_pieces {lang : Emit.Lang} : ∀ (l : List Ht) (c : Gr.Ctx), fineL c l = true → fitsL l = true →
    (lang = .textile ∨ c ≠ .doc ∨ l.all even = true) → ∀ {p : Place}, Stands c p → ∀ (d : Int),
    tidyL lang p (nodesL d (elsL (asReadL l))) = true
  | [], _, _, _, _, p, _, d => by rw [asReadL, elsL, nodesL, tidyL]
  | x :: xs, c, h, hfit, he, p, hs, d => by
    rw [fineL, Bool.and_eq_true] at h
    rw [fitsL, Bool.and_eq_true] at hfit
    have he' : (lang = .textile ∨ c ≠ .doc ∨ even x = true) ∧ (lang = .textile ∨ c ≠ .doc ∨ xs.all even = true) := by
      rcases he with he | he | he
      · exact ⟨.inl he, .inl he⟩
      · exact ⟨.inr (.inl he), .inr (.inl he)⟩
      · rw [List.all_cons, Bool.and_eq_true] at he
        exact ⟨.inr (.inr he.1), .inr (.inr he.2)⟩
    rw [asReadL, elsL]
    exact tidy_piece x c h.1 hfit.1 he'.1 hs d (tidy_pieces xs c h.2 hfit.2 he'.2 hs d)
end

theorem tidy_pre (lang : Emit.Lang) (line : Bool) (text : Str) : tidy lang .free (preNode line text) = true := by
  unfold preNode
  cases line with
  | true =>
    rw [if_pos rfl, tidy_free, if_pos (show leafKinds.contains c!"blockdata_pre" = true by decide)]
    simp
  | false =>
    rw [if_neg (by decide), tidy_free, if_pos (show leafKinds.contains c!"inlinedata_pre" = true by decide)]
    have : (c!"</code>").isSuffixOf (Cr.textHtml text) = false := by
      cases hs : (c!"</code>").isSuffixOf (Cr.textHtml text) with
      | false => rfl
      | true =>
        rw [List.isSuffixOf_iff_suffix] at hs
        exact absurd (hs.subset (show '<' ∈ c!"</code>" by decide)) (textHtml_lt text)
    simp only [Option.getD_some, this]
    simp

theorem even_divide : ∀ (l : List Ht), l.all even = true → (divide l).1.all even = true ∧ ∀ a ∈ (divide l).2, a.after.all even = true
  | [], _ => by simp [divide]
  | x :: xs, h => by
    rw [List.all_cons, Bool.and_eq_true] at h
    obtain ⟨h1, h2⟩ := even_divide xs h.2
    rw [divide]
    cases hx : preText x with
    | none => exact ⟨by simp only [List.all_cons]; rw [h.1, h1]; rfl, h2⟩
    | some s =>
      refine ⟨rfl, ?_⟩
      intro a ha
      rcases List.mem_cons.1 ha with rfl | ha
      · exact h1
      · exact h2 a ha

theorem tidy_areas {lang : Emit.Lang} {line : Bool} {l : List Pre} {nodes : List HNode} (h : ReadAs line l nodes)
    (hl : ∀ a ∈ l, fineL .doc a.after = true ∧ fitsL a.after = true ∧ (lang = .textile ∨ a.after.all even = true)) :
    tidyL lang .free nodes = true := by
  induction h with
  | nil => rw [tidyL]
  | cons line a l after nodes h1 h2 h3 ih =>
    obtain ⟨h4, h5, h6⟩ := hl a (by simp)
    rw [tidyL, tidyL_append, tidy_pre, ih fun a ha => hl a (by simp [ha]),
      tidy_pieces after .doc (by rw [fine_same h1 h2 h5]; exact h4) h2 (h6.imp id fun e => .inr (by rw [← even_solid, h1, even_solid]; exact e)) (p := .free) rfl]
    rfl

/-- the tree of a structured document is tidy -/
theorem tidy_structured {lang : Emit.Lang} {l first : List Ht} {nodes : List HNode} (hf : fineL .doc l = true) (hp : preLines l = true)
    (he : lang = .textile ∨ l.all even = true) (h1 : SameSolid first (divide l).1)
    (h2 : fitsL first = true) (h3 : ReadAs (firstLine (written (divide l).1)) (divide l).2 nodes) :
    tidy lang .free (.mk { kind := c!"document" } (nodesL 0 (elsL (asReadL first)) ++ nodes)) = true := by
  obtain ⟨f1, f2⟩ := divide_fine l hf
  obtain ⟨n1, n2⟩ := divide_notPre l hp
  have hfit := fineL_fits _ .doc f1 fun _ => n1
  have he1 : lang = .textile ∨ first.all even = true := he.imp id fun e => by rw [← even_solid, h1, even_solid]; exact (even_divide l e).1
  rw [tidy_free, if_neg (show ¬ leafKinds.contains c!"document" = true by decide), if_neg (show ¬ c!"document" = c!"table" by decide), tidyL_append,
    tidy_pieces first .doc (by rw [fine_same h1 h2 hfit]; exact f1) h2 (he1.imp id .inr) (p := .free) rfl,
    tidy_areas h3 fun a ha => ⟨f2 a ha, fineL_fits _ .doc (f2 a ha) fun _ => (n2 a ha).2, he.imp id fun e => (even_divide l e).2 a ha⟩]
  rfl

end Verif.Html
