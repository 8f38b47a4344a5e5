import Verif.Spec.ThereBack
import Verif.Props.RoundTrip
import Verif.Props.Article

/-!
# C89: from HTML to creole and back
-/

namespace Verif.Props

open Verif Py Html Emit Spec Spec.Hd Spec.Rt Spec.Ar

/-! ## The text -/

theorem inlsBack_append (br : Str) (a b : List Cr.Inl) : inlsBack br (a ++ b) = inlsBack br a ++ inlsBack br b := by
  induction a with
  | nil => rfl
  | cons i a ih => rw [List.cons_append, inlsBack, inlsBack, ih, List.append_assoc]

theorem inlsBack_chars (br s : Str) : inlsBack br (s.map .chr) = s := by
  induction s with
  | nil => rfl
  | cons c s ih => rw [List.map_cons, inlsBack, inlBack, ih]; rfl

theorem faceOf_delimiters {tag : Str} (h : (delimiters .creole tag).isSome = true) :
    ∃ f, faceOf tag = some f ∧ delimiters .creole tag = some ([f.char, f.char], [f.char, f.char]) := by
  have hm : tag ∈ [c!"b", c!"strong", c!"big", c!"i", c!"em", c!"tt", c!"sup", c!"sub", c!"u", c!"small", c!"del", c!"strike"] := by
    apply Classical.byContradiction
    intro hn
    simp only [List.mem_cons, List.not_mem_nil, or_false, not_or] at hn
    obtain ⟨h1, h2, h3, h4, h5, h6, h7, h8, h9, h10, h11, h12⟩ := hn
    simp only [delimiters, List.lookup, beq_false_of_ne h1, beq_false_of_ne h2, beq_false_of_ne h3, beq_false_of_ne h4,
      beq_false_of_ne h5, beq_false_of_ne h6, beq_false_of_ne h7, beq_false_of_ne h8, beq_false_of_ne h9, beq_false_of_ne h10,
      beq_false_of_ne h11, beq_false_of_ne h12] at h
    cases h
  simp only [List.mem_cons, List.not_mem_nil, or_false] at hm
  rcases hm with rfl | rfl | rfl | rfl | rfl | rfl | rfl | rfl | rfl | rfl | rfl | rfl <;> exact ⟨_, rfl, rfl⟩

/-- a sequence with a text is not empty -/
theorem inls_ne {br : Str} {l : List Cr.Inl} (h : inlsBack br l ≠ []) : l ≠ [] := by
  rintro rfl
  exact h rfl

theorem faceMarks_eq {tag : Str} {f : Cr.Face} (h : faceOf tag = some f) : faceMarks tag = [f.char, f.char] := by rw [faceMarks, h]; rfl

mutual
theorem back_sp (il : Bool) : ∀ (k : Bool) (x : Sp), x.Ok .creole anyHost → x.full il = true →
    inlsBack (breakText .creole il) (x.inls il k) = x.txt .creole il
  | _, .text s, _, _ => by rw [Sp.inls, inlsBack_chars, Sp.txt, plainText]; simp
  | k, .face tag inner, h, hf => by
    rw [Sp.Ok] at h
    obtain ⟨f, h1, h2⟩ := faceOf_delimiters h.1
    have ih := back_sps il k inner h.2.2 (by simpa [Sp.full] using hf)
    rw [Sp.inls, h1, faceMarks_eq h1, Sp.txt, faceText]
    simp only [To.lang, h2]
    cases k with
    | true => simp only [if_true, inlsBack_append, inlsBack_chars, ih]
    | false => simp only [Bool.false_eq_true, if_false, inlsBack, inlBack, ih, Option.getD_some, List.append_nil]
  | k, .link url title inner, h, hf => by
    rw [Sp.Ok] at h
    rw [Sp.full, Bool.and_eq_true] at hf
    have ih := back_sps il true inner h.2 hf.1
    have hne : spsText .creole il inner ≠ [] := by simpa using hf.2
    rw [Sp.inls, Sp.txt, Ar.linkText, inlsBack, inlsBack, List.append_nil]
    by_cases he : spsText .creole il inner = url.text
    · rw [if_pos he, if_pos he.symm, inlBack, Rt.linkText, if_pos rfl, he]
    · rw [if_neg he, if_neg fun e => he e.symm]
      cases hi : spsInls il true inner with
      | nil => rw [hi] at ih; exact absurd ih.symm hne
      | cons i l =>
        rw [hi, inlsBack] at ih
        rw [inlBack, ih, Rt.linkText, if_neg fun e => he e.symm]
  | _, .image src alt title, h, hf => by
    rw [Sp.full] at hf
    rw [Sp.inls, Sp.txt, Ar.imageText]
    split
    · rfl
    · rename_i hd
      cases hp : pictureText src.text alt title with
      | nil => rw [hp] at hf; cases hf
      | cons c s => rw [inlsBack, inlBack, inlsBack, Rt.imageText, if_neg hd]; simp
  | _, .code s, _, _ => by rw [Sp.inls, inlsBack_chars, Sp.txt, codeText]
  | _, .br, _, _ => by rw [Sp.inls, inlsBack, inlBack, inlsBack, Sp.txt, List.append_nil]
theorem back_sps (il : Bool) : ∀ (k : Bool) (l : List Sp), SpsOk .creole anyHost l → spsFull il l = true →
    inlsBack (breakText .creole il) (spsInls il k l) = spsText .creole il l
  | _, [], _, _ => rfl
  | k, x :: l, h, hf => by
    rw [SpsOk] at h
    rw [spsFull, Bool.and_eq_true] at hf
    rw [spsInls, inlsBack_append, back_sp il k x h.1 hf.1, back_sps il k l h.2.1 hf.2, spsText]
end

/-! ## The elements -/

theorem elsL_chars (w : Str) (s : Str) (r : List Ht) : elsL (inlsHt w (s.map .chr) ++ r) = s.foldr addChar (elsL r) := by
  induction s with
  | nil => rfl
  | cons c s ih => rw [List.map_cons, inlsHt, inlHt, List.append_assoc, List.foldr_cons, ← ih]; rfl

theorem inlsHt_append (w : Str) (a b : List Cr.Inl) : inlsHt w (a ++ b) = inlsHt w a ++ inlsHt w b := by
  induction a with
  | nil => rfl
  | cons i a ih => rw [List.cons_append, inlsHt, inlsHt, ih, List.append_assoc]

theorem elsL_link (t : Str) (l r : List Ht) :
    elsL ([linkHt t l] ++ r) = .elem c!"a" [(c!"href", some t)] (elsL l) :: elsL r := rfl

mutual
theorem again_sp (il : Bool) : ∀ (k : Bool) (w : Str) (x : Sp) (r : List Ht), x.Ok .creole anyHost → x.full il = true →
    elsL (inlsHt w (x.inls il k) ++ r) = x.again il k (elsL r)
  | _, w, .text s, r, _, _ => by rw [Sp.inls, elsL_chars, Sp.again]
  | k, w, .face tag inner, r, h, hf => by
    rw [Sp.Ok] at h
    obtain ⟨f, h1, h2⟩ := faceOf_delimiters h.1
    cases k with
    | true =>
      have ih := again_sps il true w inner (inlsHt w ((faceMarks tag).map .chr) ++ r) h.2.2 (by simpa [Sp.full] using hf)
      rw [elsL_chars] at ih
      rw [Sp.inls, Sp.again, if_pos rfl, if_pos rfl, inlsHt_append, inlsHt_append, List.append_assoc, List.append_assoc, elsL_chars, ih]
    | false =>
      have ih := again_sps il false c!"\n" inner [] h.2.2 (by simpa [Sp.full] using hf)
      rw [List.append_nil, elsL] at ih
      rw [Sp.inls, h1, if_neg (by simp), inlsHt, inlsHt, inlHt, List.append_nil, Sp.again, h1, if_neg (by simp), ← ih]
      show Ht.els _ _ = _
      rw [Ht.els, if_neg (by cases f <;> simp [Cr.Face.tag])]
      rfl
  | k, w, .link url title inner, r, h, hf => by
    rw [Sp.Ok] at h
    rw [Sp.full, Bool.and_eq_true] at hf
    have hb := back_sps il true inner h.2 hf.1
    have ih := again_sps il true c!"\n" inner [] h.2 hf.1
    have hne : spsText .creole il inner ≠ [] := by simpa using hf.2
    rw [List.append_nil] at ih
    rw [Sp.inls, inlsHt, inlsHt, List.append_nil, Sp.again]
    by_cases he : spsText .creole il inner = url.text
    · rw [if_pos he, if_pos he, inlHt, elsL_link]; rfl
    · rw [if_neg he, if_neg he]
      cases hi : spsInls il true inner with
      | nil => rw [hi] at hb; exact absurd hb.symm hne
      | cons i l =>
        rw [hi, inlsHt] at ih
        rw [inlHt, elsL_link, ih]; rfl
  | _, w, .image src alt title, r, h, hf => by
    rw [Sp.full] at hf
    rw [Sp.inls, Sp.again]
    split
    · rfl
    · cases hp : pictureText src.text alt title with
      | nil => rw [hp] at hf; cases hf
      | cons c s => rfl
  | _, w, .code s, r, _, _ => by rw [Sp.inls, elsL_chars, Sp.again]
  | _, w, .br, r, _, _ => by rw [Sp.inls, Sp.again]; rfl
theorem again_sps (il : Bool) : ∀ (k : Bool) (w : Str) (l : List Sp) (r : List Ht), SpsOk .creole anyHost l → spsFull il l = true →
    elsL (inlsHt w (spsInls il k l) ++ r) = spsAgain il k l (elsL r)
  | _, _, [], _, _, _ => rfl
  | k, w, x :: l, r, h, hf => by
    rw [SpsOk] at h
    rw [spsFull, Bool.and_eq_true] at hf
    rw [spsInls, inlsHt_append, List.append_assoc, again_sp il k w x _ h.1 hf.1, again_sps il k w l r h.2.1 hf.2, spsAgain]
end

/-! ## Paragraphs -/

theorem paraInls_ne (l : List Sp) : paraInls l ≠ [] := by
  cases l with
  | nil => simp [paraInls]
  | cons x l =>
    cases x <;> simp only [paraInls] <;> first | exact List.cons_ne_nil _ _ | (split <;> exact List.cons_ne_nil _ _)

theorem paraInls_cons {x : Sp} (h : x ≠ .br) (l : List Sp) {m : List Cr.Inl} {ms : List (List Cr.Inl)} (he : paraInls l = m :: ms) :
    paraInls (x :: l) = (x.inls false false ++ m) :: ms := by
  cases x <;> first | exact absurd rfl h | (rw [paraInls, he]; simp)

theorem back_para : ∀ (l : List Sp), SpsOk .creole anyHost l → spsFull false l = true →
    joinLines c!"\n" ((paraInls l).map (inlsBack c!"\n")) = spsText .creole false l
  | [], _, _ => rfl
  | x :: l, h, hf => by
    rw [SpsOk] at h
    rw [spsFull, Bool.and_eq_true] at hf
    have ih := back_para l h.2.1 hf.2
    obtain ⟨m, ms, he⟩ : ∃ m ms, paraInls l = m :: ms := by
      cases hp : paraInls l with
      | nil => exact absurd hp (paraInls_ne l)
      | cons m ms => exact ⟨m, ms, rfl⟩
    rw [spsText, ← ih]
    by_cases hx : x = .br
    · subst hx
      rw [paraInls, he]
      rfl
    · have hb := back_sp false false x h.1 hf.1
      rw [paraInls_cons hx l he, he, ← hb, List.map_cons, List.map_cons, inlsBack_append]
      cases ms with
      | nil => rfl
      | cons m' ms => simp [joinLines, breakText]

theorem again_para : ∀ (l : List Sp), SpsOk .creole anyHost l → spsFull false l = true →
    elsL (paraHt (paraInls l)) = spsAgain false false l []
  | [], _, _ => rfl
  | x :: l, h, hf => by
    rw [SpsOk] at h
    rw [spsFull, Bool.and_eq_true] at hf
    have ih := again_para l h.2.1 hf.2
    obtain ⟨m, ms, he⟩ : ∃ m ms, paraInls l = m :: ms := by
      cases hp : paraInls l with
      | nil => exact absurd hp (paraInls_ne l)
      | cons m ms => exact ⟨m, ms, rfl⟩
    rw [spsAgain, ← ih]
    by_cases hx : x = .br
    · subst hx
      rw [paraInls, he]
      rfl
    · rw [paraInls_cons hx l he, he, ← again_sp false false c!"\n" x _ h.1 hf.1]
      cases ms with
      | nil => rw [paraHt, paraHt, inlsHt_append]
      | cons m' ms => rw [paraHt, paraHt, inlsHt_append, List.append_assoc]

/-! ## Lists -/

theorem marks_creole (k : List Bool) : marks .creole k = k.map fun n => (markOf n).char := by
  rw [marks]
  · refine List.map_congr_left fun n _ => ?_
    cases n <;> rfl
  · simp

theorem marks_snoc (k : List Bool) (n : Bool) : marks .creole (k ++ [n]) = marks .creole k ++ [(markOf n).char] := by
  rw [marks_creole, marks_creole, List.map_append]; rfl

theorem markOf_tag (n : Bool) : (markOf n).tag = listTag n := by cases n <;> rfl

mutual
theorem back_item : ∀ (k : List Bool) (i : Ar.Item), i.Ok .creole anyHost → i.full = true →
    branchBack (marks .creole k) (i.branch (marks .creole k)) = i.lines .creole k
  | k, .mk text n sub, h, hf => by
    rw [Ar.Item.Ok] at h
    rw [Item.full, Bool.and_eq_true] at hf
    have hb := back_sps true false text h.1 hf.1
    rw [Item.branch, branchBack, Ar.Item.lines, ← marks_snoc, back_items _ sub h.2 hf.2]
    rw [← hb]; rfl
theorem back_items : ∀ (k : List Bool) (l : List Ar.Item), ItemsOk .creole anyHost l → itemsFull l = true →
    branchesBack (marks .creole k) (itemsBranches (marks .creole k) l) = Ar.itemsLines .creole k l
  | _, [], _, _ => rfl
  | k, i :: l, h, hf => by
    rw [ItemsOk] at h
    rw [itemsFull, Bool.and_eq_true] at hf
    rw [itemsBranches, branchesBack, Ar.itemsLines, back_item k i h.1 hf.1, back_items k l h.2 hf.2]
end

theorem itemsBranches_empty (m : Str) (l : List Ar.Item) : (itemsBranches m l).isEmpty = l.isEmpty := by cases l <;> rfl

mutual
theorem again_item : ∀ (n : Nat) (m : Str) (i : Ar.Item) (r : List Ht), i.Ok .creole anyHost → i.full = true →
    elsL (branchHt n (i.branch m) ++ r) = i.again :: elsL r
  | n, m, .mk text num sub, r, h, hf => by
    rw [Ar.Item.Ok] at h
    rw [Item.full, Bool.and_eq_true] at hf
    have ih := again_items (n + 1) (m ++ [(markOf num).char]) sub [.white (c!"\n" ++ Cr.indentTabs (n + 1))] h.2 hf.2
    rw [Item.branch, branchHt, Item.again, itemsBranches_empty]
    show Ht.els _ (Ht.els _ _) = _
    rw [Ht.els, Ht.els, if_neg (by simp), again_sps true false _ text _ h.1 hf.1]
    cases sub with
    | nil => rfl
    | cons i l =>
      rw [List.isEmpty_cons]
      simp only [Bool.false_eq_true, if_false]
      rw [elsL, elsL, Ht.els, Ht.els, if_neg (by cases num <;> simp [markOf, Cr.Mark.tag]), ih, markOf_tag]
      simp [elsL, Ht.els]
theorem again_items : ∀ (n : Nat) (m : Str) (l : List Ar.Item) (r : List Ht), ItemsOk .creole anyHost l → itemsFull l = true →
    elsL (branchesHt n (itemsBranches m l) ++ r) = itemsAgain l ++ elsL r
  | _, _, [], _, _, _ => rfl
  | n, m, i :: l, r, h, hf => by
    rw [ItemsOk] at h
    rw [itemsFull, Bool.and_eq_true] at hf
    rw [itemsBranches, branchesHt, List.append_assoc, again_item n m i _ h.1 hf.1, again_items n m l r h.2 hf.2, itemsAgain]
    rfl
end

/-! ## Tables -/

theorem back_cell {c : Ar.Cell} (h : SpsOk .creole anyHost c.text) (hf : spsFull false c.text = true) :
    Rt.cellBox ⟨c.head, spsInls false false c.text⟩ = Ar.cellBox .creole c := by
  have := back_sps false false c.text h hf
  rw [Rt.cellBox, Rt.cellBack, Ar.cellBox, ← this]
  rfl

theorem back_table {rows : List (List Ar.Cell)} (h : ∀ r ∈ rows, ∀ c ∈ r, SpsOk .creole anyHost c.text ∧ spsFull false c.text = true) :
    tableBack (rows.map fun r => r.map fun c => ⟨c.head, spsInls false false c.text⟩) = tableLines .creole rows := by
  have hr : ∀ r ∈ rows, (r.map fun c => (⟨c.head, spsInls false false c.text⟩ : TCell)).map Rt.cellBox = r.map (Ar.cellBox .creole) := by
    intro r hr
    rw [List.map_map]
    exact List.map_congr_left fun c hc => back_cell (h r hr c hc).1 (h r hr c hc).2
  have hb : (rows.map fun r => r.map fun c => (⟨c.head, spsInls false false c.text⟩ : TCell)).map (fun r => r.map Rt.cellBox) =
      rows.map fun r => r.map (Ar.cellBox .creole) := by
    rw [List.map_map]
    exact List.map_congr_left hr
  rw [tableBack, hb, tableLines, List.map_map, List.map_map]
  refine List.map_congr_left fun r h' => ?_
  rw [Function.comp_apply, Function.comp_apply, rowBack, hr r h']
  rfl

theorem again_cells : ∀ (r : List Ar.Cell), (∀ c ∈ r, SpsOk .creole anyHost c.text ∧ spsFull false c.text = true) →
    elsL ((r.map fun c => (⟨c.head, spsInls false false c.text⟩ : TCell)).flatMap cellHt) =
      r.map fun c => .elem (if c.head then c!"th" else c!"td") [] (spsAgain false false c.text [])
  | [], _ => rfl
  | c :: r, h => by
    have hc := again_sps false false c!"\n\t\t" c.text [] (h c List.mem_cons_self).1 (h c List.mem_cons_self).2
    rw [List.append_nil, elsL] at hc
    rw [List.map_cons, List.flatMap_cons, List.map_cons, ← again_cells r fun x hx => h x (List.mem_cons_of_mem _ hx), ← hc]
    show Ht.els _ (Ht.els _ _) = _
    rw [Ht.els, Ht.els, if_neg (by cases c.head <;> simp)]
    rfl

theorem again_rows : ∀ (rows : List (List Ar.Cell)), (∀ r ∈ rows, ∀ c ∈ r, SpsOk .creole anyHost c.text ∧ spsFull false c.text = true) →
    elsL ((rows.map fun r => r.map fun c => (⟨c.head, spsInls false false c.text⟩ : TCell)).flatMap rowHt) =
      rows.map fun r => .elem c!"tr" [] (r.map fun c => .elem (if c.head then c!"th" else c!"td") [] (spsAgain false false c.text []))
  | [], _ => rfl
  | r :: rows, h => by
    have hc := again_cells r (h r List.mem_cons_self)
    rw [List.map_cons, List.flatMap_cons, List.map_cons, ← again_rows rows fun x hx => h x (List.mem_cons_of_mem _ hx), ← hc]
    rfl

/-! ## Articles -/

theorem back_bl {x : Bl} (h : x.Ok .creole anyHost) (hf : x.full = true) :
    joinLines c!"\n" x.rt.back = joinLines c!"\n" (x.lines .creole) := by
  cases x with
  | para text => rw [Bl.rt, Rt.back, back_para text h (by simpa [Bl.full] using hf)]; rfl
  | head n text => rfl
  | hr => rfl
  | list n items =>
    rw [Bl.Ok] at h
    have := back_items [n] items h.1 (by simpa [Bl.full] using hf)
    rw [Bl.rt, Rt.back, Bl.lines, ← this, marks_creole]
    rfl
  | table rows =>
    rw [Bl.Ok] at h
    rw [Bl.rt, Rt.back, Bl.lines, back_table]
    intro r hr c hc
    simp only [Bl.full, List.all_eq_true] at hf
    exact ⟨((h.2.1 r hr).2 c hc).1, hf r hr c hc⟩

theorem again_bl {x : Bl} (h : x.Ok .creole anyHost) (hf : x.full = true) (r : List Ht) :
    elsL (x.rt.ht :: r) = x.again :: elsL r := by
  cases x with
  | para text =>
    rw [Bl.again, ← again_para text h (by simpa [Bl.full] using hf)]
    rfl
  | head n text =>
    rw [Bl.rt, Rt.ht, elsL, Ht.els, if_neg (by simp), Bl.again]
    rfl
  | hr => rfl
  | list n items =>
    rw [Bl.Ok] at h
    have := again_items 0 [(markOf n).char] items [.white c!"\n"] h.1 (by simpa [Bl.full] using hf)
    rw [Bl.rt, Rt.ht, elsL, Ht.els, if_neg (by cases n <;> simp [markOf, Cr.Mark.tag]), this, markOf_tag, Bl.again]
    simp [elsL, Ht.els]
  | table rows =>
    rw [Bl.Ok] at h
    have := again_rows rows (fun r hr c hc => by
      simp only [Bl.full, List.all_eq_true] at hf
      exact ⟨((h.2.1 r hr).2 c hc).1, hf r hr c hc⟩)
    rw [Bl.rt, Rt.ht, elsL, Ht.els, if_neg (by simp), elsL, Ht.els, this, Bl.again]
    rfl

theorem gap_rt (x y : Bl) : Rt.gap x.rt y.rt = Ar.gap .creole x y := by cases x <;> cases y <;> rfl

theorem lines_ne {x : Bl} (h : x.Ok .creole anyHost) : x.lines .creole ≠ [] := by
  cases x with
  | para text => simp [Bl.lines]
  | head n text => simp [Bl.lines]
  | hr => simp [Bl.lines]
  | list n items =>
    rw [Bl.Ok] at h
    cases items with
    | nil => exact absurd rfl h.2.1
    | cons i l => cases i; rw [Bl.lines, Ar.itemsLines, Ar.Item.lines]; simp
  | table rows =>
    rw [Bl.Ok] at h
    cases rows with
    | nil => exact absurd rfl h.1
    | cons r l => simp [Bl.lines, tableLines]

theorem again_doc : ∀ (d : List (Str × Rt)) (b : Bl) (bs : List Bl), d.map (·.2) = bs.map Bl.rt →
    (∀ x ∈ b :: bs, x.Ok .creole anyHost ∧ x.full = true) → elsL (docHt b.rt d) = (b :: bs).map Bl.again
  | [], b, [], _, h => by rw [docHt, again_bl (h b List.mem_cons_self).1 (h b List.mem_cons_self).2]; rfl
  | [], _, _ :: _, hd, _ => by simp at hd
  | _ :: _, _, [], hd, _ => by simp at hd
  | (w, r) :: d, b, b' :: bs, hd, h => by
    rw [List.map_cons, List.map_cons, List.cons.injEq] at hd
    obtain ⟨h1, h2⟩ := hd
    dsimp only at h1
    subst h1
    rw [docHt, again_bl (h b List.mem_cons_self).1 (h b List.mem_cons_self).2, elsL, Ht.els,
      again_doc d b' bs h2 fun x hx => h x (List.mem_cons_of_mem _ hx), List.map_cons, List.map_cons, List.map_cons]

/-- the text of an article is the one of the creole document -/
theorem back_article : ∀ (d : List Bl) (b : Bl), (∀ x ∈ b :: d, x.Ok .creole anyHost ∧ x.full = true ∧ x.rt.decent = true) →
    joinLines c!"\n" (backDoc b.rt (d.map Bl.rt)) = joinLines c!"\n" (articleLines .creole b d) ∧ articleLines .creole b d ≠ []
  | [], b, h => by
    obtain ⟨h1, h2, _⟩ := h b List.mem_cons_self
    rw [List.map_nil, backDoc, articleLines]
    exact ⟨back_bl h1 h2, lines_ne h1⟩
  | b' :: d, b, h => by
    obtain ⟨h1, h2, h3⟩ := h b List.mem_cons_self
    obtain ⟨i1, i2⟩ := back_article d b' fun x hx => h x (List.mem_cons_of_mem _ hx)
    have hne := backDoc_ne (d.map Bl.rt) b'.rt (h b' (List.mem_cons_of_mem _ List.mem_cons_self)).2.2
    rw [List.map_cons, backDoc, articleLines, gap_rt, List.append_assoc, List.append_assoc,
      joinLines_append _ _ (back_ne h3) (by simp [hne]), joinLines_append _ _ (lines_ne h1) (by simp [i2]), back_bl h1 h2]
    refine ⟨?_, by simp [i2]⟩
    congr 1
    cases hg : Ar.gap .creole b b' with
    | nil => rw [List.nil_append, List.nil_append, i1]
    | cons g gs => rw [joinLines_append _ _ (by simp) hne, joinLines_append _ _ (by simp) i2, i1]

/-- **C89**: from HTML to creole and back.  An article whose creole text means what it says comes back as an article of the
same blocks: typefaces as the elements that creole has for them, links without their titles, pictures with one text, code as
text.  However the HTML is written. -/
theorem C89_there_and_back (o : Creole.Opts) (macros : Creole.Macros) (hblog : o.blog = true) (hstrict : o.strict = false)
    (b : Bl) (d : List Bl) (hok : ∀ x ∈ b :: d, x.Ok .creole anyHost) (hclear : Clear b d)
    (l : List Ht) (hn : neat l = true) (hl : elsL l = (b :: d).map Bl.el) (w w' : Str)
    (hw : ∀ c ∈ w, isSpace c = true) (hw' : ∀ c ∈ w', isSpace c = true) :
    ∃ text l', Emit.html2creole (w ++ written l ++ w') = .ok text ∧ Creole.creole2htmlM o macros text = .ok (written l', macros) ∧
      elsL l' = (b :: d).map Bl.again := by
  obtain ⟨hc1, hc2, hc3⟩ := hclear
  have hst : ∀ x ∈ b.rt :: d.map Bl.rt, x.decent = true ∧ x.stable = true := by
    rw [← List.map_cons]
    intro x hx
    obtain ⟨y, hy, rfl⟩ := List.mem_map.mp hx
    exact (hc1 y hy).2
  obtain ⟨h1, h2, h3⟩ := creoleDoc_stable (b := b.rt) (d := d.map Bl.rt) hst
  have hcx : Cr.ReadWith o macros {} := by
    have := Cr.ReadWith.plain o macros
    rw [hstrict] at this
    exact this
  have htext : articleText .creole b d = joinLines c!"\n" (Cr.docLines (creoleDoc b.rt (d.map Bl.rt))) := by
    rw [articleText, ← (back_article d b fun x hx => ⟨hok x hx, (hc1 x hx).1, (hc1 x hx).2.1⟩).1, strip_bare (backDoc_bare _ _ hst), h1]
  have hl2 : textLines (joinLines c!"\n" (Cr.docLines (creoleDoc b.rt (d.map Bl.rt)))) =
      Cr.docLines (creoleDoc b.rt (d.map Bl.rt)) ++ [] := by
    rw [List.append_nil]
    refine textLines_joinLines _ (.inl rfl) _ ?_ hc3
    rw [h1]
    exact backDoc_ne _ _ (hst _ List.mem_cons_self).1
  have e2 := Creole.creole2html_noMac (cx := {}) o macros _ (creoleDoc b.rt (d.map Bl.rt)) [] (by rw [hblog]; exact hc2) hcx rfl hl2
    (docFor_notMac _ _ h2)
  rw [hblog] at e2
  refine ⟨_, docHt b.rt (laidOut b.rt.block (restDoc b.rt (d.map Bl.rt)) (d.map Bl.rt)), C68_html2creole b d (hok b List.mem_cons_self)
    (fun x hx => hok x (List.mem_cons_of_mem _ hx)) l hn hl w w' hw hw', ?_, ?_⟩
  · rw [htext, e2, creoleDoc, Cr.docBody, ← written_tail _ _ _ _ h2.1 h2.2]
  · exact again_doc _ _ _ (laidOut_blocks _ _ _ h2.2) fun x hx => ⟨hok x hx, (hc1 x hx).1⟩

/-- **C89**: after this the article does not change any more: the HTML that came back gives the same creole text. -/
theorem C89_settled (o : Creole.Opts) (macros : Creole.Macros) (hblog : o.blog = true) (hstrict : o.strict = false)
    (b : Bl) (d : List Bl) (hok : ∀ x ∈ b :: d, x.Ok .creole anyHost) (hclear : Clear b d) (hneat : ∀ x ∈ b :: d, neat [x.rt.ht] = true)
    (l : List Ht) (hn : neat l = true) (hl : elsL l = (b :: d).map Bl.el) (w w' : Str)
    (hw : ∀ c ∈ w, isSpace c = true) (hw' : ∀ c ∈ w', isSpace c = true) :
    ∃ text html, Emit.html2creole (w ++ written l ++ w') = .ok text ∧ Creole.creole2htmlM o macros text = .ok (html, macros) ∧
      Emit.html2creole html = .ok text := by
  obtain ⟨hc1, hc2, hc3⟩ := hclear
  have hst : ∀ x ∈ b.rt :: d.map Bl.rt, x.decent = true ∧ x.stable = true ∧ neat [x.ht] = true := by
    rw [← List.map_cons]
    intro x hx
    obtain ⟨y, hy, rfl⟩ := List.mem_map.mp hx
    exact ⟨(hc1 y hy).2.1, (hc1 y hy).2.2, hneat y hy⟩
  have hst' := fun x hx => (⟨(hst x hx).1, (hst x hx).2.1⟩ : x.decent = true ∧ x.stable = true)
  have htext : articleText .creole b d = joinLines c!"\n" (Cr.docLines (creoleDoc b.rt (d.map Bl.rt))) := by
    rw [articleText, ← (back_article d b fun x hx => ⟨hok x hx, (hc1 x hx).1, (hc1 x hx).2.1⟩).1, strip_bare (backDoc_bare _ _ hst'),
      (creoleDoc_stable hst').1]
  obtain ⟨html, g1, g2⟩ := C63_unchanged o macros b.rt (d.map Bl.rt) hblog hstrict hc2 hst hc3
  rw [← htext] at g1 g2
  exact ⟨_, html, C68_html2creole b d (hok b List.mem_cons_self) (fun x hx => hok x (List.mem_cons_of_mem _ hx)) l hn hl w w' hw hw', g1, g2⟩

/-! ## Articles that come back as they were -/

theorem onlyText_again {il : Bool} {inner : List Sp} (h : onlyText inner = true) :
    (spsText .creole il inner).foldr addChar [] = spsEls inner [] := by
  match inner, h with
  | [], _ => rfl
  | [.text s], _ => simp [spsText, Sp.txt, plainText, spsEls, Sp.els]

mutual
theorem same_sp (il : Bool) : ∀ (k : Bool) (x : Sp) (r : List El), x.same il k = true → x.again il k r = x.els r
  | _, .text s, r, _ => rfl
  | k, .face tag inner, r, h => by
    rw [Sp.same, Bool.and_eq_true, Bool.and_eq_true] at h
    have hk : k = false := by simpa using h.1.1
    rw [Sp.again, Sp.els, same_sps il k inner [] h.2, hk, if_neg (by simp)]
    cases hf : faceOf tag with
    | none => rfl
    | some f =>
      rw [hf] at h
      have : f.tag = tag := by simpa using h.1.2
      rw [Option.elim, this]
  | k, .link url title inner, r, h => by
    rw [Sp.same, Bool.and_eq_true, Bool.and_eq_true] at h
    have ht : title = [] := by simpa using h.1.1
    rw [Sp.again, Sp.els, ht, optAttr, if_pos rfl]
    split
    · rename_i he
      have ho : onlyText inner = true := by simpa [he] using h.2
      rw [← he, onlyText_again ho, he]
    · rw [same_sps il true inner [] h.1.2]
  | _, .image _ _ _, _, h => by cases h
  | _, .code _, _, h => by cases h
  | _, .br, _, _ => rfl
theorem same_sps (il : Bool) : ∀ (k : Bool) (l : List Sp) (r : List El), spsSame il k l = true → spsAgain il k l r = spsEls l r
  | _, [], _, _ => rfl
  | k, x :: l, r, h => by
    rw [spsSame, Bool.and_eq_true] at h
    rw [spsAgain, spsEls, same_sps il k l r h.2, same_sp il k x _ h.1]
end

mutual
theorem same_item : ∀ (i : Ar.Item), i.same = true → i.again = i.el
  | .mk text n sub, h => by
    rw [Item.same, Bool.and_eq_true] at h
    rw [Item.again, Ar.Item.el, same_sps true false text _ h.1, same_items sub h.2]
theorem same_items : ∀ (l : List Ar.Item), itemsSame l = true → itemsAgain l = itemEls l
  | [], _ => rfl
  | i :: l, h => by
    rw [itemsSame, Bool.and_eq_true] at h
    rw [itemsAgain, itemEls, same_item i h.1, same_items l h.2]
end

theorem same_bl {x : Bl} (h : x.same = true) : x.again = x.el := by
  cases x with
  | para text => rw [Bl.again, Bl.el, same_sps false false text [] (by simpa [Bl.same] using h)]
  | head n text => rw [Bl.again, Bl.el, onlyText_again (by simpa [Bl.same] using h)]
  | hr => rfl
  | list n items => rw [Bl.again, Bl.el, same_items items (by simpa [Bl.same] using h)]
  | table rows =>
    simp only [Bl.same, List.all_eq_true] at h
    rw [Bl.again, Bl.el]
    congr 1
    refine List.map_congr_left fun r hr => ?_
    rw [Ar.rowEl]
    congr 1
    refine List.map_congr_left fun c hc => ?_
    rw [Ar.Cell.el, same_sps false false c.text [] (h r hr c hc)]

/-- **C89**: an article with no pictures, code and titles, in the typefaces that creole has and with plain headings, comes back
with the same elements. -/
theorem C89_same (o : Creole.Opts) (macros : Creole.Macros) (hblog : o.blog = true) (hstrict : o.strict = false)
    (b : Bl) (d : List Bl) (hok : ∀ x ∈ b :: d, x.Ok .creole anyHost) (hclear : Clear b d) (hsame : ∀ x ∈ b :: d, x.same = true)
    (l : List Ht) (hn : neat l = true) (hl : elsL l = (b :: d).map Bl.el) (w w' : Str)
    (hw : ∀ c ∈ w, isSpace c = true) (hw' : ∀ c ∈ w', isSpace c = true) :
    ∃ text l', Emit.html2creole (w ++ written l ++ w') = .ok text ∧ Creole.creole2htmlM o macros text = .ok (written l', macros) ∧
      elsL l' = elsL l := by
  obtain ⟨text, l', h1, h2, h3⟩ := C89_there_and_back o macros hblog hstrict b d hok hclear l hn hl w w' hw hw'
  exact ⟨text, l', h1, h2, by rw [h3, hl]; exact List.map_congr_left fun x hx => same_bl (hsame x hx)⟩

/-- **C89**: what is lost.  Markup in headings and inside of links becomes text; text that looks like markup becomes markup. -/
theorem C89_lost :
    Emit.html2creole c!"<h1>a <b>c</b></h1>" = .ok c!"= a **c**" ∧
    Creole.creole2html {} c!"= a **c**" = .ok c!"<h1>a **c**</h1>" ∧
    Emit.html2creole c!"<p><a href=\"/x\"><b>c</b></a></p>" = .ok c!"[[/x|**c**]]" ∧
    Creole.creole2html {} c!"[[/x|**c**]]" = .ok c!"<p><a href=\"/x\">**c**</a></p>" ∧
    Emit.html2creole c!"<p>2 ** 3 ** 4</p>" = .ok c!"2 ** 3 ** 4" ∧
    Creole.creole2html {} c!"2 ** 3 ** 4" = .ok c!"<p>2 <strong> 3 </strong> 4</p>" := by decide +kernel

/-! ## Cases that meet the conditions -/

example : Clear (exArticle.headD .hr) exArticle.tail ∧ ∀ x ∈ exArticle, neat [x.rt.ht] = true := by
  unfold Clear
  decide +kernel

/-- an article that comes back as it was -/
def exSame : List Bl :=
  [.head 2 [.text c!"A & B"],
   .para [.text c!"see ", .link exAddress [] [.text c!"this"], .text c!" and", .br, .face c!"strong" [.text c!"that"],
     .link exAddress [] [.text c!"http://x.org/a b"]],
   .list false [.mk [.text c!"one"] true [.mk [.text c!"two"] false []], .mk [.face c!"i" [.text c!"three"]] false []]]

example : Clear (exSame.headD .hr) exSame.tail ∧ ∀ x ∈ exSame, neat [x.rt.ht] = true ∧ x.same = true := by
  unfold Clear
  decide +kernel

example : Emit.html2creole c!"<p>see <a href=\"/x\" title=\"T\">this</a>, <code>x</code><br><img src=\"/y\" alt=\"z\"></p>" =
      .ok c!"see [[/x|this]], x\n{{/y|z}}" ∧
    Creole.creole2html {} c!"see [[/x|this]], x\n{{/y|z}}" =
      .ok c!"<p>see <a href=\"/x\">this</a>, x<br />\n<img src=\"/y\" title=\"z\" alt=\"z\" /></p>" := by
  decide +kernel

end Verif.Props
