import Verif.Emit.BackBlocks
import Verif.Creole.ListBranches
import Verif.Creole.DocMain

/-!
# The HTML of creole documents is written as described by `Verif.Spec.Rt`
-/

namespace Verif.Emit

open Verif Py Html Spec Spec.Hd Spec.Rt Props

theorem written_append (a b : List Ht) : written (a ++ b) = written a ++ written b := by
  induction a with
  | nil => rfl
  | cons x a ih => rw [List.cons_append, written, written, ih, List.append_assoc]

theorem written_one (x : Ht) : written [x] = x.print := by rw [written, written, List.append_nil]

theorem attrHtml_decimal (n : Nat) : Cr.attrHtml (Cr.decimal n) = Cr.decimal n := by
  have h : ∀ s : Str, (∀ c ∈ s, c.isDigit = true) → Cr.attrHtml s = s := by
    intro s hs
    induction s with
    | nil => rfl
    | cons c s ih =>
      rw [Cr.attrHtml, List.flatMap_cons, ← Cr.attrHtml, ih fun x hx => hs x (List.mem_cons_of_mem _ hx)]
      have hc := hs c List.mem_cons_self
      rw [if_neg (by rintro rfl; exact absurd hc (by decide)), Cr.textChar,
        if_neg (by rintro rfl; exact absurd hc (by decide)), if_neg (by rintro rfl; exact absurd hc (by decide)),
        if_neg (by rintro rfl; exact absurd hc (by decide))]
      rfl
  exact h _ (Creole.decimal_digits n)

theorem written_link (t : Str) (x : List Ht) : (linkHt t x).print = Cr.linkHtml t (written x) := by
  simp [linkHt, Ht.print, Cr.linkHtml, tagStart, attrPrint]

mutual
theorem written_inl : ∀ (i : Cr.Inl) (w : Str), written (inlHt w i) = i.html {} (c!"<br />" ++ w)
  | .chr c, w => by rw [inlHt, written_one, Ht.print, Cr.Inl.html]
  | .esc c, w => by rw [inlHt, written_one, Ht.print, Cr.Inl.html]
  | .face f l, w => by
    rw [inlHt, written_one, Ht.print, Cr.Inl.html, written_inls l c!"\n"]
    simp [tagStart]
  | .link t [], w => by rw [inlHt, written_one, written_link, Cr.Inl.html, written_one, Ht.print]
  | .link t (i :: l), w => by
    rw [inlHt, written_one, written_link, Cr.Inl.html, written_append, written_inl i c!"\n", written_inls l c!"\n"]
    rfl
  | .image t [], w => by
    rw [inlHt, written_one, Cr.Inl.html]
    simp [imageHt, Ht.print, Cr.imgHtml, tagStart, attrPrint]
  | .image t (c :: s), w => by
    rw [inlHt, written_one, Cr.Inl.html]
    simp [imageHt, Ht.print, Cr.imgHtml, tagStart, attrPrint]
  | .sized t s x y, w => by
    rw [inlHt, written_one, Cr.Inl.html]
    simp [imageHt, Ht.print, Cr.imgHtml, tagStart, attrPrint, attrHtml_decimal]
  | .nowiki s, w => by
    rw [inlHt, written_one, Cr.Inl.html]
    simp [Ht.print, tagStart, written_one]
  | .br, w => by
    rw [inlHt, Cr.Inl.html]
    simp [written, Ht.print, tagStart]
  | .url s, w => by rw [inlHt, written_one, written_link, Cr.Inl.html, written_one, Ht.print]
  | .escUrl s, w => by rw [inlHt, written_one, Ht.print, Cr.Inl.html]
  | .mac _ _, w => by rw [inlHt, Cr.Inl.html]; rfl
  | .macText _ _ _, w => by rw [inlHt, Cr.Inl.html]; rfl
theorem written_inls : ∀ (l : List Cr.Inl) (w : Str), written (inlsHt w l) = Cr.htmls {} (c!"<br />" ++ w) l
  | [], w => by rw [inlsHt, Cr.htmls, written]
  | i :: l, w => by rw [inlsHt, Cr.htmls, written_append, written_inl i w, written_inls l w]
end

mutual
theorem written_branch : ∀ (b : Cr.Branch) (n : Nat), written (branchHt n b) = b.html {} n
  | .mk pre text kind sub, n => by
    rw [branchHt, Cr.Branch.html]
    simp only [written, Ht.print, tagStart, List.flatMap_nil, written_append, written_inls, List.append_nil]
    cases sub with
    | nil => simp [written]
    | cons b bs =>
      simp only [List.isEmpty_cons, Bool.false_eq_true, if_false, written, Ht.print, tagStart, List.flatMap_nil, written_append,
        written_branches (b :: bs) (n + 1)]
      simp
theorem written_branches : ∀ (bs : List Cr.Branch) (n : Nat), written (branchesHt n bs) = Cr.branchesHtml {} n bs
  | [], n => by rw [branchesHt, Cr.branchesHtml, written]
  | b :: bs, n => by rw [branchesHt, Cr.branchesHtml, written_append, written_branch b n, written_branches bs n]
end

theorem written_para : ∀ ls : List (List Cr.Inl), noSlashEnd ls = true → written (paraHt ls) = Cr.paraHtml {} c!"<br />\n" ls
  | [], _ => rfl
  | [l], _ => by rw [paraHt, Cr.paraHtml, written_inls]; rfl
  | l :: m :: ls, h => by
    rw [noSlashEnd, Bool.and_eq_true, bne_iff_ne] at h
    · rw [paraHt, Cr.paraHtml, written_append, written_inls, if_neg h.1]
      simp only [written, Ht.print, written_para (m :: ls) h.2, tagStart]
      simp
    · simp

theorem written_cells (r : List Cr.Cell) : written ((r.map tcell).flatMap cellHt) = r.flatMap (Cr.Cell.html {}) := by
  induction r with
  | nil => rfl
  | cons c r ih =>
    rw [List.map_cons, List.flatMap_cons, List.flatMap_cons, written_append, ih]
    congr 1
    cases c <;> simp [cellHt, tcell, written, Ht.print, tagStart, Cr.Cell.html, written_inls]

theorem written_rows (rows : List (List Cr.Cell)) :
    written ((rows.map fun r => r.map tcell).flatMap rowHt) = rows.flatMap (Cr.rowHtml {}) := by
  induction rows with
  | nil => rfl
  | cons r rows ih =>
    rw [List.map_cons, List.flatMap_cons, List.flatMap_cons, written_append, ih]
    congr 1
    simp [rowHt, written, Ht.print, tagStart, Cr.rowHtml, written_cells]

theorem written_block {b : Cr.Block} {r : Rt} (h : StandsFor b r) : r.ht.print = b.html {} true := by
  cases b <;> cases r <;> simp only [StandsFor] at h
  · obtain ⟨rfl, h⟩ := h
    simp [Rt.ht, Ht.print, Cr.Block.html, written_para _ h, tagStart]
  · obtain ⟨rfl, rfl⟩ := h
    simp [Rt.ht, Ht.print, Cr.Block.html, Cr.headHtml, tagStart, written_one]
  · rfl
  · rw [Cr.Block.html, Creole.listHtml_branches h.2 h.1]
    simp [Rt.ht, Ht.print, tagStart, written_append, written_branches, written_one]
  · subst h
    simp [Rt.ht, Ht.print, tagStart, Cr.Block.html, written, written_rows]

/-- the blocks of a document with the layout between them -/
def laidOut (b : Cr.Block) : Cr.Doc → List Rt → List (Str × Rt)
  | (g, b') :: d, r :: rs => (Cr.gapHtml b g, r) :: laidOut b' d rs
  | _, _ => []

theorem laidOut_blocks : ∀ (d : Cr.Doc) (rs : List Rt) (b : Cr.Block), DocFor d rs → (laidOut b d rs).map (·.2) = rs
  | [], [], _, _ => rfl
  | [], _ :: _, _, h => h.elim
  | _ :: _, [], _, h => h.elim
  | (g, b') :: d, r :: rs, b, h => by
    rw [laidOut, List.map_cons, laidOut_blocks d rs b' h.2]

theorem written_tail : ∀ (d : Cr.Doc) (rs : List Rt) (b : Cr.Block) (r : Rt), StandsFor b r → DocFor d rs →
    written (docHt r (laidOut b d rs)) = b.html {} true ++ Cr.docTail {} true b d
  | [], [], b, r, h, _ => by rw [laidOut, docHt, written_one, written_block h, Cr.docTail, List.append_nil]; simp
  | [], _ :: _, _, _, _, h => h.elim
  | _ :: _, [], _, _, _, h => h.elim
  | (g, b') :: d, r' :: rs, b, r, h, h' => by
    rw [laidOut, docHt, written, written, written_block h, Ht.print, Cr.docTail, written_tail d rs b' r' h'.1 h'.2]
    simp

/-! ## Blanks -/

theorem okL_append (a b : List Ht) : okL (a ++ b) = (okL a && okL b) := by
  induction a with
  | nil => rfl
  | cons x a ih => rw [List.cons_append, okL, okL, ih, Bool.and_assoc]

theorem afterBlank_block (xs rest : List Bit) (T : Str) : afterBlank (xs ++ .tag .block T :: rest) = afterBlank (xs ++ [.tag .block T]) := by
  cases xs with
  | nil => rfl
  | cons x xs =>
    cases x with
    | chr c => rfl
    | white s => rfl
    | ref s => rfl
    | tag k T => cases k <;> rfl

theorem atBlock_block (xs rest : List Bit) (T : Str) : atBlock (xs ++ .tag .block T :: rest) = atBlock (xs ++ [.tag .block T]) := by
  induction xs with
  | nil => rfl
  | cons x xs ih =>
    cases x with
    | chr c => rfl
    | white s => rw [List.cons_append, List.cons_append, atBlock, atBlock, ih]
    | ref s => rfl
    | tag k T => cases k <;> rfl

/-- after the tag of a block element, all begins anew -/
theorem spaced_block (xs rest : List Bit) (T : Str) : ∀ b, spaced b (xs ++ .tag .block T :: rest) =
    (spaced b (xs ++ [.tag .block T]) && spaced .block rest) := by
  induction xs with
  | nil => intro b; rw [List.nil_append, List.nil_append, spaced, spaced, spaced, Bool.true_and]
  | cons x xs ih =>
    intro b
    cases x with
    | chr c =>
      rw [List.cons_append, List.cons_append, spaced, spaced]
      split
      · rw [ih, afterBlank_block]
        simp only [Bool.and_assoc]
      · rw [ih]
    | white s =>
      rw [List.cons_append, List.cons_append, spaced, spaced, ih, atBlock_block]
      simp only [Bool.and_assoc]
    | tag k T' =>
      cases k <;> rw [List.cons_append, List.cons_append, spaced, spaced, ih]
    | ref s => rw [List.cons_append, List.cons_append, spaced, spaced, ih]

/-- a block begins and ends with the tag of a block element -/
def BlockBits (l : List Bit) : Prop := (∃ T xs, l = .tag .block T :: xs) ∧ ∃ xs T, l = xs ++ [.tag .block T]

theorem bits_block {r : Rt} (h : r.decent = true) : BlockBits r.ht.bits := by
  have key : ∀ tag attrs ch, isBlock tag = true → BlockBits (Ht.el tag attrs ch).bits := by
    intro tag attrs ch ht
    rw [Ht.bits, ht]
    exact ⟨⟨_, _, rfl⟩, .tag .block (tagStart tag attrs ++ c!">") :: bitsL ch, c!"</" ++ tag ++ c!">", rfl⟩
  cases r with
  | para ls => exact key _ _ _ rfl
  | head n title =>
    simp only [Rt.decent, Bool.and_eq_true, decide_eq_true_eq] at h
    refine key _ _ _ ?_
    rcases level_cases h.1 h.2 with rfl | rfl | rfl | rfl | rfl | rfl <;> decide +kernel
  | hr => exact ⟨⟨_, _, rfl⟩, [], _, rfl⟩
  | list k bs => exact key _ _ _ (by cases k <;> rfl)
  | table rows => exact key _ _ _ rfl

theorem spaced_doc : ∀ (d : List (Str × Rt)) (b : Rt), b.decent = true ∧ neat [b.ht] = true →
    (∀ x ∈ d, x.2.decent = true ∧ neat [x.2.ht] = true ∧ x.1.all isSpace = true) →
    okL (docHt b d) = true ∧ spaced .block (bitsL (docHt b d)) = true ∧ BlockBits (bitsL (docHt b d))
  | [], b, hb, _ => by
    have := bits_block hb.1
    simp only [neat, Bool.and_eq_true] at hb
    rw [docHt, bitsL, bitsL, List.append_nil]
    refine ⟨hb.2.1.1, ?_, this⟩
    have h2 := hb.2.1.2
    rw [bitsL, bitsL, List.append_nil] at h2
    exact h2
  | (w, b') :: d, b, hb, hd => by
    obtain ⟨h1, h2, h3⟩ := spaced_doc d b' ⟨(hd _ List.mem_cons_self).1, (hd _ List.mem_cons_self).2.1⟩ fun x hx => hd x (List.mem_cons_of_mem _ hx)
    obtain ⟨⟨T, xs, h4⟩, ys, T', h5⟩ := bits_block hb.1
    simp only [neat, Bool.and_eq_true] at hb
    have hs := hb.2.1.2
    have ho := hb.2.1.1
    rw [bitsL, bitsL, List.append_nil] at hs
    rw [okL, okL, Bool.and_true] at ho
    refine ⟨?_, ?_, ?_⟩
    · rw [docHt, okL, okL, ho, h1, Ht.ok, (hd _ List.mem_cons_self).2.2]; rfl
    · rw [docHt, bitsL, bitsL, h5, List.append_assoc, List.singleton_append, spaced_block, ← h5, hs, Bool.true_and, Ht.bits,
        List.singleton_append, spaced, h2]
      rfl
    · rw [docHt, bitsL, bitsL]
      obtain ⟨zs, T2, h6⟩ := h3.2
      refine ⟨⟨T, xs ++ (Ht.bits (.white w) ++ bitsL (docHt b' d)), by rw [h4]; rfl⟩, b.ht.bits ++ (Ht.bits (.white w) ++ zs), T2, ?_⟩
      rw [h6]; simp

/-- the blanks of a document are in order if those of its blocks are -/
theorem neat_doc {b : Rt} {d : List (Str × Rt)} (hb : b.decent = true ∧ neat [b.ht] = true)
    (hd : ∀ x ∈ d, x.2.decent = true ∧ neat [x.2.ht] = true ∧ x.1.all isSpace = true) : neat (docHt b d) = true := by
  obtain ⟨h1, h2, ⟨T, xs, h3⟩, ys, T', h4⟩ := spaced_doc d b hb hd
  simp only [neat, Bool.and_eq_true, h1, h2, true_and, bareEdges, Bool.not_eq_true']
  constructor
  · rw [h3]; rfl
  · rw [h4]; simp [Bit.isWhite]

end Verif.Emit
