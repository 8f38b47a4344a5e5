import Verif.Emit.Masked

/-!
# Documents with elements that creole does not have
-/

namespace Verif.Emit

open Verif Py Html Spec Spec.Hd Spec.Rt Spec.Mk Props

/-! ## Paragraphs -/

theorem gives_paraHts : ∀ ls : List (List Wr), (∀ l ∈ ls, oks l = true ∧ noBreaks (flats l) = true) →
    Gives .htmlMacro [] (paraHts ls) (joinLines c!"\n" (ls.map fun l => Cr.prints (flats l)))
  | [], _ => by rw [paraHts]; exact Gives.nil _
  | [l], h => by
    rw [paraHts]
    exact gives_wrs [] _ l (h l (by simp)).1 (.inl (h l (by simp)).2)
  | l :: m :: ls, h => by
    rw [paraHts, List.map_cons, List.map_cons, joinLines, List.append_assoc]
    refine (gives_wrs [] _ l (h l (by simp)).1 (.inl (h l (by simp)).2)).append ?_
    have hbr : Gives .htmlMacro [] [.void c!"br" [], .white c!"\n"] c!"\n" := by
      have := (Gives.void (p := .htmlMacro) (m := []) (tag := c!"br") (attrs := []) (t := c!"\n") (by rw [creE]; rfl)).append (Gives.white [] c!"\n")
      exact this
    exact hbr.append (gives_paraHts (m :: ls) fun x hx => h x (List.mem_cons_of_mem _ hx))

theorem written_paraHts : ∀ ls : List (List Wr), (∀ l ∈ ls, oks l = true) → noSlashEnd (ls.map flats) = true →
    written (paraHts ls) = Cr.paraHtml htmlCx c!"<br />\n" (ls.map flats)
  | [], _, _ => rfl
  | [l], h, _ => by
    rw [paraHts, List.map_singleton, Cr.paraHtml, written_wrs _ l (h l (by simp))]; rfl
  | l :: m :: ls, h, hs => by
    rw [List.map_cons, List.map_cons, noSlashEnd, Bool.and_eq_true, bne_iff_ne] at hs
    · rw [paraHts, List.map_cons, List.map_cons, Cr.paraHtml, written_append, written_wrs _ l (h l (by simp)), if_neg hs.1]
      simp only [written, Ht.print, written_paraHts (m :: ls) (fun x hx => h x (List.mem_cons_of_mem _ hx)) hs.2, tagStart]
      simp
    · simp

theorem wf_paraHts (b : Bool) : ∀ ls : List (List Wr), (∀ l ∈ ls, oks l = true) → Wf b (paraHts ls)
  | [], _ => by rw [paraHts]; exact Wf.nil b
  | [l], h => by rw [paraHts]; exact wf_wrs b _ l (h l (by simp))
  | l :: m :: ls, h => by
    rw [paraHts]
    exact (wf_wrs b _ l (h l (by simp))).append (((Wf.void (by decide) (by decide)).append (Wf.white b c!"\n")).append
      (wf_paraHts b (m :: ls) fun x hx => h x (List.mem_cons_of_mem _ hx)))

/-! ## Lists -/

mutual
/-- the lines of an item -/
def itemLines (m : Str) : Wi → List Str
  | .mk text kind sub => (m ++ c!" " ++ Cr.prints (flats text)) :: itemsLines (m ++ [kind.char]) sub
def itemsLines (m : Str) : List Wi → List Str
  | [] => []
  | i :: l => itemLines m i ++ itemsLines m l
end

mutual
theorem gives_item : ∀ (i : Wi) (n : Nat) (m : Str), m ≠ [] → i.ok = true → Gives .htmlMacro m (i.ht n) (newLines (itemLines m i))
  | .mk text kind sub, n, m, hm, h => by
    rw [Wi.ok, Bool.and_eq_true] at h
    rw [Wi.ht, itemLines]
    show Gives _ m ([.white _] ++ [.el c!"li" [] _]) _
    rw [show newLines ((m ++ c!" " ++ Cr.prints (flats text)) :: itemsLines (m ++ [kind.char]) sub) =
      [] ++ ('\n' :: m ++ ' ' :: (Cr.prints (flats text) ++ newLines (itemsLines (m ++ [kind.char]) sub))) by simp [newLines]]
    refine (Gives.white m _).append (Gives.el (by decide) ?_)
    have hin : Gives .htmlMacro m (hts (c!"\n" ++ Cr.indentTabs (n + 1)) text ++ (if sub.isEmpty = true then [] else
        [.white (c!"\n" ++ Cr.indentTabs (n + 1)), .el kind.tag [] (itemsHt (n + 1) sub ++ [.white (c!"\n" ++ Cr.indentTabs (n + 1))])]))
        (Cr.prints (flats text) ++ newLines (itemsLines (m ++ [kind.char]) sub)) := by
      refine (gives_wrs m _ text h.1 (.inr hm)).append ?_
      cases sub with
      | nil => simp only [List.isEmpty_nil, if_true, itemsLines]; exact Gives.nil m
      | cons b bs =>
        simp only [List.isEmpty_cons, Bool.false_eq_true, if_false]
        show Gives _ m ([.white _] ++ [.el kind.tag [] _]) ([] ++ _)
        refine (Gives.white m _).append (Gives.el (by cases kind <;> decide) ?_)
        have := (gives_items (b :: bs) (n + 1) (m ++ [kind.char]) (by simp) h.2).append
          (Gives.white (m ++ [kind.char]) (c!"\n" ++ Cr.indentTabs (n + 1)))
        rw [List.append_nil] at this
        rw [creE, mark_tag, this.whole, mark_delimiters]
        dsimp only
        unfold creOther
        rw [if_neg (by cases kind <;> decide), if_neg (by cases kind <;> decide), if_neg hm, if_neg (by cases kind <;> decide),
          if_pos (by cases kind <;> decide)]
        simp [newLines, List.flatMap_def]
    rw [creE, show marksIn m c!"li" = m from rfl, hin.whole]
    show creOther .htmlMacro m c!"li" _ _ = _
    unfold creOther
    rw [if_neg (by decide), if_neg (by decide), if_neg hm, if_pos rfl]
theorem gives_items : ∀ (l : List Wi) (n : Nat) (m : Str), m ≠ [] → itemsOk l = true → Gives .htmlMacro m (itemsHt n l) (newLines (itemsLines m l))
  | [], n, m, hm, _ => by rw [itemsHt, itemsLines]; exact Gives.nil m
  | i :: l, n, m, hm, h => by
    rw [itemsOk, Bool.and_eq_true] at h
    rw [itemsHt, itemsLines, newLines_append]
    exact (gives_item i n m hm h.1).append (gives_items l n m hm h.2)
end

mutual
theorem written_item : ∀ (i : Wi) (n : Nat) (m : Str), i.ok = true → written (i.ht n) = (i.branch m).html htmlCx n
  | .mk text kind sub, n, m, h => by
    rw [Wi.ok, Bool.and_eq_true] at h
    rw [Wi.ht, Wi.branch, Cr.Branch.html]
    simp only [written, Ht.print, tagStart, List.flatMap_nil, written_append, written_wrs _ text h.1, List.append_nil]
    cases sub with
    | nil => simp [written, branches]
    | cons b bs =>
      rw [← written_items (b :: bs) (n + 1) (m ++ [kind.char]) h.2]
      simp only [branches, List.isEmpty_cons, Bool.false_eq_true, if_false, written, Ht.print, tagStart, List.flatMap_nil, written_append]
      simp
theorem written_items : ∀ (l : List Wi) (n : Nat) (m : Str), itemsOk l = true → written (itemsHt n l) = Cr.branchesHtml htmlCx n (branches m l)
  | [], n, m, _ => rfl
  | i :: l, n, m, h => by
    rw [itemsOk, Bool.and_eq_true] at h
    rw [itemsHt, branches, Cr.branchesHtml, written_append, written_item i n m h.1, written_items l n m h.2]
end

mutual
theorem wf_item : ∀ (i : Wi) (n : Nat), i.ok = true → Wf true (i.ht n)
  | .mk text kind sub, n, h => by
    rw [Wi.ok, Bool.and_eq_true] at h
    rw [Wi.ht]
    refine (Wf.white true _).append (Wf.el (by decide) (by decide) (by decide) rfl ?_)
    refine (wf_wrs _ _ text h.1).append ?_
    split
    · exact Wf.nil _
    · refine (Wf.white _ _).append (Wf.el (by cases kind <;> decide) (by cases kind <;> decide) (by cases kind <;> decide) rfl ?_)
      rw [show stops (kindOf kind.tag) = true by cases kind <;> decide +kernel]
      exact (wf_items sub (n + 1) h.2).append (Wf.white _ _)
theorem wf_items : ∀ (l : List Wi) (n : Nat), itemsOk l = true → Wf true (itemsHt n l)
  | [], n, _ => by rw [itemsHt]; exact Wf.nil _
  | i :: l, n, h => by
    rw [itemsOk, Bool.and_eq_true] at h
    rw [itemsHt]
    exact (wf_item i n h.1).append (wf_items l n h.2)
end

mutual
theorem item_lines : ∀ (i : Wi) (m : Str) (k : Cr.Mark), ((i.branch (m ++ [k.char])).items k).map Cr.Item.line = itemLines (m ++ [k.char]) i
  | .mk text kind sub, m, k => by
    rw [Wi.branch, Cr.Branch.items, List.map_cons, itemLines, items_lines sub (m ++ [k.char]) kind]
    simp [Cr.Item.line]
theorem items_lines : ∀ (l : List Wi) (m : Str) (k : Cr.Mark), (Cr.branchesItems k (branches (m ++ [k.char]) l)).map Cr.Item.line = itemsLines (m ++ [k.char]) l
  | [], m, k => rfl
  | i :: l, m, k => by
    rw [branches, Cr.branchesItems, List.map_append, itemsLines, item_lines i m k, items_lines l m k]
end

mutual
theorem item_last : ∀ (i : Wi) (m m' : Str) (n : Nat), (i.branch m').ok htmlCx n = true →
    ∃ x c, (itemLines m i).getLast? = some (x ++ [c]) ∧ isSpace c = false
  | .mk text kind sub, m, m', n, h => by
    simp only [Wi.branch, Cr.Branch.ok, Bool.and_eq_true, Cr.Item.ok] at h
    rw [itemLines]
    cases sub with
    | nil =>
      obtain ⟨x, c, h1, h2⟩ := (trimmed_ends h.1.2.1.2).2
      refine ⟨m ++ c!" " ++ x, c, ?_, h2⟩
      rw [itemsLines, List.getLast?_singleton]
      rw [h1]
      simp
    | cons b bs =>
      obtain ⟨x, c, h1, h2⟩ := items_last (b :: bs) (m ++ [kind.char]) _ _ (by simp) h.2
      refine ⟨x, c, ?_, h2⟩
      rw [List.getLast?_cons, h1]
      rfl
theorem items_last : ∀ (l : List Wi) (m m' : Str) (n : Nat), l ≠ [] → Cr.branchesOk htmlCx n (branches m' l) = true →
    ∃ x c, (itemsLines m l).getLast? = some (x ++ [c]) ∧ isSpace c = false
  | [], m, m', n, h, _ => absurd rfl h
  | i :: l, m, m', n, _, h => by
    rw [branches, Cr.branchesOk, Bool.and_eq_true] at h
    rw [itemsLines]
    cases l with
    | nil =>
      rw [itemsLines, List.append_nil]
      exact item_last i m m' n h.1
    | cons b' bs =>
      obtain ⟨x, c, h1, h2⟩ := items_last (b' :: bs) m m' n (by simp) h.2
      refine ⟨x, c, ?_, h2⟩
      rw [List.getLast?_append, h1]
      rfl
end

theorem items_start (m : Str) {l : List Wi} (h : l ≠ []) : ∃ t r, itemsLines m l = (m ++ t) :: r := by
  cases l with
  | nil => exact absurd rfl h
  | cons i l =>
    cases i with
    | mk text kind sub =>
      rw [itemsLines, itemLines]
      exact ⟨c!" " ++ Cr.prints (flats text), itemsLines (m ++ [kind.char]) sub ++ itemsLines m l, by simp⟩

theorem strip_lines {L : List Str} (h : Bare L) : newLines L = '\n' :: joinLines c!"\n" L ∧ strip (newLines L) = joinLines c!"\n" L := by
  have hne : L ≠ [] := by
    obtain ⟨⟨c, t, m, h1, _⟩, _⟩ := h
    rw [h1]; simp
  have hn : newLines L = '\n' :: joinLines c!"\n" L := by rw [newLines_join hne, join_joinLines]
  refine ⟨hn, ?_⟩
  have := strip_pad (w := c!"\n") (w' := []) newline_space (by simp) (joinLines c!"\n" L)
  rw [List.append_nil, List.singleton_append] at this
  rw [hn, this, strip_bare h]

/-! ## Blocks -/

/-- the lines of a block -/
def Wb.lines (b : Wb) : List Str := b.rt.block.lines

theorem block_list {k : Cr.Mark} {bs : List Cr.Branch} (h : bs ≠ []) : (Rt.list k bs).block.lines = (Cr.branchesItems k bs).map Cr.Item.line := by
  obtain ⟨i, l, hi⟩ := items_ne k h
  rw [Rt.block, hi]
  rfl

theorem branches_ne {m : Str} {l : List Wi} (h : l ≠ []) : branches m l ≠ [] := by
  cases l with
  | nil => exact absurd rfl h
  | cons i l => rw [branches]; simp

theorem lines_list {k : Cr.Mark} {l : List Wi} (h : l ≠ []) : Wb.lines (.list k l) = itemsLines [k.char] l := by
  rw [Wb.lines, Wb.rt, block_list (branches_ne h)]
  exact items_lines l [] k

theorem lines_bare {b : Wb} (h : b.ok = true) : Bare (Wb.lines b) := by
  cases b with
  | known b =>
    rw [Wb.ok, Bool.and_eq_true] at h
    rw [Wb.lines, Wb.rt, (block_stable h.1 h.2).1]
    exact back_bare h.1 h.2
  | para ls =>
    simp only [Wb.ok, Bool.and_eq_true, Bool.not_eq_true', List.all_eq_true] at h
    have e : Wb.lines (.para ls) = ls.map fun l => Cr.prints (flats l) := by
      rw [Wb.lines, Wb.rt, Rt.block, Cr.Block.lines, List.map_map]; rfl
    rw [e]
    constructor
    · cases ls with
      | nil => simp at h
      | cons l ls =>
        obtain ⟨c, t, h1, h2⟩ := (trimmed_ends (h.1.2 l List.mem_cons_self).2).1
        exact ⟨c, t, _, by rw [List.map_cons, h1], h2⟩
    · rw [List.getLast?_map]
      cases hl : ls.getLast? with
      | none => rw [List.getLast?_eq_none_iff] at hl; rw [hl] at h; simp at h
      | some l =>
        obtain ⟨x, c, h1, h2⟩ := (trimmed_ends (h.1.2 l (List.mem_of_getLast? hl)).2).2
        exact ⟨x, c, by rw [Option.map_some, h1], h2⟩
  | list k l =>
    simp only [Wb.ok, Bool.and_eq_true, Bool.not_eq_true'] at h
    have hne : l ≠ [] := by rintro rfl; simp at h
    rw [lines_list hne]
    obtain ⟨t, r, hst⟩ := items_start [k.char] hne
    exact ⟨⟨k.char, t, r, by rw [hst]; rfl, by cases k <;> decide⟩, items_last l [k.char] _ _ hne h.2⟩

/-- what is emitted for a block with these lines -/
def blockOut (start : Bool) (lines : List Str) : Rt → Str
  | .table _ => joinLines c!"\n" lines ++ c!"\n"
  | .list _ _ => (if start then c!"\n\n" else []) ++ joinLines c!"\n" lines ++ c!"\n\n"
  | _ => joinLines c!"\n" lines ++ c!"\n\n"

theorem blockOut_back (start : Bool) (b : Rt) : blockText start b = blockOut start b.back b := by cases b <;> rfl

theorem wb_emit {cfg : Cfg} (hc : Plain .htmlMacro cfg) {b : Wb} (h : b.ok = true) {s : ESt} (hs : s.innerList = []) (anc : List Str) :
    ∃ e s', (∀ l, b.ht.els l = e :: l) ∧ emitNodes cfg anc (e.nodes 0) s = .ok (blockOut (startNewline s.last) (Wb.lines b) b.rt, s') ∧
      s'.innerList = [] ∧ startNewline s'.last = isHead b.rt := by
  have hb := lines_bare h
  cases b with
  | known b =>
    rw [Wb.ok, Bool.and_eq_true] at h
    rw [Wb.lines, Wb.rt, (block_stable h.1 h.2).1, ← blockOut_back]
    exact block_emit hc h.1 (.inr h.2) hs anc
  | para ls =>
    simp only [Wb.ok, Bool.and_eq_true, Bool.not_eq_true', List.all_eq_true] at h
    have e : Wb.lines (.para ls) = ls.map fun l => Cr.prints (flats l) := by
      rw [Wb.lines, Wb.rt, Rt.block, Cr.Block.lines, List.map_map]; rfl
    rw [e]
    exact para_emit hc (gives_paraHts ls fun l hl => (h.1.2 l hl).1).whole hs anc
  | list k l =>
    simp only [Wb.ok, Bool.and_eq_true, Bool.not_eq_true'] at h
    have hne : l ≠ [] := by rintro rfl; simp at h
    rw [lines_list hne] at hb ⊢
    have hg := ((gives_items l 0 [k.char] (by simp) h.1.2).append (Gives.white [k.char] c!"\n")).whole
    rw [List.append_nil] at hg
    obtain ⟨e1, e2⟩ := strip_lines hb
    obtain ⟨e, s', h1, h2, h3, h4⟩ := list_emit hc (k := k) hg hs anc
    refine ⟨e, s', h1, ?_, h3, h4⟩
    rw [h2]
    by_cases hst : startNewline s.last = true
    · rw [if_pos hst, e1, hst]
      simp [blockOut, Wb.rt]
    · rw [if_neg hst, e2]
      simp [blockOut, Wb.rt, hst]

theorem wf_wb {b : Wb} (h : b.ok = true) : Wf true [b.ht] := by
  cases b with
  | known b =>
    rw [Wb.ok, Bool.and_eq_true] at h
    exact wf_block h.1
  | para ls =>
    simp only [Wb.ok, Bool.and_eq_true, Bool.not_eq_true', List.all_eq_true] at h
    exact Wf.el (by decide) (by decide) (by decide) rfl (wf_paraHts _ ls fun l hl => (h.1.2 l hl).1.1)
  | list k l =>
    simp only [Wb.ok, Bool.and_eq_true, Bool.not_eq_true'] at h
    refine Wf.el (by cases k <;> decide) (by cases k <;> decide) (by cases k <;> decide) rfl ?_
    rw [show stops (kindOf k.tag) = true by cases k <;> decide +kernel]
    exact (wf_items l 0 h.1.2).append (Wf.white _ _)

/-! ### The HTML of a block -/

mutual
theorem branch_items : ∀ (b : Cr.Branch) (k : Cr.Mark), branchDecent b = true → ∀ i ∈ b.items k, decents i.text = true
  | .mk pre text kind sub, k, h, i, hi => by
    simp only [branchDecent, Bool.and_eq_true] at h
    rw [Cr.Branch.items] at hi
    rcases List.mem_cons.mp hi with rfl | hi
    · exact h.1.1
    · exact branches_items sub kind h.2 i hi
theorem branches_items : ∀ (bs : List Cr.Branch) (k : Cr.Mark), branchesDecent bs = true → ∀ i ∈ Cr.branchesItems k bs, decents i.text = true
  | [], k, _, i, hi => by cases hi
  | b :: bs, k, h, i, hi => by
    rw [branchesDecent, Bool.and_eq_true] at h
    rw [Cr.branchesItems] at hi
    rcases List.mem_append.mp hi with hi | hi
    · exact branch_items b k h.1 i hi
    · exact branches_items bs k h.2 i hi
end

theorem items_cx {cx : Cr.Ctx} (hs : cx.strict = false) : ∀ (l : List Cr.Item) (opened : List (Cr.Mark × Nat)), (∀ i ∈ l, decents i.text = true) →
    Cr.itemsHtml cx opened l = Cr.itemsHtml {} opened l
  | [], _, _ => rfl
  | i :: l, opened, h => by
    have ih : ∀ o, Cr.itemsHtml cx o l = Cr.itemsHtml {} o l := fun o => items_cx hs l o fun x hx => h x (List.mem_cons_of_mem _ hx)
    have hi : i.html cx = i.html {} := by rw [Cr.Item.html, Cr.Item.html, inls_cx hs _ _ (h i List.mem_cons_self)]
    rw [Cr.itemsHtml, Cr.itemsHtml, hi]
    simp only [ih]

theorem para_cx {cx : Cr.Ctx} (hs : cx.strict = false) (nl : Str) : ∀ ls : List (List Cr.Inl), ls.all decents = true → Cr.paraHtml cx nl ls = Cr.paraHtml {} nl ls
  | [], _ => rfl
  | [l], h => by
    simp only [List.all_cons, List.all_nil, Bool.and_true] at h
    rw [Cr.paraHtml, Cr.paraHtml, inls_cx hs l _ h]
  | l :: m :: ls, h => by
    rw [List.all_cons, Bool.and_eq_true] at h
    rw [Cr.paraHtml, Cr.paraHtml, inls_cx hs l _ h.1, para_cx hs nl (m :: ls) h.2]

theorem flatMap_same {α : Type} {f g : α → Str} : ∀ {l : List α}, (∀ a ∈ l, f a = g a) → l.flatMap f = l.flatMap g
  | [], _ => rfl
  | a :: l, h => by
    rw [List.flatMap_cons, List.flatMap_cons, h a List.mem_cons_self, flatMap_same fun x hx => h x (List.mem_cons_of_mem _ hx)]

theorem block_cx {cx : Cr.Ctx} (hs : cx.strict = false) (ha : cx.anchors = false) {k : Cr.Block} {r : Rt} (h : StandsFor k r) (hd : r.decent = true) :
    k.html cx true = k.html {} true := by
  cases k <;> cases r <;> simp only [StandsFor] at h
  · obtain ⟨rfl, _⟩ := h
    simp only [Rt.decent, Bool.and_eq_true] at hd
    rw [Cr.Block.html, Cr.Block.html, para_cx hs _ _ hd.2]
  · rw [Cr.Block.html, Cr.Block.html, ha]
  · rfl
  · rename_i i l k bs
    simp only [Rt.decent, Bool.and_eq_true] at hd
    have hi := branches_items bs k hd.2
    rw [h.1] at hi
    rw [Cr.Block.html, Cr.Block.html, Cr.listHtml, Cr.listHtml, items_cx hs l _ fun x hx => hi x (List.mem_cons_of_mem _ hx),
      Cr.Item.html, Cr.Item.html, inls_cx hs _ _ (hi i List.mem_cons_self)]
  · rename_i rows rows'
    subst h
    simp only [Rt.decent, Bool.and_eq_true, List.all_eq_true] at hd
    rw [Cr.Block.html, Cr.Block.html]
    congr 2
    refine flatMap_same fun r hr => ?_
    rw [Cr.rowHtml, Cr.rowHtml]
    congr 2
    refine flatMap_same fun c hc => ?_
    have := ((hd.2 _ (List.mem_map_of_mem hr)).2 _ (List.mem_map_of_mem hc)).1.1
    cases c with
    | td l text r => rw [Cr.Cell.html, Cr.Cell.html, inls_cx hs text _ this]
    | th l m text r => rw [Cr.Cell.html, Cr.Cell.html, inls_cx hs text _ this]

theorem wb_html {b : Wb} (h : b.ok = true) : b.rt.block.html htmlCx true = b.ht.print ∧ b.rt.block.notMac = true := by
  cases b with
  | known b =>
    rw [Wb.ok, Bool.and_eq_true] at h
    obtain ⟨h1, h2, h3⟩ := block_stable h.1 h.2
    rw [Wb.rt, Wb.ht, block_cx rfl rfl h2 h.1, written_block h2]
    exact ⟨rfl, h3⟩
  | para ls =>
    simp only [Wb.ok, Bool.and_eq_true, Bool.not_eq_true', List.all_eq_true] at h
    refine ⟨?_, rfl⟩
    rw [Wb.rt, Rt.block, Cr.Block.html, if_pos rfl, ← written_paraHts ls (fun l hl => (h.1.2 l hl).1.1) h.2]
    simp [Wb.ht, Ht.print, tagStart]
  | list k l =>
    simp only [Wb.ok, Bool.and_eq_true, Bool.not_eq_true'] at h
    have hne : l ≠ [] := by rintro rfl; simp at h
    obtain ⟨i, r, hi⟩ := items_ne k (branches_ne (m := [k.char]) hne)
    rw [Wb.rt, Rt.block, hi]
    refine ⟨?_, rfl⟩
    rw [Cr.Block.html, Creole.listHtml_branches h.2 hi, ← written_items l 0 [k.char] h.1.2]
    simp [Wb.ht, Ht.print, tagStart, written_append, written_one]

theorem bits_wb {b : Wb} (h : b.ok = true) : BlockBits b.ht.bits := by
  have key : ∀ tag attrs ch, isBlock tag = true → BlockBits (Ht.el tag attrs ch).bits := by
    intro tag attrs ch ht
    rw [Ht.bits, ht]
    exact ⟨⟨_, _, rfl⟩, .tag .block (tagStart tag attrs ++ c!">") :: bitsL ch, c!"</" ++ tag ++ c!">", rfl⟩
  cases b with
  | known b =>
    rw [Wb.ok, Bool.and_eq_true] at h
    exact bits_block h.1
  | para ls => exact key _ _ _ rfl
  | list k l => exact key _ _ _ (by cases k <;> rfl)

/-! ## Documents -/

theorem wf_mk : ∀ (d : List (Str × Wb)) (b : Wb), b.ok = true → (∀ x ∈ d, x.2.ok = true) → Wf true (Mk.docHt b d)
  | [], b, hb, _ => wf_wb hb
  | (w, b') :: d, b, hb, hd => by
    rw [Mk.docHt]
    exact Wf.append (x := [_]) (wf_wb hb) (Wf.append (x := [_]) (Wf.white _ _)
      (wf_mk d b' (hd (w, b') List.mem_cons_self) fun x hx => hd x (List.mem_cons_of_mem _ hx)))

theorem spaced_mk : ∀ (d : List (Str × Wb)) (b : Wb), b.ok = true ∧ neat [b.ht] = true →
    (∀ x ∈ d, x.2.ok = true ∧ neat [x.2.ht] = true ∧ x.1.all isSpace = true) →
    okL (Mk.docHt b d) = true ∧ spaced .block (bitsL (Mk.docHt b d)) = true ∧ BlockBits (bitsL (Mk.docHt b d))
  | [], b, hb, _ => by
    have := bits_wb hb.1
    simp only [neat, Bool.and_eq_true] at hb
    rw [Mk.docHt, bitsL, bitsL, List.append_nil]
    refine ⟨hb.2.1.1, ?_, this⟩
    have h2 := hb.2.1.2
    rw [bitsL, bitsL, List.append_nil] at h2
    exact h2
  | (w, b') :: d, b, hb, hd => by
    obtain ⟨h1, h2, h3⟩ := spaced_mk d b' ⟨(hd _ List.mem_cons_self).1, (hd _ List.mem_cons_self).2.1⟩ fun x hx => hd x (List.mem_cons_of_mem _ hx)
    obtain ⟨⟨T, xs, h4⟩, ys, T', h5⟩ := bits_wb hb.1
    simp only [neat, Bool.and_eq_true] at hb
    have hs := hb.2.1.2
    have ho := hb.2.1.1
    rw [bitsL, bitsL, List.append_nil] at hs
    rw [okL, okL, Bool.and_true] at ho
    refine ⟨?_, ?_, ?_⟩
    · rw [Mk.docHt, okL, okL, ho, h1, Ht.ok, (hd _ List.mem_cons_self).2.2]; rfl
    · rw [Mk.docHt, bitsL, bitsL, h5, List.append_assoc, List.singleton_append, spaced_block, ← h5, hs, Bool.true_and, Ht.bits,
        List.singleton_append, spaced, h2]
      rfl
    · rw [Mk.docHt, bitsL, bitsL]
      obtain ⟨zs, T2, h6⟩ := h3.2
      refine ⟨⟨T, xs ++ (Ht.bits (.white w) ++ bitsL (Mk.docHt b' d)), by rw [h4]; rfl⟩, b.ht.bits ++ (Ht.bits (.white w) ++ zs), T2, ?_⟩
      rw [h6]; simp

theorem neat_mk {b : Wb} {d : List (Str × Wb)} (hb : b.ok = true ∧ neat [b.ht] = true)
    (hd : ∀ x ∈ d, x.2.ok = true ∧ neat [x.2.ht] = true ∧ x.1.all isSpace = true) : neat (Mk.docHt b d) = true := by
  obtain ⟨h1, h2, ⟨T, xs, h3⟩, ys, T', h4⟩ := spaced_mk d b hb hd
  simp only [neat, Bool.and_eq_true, h1, h2, true_and, bareEdges, Bool.not_eq_true']
  constructor
  · rw [h3]; rfl
  · rw [h4]; simp [Bit.isWhite]

/-- what is emitted for a document -/
def mkText (start : Bool) (b : Wb) : List Wb → Str
  | [] => blockOut start (Wb.lines b) b.rt
  | b' :: d => blockOut start (Wb.lines b) b.rt ++ mkText (isHead b.rt) b' d

theorem mk_emit {cfg : Cfg} (hc : Plain .htmlMacro cfg) (anc : List Str) : ∀ (d : List (Str × Wb)) (b : Wb), b.ok = true →
    (∀ x ∈ d, x.2.ok = true) → ∀ {s : ESt}, s.innerList = [] →
    ∃ s', emitNodes cfg anc (nodesL 0 (elsL (Mk.docHt b d))) s = .ok (mkText (startNewline s.last) b (d.map (·.2)), s')
  | [], b, hb, _, s, hs => by
    obtain ⟨e, s1, h1, h2, h3, h4⟩ := wb_emit hc hb hs anc
    refine ⟨s1, ?_⟩
    rw [Mk.docHt, elsL, elsL, h1, nodesL, nodesL, List.append_nil]
    exact h2
  | (w, b') :: d, b, hb, hd, s, hs => by
    obtain ⟨e, s1, h1, h2, h3, h4⟩ := wb_emit hc hb hs anc
    obtain ⟨s2, h5⟩ := mk_emit hc anc d b' (hd (w, b') List.mem_cons_self) (fun x hx => hd x (List.mem_cons_of_mem _ hx)) h3
    refine ⟨s2, ?_⟩
    rw [Mk.docHt, elsL, elsL, Ht.els, h1, nodesL, List.map_cons, mkText]
    rw [h4] at h5
    exact emitNodes_append h2 h5

/-- the lines of a document -/
def mkLines (b : Wb) : List Wb → List Str
  | [] => Wb.lines b
  | b' :: d => Wb.lines b ++ gap b.rt b'.rt ++ mkLines b' d

theorem bare_ne {L : List Str} (h : Bare L) : L ≠ [] := by
  obtain ⟨⟨c, t, m, h1, _⟩, _⟩ := h
  rw [h1]; simp

theorem mkLines_bare : ∀ (d : List Wb) (b : Wb), (∀ x ∈ b :: d, x.ok = true) → Bare (mkLines b d)
  | [], b, h => by rw [mkLines]; exact lines_bare (h b List.mem_cons_self)
  | b' :: d, b, h => by
    obtain ⟨⟨c, t, m, h1, h2⟩, _⟩ := lines_bare (h b List.mem_cons_self)
    obtain ⟨_, x, c', h3, h4⟩ := mkLines_bare d b' fun x hx => h x (List.mem_cons_of_mem _ hx)
    rw [mkLines]
    refine ⟨⟨c, t, m ++ gap b.rt b'.rt ++ mkLines b' d, by rw [h1]; simp, h2⟩, x, c', ?_, h4⟩
    rw [List.getLast?_append, h3]
    rfl

theorem mkLines_doc : ∀ (d : List Wb) (b : Wb), Cr.docLines (creole b d) = mkLines b d
  | [], b => by simp [creole, creoleDoc, restDoc, Cr.docLines, mkLines, Wb.lines]
  | b' :: d, b => by
    have ih := mkLines_doc d b'
    rw [creole, creoleDoc, Cr.docLines, List.nil_append] at ih
    rw [creole, creoleDoc, Cr.docLines, List.map_cons, restDoc, Cr.docLines, mkLines, ← ih, Wb.lines]
    simp

theorem mkText_lines : ∀ (d : List Wb) (b : Wb) (start : Bool), (∀ x ∈ b :: d, x.ok = true) →
    ∃ w, mkText start b d = (match b.rt with | .list _ _ => if start then c!"\n\n" else [] | _ => []) ++
      joinLines c!"\n" (mkLines b d) ++ w ∧ ∀ c ∈ w, c = '\n'
  | [], b, start, _ => by
    rw [mkText, mkLines]
    cases b.rt with
    | table rows => exact ⟨c!"\n", by simp [blockOut], by simp⟩
    | list k bs => exact ⟨c!"\n\n", by simp [blockOut], by simp⟩
    | para ls => exact ⟨c!"\n\n", by simp [blockOut], by simp⟩
    | head n t => exact ⟨c!"\n\n", by simp [blockOut], by simp⟩
    | hr => exact ⟨c!"\n\n", by simp [blockOut], by simp⟩
  | b' :: d, b, start, hd => by
    obtain ⟨w, h1, h2⟩ := mkText_lines d b' (isHead b.rt) fun x hx => hd x (List.mem_cons_of_mem _ hx)
    refine ⟨w, ?_, h2⟩
    rw [mkText, mkLines, h1]
    have hne := bare_ne (mkLines_bare d b' fun x hx => hd x (List.mem_cons_of_mem _ hx))
    have hnb := bare_ne (lines_bare (hd b List.mem_cons_self))
    have hj : ∀ g, joinLines c!"\n" (Wb.lines b ++ g ++ mkLines b' d) = joinLines c!"\n" (Wb.lines b) ++ c!"\n" ++ joinLines c!"\n" (g ++ mkLines b' d) := by
      intro g
      rw [List.append_assoc, joinLines_append _ _ hnb (by simp [hne])]
    rw [hj]
    have h1' : joinLines c!"\n" ([[]] ++ mkLines b' d) = c!"\n" ++ joinLines c!"\n" (mkLines b' d) := by
      rw [joinLines_append _ _ (by simp) hne]; simp [joinLines]
    have h3' : joinLines c!"\n" ([[], [], []] ++ mkLines b' d) = c!"\n\n\n" ++ joinLines c!"\n" (mkLines b' d) := by
      rw [joinLines_append _ _ (by simp) hne]; simp [joinLines]
    cases b.rt <;> cases b'.rt <;> simp only [blockOut, gap, isHead, h1', h3', List.nil_append] <;> simp

/-- html2creole on the HTML of a document -/
theorem html2creole_mk {b : Wb} {d : List (Str × Wb)} (hb : b.ok = true ∧ neat [b.ht] = true)
    (hd : ∀ x ∈ d, x.2.ok = true ∧ neat [x.2.ht] = true ∧ x.1.all isSpace = true)
    {w w' : Str} (hw : ∀ c ∈ w, isSpace c = true) (hw' : ∀ c ∈ w', isSpace c = true) :
    Emit.html2creole (w ++ written (Mk.docHt b d) ++ w') (policy := .htmlMacro) =
      .ok (joinLines c!"\n" (Cr.docLines (creole b (d.map (·.2))))) := by
  have hall : ∀ x ∈ b :: d.map (·.2), x.ok = true := by
    intro x hx
    rcases List.mem_cons.mp hx with rfl | hx
    · exact hb.1
    · obtain ⟨y, hy, rfl⟩ := List.mem_map.mp hx
      exact (hd y hy).1
  have hp : Plain .htmlMacro { lang := .creole, policy := .htmlMacro, strict := false } := ⟨rfl, rfl, rfl⟩
  obtain ⟨s, hs⟩ := mk_emit hp [c!"document"] d b hb.1 (fun x hx => (hd x hx).1) (s := enter { kind := c!"document" } {}) rfl
  rw [Emit.html2creole, convert, C60_parse_written _ (neat_mk hb hd) (wf_mk d b hb.1 fun x hx => (hd x hx).1).whole hw hw']
  show emit _ _ = _
  rw [emit_document hs (fun h => by cases h), if_neg (by simp)]
  obtain ⟨u, h1, h2⟩ := mkText_lines (d.map (·.2)) b (startNewline (enter { kind := c!"document" } {}).last) hall
  rw [h1, mkLines_doc]
  congr 1
  refine (strip_pad ?_ (fun c hc => by rw [h2 c hc]; rfl) _).trans (strip_bare (mkLines_bare _ _ hall))
  intro c hc
  split at hc
  · split at hc
    · simp at hc; subst hc; rfl
    · cases hc
  · cases hc

/-- the layout between the blocks that creole2html gives -/
def mkLaid (b : Wb) : List Wb → List (Str × Wb)
  | [] => []
  | b' :: d => (Cr.gapHtml b.rt.block (gap b.rt b'.rt), b') :: mkLaid b' d

theorem mkLaid_blocks : ∀ (d : List Wb) (b : Wb), (mkLaid b d).map (·.2) = d
  | [], _ => rfl
  | b' :: d, b => by rw [mkLaid, List.map_cons, mkLaid_blocks d b']

theorem mk_body : ∀ (d : List Wb) (b : Wb), (∀ x ∈ b :: d, x.ok = true) →
    Cr.docBody htmlCx true (creole b d) = written (Mk.docHt b (mkLaid b d)) ∧ ∀ x ∈ creole b d, x.2.notMac = true
  | [], b, h => by
    obtain ⟨h1, h2⟩ := wb_html (h b List.mem_cons_self)
    constructor
    · rw [creole, List.map_nil, creoleDoc, restDoc, Cr.docBody, Cr.docTail, h1, mkLaid, Mk.docHt, written_one, List.append_nil]
    · intro x hx
      simp only [creole, List.map_nil, creoleDoc, restDoc, List.mem_singleton] at hx
      subst hx; exact h2
  | b' :: d, b, h => by
    obtain ⟨h1, h2⟩ := wb_html (h b List.mem_cons_self)
    obtain ⟨i1, i2⟩ := mk_body d b' fun x hx => h x (List.mem_cons_of_mem _ hx)
    rw [creole, creoleDoc, Cr.docBody] at i1
    constructor
    · rw [creole, List.map_cons, creoleDoc, restDoc, Cr.docBody, Cr.docTail, h1, mkLaid, Mk.docHt, written, written, ← i1, Ht.print]
      simp
    · intro x hx
      simp only [creole, List.map_cons, creoleDoc, restDoc] at hx i2
      rcases List.mem_cons.mp hx with rfl | hx
      · exact h2
      · rcases List.mem_cons.mp hx with rfl | hx
        · exact i2 ([], b'.rt.block) List.mem_cons_self
        · exact i2 x (List.mem_cons_of_mem _ hx)

end Verif.Emit
