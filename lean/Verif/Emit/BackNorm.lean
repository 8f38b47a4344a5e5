import Verif.Emit.BackStable

/-!
# The way html2creole writes a block: same text, same HTML
-/

namespace Verif.Emit

open Verif Py Html Spec Spec.Hd Spec.Rt Props

theorem chars_back (br : Str) : ∀ l : List Cr.Inl, isChars l = true → inlsBack br l = Cr.prints l
  | [], _ => by rw [inlsBack, Cr.prints]
  | .chr c :: l, h => by
    rw [isChars] at h
    rw [inlsBack, Cr.prints, inlBack, Cr.Inl.print, chars_back br l h]
  | .esc _ :: _, h | .face _ _ :: _, h | .link _ _ :: _, h | .image _ _ :: _, h | .sized _ _ _ _ :: _, h | .nowiki _ :: _, h
  | .br :: _, h | .url _ :: _, h | .escUrl _ :: _, h | .mac _ _ :: _, h | .macText _ _ _ :: _, h => by simp [isChars] at h

theorem chars_html (br : Str) : ∀ l : List Cr.Inl, isChars l = true → Cr.htmls {} br l = Cr.textHtml (Cr.prints l)
  | [], _ => by rw [Cr.htmls, Cr.prints]; rfl
  | .chr c :: l, h => by
    rw [isChars] at h
    rw [Cr.htmls, Cr.prints, Cr.Inl.html, Cr.Inl.print, chars_html br l h]
    simp [Cr.textHtml]
  | .esc _ :: _, h | .face _ _ :: _, h | .link _ _ :: _, h | .image _ _ :: _, h | .sized _ _ _ _ :: _, h | .nowiki _ :: _, h
  | .br :: _, h | .url _ :: _, h | .escUrl _ :: _, h | .mac _ _ :: _, h | .macText _ _ _ :: _, h => by simp [isChars] at h

mutual
theorem inl_norm : ∀ (i : Cr.Inl) (br : Str), inlBack br (inlNorm i) = inlBack br i ∧ (∀ br, (inlNorm i).html {} br = i.html {} br) ∧
    (Rt.Inl.decent i = true → Rt.Inl.decent (inlNorm i) = true)
  | .chr c, br => by simp [inlNorm]
  | .esc c, br => by simp [inlNorm, inlBack, Cr.Inl.html, Rt.Inl.decent]
  | .face f l, br => by
    obtain ⟨h1, h2, h3⟩ := inls_norm l br
    simp only [inlNorm, inlBack, Cr.Inl.html, Rt.Inl.decent, h1, h2]
    exact ⟨trivial, fun _ => trivial, h3⟩
  | .link t [], br => by simp [inlNorm]
  | .link t (i :: l), br => by
    rw [inlNorm]
    split
    · rename_i h
      rw [Bool.and_eq_true, beq_iff_eq] at h
      have h1 := chars_back br _ h.1
      have h2 := chars_html c!"<br />\n" _ h.1
      rw [inlsBack, h.2] at h1
      rw [Cr.htmls, h.2] at h2
      refine ⟨?_, fun br => ?_, fun _ => ?_⟩
      · rw [inlBack, inlBack, h1]
      · rw [Cr.Inl.html, Cr.Inl.html, h2]
      · rw [Rt.Inl.decent, decents]
    · obtain ⟨h1, h2, h3⟩ := inl_norm i br
      obtain ⟨g1, g2, g3⟩ := inls_norm l br
      simp only [inlBack, Cr.Inl.html, Rt.Inl.decent, decents, h1, h2, g1, g2, Bool.and_eq_true]
      exact ⟨trivial, fun _ => trivial, fun h => ⟨h3 h.1, g3 h.2⟩⟩
  | .image [] [], br => by simp [inlNorm]
  | .image (c :: t) [], br => by simp [inlNorm, inlBack, Cr.Inl.html, Rt.Inl.decent]
  | .image t (c :: s), br => by simp [inlNorm]
  | .sized t s w y, br => by simp [inlNorm]
  | .nowiki s, br => by simp [inlNorm]
  | .br, br => by simp [inlNorm]
  | .url s, br => by simp [inlNorm, inlBack, Cr.Inl.html, Rt.Inl.decent, decents]
  | .escUrl s, br => by simp [inlNorm]
  | .mac _ _, br => by simp [inlNorm]
  | .macText _ _ _, br => by simp [inlNorm]
theorem inls_norm : ∀ (l : List Cr.Inl) (br : Str), inlsBack br (inlsNorm l) = inlsBack br l ∧ (∀ br, Cr.htmls {} br (inlsNorm l) = Cr.htmls {} br l) ∧
    (decents l = true → decents (inlsNorm l) = true)
  | [], br => by simp [inlsNorm]
  | i :: l, br => by
    obtain ⟨h1, h2, h3⟩ := inl_norm i br
    obtain ⟨g1, g2, g3⟩ := inls_norm l br
    simp only [inlsNorm, inlsBack, Cr.htmls, decents, h1, h2, g1, g2, Bool.and_eq_true]
    exact ⟨trivial, fun _ => trivial, fun h => ⟨h3 h.1, g3 h.2⟩⟩
end

mutual
theorem branch_norm : ∀ (b : Cr.Branch) (m : Str), branchBack m (branchNorm m b) = branchBack m b ∧
    (∀ n, written (branchHt n (branchNorm m b)) = written (branchHt n b)) ∧ (branchDecent b = true → branchDecent (branchNorm m b) = true)
  | .mk pre text kind sub, m => by
    obtain ⟨h1, h2, h3⟩ := inls_norm text c!"\\\\"
    obtain ⟨g1, g2, g3⟩ := branches_norm sub (m ++ [kind.char])
    rw [branchNorm]
    refine ⟨?_, fun n => ?_, fun h => ?_⟩
    · rw [branchBack, branchBack, h1, g1]
    · have : (branchesNorm (m ++ [kind.char]) sub).isEmpty = sub.isEmpty := by cases sub <;> simp [branchesNorm]
      rw [branchHt, branchHt]
      simp only [written, Ht.print, tagStart, List.flatMap_nil, written_append, written_inls, h2, this, List.append_nil]
      cases sub.isEmpty with
      | true => rfl
      | false => simp only [Bool.false_eq_true, if_false, written, Ht.print, tagStart, List.flatMap_nil, written_append, g2]
    · simp only [branchDecent, Bool.and_eq_true] at h ⊢
      rw [h1]
      exact ⟨⟨h3 h.1.1, h.1.2⟩, g3 h.2⟩
theorem branches_norm : ∀ (bs : List Cr.Branch) (m : Str), branchesBack m (branchesNorm m bs) = branchesBack m bs ∧
    (∀ n, written (branchesHt n (branchesNorm m bs)) = written (branchesHt n bs)) ∧ (branchesDecent bs = true → branchesDecent (branchesNorm m bs) = true)
  | [], m => by simp [branchesNorm]
  | b :: bs, m => by
    obtain ⟨h1, h2, h3⟩ := branch_norm b m
    obtain ⟨g1, g2, g3⟩ := branches_norm bs m
    simp only [branchesNorm, branchesBack, branchesHt, written_append, branchesDecent, h1, h2, g1, g2, Bool.and_eq_true]
    exact ⟨trivial, fun _ => trivial, fun h => ⟨h3 h.1, g3 h.2⟩⟩
end

theorem para_norm : ∀ ls : List (List Cr.Inl), written (paraHt (ls.map inlsNorm)) = written (paraHt ls)
  | [] => rfl
  | [l] => by rw [List.map_singleton, paraHt, paraHt, written_inls, written_inls, (inls_norm l []).2.1]
  | l :: m :: ls => by
    rw [List.map_cons, List.map_cons, paraHt, paraHt, written_append, written_append, written_inls, written_inls, (inls_norm l []).2.1]
    simp only [written]
    rw [← List.map_cons, para_norm (m :: ls)]

/-- the cell html2creole writes -/
def cellNorm (c : TCell) : TCell := ⟨c.head, inlsNorm c.text⟩

theorem cellBack_norm (c : TCell) : cellBack (cellNorm c) = cellBack c := by
  rw [cellBack, cellBack]
  show oneLine (inlsBack _ (inlsNorm c.text)) = _
  rw [(inls_norm c.text _).1]

theorem cellBox_norm (c : TCell) : cellBox (cellNorm c) = cellBox c := by
  rw [cellBox, cellBox, cellBack_norm]; rfl

theorem rowBox_norm (r : List TCell) : (r.map cellNorm).map cellBox = r.map cellBox := by
  rw [List.map_map]
  exact List.map_congr_left fun c _ => cellBox_norm c

theorem row_norm (r : List TCell) : written ((r.map cellNorm).flatMap cellHt) = written (r.flatMap cellHt) := by
  induction r with
  | nil => rfl
  | cons c r ih =>
    rw [List.map_cons, List.flatMap_cons, List.flatMap_cons, written_append, written_append, ih]
    congr 1
    simp only [cellHt, cellNorm, written, Ht.print, written_inls, (inls_norm c.text []).2.1]
    rfl

theorem table_norm (rows : List (List TCell)) : written ((rows.map fun r => r.map cellNorm).flatMap rowHt) = written (rows.flatMap rowHt) := by
  induction rows with
  | nil => rfl
  | cons r rows ih =>
    rw [List.map_cons, List.flatMap_cons, List.flatMap_cons, written_append, written_append, ih]
    congr 1
    simp only [rowHt, written, Ht.print, row_norm]

theorem block_norm (b : Rt) : b.norm.back = b.back ∧ b.norm.ht.print = b.ht.print ∧ (b.decent = true → b.norm.decent = true) := by
  cases b with
  | para ls =>
    refine ⟨?_, ?_, ?_⟩
    · rw [Rt.norm, Rt.back, Rt.back, List.map_map]
      exact List.map_congr_left fun l _ => (inls_norm l _).1
    · rw [Rt.norm, Rt.ht, Rt.ht, Ht.print, Ht.print, para_norm]
    · simp only [Rt.norm, Rt.decent, Bool.and_eq_true, List.all_eq_true, List.mem_map, forall_exists_index, and_imp, forall_apply_eq_imp_iff₂,
        List.isEmpty_map]
      exact fun h1 h2 => ⟨h1, fun l hl => (inls_norm l []).2.2 (h2 l hl)⟩
  | head n title => exact ⟨rfl, rfl, id⟩
  | hr => exact ⟨rfl, rfl, id⟩
  | list k bs =>
    obtain ⟨h1, h2, h3⟩ := branches_norm bs [k.char]
    refine ⟨?_, ?_, ?_⟩
    · rw [Rt.norm, Rt.back, Rt.back, h1]
    · rw [Rt.norm, Rt.ht, Rt.ht, Ht.print, Ht.print, written_append, written_append, h2]
    · have : (branchesNorm [k.char] bs).isEmpty = bs.isEmpty := by cases bs <;> simp [branchesNorm]
      simp only [Rt.norm, Rt.decent, Bool.and_eq_true, this]
      exact fun h => ⟨h.1, h3 h.2⟩
  | table rows =>
    have hn : (Rt.table rows).norm = .table (rows.map fun r => r.map cellNorm) := rfl
    have hb : (rows.map fun r => r.map cellNorm).map (fun r => r.map cellBox) = rows.map fun r => r.map cellBox := by
      rw [List.map_map]
      exact List.map_congr_left fun r _ => rowBox_norm r
    refine ⟨?_, ?_, ?_⟩
    · rw [hn, Rt.back, Rt.back, tableBack, tableBack, hb, List.map_map]
      refine List.map_congr_left fun r _ => ?_
      show rowBack _ (r.map cellNorm) = _
      rw [rowBack, rowBack, rowBox_norm]
    · rw [hn, Rt.ht, Rt.ht, Ht.print, Ht.print, written, written, table_norm]
    · rw [hn]
      simp only [Rt.decent, Bool.and_eq_true, List.all_eq_true, List.mem_map, forall_exists_index, and_imp, forall_apply_eq_imp_iff₂,
        List.isEmpty_map, List.length_map, cellBack_norm]
      refine fun h1 h2 => ⟨h1, fun r hr => ?_⟩
      obtain ⟨⟨h3, h4⟩, h5⟩ := h2 r hr
      refine ⟨⟨?_, h4⟩, fun c hc => ⟨⟨(inls_norm c.text []).2.2 (h5 c hc).1.1, (h5 c hc).1.2⟩, (h5 c hc).2⟩⟩
      cases rows with
      | nil => exact h3
      | cons r0 rows => simpa using h3

theorem gap_norm (b b' : Rt) : gap b.norm b'.norm = gap b b' := by
  cases b <;> cases b' <;> rfl

theorem backDoc_norm : ∀ (bs : List Rt) (b : Rt), backDoc b.norm (bs.map Rt.norm) = backDoc b bs
  | [], b => by rw [List.map_nil, backDoc, backDoc, (block_norm b).1]
  | b' :: bs, b => by rw [List.map_cons, backDoc, backDoc, (block_norm b).1, gap_norm, backDoc_norm bs b']

/-- two documents of the same blocks -/
theorem sameBlocks_docHt : ∀ (bs : List Rt) (b : Rt) (d d' : List (Str × Rt)), d.map (·.2) = bs → d'.map (·.2) = bs.map Rt.norm →
    (∀ x ∈ d, ∀ c ∈ x.1, c = '\n') → (∀ x ∈ d', ∀ c ∈ x.1, c = '\n') → SameBlocks (written (docHt b d)) (written (docHt b.norm d'))
  | bs, b, [], [], _, _, _, _ => by
    refine ⟨b.ht.print, [], by simp, ?_, ?_⟩
    · rw [docHt, written_one]; simp
    · rw [docHt, written_one, (block_norm b).2.1]; simp
  | bs, b, [], y :: d', h, h', _, _ => by subst h; simp at h'
  | bs, b, x :: d, [], h, h', _, _ => by subst h; simp at h'
  | bs, b, (w, r) :: d, (w', r') :: d', h, h', hd, hd' => by
    subst h
    rw [List.map_cons, List.map_cons, List.map_cons, List.cons.injEq] at h'
    obtain ⟨h1, h2⟩ := h'
    obtain ⟨first, rest, h3, h4, h5⟩ := sameBlocks_docHt (d.map (·.2)) r d d' rfl h2 (fun x hx => hd x (List.mem_cons_of_mem _ hx))
      fun x hx => hd' x (List.mem_cons_of_mem _ hx)
    refine ⟨b.ht.print, (w, w', first) :: rest, ?_, ?_, ?_⟩
    · intro x hx
      rcases List.mem_cons.mp hx with rfl | hx
      · exact ⟨hd _ List.mem_cons_self, hd' _ List.mem_cons_self⟩
      · exact h3 x hx
    · rw [docHt, written, written, h4]; simp [Ht.print]
    · dsimp only at h1
      rw [docHt, written, written, h1, h5, (block_norm b).2.1]; simp [Ht.print]

end Verif.Emit
