import Verif.Emit.BackInline
import Verif.Props.Table
import Verif.Props.ReadHtml

/-!
# html2creole on the HTML of blocks
-/

namespace Verif.Emit

open Verif Py Html Spec Spec.Hd Spec.Rt Props

/-! ## The elements are well-formed -/

/-- a sequence of pieces is well-formed if what follows it is -/
def Wf (b : Bool) (x : List Ht) : Prop := ∀ l, wfL b l = true → wfL b (x.foldr Ht.els l) = true

theorem Wf.nil (b : Bool) : Wf b [] := fun _ h => h

theorem Wf.append {b : Bool} {x y : List Ht} (hx : Wf b x) (hy : Wf b y) : Wf b (x ++ y) := by
  intro l h
  rw [List.foldr_append]
  exact hx _ (hy _ h)

theorem Wf.white (b : Bool) (w : Str) : Wf b [.white w] := fun _ h => h

theorem Wf.whole {b : Bool} {x : List Ht} (h : Wf b x) : wfL b (elsL x) = true := by
  rw [elsL_foldr]
  exact h [] rfl

theorem wfL_addChar {b : Bool} {l : List El} (c : Char) (h : wfL b l = true) : wfL b (addChar c l) = true := by
  unfold addChar
  split
  · simp only [wfL, El.wf, Bool.true_and, h]
  · split
    · next d l' =>
      simp only [wfL, El.wf, Bool.true_and] at h ⊢
      exact h
    · simp only [wfL, El.wf, Bool.true_and, h]

theorem Wf.text (b : Bool) (s : Str) : Wf b [.text s] := by
  intro l h
  rw [List.foldr_cons, List.foldr_nil, Ht.els]
  induction s with
  | nil => exact h
  | cons c s ih => exact wfL_addChar c ih

theorem Wf.void {b : Bool} {tag : Str} {attrs : List (Str × Str)} (h : tag ≠ c!"blockdata") (h' : tag ≠ c!"inlinedata") :
    Wf b [.void tag attrs] := by
  intro l hl
  simp only [List.foldr_cons, List.foldr_nil, Ht.els, wfL, El.wf, hl, Bool.and_true]
  simp [h, h']

theorem Wf.el {b : Bool} {tag : Str} {attrs : List (Str × Str)} {ch : List Ht} (h1 : tag ≠ c!"img") (h2 : tag ≠ c!"br")
    (h3 : tag ≠ c!"tbody") (h4 : (b || !blockNames.contains tag) = true) (h : Wf (stops (kindOf tag)) ch) :
    Wf b [.el tag attrs ch] := by
  intro l hl
  rw [List.foldr_cons, List.foldr_nil, Ht.els, if_neg (fun h => h3 h.1)]
  simp only [wfL, El.wf, hl, h4, h.whole, Bool.and_true]
  simp [h1, h2, h3]

mutual
theorem wf_inl (b : Bool) : ∀ (i : Cr.Inl) (w : Str), Wf b (inlHt w i)
  | .chr c, w => by rw [inlHt]; exact Wf.text b _
  | .esc c, w => by rw [inlHt]; exact Wf.text b _
  | .face f l, w => by
    rw [inlHt]
    exact Wf.el (by cases f <;> decide) (by cases f <;> decide) (by cases f <;> decide) (by cases f <;> cases b <;> decide) (wf_inls _ l _)
  | .link t [], w => by
    rw [inlHt]
    exact Wf.el (by decide) (by decide) (by decide) (by cases b <;> decide) (Wf.text _ _)
  | .link t (i :: l), w => by
    rw [inlHt]
    exact Wf.el (by decide) (by decide) (by decide) (by cases b <;> decide) ((wf_inl _ i _).append (wf_inls _ l _))
  | .image t [], w => by rw [inlHt]; exact Wf.void (by decide) (by decide)
  | .image t (c :: s), w => by rw [inlHt]; exact Wf.void (by decide) (by decide)
  | .sized t s x y, w => by rw [inlHt]; exact Wf.void (by decide) (by decide)
  | .nowiki s, w => by
    rw [inlHt]
    exact Wf.el (by decide) (by decide) (by decide) (by cases b <;> decide) (Wf.text _ _)
  | .br, w => by
    rw [inlHt]
    exact (Wf.void (by decide) (by decide)).append (Wf.white b w)
  | .url s, w => by
    rw [inlHt]
    exact Wf.el (by decide) (by decide) (by decide) (by cases b <;> decide) (Wf.text _ _)
  | .escUrl s, w => by rw [inlHt]; exact Wf.text b _
  | .mac _ _, w => by rw [inlHt]; exact Wf.nil b
  | .macText _ _ _, w => by rw [inlHt]; exact Wf.nil b
theorem wf_inls (b : Bool) : ∀ (l : List Cr.Inl) (w : Str), Wf b (inlsHt w l)
  | [], w => by rw [inlsHt]; exact Wf.nil b
  | i :: l, w => by
    rw [inlsHt]
    exact (wf_inl b i w).append (wf_inls b l w)
end

mutual
theorem wf_branch : ∀ (b : Cr.Branch) (n : Nat), Wf true (branchHt n b)
  | .mk pre text kind sub, n => by
    rw [branchHt]
    refine (Wf.white true _).append (Wf.el (by decide) (by decide) (by decide) rfl ?_)
    refine (wf_inls _ text _).append ?_
    split
    · exact Wf.nil _
    · refine (Wf.white _ _).append (Wf.el (by cases kind <;> decide) (by cases kind <;> decide) (by cases kind <;> decide) rfl ?_)
      rw [show stops (kindOf kind.tag) = true by cases kind <;> decide +kernel]
      exact (wf_branches sub (n + 1)).append (Wf.white _ _)
theorem wf_branches : ∀ (bs : List Cr.Branch) (n : Nat), Wf true (branchesHt n bs)
  | [], n => by rw [branchesHt]; exact Wf.nil _
  | b :: bs, n => by
    rw [branchesHt]
    exact (wf_branch b n).append (wf_branches bs n)
end

theorem wf_para (b : Bool) : ∀ ls : List (List Cr.Inl), Wf b (paraHt ls)
  | [] => by rw [paraHt]; exact Wf.nil b
  | [l] => by rw [paraHt]; exact wf_inls b l _
  | l :: m :: ls => by
    rw [paraHt]
    exact (wf_inls b l _).append (((Wf.void (by decide) (by decide)).append (Wf.white b c!"\n")).append (wf_para b (m :: ls)))

theorem wf_flatMap {α : Type} {b : Bool} {f : α → List Ht} (h : ∀ a, Wf b (f a)) : ∀ l : List α, Wf b (l.flatMap f)
  | [] => Wf.nil b
  | a :: l => by
    rw [List.flatMap_cons]
    exact (h a).append (wf_flatMap h l)

theorem wf_cell (c : TCell) : Wf true (cellHt c) := by
  rw [cellHt]
  refine (Wf.white _ _).append (Wf.append (x := [_]) (Wf.el ?_ ?_ ?_ rfl (wf_inls _ _ _)) (Wf.white _ _)) <;>
    cases c.head <;> decide

theorem wf_row (r : List TCell) : Wf true (rowHt r) := by
  rw [rowHt]
  refine Wf.append (x := [_]) (Wf.el (by decide) (by decide) (by decide) rfl ?_) (Wf.white _ _)
  exact Wf.append (x := [_]) (Wf.white _ _) (wf_flatMap wf_cell r)

theorem level_cases {n : Nat} (h1 : 1 ≤ n) (h6 : n ≤ 6) : n = 1 ∨ n = 2 ∨ n = 3 ∨ n = 4 ∨ n = 5 ∨ n = 6 := by omega

theorem wf_block {b : Rt} (h : b.decent = true) : Wf true [b.ht] := by
  cases b with
  | para ls => exact Wf.el (by decide) (by decide) (by decide) rfl (wf_para _ ls)
  | head n title =>
    simp only [Rt.decent, Bool.and_eq_true, decide_eq_true_eq] at h
    rcases level_cases h.1 h.2 with rfl | rfl | rfl | rfl | rfl | rfl <;>
      exact Wf.el (by decide) (by decide) (by decide) rfl (Wf.text _ _)
  | hr => exact Wf.void (by decide) (by decide)
  | list k bs =>
    refine Wf.el (by cases k <;> decide) (by cases k <;> decide) (by cases k <;> decide) rfl ?_
    rw [show stops (kindOf k.tag) = true by cases k <;> decide +kernel]
    exact (wf_branches bs 0).append (Wf.white _ _)
  | table rows =>
    exact Wf.el (by decide) (by decide) (by decide) rfl (Wf.append (x := [_]) (Wf.white _ _) (wf_flatMap wf_row rows))

theorem wf_doc : ∀ (d : List (Str × Rt)) (b : Rt), b.decent = true → (∀ x ∈ d, x.2.decent = true) → Wf true (docHt b d)
  | [], b, hb, _ => wf_block hb
  | (w, b') :: d, b, hb, hd => by
    rw [docHt]
    exact Wf.append (x := [_]) (wf_block hb) (Wf.append (x := [_]) (Wf.white _ _)
      (wf_doc d b' (hd (w, b') List.mem_cons_self) fun x hx => hd x (List.mem_cons_of_mem _ hx)))

/-! ## Paragraphs -/

theorem join_joinLines (t : Str) : ∀ l : List Str, join t l = joinLines t l
  | [] => rfl
  | [a] => by rw [joinLines]; rfl
  | a :: b :: l => by rw [joinLines, join_cons_cons, join_joinLines t (b :: l)]

theorem gives_para {p : Policy} : ∀ ls : List (List Cr.Inl), ls.all decents = true → (p = .transparent ∨ ls.all stables = true) →
    Gives p [] (paraHt ls) (joinLines c!"\n" (ls.map (inlsBack c!"\n")))
  | [], _, _ => by rw [paraHt]; exact Gives.nil _
  | [l], h, hp => by
    rw [paraHt]
    simp only [List.all_cons, List.all_nil, Bool.and_true] at h hp
    exact gives_inls [] l _ h hp
  | l :: m :: ls, h, hp => by
    have hp' : p = .transparent ∨ (stables l = true ∧ (m :: ls).all stables = true) := hp.imp id fun h => by
      rw [List.all_cons, Bool.and_eq_true] at h
      exact h
    rw [List.all_cons, Bool.and_eq_true] at h
    rw [paraHt, List.map_cons, List.map_cons, joinLines, List.append_assoc]
    refine (gives_inls [] l _ h.1 (hp'.imp id (·.1))).append ?_
    have hbr : Gives p [] [.void c!"br" [], .white c!"\n"] c!"\n" := by
      have := (Gives.void (p := p) (m := []) (tag := c!"br") (attrs := []) (t := c!"\n") (by rw [creE]; rfl)).append (Gives.white [] c!"\n")
      exact this
    exact hbr.append (gives_para (m :: ls) h.2 (hp'.imp id (·.2)))

/-! ## Tables -/

/-- what a cell adds to a table -/
def cellRaw (c : TCell) : Str := (if c.head then c!"= " else []) ++ cellBack c

/-- the element of a cell -/
def cellEl (c : TCell) : El := .elem (if c.head then c!"th" else c!"td") [] (elsL (inlsHt c!"\n\t\t" c.text))

theorem els_cells (r : List TCell) (l : List El) : (r.flatMap cellHt).foldr Ht.els l = r.map cellEl ++ l := by
  induction r with
  | nil => rfl
  | cons c r ih =>
    rw [List.flatMap_cons, List.foldr_append, ih, List.map_cons, cellHt]
    simp only [List.foldr_cons, List.foldr_nil, Ht.els]
    rw [if_neg (by rintro ⟨h, _⟩; cases hc : c.head <;> simp [hc] at h)]
    rfl

def rowEl (r : List TCell) : El := .elem c!"tr" [] (r.map cellEl)

theorem els_rows (rows : List (List TCell)) (l : List El) : (rows.flatMap rowHt).foldr Ht.els l = rows.map rowEl ++ l := by
  induction rows with
  | nil => rfl
  | cons r rows ih =>
    rw [List.flatMap_cons, List.foldr_append, ih, List.map_cons, rowHt]
    simp only [List.foldr_cons, List.foldr_nil, Ht.els]
    rw [if_neg (by rintro ⟨h, _⟩; cases h), elsL_foldr]
    simp only [List.foldr_cons, Ht.els]
    rw [els_cells, List.append_nil]
    rfl

/-- the state after the table has changed -/
def ESt.withTable (s : ESt) (t : Table) : ESt := { s with table := some t }

theorem cell_emit {p : Policy} {cfg : Cfg} (hc : Plain p cfg) {c : TCell} (h : decents c.text = true)
    (hst : p = .transparent ∨ stables c.text = true) {s : ESt} {t : Table} (hs : s.innerList = [])
    (ht : s.table = some t) (hp : t.headPrefix = c!"= ") (anc : List Str) (depth : Int) :
    ∃ s', emitNodes cfg anc ((cellEl c).nodes depth) s = .ok ([], s') ∧ s'.innerList = [] ∧
      s'.table = some { t.addTd (cellRaw c) with hasHeader := t.hasHeader || c.head } := by
  have hg := (gives_inls [] c.text c!"\n\t\t" h hst).whole
  cases hh : c.head with
  | false =>
    rw [cellEl, hh]
    obtain ⟨lv, d, hn⟩ := nodes_elem (tag := c!"td") (attrs := []) (ch := elsL (inlsHt c!"\n\t\t" c.text)) (depth := depth) rfl
    rw [show (if false = true then c!"th" else c!"td") = c!"td" from rfl, hn]
    obtain ⟨s1, h1, h2⟩ := cres_emit hc _ _ _ hg d (c!"td" :: anc) (enter { kind := c!"td", attrs := dictOf [], level := lv } s) hs
    have ht1 : s1.table = some t := by
      have : s1.core.table = s.core.table := by rw [h2]; rfl
      exact this.trans ht
    refine ⟨enter { kind := c!"td", attrs := dictOf [], level := lv } (s1.withTable (t.addTd (cellRaw c))), ?_, ?_, ?_⟩
    · refine emitNodes_one ?_
      rw [emitNode_creole hc (m := .td) rfl]
      simp only [runMeth]
      rw [bind_run, childrenM_run, h1]
      dsimp only
      rw [bind_run, getTable, bind_run, get_run]
      dsimp only
      rw [ht1]
      dsimp only
      rw [pure_run]
      dsimp only
      rw [bind_run, setTable, modify_run]
      dsimp only
      rw [pure_run, cellText, if_neg (by rw [hc.lang]; simp), oneLine_eq, cellRaw, hh]
      rfl
    · show s1.innerList = []
      rw [core_innerList h2]; exact hs
    · show some (t.addTd (cellRaw c)) = _
      simp [Table.addTd, Table.addTr]
      split <;> rfl
  | true =>
    rw [cellEl, hh]
    obtain ⟨lv, d, hn⟩ := nodes_elem (tag := c!"th") (attrs := []) (ch := elsL (inlsHt c!"\n\t\t" c.text)) (depth := depth) rfl
    rw [show (if true = true then c!"th" else c!"td") = c!"th" from rfl, hn]
    obtain ⟨s1, h1, h2⟩ := cres_emit hc _ _ _ hg d (c!"th" :: anc) (enter { kind := c!"th", attrs := dictOf [], level := lv } s) hs
    have ht1 : s1.table = some t := by
      have : s1.core.table = s.core.table := by rw [h2]; rfl
      exact this.trans ht
    refine ⟨enter { kind := c!"th", attrs := dictOf [], level := lv } (s1.withTable (t.addTh (cellBack c))), ?_, ?_, ?_⟩
    · refine emitNodes_one ?_
      rw [emitNode_creole hc (m := .th) rfl]
      simp only [runMeth]
      rw [bind_run, childrenM_run, h1]
      dsimp only
      rw [bind_run, getTable, bind_run, get_run]
      dsimp only
      rw [ht1]
      dsimp only
      rw [pure_run]
      dsimp only
      rw [bind_run, setTable, modify_run]
      dsimp only
      rw [pure_run, cellText, if_neg (by rw [hc.lang]; simp), oneLine_eq]
      rfl
    · show s1.innerList = []
      rw [core_innerList h2]; exact hs
    · show some (t.addTh (cellBack c)) = _
      rw [cellRaw, hh]
      simp only [Table.addTh, Table.addTd, Table.addTr, hp, Bool.or_true, if_true]
      by_cases h0 : t.rows.isEmpty = true <;> simp [h0, hp]

theorem addTd_last {t : Table} {rows : List (List Str)} {row : List Str} (h : t.rows = rows ++ [row]) (x : Str) :
    (t.addTd x).rows = rows ++ [row ++ [x]] := by
  have h0 : ¬ (t.rows.isEmpty = true) := by rw [h]; simp
  rw [Table.addTd]
  dsimp only
  rw [if_neg h0, h, addLast_concat]

theorem addTd_prefix (t : Table) (x : Str) : (t.addTd x).headPrefix = t.headPrefix ∧ (t.addTd x).autoWidth = t.autoWidth := by
  rw [Table.addTd]
  dsimp only
  split <;> exact ⟨rfl, rfl⟩

theorem cells_emit {p : Policy} {cfg : Cfg} (hc : Plain p cfg) (anc : List Str) (depth : Int) : ∀ (r : List TCell),
    (∀ c ∈ r, decents c.text = true ∧ (p = .transparent ∨ stables c.text = true)) →
    ∀ {s : ESt} {t : Table} {rows : List (List Str)} {row : List Str}, s.innerList = [] → s.table = some t → t.headPrefix = c!"= " →
      t.autoWidth = true → t.rows = rows ++ [row] →
      ∃ s' t', emitNodes cfg anc (nodesL depth (r.map cellEl)) s = .ok ([], s') ∧ s'.innerList = [] ∧ s'.table = some t' ∧
        t'.headPrefix = c!"= " ∧ t'.autoWidth = true ∧ t'.rows = rows ++ [row ++ r.map cellRaw]
  | [], _, s, t, rows, row, hs, ht, hp, ha, hr => by
    refine ⟨s, t, ?_, hs, ht, hp, ha, by simpa using hr⟩
    rw [List.map_nil, nodesL, emitNodes_nil, pure_run]
  | c :: r, h, s, t, rows, row, hs, ht, hp, ha, hr => by
    obtain ⟨s1, h1, h2, h3⟩ := cell_emit hc (h c List.mem_cons_self).1 (h c List.mem_cons_self).2 hs ht hp anc depth
    obtain ⟨s2, t2, h4, h5, h6, h7, h8, h9⟩ := cells_emit hc anc depth r (fun x hx => h x (List.mem_cons_of_mem _ hx)) (rows := rows)
      (row := row ++ [cellRaw c]) h2 h3 ((addTd_prefix t (cellRaw c)).1.trans hp) ((addTd_prefix t (cellRaw c)).2.trans ha) (addTd_last hr _)
    refine ⟨s2, t2, ?_, h5, h6, h7, h8, by rw [h9]; simp⟩
    rw [List.map_cons, nodesL]
    exact emitNodes_append h1 h4

theorem rows_emit {p : Policy} {cfg : Cfg} (hc : Plain p cfg) (anc : List Str) (depth : Int) : ∀ (l : List (List TCell)),
    (∀ r ∈ l, ∀ c ∈ r, decents c.text = true ∧ (p = .transparent ∨ stables c.text = true)) →
    ∀ {s : ESt} {t : Table}, s.innerList = [] → s.table = some t → t.headPrefix = c!"= " → t.autoWidth = true →
      ∃ s' t', emitNodes cfg anc (nodesL depth (l.map rowEl)) s = .ok ([], s') ∧ s'.innerList = [] ∧ s'.table = some t' ∧
        t'.headPrefix = c!"= " ∧ t'.autoWidth = true ∧ t'.rows = t.rows ++ l.map (fun r => r.map cellRaw)
  | [], _, s, t, hs, ht, hp, ha => by
    refine ⟨s, t, ?_, hs, ht, hp, ha, by simp⟩
    rw [List.map_nil, nodesL, emitNodes_nil, pure_run]
  | r :: l, h, s, t, hs, ht, hp, ha => by
    obtain ⟨lv, d, hn⟩ := nodes_elem (tag := c!"tr") (attrs := []) (ch := r.map cellEl) (depth := depth) rfl
    obtain ⟨s1, t1, h1, h2, h3, h4, h5, h6⟩ := cells_emit hc (c!"tr" :: anc) d r (h r List.mem_cons_self)
      (s := enter { kind := c!"tr", attrs := dictOf [], level := lv } (s.withTable t.addTr)) (t := t.addTr) (rows := t.rows) (row := []) hs rfl hp ha rfl
    obtain ⟨s2, t2, g1, g2, g3, g4, g5, g6⟩ := rows_emit hc anc depth l (fun x hx => h x (List.mem_cons_of_mem _ hx))
      (s := enter { kind := c!"tr", attrs := dictOf [], level := lv } s1) (t := t1) h2 h3 h4 h5
    refine ⟨s2, t2, ?_, g2, g3, g4, g5, by rw [g6, h6]; simp⟩
    rw [List.map_cons, nodesL]
    refine emitNodes_append (t := []) ?_ g1
    rw [rowEl, hn]
    refine emitNodes_one ?_
    rw [emitNode_creole hc (m := .tr) rfl]
    simp only [runMeth]
    rw [bind_run, getTable, bind_run, get_run]
    dsimp only
    rw [ht]
    dsimp only
    rw [pure_run]
    dsimp only
    rw [bind_run, setTable, modify_run]
    dsimp only
    rw [bind_run, childrenM_run]
    rw [show enter { kind := c!"tr", attrs := dictOf [], level := lv } { s with table := some t.addTr } =
      enter { kind := c!"tr", attrs := dictOf [], level := lv } (s.withTable t.addTr) from rfl, h1]
    dsimp only
    rw [pure_run]

theorem trimmed_strip {s : Str} (h : Cr.trimmed s = true) : strip s = s ∧ s ≠ [] := by
  cases s with
  | nil => simp [Cr.trimmed] at h
  | cons c s =>
    simp only [Cr.trimmed, Bool.and_eq_true, Bool.not_eq_true'] at h
    refine ⟨strip_id ?_ ?_, by simp⟩
    · intro x hx
      simp only [List.head?_cons, Option.some.injEq] at hx
      rw [← hx]; exact h.1.1
    · intro x hx
      have := h.1.2
      rw [hx] at this
      simpa using this

theorem preformat_cell {c : TCell} (h : Cr.trimmed (cellBack c) = true) (h' : (cellBack c).head? ≠ some '=') :
    preformatCell c!"= " (cellRaw c) = cellBox c := by
  obtain ⟨h1, h2⟩ := trimmed_strip h
  unfold preformatCell cellRaw cellBox
  cases c.head with
  | false =>
    simp only [Bool.false_eq_true, if_false, List.nil_append, h1, h2]
    rw [if_neg]
    · simp
    · cases hb : cellBack c with
      | nil => exact absurd hb h2
      | cons x xs =>
        rw [hb] at h'
        have : x ≠ '=' := by simpa using h'
        simp only [List.isPrefixOf, beq_iff_eq, Bool.and_eq_true, not_and, decide_eq_true_eq]
        simp
        exact fun h => absurd h.symm this
  | true =>
    have hs : strip (c!"= " ++ cellBack c) = c!"= " ++ cellBack c := by
      refine strip_id ?_ ?_
      · intro x hx
        simp only [List.cons_append, List.head?_cons, Option.some.injEq] at hx
        subst hx; decide
      · intro x hx
        cases hb : cellBack c with
        | nil => exact absurd hb h2
        | cons y ys =>
          rw [hb] at h hx
          rw [List.getLast?_append, show ∀ z, (y :: ys).getLast?.or z = (y :: ys).getLast? from fun z => by
            rw [List.getLast?_cons]; rfl] at hx
          simp only [Cr.trimmed, Bool.and_eq_true, Bool.not_eq_true'] at h
          have := h.1.2
          rw [hx] at this
          simpa using this
    simp only [if_true, hs]
    rw [if_neg (by simp), if_pos (by simp [List.isPrefixOf])]
    simp

theorem widths_columns : ∀ cells : List (List Str), (columns cells).map maxLen = widths cells
  | [] => rfl
  | [r] => by
    rw [columns, widths, List.map_map]
    refine List.map_congr_left fun c _ => ?_
    simp [maxLen]
  | r :: r' :: rs => by rw [columns_cons, widths_columns (r' :: rs)]; rfl

theorem bar_line : ∀ {cells : List Str}, cells ≠ [] → barLine cells = c!"|" ++ cells.flatMap (· ++ c!"|")
  | [], h => absurd rfl h
  | [a], _ => by simp [barLine, join]
  | a :: b :: l, _ => by
    have := bar_line (cells := b :: l) (by simp)
    simp only [barLine, List.cons_append, List.nil_append, List.cons.injEq, true_and] at this ⊢
    rw [join_cons_cons, List.append_assoc, List.append_assoc, this]
    simp

theorem table_markup {rows : List (List TCell)} (h : (Rt.table rows).decent = true) {t : Table} (hp : t.headPrefix = c!"= ")
    (ha : t.autoWidth = true) (hr : t.rows = rows.map fun r => r.map cellRaw) : t.markup = joinLines c!"\n" (tableBack rows) := by
  simp only [Rt.decent, Bool.and_eq_true, Bool.not_eq_true', List.all_eq_true, beq_iff_eq, bne_iff_ne] at h
  obtain ⟨hne, h⟩ := h
  rw [Table.markup, ha, ← join_joinLines]
  simp only [Bool.not_true, Bool.false_eq_true, if_false, Table.preformat]
  have hcells : (t.rows.map fun row => row.map (preformatCell t.headPrefix)) = rows.map fun r => r.map cellBox := by
    rw [hr, hp, List.map_map]
    refine List.map_congr_left fun r hr => ?_
    rw [Function.comp, List.map_map]
    refine List.map_congr_left fun c hc => ?_
    exact preformat_cell ((h r hr).2 c hc).1.2 ((h r hr).2 c hc).2
  rw [hcells, widths_columns, tableBack, List.map_map]
  congr 1
  refine List.map_congr_left fun r hr' => ?_
  have hlen : (widths (rows.map fun r => r.map cellBox)).length = (rows.headD []).length := by
    rw [← widths_columns, List.length_map]
    refine columns_length ⟨?_, ?_⟩
    · intro row hrow
      obtain ⟨r0, hr0, rfl⟩ := List.mem_map.mp hrow
      rw [List.length_map, (h r0 hr0).1.1]
      exact Nat.le_refl _
    · cases rows with
      | nil => cases hr'
      | cons r0 rows => exact ⟨r0.map cellBox, List.mem_cons_self, by simp⟩
  rw [Function.comp, bar_line, rowBack]
  · rfl
  · intro h0
    have := congrArg List.length h0
    rw [padRow, List.length_zipWith, List.length_map, hlen, (h r hr').1.1, Nat.min_self, ← (h r hr').1.1] at this
    cases r with
    | nil => simpa using (h [] hr').1.2
    | cons c r => simp at this

/-! ## Blocks -/

/-- is it a heading? -/
def isHead : Rt → Bool
  | .head _ _ => true
  | _ => false

/-- what is emitted for a block; `start` tells whether a list has to start a new line -/
def blockText (start : Bool) : Rt → Str
  | .table rows => joinLines c!"\n" (tableBack rows) ++ c!"\n"
  | .list k bs => (if start then c!"\n\n" else []) ++ joinLines c!"\n" (Rt.list k bs).back ++ c!"\n\n"
  | b => joinLines c!"\n" b.back ++ c!"\n\n"

mutual
theorem branchBack_ends : ∀ (b : Cr.Branch) (m : Str), branchDecent b = true →
    ∃ x c, (branchBack m b).getLast? = some (x ++ [c]) ∧ isSpace c = false
  | .mk pre text kind sub, m, h => by
    simp only [branchDecent, Bool.and_eq_true] at h
    rw [branchBack]
    cases sub with
    | nil =>
      rw [branchesBack]
      have h2 := h.1.2
      unfold bareEnd at h2
      cases hl : (inlsBack c!"\\\\" text).getLast? with
      | none => rw [hl] at h2; simp at h2
      | some c =>
        rw [hl] at h2
        obtain ⟨y, hy⟩ := List.getLast?_eq_some_iff.mp hl
        refine ⟨m ++ c!" " ++ y, c, ?_, by simpa using h2⟩
        rw [List.getLast?_singleton, hy]
        simp
    | cons b bs =>
      obtain ⟨x, c, h1, h2⟩ := branchesBack_ends (b :: bs) (m ++ [kind.char]) (by simp) h.2
      refine ⟨x, c, ?_, h2⟩
      rw [List.getLast?_cons, h1]
      rfl
theorem branchesBack_ends : ∀ (bs : List Cr.Branch) (m : Str), bs ≠ [] → branchesDecent bs = true →
    ∃ x c, (branchesBack m bs).getLast? = some (x ++ [c]) ∧ isSpace c = false
  | [], m, h, _ => absurd rfl h
  | b :: bs, m, _, h => by
    rw [branchesDecent, Bool.and_eq_true] at h
    rw [branchesBack]
    cases bs with
    | nil =>
      rw [branchesBack, List.append_nil]
      exact branchBack_ends b m h.1
    | cons b' bs =>
      obtain ⟨x, c, h1, h2⟩ := branchesBack_ends (b' :: bs) m (by simp) h.2
      refine ⟨x, c, ?_, h2⟩
      rw [List.getLast?_append, h1]
      rfl
end

theorem branchesBack_start (m : Str) {bs : List Cr.Branch} (h : bs ≠ []) : ∃ t l, branchesBack m bs = (m ++ t) :: l := by
  cases bs with
  | nil => exact absurd rfl h
  | cons b bs =>
    cases b with
    | mk pre text kind sub =>
      rw [branchesBack, branchBack]
      exact ⟨c!" " ++ inlsBack c!"\\\\" text, branchesBack (m ++ [kind.char]) sub ++ branchesBack m bs, by simp⟩

theorem joinLines_last : ∀ {l : List Str} {x : Str} {c : Char}, l.getLast? = some (x ++ [c]) → ∃ y, joinLines c!"\n" l = y ++ [c]
  | [], x, c, h => by simp at h
  | [a], x, c, h => by
    simp only [List.getLast?_singleton, Option.some.injEq] at h
    exact ⟨x, by rw [joinLines, h]⟩
  | a :: b :: l, x, c, h => by
    rw [List.getLast?_cons_cons] at h
    obtain ⟨y, hy⟩ := joinLines_last h
    exact ⟨a ++ c!"\n" ++ y, by rw [joinLines, hy]; simp⟩

theorem joinLines_first {a : Str} {l : List Str} : ∃ t, joinLines c!"\n" (a :: l) = a ++ t := by
  cases l with
  | nil => exact ⟨[], by rw [joinLines]; simp⟩
  | cons b l => exact ⟨_, by rw [joinLines, List.append_assoc]⟩

theorem strip_list {k : Cr.Mark} {bs : List Cr.Branch} (h : bs ≠ []) (hd : branchesDecent bs = true) :
    newLines (branchesBack [k.char] bs) = '\n' :: joinLines c!"\n" (branchesBack [k.char] bs) ∧
    strip (newLines (branchesBack [k.char] bs)) = joinLines c!"\n" (branchesBack [k.char] bs) := by
  obtain ⟨t, l, hst⟩ := branchesBack_start [k.char] h
  obtain ⟨x, c, h1, h2⟩ := branchesBack_ends bs [k.char] h hd
  obtain ⟨y, hy⟩ := joinLines_last h1
  have hn : newLines (branchesBack [k.char] bs) = '\n' :: joinLines c!"\n" (branchesBack [k.char] bs) := by
    rw [newLines_join (by rw [hst]; simp), join_joinLines]
  refine ⟨hn, ?_⟩
  rw [hn]
  have := strip_pad (w := c!"\n") (w' := []) newline_space (by simp) (joinLines c!"\n" (branchesBack [k.char] bs))
  rw [List.append_nil, List.singleton_append] at this
  rw [this]
  refine strip_id ?_ ?_
  · intro z hz
    obtain ⟨u, hu⟩ := joinLines_first (a := [k.char] ++ t) (l := l)
    rw [hst, hu] at hz
    simp only [List.cons_append, List.head?_cons, Option.some.injEq] at hz
    rw [← hz]
    cases k <;> decide
  · intro z hz
    rw [hy] at hz
    simp only [List.getLast?_append, List.getLast?_singleton, Option.some_or, Option.some.injEq] at hz
    rw [← hz]; exact h2

/-- html2creole on a paragraph -/
theorem para_emit {p : Policy} {cfg : Cfg} (hc : Plain p cfg) {ch : List Ht} {t : Str} (hg : creEs p [] (elsL ch) = some t)
    {s : ESt} (hs : s.innerList = []) (anc : List Str) :
    ∃ e s', (∀ l, (Ht.el c!"p" [] ch).els l = e :: l) ∧ emitNodes cfg anc (e.nodes 0) s = .ok (t ++ c!"\n\n", s') ∧
      s'.innerList = [] ∧ startNewline s'.last = false := by
  obtain ⟨lv, d, hn⟩ := nodes_elem (tag := c!"p") (attrs := []) (ch := elsL ch) (depth := 0) rfl
  obtain ⟨s1, h1, h2⟩ := cres_emit hc _ _ _ hg d (c!"p" :: anc) (enter { kind := c!"p", attrs := dictOf [], level := lv } s) hs
  refine ⟨.elem c!"p" [] (elsL ch), enter { kind := c!"p", attrs := dictOf [], level := lv } s1, fun l => ?_, ?_, ?_, ?_⟩
  · rw [Ht.els, if_neg (by decide)]; rfl
  · rw [hn]
    refine emitNodes_one ?_
    rw [emitNode_creole hc (m := .p) rfl]
    simp only [runMeth, hc.lang]
    rw [bind_run, childrenM_run, h1]
    dsimp only
    rw [bind_run, get_run]
    dsimp only
    rw [if_pos (by rw [core_innerList h2]; exact hs), pure_run]
  · show s1.innerList = []
    rw [core_innerList h2]; exact hs
  · rfl

/-- html2creole on a list -/
theorem list_emit {p : Policy} {cfg : Cfg} (hc : Plain p cfg) {k : Cr.Mark} {ch : List Ht} {t : Str} (hg : creEs p [k.char] (elsL ch) = some t)
    {s : ESt} (hs : s.innerList = []) (anc : List Str) :
    ∃ e s', (∀ l, (Ht.el k.tag [] ch).els l = e :: l) ∧
      emitNodes cfg anc (e.nodes 0) s = .ok (if startNewline s.last then '\n' :: t ++ c!"\n\n" else strip t ++ c!"\n\n", s') ∧
      s'.innerList = [] ∧ startNewline s'.last = false := by
  have hh : headline? k.tag = none := by cases k <;> rfl
  obtain ⟨lv, d, hn⟩ := nodes_elem (tag := k.tag) (attrs := []) (ch := elsL ch) (depth := 0) hh
  obtain ⟨s1, h3, h4⟩ := cres_emit hc _ _ _ hg d (k.tag :: anc)
    (enter { kind := k.tag, attrs := dictOf [], level := lv } { s with innerList := s.innerList ++ [k.char] }) (by rw [hs]; rfl)
  have hs1 : s1.innerList.dropLast = [] := by
    rw [core_innerList h4]
    show (s.innerList ++ [k.char]).dropLast = _
    rw [hs]; rfl
  refine ⟨.elem k.tag [] (elsL ch),
    enter { kind := k.tag, attrs := dictOf [], level := lv } { s1 with innerList := [] }, fun l => ?_, ?_, rfl, ?_⟩
  · rw [Ht.els, if_neg (by cases k <;> decide)]; rfl
  · rw [hn]
    refine emitNodes_one ?_
    rw [emitNode_creole hc (m := .list [k.char]) (by cases k <;> rfl)]
    simp only [runMeth, hc.lang]
    rw [baseList, bind_run, get_run]
    dsimp only
    rw [bind_run, modify_run]
    dsimp only
    rw [bind_run, childrenM_run, h3]
    dsimp only
    rw [bind_run, modify_run]
    dsimp only
    rw [bind_run, get_run]
    dsimp only
    rw [hs1, if_pos rfl]
    by_cases hst : startNewline s.last = true
    · rw [if_pos hst, if_pos hst, pure_run]
    · rw [if_neg hst, if_neg hst, pure_run]
  · cases k <;> rfl

/-- html2creole on the HTML of a block -/
theorem block_emit {p : Policy} {cfg : Cfg} (hc : Plain p cfg) {b : Rt} (h : b.decent = true) (hp : p = .transparent ∨ b.stable = true) {s : ESt} (hs : s.innerList = []) (anc : List Str) :
    ∃ e s', (∀ l, b.ht.els l = e :: l) ∧ emitNodes cfg anc (e.nodes 0) s = .ok (blockText (startNewline s.last) b, s') ∧
      s'.innerList = [] ∧ startNewline s'.last = isHead b := by
  cases b with
  | para ls =>
    simp only [Rt.decent, Bool.and_eq_true, Bool.not_eq_true'] at h
    have hg := (gives_para (p := p) ls h.2 (hp.imp id fun h => by
      simp only [Rt.stable, Bool.and_eq_true, List.all_eq_true] at h
      rw [List.all_eq_true]
      exact fun l hl => (h.1 l hl).1.1)).whole
    exact para_emit hc hg hs anc
  | head n title =>
    simp only [Rt.decent, Bool.and_eq_true, decide_eq_true_eq] at h
    have hg := (Gives.text (p := p) [] title).whole
    have hh : headline? (c!"h" ++ Cr.decimal n) = some n ∧ c!"h" ++ Cr.decimal n ≠ c!"tbody" := by
      rcases level_cases h.1 h.2 with rfl | rfl | rfl | rfl | rfl | rfl <;> decide +kernel
    obtain ⟨s1, h1, h2⟩ := cres_emit hc _ _ _ hg 0 (c!"headline" :: anc) (enter { kind := c!"headline", level := some (n : Int) } s) hs
    refine ⟨.elem (c!"h" ++ Cr.decimal n) [] (elsL [.text title]), enter { kind := c!"headline", level := some (n : Int) } s1, fun l => ?_, ?_, ?_, ?_⟩
    · rw [Rt.ht, Ht.els, if_neg (fun h => hh.2 h.1)]; rfl
    · rw [El.nodes, hh.1]
      dsimp only
      refine emitNodes_one ?_
      rw [emitNode_creole hc (m := .headline) rfl]
      simp only [runMeth, hc.lang, headlineEmit]
      rw [bind_run, levelM]
      dsimp only
      rw [pure_run]
      dsimp only
      rw [bind_run, childrenM_run, h1]
      dsimp only
      rw [pure_run]
      simp [blockText, Rt.back, joinLines]
    · show s1.innerList = []
      rw [core_innerList h2]; exact hs
    · rfl
  | hr =>
    refine ⟨.void c!"hr" [], enter { kind := c!"hr" } s, fun l => rfl, ?_, hs, rfl⟩
    rw [El.nodes]
    refine emitNodes_one ?_
    rw [emitNode_creole hc (m := .hr) rfl]
    simp only [runMeth, hc.lang]
    rfl
  | list k bs =>
    simp only [Rt.decent, Bool.and_eq_true, Bool.not_eq_true'] at h
    have hne : bs ≠ [] := by rintro rfl; simp at h
    have hg := ((gives_branches (p := p) bs 0 [k.char] (by simp) h.2 (hp.imp id fun h => by
      rw [Rt.stable, Bool.and_eq_true] at h
      exact h.1)).append (Gives.white [k.char] c!"\n")).whole
    rw [List.append_nil] at hg
    obtain ⟨e1, e2⟩ := strip_list (k := k) hne h.2
    obtain ⟨e, s', h1, h2, h3, h4⟩ := list_emit hc (k := k) hg hs anc
    refine ⟨e, s', h1, ?_, h3, h4⟩
    rw [h2]
    by_cases hst : startNewline s.last = true
    · rw [if_pos hst, e1, hst]
      simp [blockText, Rt.back]
    · rw [if_neg hst, e2]
      simp [blockText, Rt.back, hst]
  | table rows =>
    have h0 := h
    simp only [Rt.decent, Bool.and_eq_true, Bool.not_eq_true', List.all_eq_true, beq_iff_eq, bne_iff_ne] at h
    obtain ⟨lv, d, hn⟩ := nodes_elem (tag := c!"table") (attrs := []) (ch := rows.map rowEl) (depth := 0) rfl
    obtain ⟨s1, t1, h1, h2, h3, h4, h5, h6⟩ := rows_emit hc (c!"table" :: anc) d rows (fun r hr c hc => ⟨((h.2 r hr).2 c hc).1.1, hp.imp id fun h => by
        simp only [Rt.stable, cellStable, List.all_eq_true, Bool.and_eq_true] at h
        exact (h r hr c hc).1.1.1.1⟩)
      (s := enter { kind := c!"table", attrs := dictOf [], level := lv } (s.withTable { headPrefix := c!"= " })) (t := { headPrefix := c!"= " }) hs rfl rfl rfl
    refine ⟨.elem c!"table" [] (rows.map rowEl), enter { kind := c!"table", attrs := dictOf [], level := lv } s1, fun l => ?_, ?_, h2, ?_⟩
    · rw [Rt.ht, Ht.els, if_neg (by decide), elsL_foldr]
      simp only [List.foldr_cons, Ht.els]
      rw [els_rows, List.append_nil]; rfl
    · rw [hn]
      refine emitNodes_one ?_
      rw [emitNode_creole hc (m := .table) rfl]
      simp only [runMeth, hc.lang]
      rw [tableEmit, bind_run, setTable, modify_run]
      dsimp only
      rw [bind_run, childrenM_run]
      rw [show enter { kind := c!"table", attrs := dictOf [], level := lv } { s with table := some { headPrefix := c!"= " } } =
        enter { kind := c!"table", attrs := dictOf [], level := lv } (s.withTable { headPrefix := c!"= " }) from rfl, h1]
      dsimp only
      rw [bind_run, getTable, bind_run, get_run]
      dsimp only
      rw [h3]
      dsimp only
      rw [pure_run]
      dsimp only
      rw [pure_run, table_markup h0 h4 h5 h6]
      rfl
    · rfl

/-! ## Documents -/

/-- what is emitted for a document -/
def docText (start : Bool) (b : Rt) : List Rt → Str
  | [] => blockText start b
  | b' :: d => blockText start b ++ docText (isHead b) b' d

theorem doc_emit {cfg : Cfg} (hc : Plain .transparent cfg) (anc : List Str) : ∀ (d : List (Str × Rt)) (b : Rt), b.decent = true →
    (∀ x ∈ d, x.2.decent = true) → ∀ {s : ESt}, s.innerList = [] →
    ∃ s', emitNodes cfg anc (nodesL 0 (elsL (docHt b d))) s = .ok (docText (startNewline s.last) b (d.map (·.2)), s')
  | [], b, hb, _, s, hs => by
    obtain ⟨e, s1, h1, h2, h3, h4⟩ := block_emit hc hb (.inl rfl) hs anc
    refine ⟨s1, ?_⟩
    rw [docHt, elsL, elsL, h1, nodesL, nodesL, List.append_nil]
    exact h2
  | (w, b') :: d, b, hb, hd, s, hs => by
    obtain ⟨e, s1, h1, h2, h3, h4⟩ := block_emit hc hb (.inl rfl) hs anc
    obtain ⟨s2, h5⟩ := doc_emit hc anc d b' (hd (w, b') List.mem_cons_self) (fun x hx => hd x (List.mem_cons_of_mem _ hx)) h3
    refine ⟨s2, ?_⟩
    rw [docHt, elsL, elsL, Ht.els, h1, nodesL, List.map_cons, docText]
    rw [h4] at h5
    exact emitNodes_append h2 h5

theorem joinLines_append (a b : List Str) (ha : a ≠ []) (hb : b ≠ []) :
    joinLines c!"\n" (a ++ b) = joinLines c!"\n" a ++ c!"\n" ++ joinLines c!"\n" b := by
  induction a with
  | nil => exact absurd rfl ha
  | cons x a ih =>
    cases a with
    | nil =>
      cases b with
      | nil => exact absurd rfl hb
      | cons y b => rw [List.singleton_append, joinLines, joinLines]
    | cons x' a =>
      have := ih (by simp)
      rw [List.cons_append, List.cons_append, joinLines]
      rw [List.cons_append] at this
      rw [this, joinLines]
      simp

theorem back_ne {b : Rt} (h : b.decent = true) : b.back ≠ [] := by
  cases b with
  | para ls =>
    simp only [Rt.decent, Bool.and_eq_true, Bool.not_eq_true'] at h
    cases ls with
    | nil => simp at h
    | cons l ls => simp [Rt.back]
  | head n t => simp [Rt.back]
  | hr => simp [Rt.back]
  | list k bs =>
    simp only [Rt.decent, Bool.and_eq_true, Bool.not_eq_true'] at h
    obtain ⟨t, l, hst⟩ := branchesBack_start [k.char] (bs := bs) (by rintro rfl; simp at h)
    rw [Rt.back, hst]; simp
  | table rows =>
    simp only [Rt.decent, Bool.and_eq_true, Bool.not_eq_true'] at h
    cases rows with
    | nil => simp at h
    | cons r rows => simp [Rt.back, tableBack]

theorem backDoc_ne : ∀ (d : List Rt) (b : Rt), b.decent = true → backDoc b d ≠ []
  | [], b, h => by rw [backDoc]; exact back_ne h
  | b' :: d, b, h => by
    rw [backDoc]
    simp [back_ne h]

/-- the blank lines before a list at the beginning, and the line ends at the end of a text do not count -/
theorem docText_lines : ∀ (d : List Rt) (b : Rt) (start : Bool), b.decent = true → (∀ x ∈ d, x.decent = true) →
    ∃ w, docText start b d = (match b with | .list _ _ => if start then c!"\n\n" else [] | _ => []) ++
      joinLines c!"\n" (backDoc b d) ++ w ∧ ∀ c ∈ w, c = '\n'
  | [], b, start, hb, _ => by
    rw [docText, backDoc]
    cases b with
    | table rows => exact ⟨c!"\n", by simp [blockText, Rt.back], by simp⟩
    | list k bs => exact ⟨c!"\n\n", by simp [blockText], by simp⟩
    | para ls => exact ⟨c!"\n\n", by simp [blockText], by simp⟩
    | head n t => exact ⟨c!"\n\n", by simp [blockText], by simp⟩
    | hr => exact ⟨c!"\n\n", by simp [blockText], by simp⟩
  | b' :: d, b, start, hb, hd => by
    have hb' := hd b' List.mem_cons_self
    obtain ⟨w, h1, h2⟩ := docText_lines d b' (isHead b) hb' fun x hx => hd x (List.mem_cons_of_mem _ hx)
    refine ⟨w, ?_, h2⟩
    rw [docText, backDoc, h1]
    have hne := backDoc_ne d b' hb'
    have hnb := back_ne hb
    have hj : ∀ g, joinLines c!"\n" (b.back ++ g ++ backDoc b' d) = joinLines c!"\n" b.back ++ c!"\n" ++ joinLines c!"\n" (g ++ backDoc b' d) := by
      intro g
      rw [List.append_assoc, joinLines_append _ _ hnb (by simp [hne])]
    rw [hj]
    have h1' : joinLines c!"\n" ([[]] ++ backDoc b' d) = c!"\n" ++ joinLines c!"\n" (backDoc b' d) := by
      rw [joinLines_append _ _ (by simp) hne]; simp [joinLines]
    have h3' : joinLines c!"\n" ([[], [], []] ++ backDoc b' d) = c!"\n\n\n" ++ joinLines c!"\n" (backDoc b' d) := by
      rw [joinLines_append _ _ (by simp) hne]; simp [joinLines]
    cases b <;> cases b' <;> simp only [blockText, gap, isHead, h1', h3', List.nil_append] <;> simp [Rt.back]

/-- html2creole on the HTML of a document -/
theorem html2creole_doc {b : Rt} {d : List (Str × Rt)} (hb : b.decent = true) (hd : ∀ x ∈ d, x.2.decent = true)
    (hn : neat (docHt b d) = true) {w w' : Str} (hw : ∀ c ∈ w, isSpace c = true) (hw' : ∀ c ∈ w', isSpace c = true) :
    Emit.html2creole (w ++ written (docHt b d) ++ w') = .ok (strip (joinLines c!"\n" (backDoc b (d.map (·.2))))) := by
  have hp : Plain .transparent { lang := .creole, policy := .transparent, strict := false } := ⟨rfl, rfl, rfl⟩
  obtain ⟨s, hs⟩ := doc_emit hp [c!"document"] d b hb hd (s := enter { kind := c!"document" } {}) rfl
  rw [Emit.html2creole, convert, C60_parse_written _ hn (wf_doc d b hb hd).whole hw hw']
  show emit _ _ = _
  rw [emit_document hs (fun h => by cases h), if_neg (by simp)]
  obtain ⟨u, h1, h2⟩ := docText_lines (d.map (·.2)) b (startNewline (enter { kind := c!"document" } {}).last) hb
    (fun x hx => by obtain ⟨y, hy, rfl⟩ := List.mem_map.mp hx; exact hd y hy)
  rw [h1]
  congr 1
  refine strip_pad ?_ (fun c hc => by rw [h2 c hc]; rfl) _
  intro c hc
  split at hc
  · split at hc
    · simp at hc; subst hc; rfl
    · cases hc
  · cases hc

end Verif.Emit
