import Verif.Emit.Article

/-!
# The emitters on the elements of articles: lists, tables, blocks
-/

namespace Verif.Emit

open Verif Py Html Spec Spec.Hd Spec.Ar Props

/-! ## Lists -/

/-- the attribute `_inner_list` inside lists -/
def innerMarks (to : To) (kinds : List Bool) : Str := if to = .markdown then [] else marks to kinds

theorem rep_two (n : Nat) : rep c!"  " n = List.replicate (2 * n) ' ' := by
  induction n with
  | zero => rfl
  | succ n ih =>
    rw [rep, ih, show 2 * (n + 1) = 2 * n + 1 + 1 by omega, List.replicate_succ, List.replicate_succ]
    rfl

theorem marks_push {to : To} (h : to ≠ .markdown) (kinds : List Bool) (n : Bool) :
    marks to (kinds ++ [n]) = marks to kinds ++ (if n then c!"#" else c!"*") := by
  cases to with
  | markdown => exact absurd rfl h
  | creole => simp only [marks, List.map_append]; cases n <;> rfl
  | textile => simp only [marks, List.map_append]; cases n <;> rfl

theorem marks_ne {to : To} (h : to ≠ .markdown) {kinds : List Bool} (hk : kinds ≠ []) : marks to kinds ≠ [] := by
  cases to with
  | markdown => exact absurd rfl h
  | creole => simpa [marks] using hk
  | textile => simpa [marks] using hk

theorem creole_or_textile {to : To} (h : to ≠ .markdown) : to.lang = .creole ∨ to.lang = .textile := by
  cases to with
  | markdown => exact absurd rfl h
  | creole => exact .inl rfl
  | textile => exact .inr rfl

theorem list_nodes (depth : Int) (o : Bool) (ch : List El) : (El.elem (listTag o) [] ch).nodes depth =
    [.mk { kind := listTag o, attrs := dictOf [], level := some (depth + 1) } (nodesL (depth + 1) ch)] := by
  cases o <;> rfl

/-- a list inside of another one -/
theorem sublist_em {to : To} {cfg : Cfg} (hc : Conf to cfg) {kinds : List Bool} (hk : kinds ≠ []) {o : Bool} {ch : List El} {t : Str}
    {anc : List Str} (hch : Em cfg (listTag o :: anc) ((kinds ++ [o]).length : Nat) (innerMarks to (kinds ++ [o])) ch t) :
    EmE cfg anc (kinds.length : Nat) (innerMarks to kinds) (.elem (listTag o) [] ch) t := by
  intro s hs
  have hlen : (((kinds ++ [o]).length : Nat) : Int) = (kinds.length : Nat) + 1 := by simp
  rw [hlen] at hch
  rw [list_nodes]
  refine emits_one ?_
  by_cases hto : to = .markdown
  · subst hto
    refine emits_to hc (m := .list []) (by cases o <;> rfl) ?_
    simp only [runMeth, hc.lang, To.lang]
    rw [mdList]
    refine Emits.bind (Emits.children (hch _ hs)) fun s' _ => ?_
    rw [if_neg]
    · exact Emits.pure _
    · simp only [Option.some.injEq]
      cases kinds with
      | nil => exact absurd rfl hk
      | cons k ks => simp only [List.length_cons]; omega
  · refine emits_to hc (method_ul_ol (creole_or_textile hto) o) ?_
    have hrun : ∀ x, runMeth cfg anc { kind := listTag o, attrs := dictOf [], level := some ((kinds.length : Nat) + 1) }
        (.list (if o then c!"#" else c!"*")) x = baseList (if o then c!"#" else c!"*") x := by
      intro x
      simp only [runMeth, hc.lang]
      cases to with
      | markdown => exact absurd rfl hto
      | creole => rfl
      | textile => rfl
    rw [hrun, baseList]
    rw [innerMarks, if_neg hto] at hs
    have hch' : Em cfg (listTag o :: anc) ((kinds.length : Nat) + 1) (marks to kinds ++ (if o then c!"#" else c!"*")) ch t := by
      rw [← marks_push hto]
      rw [innerMarks, if_neg hto] at hch
      exact hch
    obtain ⟨s1, h3, h4⟩ := hch' (enter { kind := listTag o, attrs := dictOf [], level := some ((kinds.length : Nat) + 1) }
        { s with innerList := s.innerList ++ (if o then c!"#" else c!"*") }) (by rw [← hs]; rfl)
    have hs1 : s1.innerList.dropLast = s.innerList := by
      rw [core_innerList h4]
      show (s.innerList ++ (if o then c!"#" else c!"*")).dropLast = _
      cases o <;> simp
    refine ⟨{ s1 with innerList := s.innerList }, ?_, ?_⟩
    · rw [bind_run, get_run]
      dsimp only
      rw [bind_run, modify_run]
      dsimp only
      rw [bind_run, childrenM_run, h3]
      dsimp only
      rw [bind_run, modify_run]
      dsimp only
      rw [bind_run, get_run]
      dsimp only
      rw [hs1, if_neg (by rw [hs]; exact marks_ne hto hk), pure_run]
    · have : ({ s1 with innerList := s.innerList } : ESt).core = { s1.core with innerList := s.innerList } := rfl
      rw [this, h4]
      rfl

/-- an item -/
theorem li_em {to : To} {cfg : Cfg} (hc : Conf to cfg) {kinds : List Bool} (hk : kinds ≠ []) {ch : List El} {t : Str}
    {anc : List Str} (ha : anc.head? = (kinds.getLast?).map listTag)
    (hch : Em cfg (c!"li" :: anc) (kinds.length : Nat) (innerMarks to kinds) ch t) :
    EmE cfg anc (kinds.length : Nat) (innerMarks to kinds) (.elem c!"li" [] ch) ('\n' :: (marks to kinds ++ c!" " ++ t)) := by
  intro s hs
  have hn : (El.elem c!"li" [] ch).nodes (kinds.length : Nat) =
    [.mk { kind := c!"li", attrs := dictOf [], level := some (kinds.length : Nat) } (nodesL (kinds.length : Nat) ch)] := rfl
  rw [hn]
  refine emits_one (emits_to hc (m := .li) (method_li _) ?_)
  have hx := Emits.children (cfg := cfg) (anc := anc) (i := { kind := c!"li", attrs := dictOf [], level := some (kinds.length : Nat) })
    (children := nodesL (kinds.length : Nat) ch) (hch (enter { kind := c!"li", attrs := dictOf [], level := some (kinds.length : Nat) } s) hs)
  have base : to ≠ .markdown → Emits (baseLi (childrenM cfg anc { kind := c!"li", attrs := dictOf [], level := some (kinds.length : Nat) }
      (nodesL (kinds.length : Nat) ch))) s ('\n' :: (marks to kinds ++ c!" " ++ t)) := by
    intro hto
    rw [baseLi]
    refine Emits.bind hx fun s' hs' => ⟨s', ?_, rfl⟩
    rw [bind_run, get_run]
    dsimp only
    rw [pure_run, core_innerList hs', hs, innerMarks, if_neg hto]
    simp
  cases to with
  | creole => simp only [runMeth, hc.lang, To.lang]; exact base (by simp)
  | textile => simp only [runMeth, hc.lang, To.lang]; exact base (by simp)
  | markdown =>
    simp only [runMeth, hc.lang, To.lang]
    obtain ⟨s1, h1, h2⟩ := hx
    refine ⟨s1, ?_, h2⟩
    obtain ⟨k, hk'⟩ : ∃ k, kinds.getLast? = some k := by
      cases h : kinds.getLast? with
      | none => rw [List.getLast?_eq_none_iff] at h; exact absurd h hk
      | some k => exact ⟨k, rfl⟩
    rw [ha, hk', marks, hk']
    have hmd : ∀ i x, mdLi (Option.map listTag (some k)) i x = (do
        let level ← levelM i
        let content ← x
        return '\n' :: rep c!"  " (level - 1).toNat ++ (if k then c!"1." else c!"*") ++ ' ' :: content) := by
      intro i x
      cases k <;> rfl
    rw [hmd, bind_run, levelM]
    dsimp only
    rw [pure_run]
    dsimp only
    rw [bind_run, h1]
    dsimp only
    rw [pure_run, show (((kinds.length : Nat) : Int) - 1).toNat = kinds.length - 1 by omega, rep_two]
    cases k <;> simp [marks.spaces]

theorem inList_marks {to : To} {kinds : List Bool} (hk : kinds ≠ []) : to ≠ .markdown → true = !(innerMarks to kinds).isEmpty := by
  intro hto
  have := marks_ne hto hk
  rw [innerMarks, if_neg hto]
  cases h : marks to kinds with
  | nil => exact absurd h this
  | cons c cs => rfl

mutual
theorem item_em {to : To} {cfg : Cfg} (hc : Conf to cfg) : ∀ (i : Ar.Item), i.Ok to cfg.netlocOk → ∀ {kinds : List Bool}, kinds ≠ [] →
    ∀ {anc : List Str}, anc.head? = (kinds.getLast?).map listTag →
    EmE cfg anc (kinds.length : Nat) (innerMarks to kinds) i.el (newLines (i.lines to kinds))
  | .mk text o sub, h, kinds, hk, anc, ha => by
    rw [Ar.Item.Ok] at h
    rw [Ar.Item.el, Ar.Item.lines]
    have hsub : Em cfg (c!"li" :: anc) (kinds.length : Nat) (innerMarks to kinds)
        (if sub.isEmpty = true then [] else [.elem (listTag o) [] (itemEls sub)]) (newLines (Ar.itemsLines to (kinds ++ [o]) sub)) := by
      cases sub with
      | nil => rw [Ar.itemsLines]; exact Em.nil _ _ _ _
      | cons j js =>
        exact Em.one (sublist_em hc hk (items_em hc (j :: js) h.2 (by simp) (by simp)))
    have := sps_em hc text h.1 (inList_marks (to := to) hk) (by
      cases sub with
      | nil => rfl
      | cons j js => rfl) hsub
    have := li_em hc hk ha this
    rw [show newLines ((marks to kinds ++ c!" " ++ spsText to true text) :: Ar.itemsLines to (kinds ++ [o]) sub) =
      '\n' :: (marks to kinds ++ c!" " ++ (spsText to true text ++ newLines (Ar.itemsLines to (kinds ++ [o]) sub))) by simp [newLines]]
    exact this
theorem items_em {to : To} {cfg : Cfg} (hc : Conf to cfg) : ∀ (l : List Ar.Item), ItemsOk to cfg.netlocOk l → ∀ {kinds : List Bool}, kinds ≠ [] →
    ∀ {anc : List Str}, anc.head? = (kinds.getLast?).map listTag →
    Em cfg anc (kinds.length : Nat) (innerMarks to kinds) (itemEls l) (newLines (Ar.itemsLines to kinds l))
  | [], _, kinds, hk, anc, ha => by rw [itemEls, Ar.itemsLines]; exact Em.nil _ _ _ _
  | i :: l, h, kinds, hk, anc, ha => by
    rw [ItemsOk] at h
    rw [itemEls, Ar.itemsLines, newLines_append]
    exact Em.cons (item_em hc i h.1 hk ha) (items_em hc l h.2 hk ha)
end

/-! ## Tables -/

/-- what is put in front of heading cells -/
def headMark : To → Str
  | .creole => c!"= "
  | .textile => c!"_. "
  | .markdown => []

/-- the text that a cell gets -/
def cellTxt (to : To) (c : Ar.Cell) : Str := if to = .markdown then spsText to false c.text else oneLine (spsText to false c.text)

/-- what a cell adds to a table -/
def rawCell (to : To) (c : Ar.Cell) : Str := (if c.head then headMark to else []) ++ cellTxt to c

theorem not_inList (to : To) : to ≠ .markdown → false = !([] : Str).isEmpty := fun _ => rfl

theorem arCell_emit {to : To} {cfg : Cfg} (hc : Conf to cfg) {c : Ar.Cell} (h : SpsOk to cfg.netlocOk c.text) {s : ESt} {t : Table}
    (hs : s.innerList = []) (ht : s.table = some t) (hp : t.headPrefix = headMark to) (anc : List Str) (depth : Int) :
    ∃ s', emitNodes cfg anc (c.el.nodes depth) s = .ok ([], s') ∧ s'.innerList = [] ∧
      s'.table = some { t.addTd (rawCell to c) with hasHeader := t.hasHeader || c.head } := by
  have hg := sps_whole hc h (not_inList to)
  have htxt : ∀ x, (if x = spsText to false c.text then True else True) → cellText cfg.lang (spsText to false c.text) = cellTxt to c := by
    intro x _
    rw [cellText, hc.lang, cellTxt]
    cases to <;> rfl
  have htxt := htxt [] (by split <;> trivial)
  cases hh : c.head with
  | false =>
    rw [Ar.Cell.el, hh]
    obtain ⟨lv, d, hn⟩ := nodes_elem (tag := c!"td") (attrs := []) (ch := spsEls c.text []) (depth := depth) rfl
    rw [show (if false = true then c!"th" else c!"td") = c!"td" from rfl, hn]
    obtain ⟨s1, h1, h2⟩ := hg (c!"td" :: anc) d (enter { kind := c!"td", attrs := dictOf [], level := lv } s) hs
    have ht1 : s1.table = some t := by
      have : s1.core.table = s.core.table := by rw [h2]; rfl
      exact this.trans ht
    refine ⟨enter { kind := c!"td", attrs := dictOf [], level := lv } (s1.withTable (t.addTd (rawCell to c))), ?_, ?_, ?_⟩
    · refine emitNodes_one ?_
      rw [emitNode_to hc (m := .td) (by cases to <;> rfl)]
      simp only [runMeth]
      rw [bind_run, childrenM_run, h1]
      dsimp only
      rw [bind_run, getTable, bind_run, get_run]
      dsimp only
      rw [ht1]
      dsimp only
      rw [pure_run]
      dsimp only
      rw [bind_run, setTable, modify_run]
      dsimp only
      rw [pure_run, htxt, rawCell, hh]
      rfl
    · show s1.innerList = []
      rw [core_innerList h2]; exact hs
    · show some (t.addTd (rawCell to c)) = _
      simp [Table.addTd, Table.addTr]
      split <;> rfl
  | true =>
    rw [Ar.Cell.el, hh]
    obtain ⟨lv, d, hn⟩ := nodes_elem (tag := c!"th") (attrs := []) (ch := spsEls c.text []) (depth := depth) rfl
    rw [show (if true = true then c!"th" else c!"td") = c!"th" from rfl, hn]
    obtain ⟨s1, h1, h2⟩ := hg (c!"th" :: anc) d (enter { kind := c!"th", attrs := dictOf [], level := lv } s) hs
    have ht1 : s1.table = some t := by
      have : s1.core.table = s.core.table := by rw [h2]; rfl
      exact this.trans ht
    refine ⟨enter { kind := c!"th", attrs := dictOf [], level := lv } (s1.withTable (t.addTh (cellTxt to c))), ?_, ?_, ?_⟩
    · refine emitNodes_one ?_
      rw [emitNode_to hc (m := .th) (by cases to <;> rfl)]
      simp only [runMeth]
      rw [bind_run, childrenM_run, h1]
      dsimp only
      rw [bind_run, getTable, bind_run, get_run]
      dsimp only
      rw [ht1]
      dsimp only
      rw [pure_run]
      dsimp only
      rw [bind_run, setTable, modify_run]
      dsimp only
      rw [pure_run, htxt]
      rfl
    · show s1.innerList = []
      rw [core_innerList h2]; exact hs
    · show some (t.addTh (cellTxt to c)) = _
      rw [rawCell, hh]
      simp only [Table.addTh, Table.addTd, Table.addTr, hp, Bool.or_true, if_true]
      by_cases h0 : t.rows.isEmpty = true <;> simp [h0, hp]

/-- the table `t'` has the marks of `t` and more rows -/
structure Grown (t t' : Table) (rows : List (List Str)) (head : Bool) : Prop where
  pre : t'.headPrefix = t.headPrefix
  auto : t'.autoWidth = t.autoWidth
  rows : t'.rows = rows
  head : t'.hasHeader = (t.hasHeader || head)

theorem arCells_emit {to : To} {cfg : Cfg} (hc : Conf to cfg) (anc : List Str) (depth : Int) : ∀ (r : List Ar.Cell),
    (∀ c ∈ r, SpsOk to cfg.netlocOk c.text) →
    ∀ {s : ESt} {t : Table} {rows : List (List Str)} {row : List Str}, s.innerList = [] → s.table = some t → t.headPrefix = headMark to →
      t.rows = rows ++ [row] →
      ∃ s' t', emitNodes cfg anc (nodesL depth (r.map Ar.Cell.el)) s = .ok ([], s') ∧ s'.innerList = [] ∧ s'.table = some t' ∧
        Grown t t' (rows ++ [row ++ r.map (rawCell to)]) (r.any Ar.Cell.head)
  | [], _, s, t, rows, row, hs, ht, hp, hr => by
    refine ⟨s, t, ?_, hs, ht, rfl, rfl, by simpa using hr, by simp⟩
    rw [List.map_nil, nodesL, emitNodes_nil, pure_run]
  | c :: r, h, s, t, rows, row, hs, ht, hp, hr => by
    obtain ⟨s1, h1, h2, h3⟩ := arCell_emit hc (h c List.mem_cons_self) hs ht hp anc depth
    obtain ⟨s2, t2, h4, h5, h6, h7⟩ := arCells_emit hc anc depth r (fun x hx => h x (List.mem_cons_of_mem _ hx)) (rows := rows)
      (row := row ++ [rawCell to c]) h2 h3 ((addTd_prefix t (rawCell to c)).1.trans hp) (addTd_last hr _)
    refine ⟨s2, t2, ?_, h5, h6, h7.pre.trans (addTd_prefix t (rawCell to c)).1, h7.auto.trans (addTd_prefix t (rawCell to c)).2, by rw [h7.rows]; simp, ?_⟩
    · rw [List.map_cons, nodesL]
      exact emitNodes_append h1 h4
    · rw [h7.head, List.any_cons, Bool.or_assoc]

theorem arRows_emit {to : To} {cfg : Cfg} (hc : Conf to cfg) (anc : List Str) (depth : Int) : ∀ (l : List (List Ar.Cell)),
    (∀ r ∈ l, ∀ c ∈ r, SpsOk to cfg.netlocOk c.text) →
    ∀ {s : ESt} {t : Table}, s.innerList = [] → s.table = some t → t.headPrefix = headMark to →
      ∃ s' t', emitNodes cfg anc (nodesL depth (l.map Ar.rowEl)) s = .ok ([], s') ∧ s'.innerList = [] ∧ s'.table = some t' ∧
        Grown t t' (t.rows ++ l.map (fun r => r.map (rawCell to))) (l.any fun r => r.any Ar.Cell.head)
  | [], _, s, t, hs, ht, hp => by
    refine ⟨s, t, ?_, hs, ht, rfl, rfl, by simp, by simp⟩
    rw [List.map_nil, nodesL, emitNodes_nil, pure_run]
  | r :: l, h, s, t, hs, ht, hp => by
    obtain ⟨lv, d, hn⟩ := nodes_elem (tag := c!"tr") (attrs := []) (ch := r.map Ar.Cell.el) (depth := depth) rfl
    obtain ⟨s1, t1, h1, h2, h3, h4⟩ := arCells_emit hc (c!"tr" :: anc) d r (h r List.mem_cons_self)
      (s := enter { kind := c!"tr", attrs := dictOf [], level := lv } (s.withTable t.addTr)) (t := t.addTr) (rows := t.rows) (row := []) hs rfl hp rfl
    obtain ⟨s2, t2, g1, g2, g3, g4⟩ := arRows_emit hc anc depth l (fun x hx => h x (List.mem_cons_of_mem _ hx))
      (s := enter { kind := c!"tr", attrs := dictOf [], level := lv } s1) (t := t1) h2 h3 (h4.pre.trans hp)
    refine ⟨s2, t2, ?_, g2, g3, g4.pre.trans h4.pre, g4.auto.trans h4.auto, by rw [g4.rows, h4.rows]; simp, ?_⟩
    · rw [List.map_cons, nodesL]
      refine emitNodes_append (t := []) ?_ g1
      rw [Ar.rowEl, hn]
      refine emitNodes_one ?_
      rw [emitNode_to hc (m := .tr) (by cases to <;> rfl)]
      simp only [runMeth]
      rw [bind_run, getTable, bind_run, get_run]
      dsimp only
      rw [ht]
      dsimp only
      rw [pure_run]
      dsimp only
      rw [bind_run, setTable, modify_run]
      dsimp only
      rw [bind_run, childrenM_run]
      rw [show enter { kind := c!"tr", attrs := dictOf [], level := lv } { s with table := some t.addTr } =
        enter { kind := c!"tr", attrs := dictOf [], level := lv } (s.withTable t.addTr) from rfl, h1]
      dsimp only
      rw [pure_run]
    · rw [g4.head, h4.head, List.any_cons, Bool.or_assoc]
      rfl

theorem creole_box {head : Bool} {x : Str} (h : Cr.trimmed x = true) (h' : x.head? ≠ some '=') :
    preformatCell c!"= " ((if head then c!"= " else []) ++ x) = (if head then c!"=" else []) ++ c!" " ++ x ++ c!" " := by
  obtain ⟨h1, h2⟩ := trimmed_strip h
  unfold preformatCell
  cases head with
  | false =>
    simp only [Bool.false_eq_true, if_false, List.nil_append, h1, h2]
    rw [if_neg]
    · simp
    · cases hb : x with
      | nil => exact absurd hb h2
      | cons y ys =>
        rw [hb] at h'
        have : y ≠ '=' := by simpa using h'
        simp only [List.isPrefixOf, beq_iff_eq, Bool.and_eq_true, not_and, decide_eq_true_eq]
        simp
        exact fun h => absurd h.symm this
  | true =>
    have hs : strip (c!"= " ++ x) = c!"= " ++ x := by
      refine strip_id ?_ ?_
      · intro z hz
        simp only [List.cons_append, List.head?_cons, Option.some.injEq] at hz
        subst hz; decide
      · intro z hz
        cases hb : x with
        | nil => exact absurd hb h2
        | cons y ys =>
          rw [hb] at h hz
          rw [List.getLast?_append, show ∀ z, (y :: ys).getLast?.or z = (y :: ys).getLast? from fun z => by
            rw [List.getLast?_cons]; rfl] at hz
          simp only [Cr.trimmed, Bool.and_eq_true, Bool.not_eq_true'] at h
          have := h.1.2
          rw [hz] at this
          simpa using this
    simp only [if_true, hs]
    rw [if_neg (by simp), if_pos (by simp [List.isPrefixOf])]
    simp

theorem barLine_barred {boxes : List Str} (h : boxes ≠ []) : barLine boxes = barred boxes := bar_line h

/-- the lines of a table with columns of equal width -/
theorem filled_rows {boxes : List (List Str)} {n : Nat} (hn : n ≠ 0) (h : ∀ r ∈ boxes, r.length = n) {r : List Str} (hr : r ∈ boxes) :
    barLine (padRow ((columns boxes).map maxLen) r) = filled (Rt.widths boxes) r := by
  rw [widths_columns, filled]
  refine barLine_barred fun h0 => ?_
  have hlen : (Rt.widths boxes).length = n := by
    rw [← widths_columns, List.length_map]
    exact columns_length ⟨fun row hrow => Nat.le_of_eq (h row hrow).symm, r, hr, h r hr⟩
  have := congrArg List.length h0
  rw [padRow, List.length_zipWith, hlen, h r hr, Nat.min_self] at this
  exact hn this

theorem mdLines_later (head : Bool) (ws : List Nat) : ∀ (rows : List (List Str)) (no : Nat), 2 ≤ no →
    mdLines head ws no rows = rows.map fun r => barLine (padRow ws r)
  | [], no, _ => rfl
  | r :: rows, no, h => by
    rw [mdLines, mdLines_later head ws rows (no + 1) (by omega), if_neg (by simp; intro h'; omega)]
    rfl

theorem md_underline : ∀ {ws : List Nat}, ws ≠ [] →
    c!"| " ++ join c!" | " (ws.map fun w => List.replicate (w - 2) '-') ++ c!" |" = underline ws
  | [], h => absurd rfl h
  | [w], _ => by simp [underline, barred, join]
  | w :: w' :: ws, _ => by
    have := md_underline (ws := w' :: ws) (by simp)
    rw [List.map_cons, List.map_cons, join_cons_cons]
    rw [List.map_cons] at this
    have e : underline (w :: w' :: ws) = c!"| " ++ List.replicate (w - 2) '-' ++ c!" " ++ underline (w' :: ws) := by
      simp [underline, barred]
    rw [e, ← this]
    simp

/-- the text of a table -/
def tableOut (to : To) (t : Table) : Str := if to = .markdown then t.markdown else t.markup

theorem ar_table {to : To} {hostOk : Str → Bool} {rows : List (List Ar.Cell)} (h : (Bl.table rows).Ok to hostOk) {t : Table}
    (hp : t.headPrefix = headMark to) (ha : t.autoWidth = decide (to ≠ .textile))
    (hr : t.rows = rows.map fun r => r.map (rawCell to)) (hh : t.hasHeader = rows.any fun r => r.any Ar.Cell.head) :
    tableOut to t = joinLines c!"\n" (tableLines to rows) := by
  rw [Bl.Ok] at h
  obtain ⟨hne, hcells, hrect⟩ := h
  have hn0 : (rows.headD []).length ≠ 0 := by
    cases rows with
    | nil => exact absurd rfl hne
    | cons r rs =>
      intro h0
      exact (hcells r List.mem_cons_self).1 (List.length_eq_zero_iff.mp h0)
  have hboxlen : to ≠ .textile → ∀ r ∈ rows.map (fun r => r.map (cellBox to)), r.length = (rows.headD []).length := by
    intro ht r hr
    obtain ⟨r0, hr0, rfl⟩ := List.mem_map.mp hr
    rw [List.length_map]
    exact hrect ht r0 hr0
  rw [tableOut, ← join_joinLines]
  cases to with
  | textile =>
    rw [if_neg (by simp), Table.markup, ha]
    simp only [ne_eq, not_true_eq_false, decide_false, Bool.not_false, if_true]
    congr 1
    rw [hr, tableLines]
    simp only [List.map_map]
    refine List.map_congr_left fun r hr' => ?_
    rw [Function.comp, Function.comp, barLine_barred (by simpa using (hcells r hr').1)]
    rfl
  | creole =>
    have hbox : (t.rows.map fun row => row.map (preformatCell t.headPrefix)) = rows.map fun r => r.map (cellBox .creole) := by
      rw [hr, hp, List.map_map]
      refine List.map_congr_left fun r hr => ?_
      rw [Function.comp, List.map_map]
      refine List.map_congr_left fun c hc => ?_
      have := ((hcells r hr).2 c hc).2 rfl
      exact creole_box this.1 this.2
    rw [if_neg (by simp), Table.markup, ha]
    simp only [ne_eq, reduceCtorEq, not_false_eq_true, decide_true, Bool.not_true, Bool.false_eq_true, if_false, Table.preformat]
    rw [hbox, tableLines]
    congr 1
    exact List.map_congr_left fun r hr => filled_rows hn0 (hboxlen (by simp)) hr
  | markdown =>
    have hbox : (t.rows.map fun row => row.map (preformatCell t.headPrefix)) = rows.map fun r => r.map (cellBox .markdown) := by
      rw [hr, hp, List.map_map]
      refine List.map_congr_left fun r hr => ?_
      rw [Function.comp, List.map_map]
      refine List.map_congr_left fun c hc => ?_
      rw [Function.comp, preformatCell, rawCell, headMark, cellBox]
      simp [cellTxt]
    rw [if_pos rfl, Table.markdown]
    simp only [Table.preformat]
    rw [hbox, hh, tableLines]
    congr 1
    have hlines : ∀ r ∈ rows.map (fun r => r.map (cellBox .markdown)), _ = _ := fun r hr => filled_rows hn0 (hboxlen (by simp)) hr
    have hwne : Rt.widths (rows.map fun r => r.map (cellBox .markdown)) ≠ [] := by
      intro h0
      cases rows with
      | nil => exact absurd rfl hne
      | cons r rs =>
        have hl := columns_length (rows := (r :: rs).map fun r => r.map (cellBox .markdown)) (n := r.length)
          ⟨fun row hrow => Nat.le_of_eq (hboxlen (by simp) row hrow).symm, r.map (cellBox .markdown), by simp, by simp⟩
        rw [← widths_columns, List.map_eq_nil_iff] at h0
        rw [h0] at hl
        exact hn0 hl.symm
    rw [widths_columns] at *
    cases rows with
    | nil => exact absurd rfl hne
    | cons r rs =>
      generalize hW : Rt.widths ((r :: rs).map fun r => r.map (cellBox .markdown)) = ws at *
      have hl' : ∀ q ∈ (r :: rs).map (fun r => r.map (cellBox .markdown)), barLine (padRow ws q) = filled ws q := by
        exact hlines
      cases rs with
      | nil =>
        simp only [List.map_cons, List.map_nil, List.length_singleton, Nat.lt_irrefl, and_false, if_false, mdLines]
        rw [if_neg (by simp)]
        have := hl' (r.map (cellBox .markdown)) (by simp)
        simp [this]
      | cons r' rs =>
        have hmap : (rs.map fun r => r.map (cellBox .markdown)).map (fun q => barLine (padRow ws q)) =
            (rs.map fun r => r.map (cellBox .markdown)).map (filled ws) :=
          List.map_congr_left fun q hq => hl' q (by simp only [List.map_cons, List.mem_cons]; exact .inr (.inr hq))
        rw [List.map_cons, List.map_cons, mdLines, mdLines, mdLines_later _ _ _ _ (by omega), if_neg (by simp), hmap, md_underline hwne,
          hl' (r.map (cellBox .markdown)) (by simp), hl' (r'.map (cellBox .markdown)) (by simp)]
        by_cases hd : ((r :: r' :: rs).any fun r => r.any Ar.Cell.head) = true
        · rw [hd]; simp
        · simp only [Bool.not_eq_true] at hd
          rw [hd]; simp

/-! ## Blocks -/

/-- is it a heading? -/
def isTitle : Bl → Bool
  | .head _ _ => true
  | _ => false

/-- the line ends before a block -/
def arBefore (to : To) (start : Bool) : Bl → Str
  | .list _ _ => if to = .markdown ∨ start = true then c!"\n\n" else []
  | _ => if to = .markdown then c!"\n" else []

/-- the line ends after a block -/
def arAfter (to : To) : Bl → Str
  | .table _ => c!"\n"
  | _ => if to = .markdown then c!"\n" else c!"\n\n"

/-- what is emitted for a block; `start` tells whether a list has to start a new line -/
def arBlock (to : To) (start : Bool) (b : Bl) : Str := arBefore to start b ++ joinLines c!"\n" (b.lines to) ++ arAfter to b

theorem itemsLines_start {to : To} (kinds : List Bool) {l : List Ar.Item} (h : l ≠ []) :
    ∃ t l', Ar.itemsLines to kinds l = (marks to kinds ++ t) :: l' := by
  cases l with
  | nil => exact absurd rfl h
  | cons i l =>
    cases i with
    | mk text o sub =>
      rw [Ar.itemsLines, Ar.Item.lines]
      exact ⟨c!" " ++ spsText to true text, _, by rw [List.append_assoc]; rfl⟩

theorem ar_strip_list {to : To} (hto : to ≠ .markdown) {o : Bool} {l : List Ar.Item} (h : l ≠ [])
    (hb : Rt.bareEnd (joinLines c!"\n" (Ar.itemsLines to [o] l)) = true) :
    newLines (Ar.itemsLines to [o] l) = '\n' :: joinLines c!"\n" (Ar.itemsLines to [o] l) ∧
    strip (newLines (Ar.itemsLines to [o] l)) = joinLines c!"\n" (Ar.itemsLines to [o] l) := by
  obtain ⟨t, l', hst⟩ := itemsLines_start (to := to) [o] h
  have hn : newLines (Ar.itemsLines to [o] l) = '\n' :: joinLines c!"\n" (Ar.itemsLines to [o] l) := by
    rw [newLines_join (by rw [hst]; simp), join_joinLines]
  refine ⟨hn, ?_⟩
  rw [hn]
  have := strip_pad (w := c!"\n") (w' := []) newline_space (by simp) (joinLines c!"\n" (Ar.itemsLines to [o] l))
  rw [List.append_nil, List.singleton_append] at this
  rw [this]
  refine strip_id ?_ ?_
  · intro z hz
    obtain ⟨u, hu⟩ := joinLines_first (a := marks to [o] ++ t) (l := l')
    rw [hst, hu] at hz
    cases to with
    | markdown => exact absurd rfl hto
    | creole =>
      simp only [marks, List.map_cons, List.map_nil, List.cons_append, List.head?_cons, Option.some.injEq] at hz
      rw [← hz]
      cases o <;> decide
    | textile =>
      simp only [marks, List.map_cons, List.map_nil, List.cons_append, List.head?_cons, Option.some.injEq] at hz
      rw [← hz]
      cases o <;> decide
  · intro z hz
    unfold Rt.bareEnd at hb
    rw [hz] at hb
    simpa using hb

theorem innerMarks_one {to : To} (hto : to ≠ .markdown) (o : Bool) : innerMarks to [o] = if o then c!"#" else c!"*" := by
  rw [innerMarks, if_neg hto]
  cases to with
  | markdown => exact absurd rfl hto
  | creole => cases o <;> rfl
  | textile => cases o <;> rfl

theorem ar_block {to : To} {cfg : Cfg} (hc : Conf to cfg) {b : Bl} (h : b.Ok to cfg.netlocOk) {s : ESt} (hs : s.innerList = []) (anc : List Str) :
    ∃ s', emitNodes cfg anc (b.el.nodes 0) s = .ok (arBlock to (startNewline s.last) b, s') ∧
      s'.innerList = [] ∧ startNewline s'.last = isTitle b := by
  cases b with
  | para text =>
    rw [Bl.Ok] at h
    obtain ⟨lv, d, hn⟩ := nodes_elem (tag := c!"p") (attrs := []) (ch := spsEls text []) (depth := 0) rfl
    obtain ⟨s1, h1, h2⟩ := sps_whole hc h (not_inList to) (c!"p" :: anc) d (enter { kind := c!"p", attrs := dictOf [], level := lv } s) hs
    refine ⟨enter { kind := c!"p", attrs := dictOf [], level := lv } s1, ?_, ?_, rfl⟩
    · rw [Bl.el, hn]
      refine emitNodes_one ?_
      rw [emitNode_to hc (m := .p) (by cases to <;> rfl)]
      simp only [runMeth, hc.lang]
      rw [bind_run, childrenM_run, h1]
      dsimp only
      cases to with
      | creole =>
        simp only [To.lang]
        rw [bind_run, get_run]
        dsimp only
        rw [if_pos (by rw [core_innerList h2]; exact hs), pure_run]
        rfl
      | textile => rfl
      | markdown => rfl
    · show s1.innerList = []
      rw [core_innerList h2]; exact hs
  | head n text =>
    rw [Bl.Ok] at h
    have hh : headline? (c!"h" ++ Cr.decimal n) = some n ∧ intStr (n : Int) = Cr.decimal n := by
      rcases level_cases h.1 h.2.1 with rfl | rfl | rfl | rfl | rfl | rfl <;> decide +kernel
    obtain ⟨s1, h1, h2⟩ := sps_whole hc h.2.2 (not_inList to) (c!"headline" :: anc) 0 (enter { kind := c!"headline", level := some (n : Int) } s) hs
    refine ⟨enter { kind := c!"headline", level := some (n : Int) } s1, ?_, ?_, rfl⟩
    · rw [Bl.el, El.nodes, hh.1]
      dsimp only
      refine emitNodes_one ?_
      rw [emitNode_to hc (m := .headline) (by cases to <;> rfl)]
      simp only [runMeth, hc.lang]
      cases to with
      | creole =>
        simp only [To.lang, headlineEmit]
        rw [bind_run, levelM]
        dsimp only
        rw [pure_run]
        dsimp only
        rw [bind_run, childrenM_run, h1]
        dsimp only
        rw [pure_run]
        simp [arBlock, arBefore, arAfter, Bl.lines, joinLines]
      | textile =>
        simp only [To.lang, headlineEmit]
        rw [bind_run, levelM]
        dsimp only
        rw [pure_run]
        dsimp only
        rw [bind_run, childrenM_run, h1]
        dsimp only
        rw [pure_run, hh.2]
        simp [arBlock, arBefore, arAfter, Bl.lines, joinLines]
      | markdown =>
        simp only [To.lang, headlineEmit]
        rw [bind_run, levelM]
        dsimp only
        rw [pure_run]
        dsimp only
        rw [bind_run, childrenM_run, h1]
        dsimp only
        rw [pure_run]
        simp [arBlock, arBefore, arAfter, Bl.lines, joinLines]
    · show s1.innerList = []
      rw [core_innerList h2]; exact hs
  | hr =>
    refine ⟨enter { kind := c!"hr" } s, ?_, hs, rfl⟩
    rw [Bl.el, El.nodes]
    refine emitNodes_one ?_
    rw [emitNode_to hc (m := .hr) (by cases to <;> rfl)]
    simp only [runMeth, hc.lang]
    cases to <;> rfl
  | list o items =>
    rw [Bl.Ok] at h
    obtain ⟨hi, hne, hend⟩ := h
    rw [Bl.el, list_nodes]
    have hitems := items_em hc items hi (kinds := [o]) (by simp) (anc := listTag o :: anc) rfl
    by_cases hto : to = .markdown
    · subst hto
      obtain ⟨s1, h3, h4⟩ := hitems (enter { kind := listTag o, attrs := dictOf [], level := some 1 } s) hs
      refine ⟨enter { kind := listTag o, attrs := dictOf [], level := some 1 } s1, ?_, ?_, ?_⟩
      · refine emitNodes_one ?_
        rw [emitNode_to hc (m := .list []) (by cases o <;> rfl)]
        simp only [runMeth, hc.lang, To.lang]
        rw [mdList, bind_run, childrenM_run]
        rw [show ((0 : Int) + 1) = 1 from rfl]
        rw [show (([o] : List Bool).length : Int) = 1 from rfl] at h3
        rw [h3]
        dsimp only
        rw [if_pos rfl, pure_run]
        obtain ⟨t, l', hst⟩ := itemsLines_start (to := .markdown) [o] hne
        rw [newLines_join (by rw [hst]; simp), join_joinLines]
        simp [arBlock, arBefore, arAfter, Bl.lines]
      · show s1.innerList = []
        rw [core_innerList h4]; exact hs
      · cases o <;> rfl
    · rw [innerMarks_one hto] at hitems
      obtain ⟨s1, h3, h4⟩ := hitems (enter { kind := listTag o, attrs := dictOf [], level := some 1 }
        { s with innerList := s.innerList ++ (if o then c!"#" else c!"*") }) (by rw [hs]; rfl)
      have hs1 : s1.innerList.dropLast = [] := by
        rw [core_innerList h4]
        show (s.innerList ++ (if o then c!"#" else c!"*")).dropLast = _
        rw [hs]; cases o <;> rfl
      refine ⟨enter { kind := listTag o, attrs := dictOf [], level := some 1 } { s1 with innerList := [] }, ?_, rfl, ?_⟩
      · refine emitNodes_one ?_
        rw [emitNode_to hc (method_ul_ol (creole_or_textile hto) o)]
        have hrun : ∀ x, runMeth cfg anc { kind := listTag o, attrs := dictOf [], level := some (0 + 1) }
            (.list (if o then c!"#" else c!"*")) x = baseList (if o then c!"#" else c!"*") x := by
          intro x
          simp only [runMeth, hc.lang]
          cases to with
          | markdown => exact absurd rfl hto
          | creole => rfl
          | textile => rfl
        rw [hrun, baseList, bind_run, get_run]
        dsimp only
        rw [bind_run, modify_run]
        dsimp only
        rw [bind_run, childrenM_run]
        rw [show ((0 : Int) + 1) = 1 from rfl]
        rw [show (([o] : List Bool).length : Int) = 1 from rfl] at h3
        rw [h3]
        dsimp only
        rw [bind_run, modify_run]
        dsimp only
        rw [bind_run, get_run]
        dsimp only
        rw [hs1, if_pos rfl]
        obtain ⟨e1, e2⟩ := ar_strip_list hto hne (hend hto)
        by_cases hst : startNewline s.last = true
        · rw [if_pos hst, pure_run, e1, hst]
          simp [arBlock, arBefore, arAfter, Bl.lines, hto]
        · rw [if_neg hst, pure_run, e2]
          simp [arBlock, arBefore, arAfter, Bl.lines, hst, hto]
      · cases o <;> rfl
  | table rows =>
    have h0 := h
    rw [Bl.Ok] at h
    have hk : ∃ t0 : Table, t0 = (match cfg.lang with
        | .creole => { headPrefix := c!"= " }
        | .textile => { headPrefix := c!"_. ", autoWidth := false }
        | .markdown | .rest => { headPrefix := [] }) ∧ t0.headPrefix = headMark to ∧ t0.autoWidth = decide (to ≠ .textile) ∧ t0.rows = [] ∧
        t0.hasHeader = false := by
      rw [hc.lang]
      refine ⟨_, rfl, ?_, ?_, ?_, ?_⟩ <;> cases to <;> rfl
    obtain ⟨t0, ht0, hp, ha, hr, hh⟩ := hk
    obtain ⟨lv, d, hn⟩ := nodes_elem (tag := c!"table") (attrs := []) (ch := rows.map Ar.rowEl) (depth := 0) rfl
    obtain ⟨s1, t1, h1, h2, h3, h4⟩ := arRows_emit hc (c!"table" :: anc) d rows (fun r hr c hc => ((h.2.1 r hr).2 c hc).1)
      (s := enter { kind := c!"table", attrs := dictOf [], level := lv } (s.withTable t0)) (t := t0) hs rfl hp
    have hout := ar_table h0 (h4.pre.trans hp) (h4.auto.trans ha) (by rw [h4.rows, hr]; rfl) (by rw [h4.head, hh]; rfl)
    refine ⟨enter { kind := c!"table", attrs := dictOf [], level := lv } s1, ?_, h2, rfl⟩
    rw [Bl.el, hn]
    refine emitNodes_one ?_
    rw [emitNode_to hc (m := .table) (by cases to <;> rfl)]
    simp only [runMeth]
    have hte : ∀ x, tableEmit cfg.lang x = (do
        setTable t0
        let _ ← x
        let t ← getTable
        return (if to = .markdown then c!"\n" else []) ++ tableOut to t ++ c!"\n") := by
      intro x
      rw [ht0, hc.lang]
      cases to <;> rfl
    rw [hte, bind_run, setTable, modify_run]
    dsimp only
    rw [bind_run, childrenM_run]
    rw [show enter { kind := c!"table", attrs := dictOf [], level := lv } { s with table := some t0 } =
      enter { kind := c!"table", attrs := dictOf [], level := lv } (s.withTable t0) from rfl, h1]
    dsimp only
    rw [bind_run, getTable, bind_run, get_run]
    dsimp only
    rw [h3]
    dsimp only
    rw [pure_run]
    dsimp only
    rw [pure_run, arBlock, Bl.lines, hout]
    cases to <;> simp [arBefore, arAfter]

/-! ## Articles -/

/-- what is emitted for an article -/
def arText (to : To) (start : Bool) (b : Bl) : List Bl → Str
  | [] => arBlock to start b
  | b' :: d => arBlock to start b ++ arText to (isTitle b) b' d

theorem ar_doc {to : To} {cfg : Cfg} (hc : Conf to cfg) (anc : List Str) : ∀ (d : List Bl) (b : Bl), b.Ok to cfg.netlocOk →
    (∀ x ∈ d, x.Ok to cfg.netlocOk) → ∀ {s : ESt}, s.innerList = [] →
    ∃ s', emitNodes cfg anc (nodesL 0 ((b :: d).map Bl.el)) s = .ok (arText to (startNewline s.last) b d, s')
  | [], b, hb, _, s, hs => by
    obtain ⟨s1, h2, h3, h4⟩ := ar_block hc hb hs anc
    refine ⟨s1, ?_⟩
    rw [List.map_cons, List.map_nil, nodesL, nodesL, List.append_nil]
    exact h2
  | b' :: d, b, hb, hd, s, hs => by
    obtain ⟨s1, h2, h3, h4⟩ := ar_block hc hb hs anc
    obtain ⟨s2, h5⟩ := ar_doc hc anc d b' (hd b' List.mem_cons_self) (fun x hx => hd x (List.mem_cons_of_mem _ hx)) h3
    refine ⟨s2, ?_⟩
    rw [List.map_cons, nodesL, arText]
    rw [h4] at h5
    exact emitNodes_append h2 h5

theorem ar_lines_ne {to : To} {hostOk : Str → Bool} {b : Bl} (h : b.Ok to hostOk) : b.lines to ≠ [] := by
  cases b with
  | para text => simp [Bl.lines]
  | head n t => cases to <;> simp [Bl.lines]
  | hr => simp [Bl.lines]
  | list o items =>
    rw [Bl.Ok] at h
    obtain ⟨t, l', hst⟩ := itemsLines_start (to := to) [o] h.2.1
    rw [Bl.lines, hst]; simp
  | table rows =>
    rw [Bl.Ok] at h
    cases rows with
    | nil => exact absurd rfl h.1
    | cons r rows =>
      rw [Bl.lines]
      cases to with
      | creole => simp [tableLines]
      | textile => simp [tableLines]
      | markdown =>
        simp only [tableLines]
        split <;> simp

theorem articleLines_ne {to : To} {hostOk : Str → Bool} : ∀ (d : List Bl) (b : Bl), b.Ok to hostOk → articleLines to b d ≠ []
  | [], b, h => by rw [articleLines]; exact ar_lines_ne h
  | b' :: d, b, h => by
    rw [articleLines]
    simp [ar_lines_ne h]

/-- the line ends at the ends of a text do not count -/
theorem arText_lines {to : To} {hostOk : Str → Bool} : ∀ (d : List Bl) (b : Bl) (start : Bool), b.Ok to hostOk → (∀ x ∈ d, x.Ok to hostOk) →
    ∃ w, arText to start b d = arBefore to start b ++ joinLines c!"\n" (articleLines to b d) ++ w ∧ ∀ c ∈ w, c = '\n'
  | [], b, start, hb, _ => by
    refine ⟨arAfter to b, by rw [arText, articleLines, arBlock], ?_⟩
    cases b <;> cases to <;> simp [arAfter]
  | b' :: d, b, start, hb, hd => by
    have hb' := hd b' List.mem_cons_self
    obtain ⟨w, h1, h2⟩ := arText_lines d b' (isTitle b) hb' fun x hx => hd x (List.mem_cons_of_mem _ hx)
    refine ⟨w, ?_, h2⟩
    rw [arText, articleLines, h1]
    have hne := articleLines_ne d b' hb'
    have hnb := ar_lines_ne hb
    rw [List.append_assoc (b.lines to), joinLines_append _ _ hnb (by simp [hne]), arBlock]
    have h1' : joinLines c!"\n" ([[]] ++ articleLines to b' d) = c!"\n" ++ joinLines c!"\n" (articleLines to b' d) := by
      rw [joinLines_append _ _ (by simp) hne]; simp [joinLines]
    have h2' : joinLines c!"\n" ([[], []] ++ articleLines to b' d) = c!"\n\n" ++ joinLines c!"\n" (articleLines to b' d) := by
      rw [joinLines_append _ _ (by simp) hne]; simp [joinLines]
    have h3' : joinLines c!"\n" ([[], [], []] ++ articleLines to b' d) = c!"\n\n\n" ++ joinLines c!"\n" (articleLines to b' d) := by
      rw [joinLines_append _ _ (by simp) hne]; simp [joinLines]
    cases to <;> cases b <;> cases b' <;> simp only [arBefore, arAfter, Ar.gap, isTitle, h1', h2', h3', List.nil_append] <;> simp

end Verif.Emit
