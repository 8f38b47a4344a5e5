import Verif.Emit.Shown

/-!
# The emitters keep the text of a document tree: tables and whole trees
-/

namespace Verif.Emit

open Verif Py Html Spec Spec.Sh

/-! ## Writing of tables -/

theorem Rel.join {x : Bool} {sep : Str} (h : Mk x sep) : ∀ l : List Str, Rel x l.flatten (join sep l)
  | [] => Rel.refl _ _
  | [a] => by simp only [Py.join, List.flatten_cons, List.flatten_nil, List.append_nil]; exact Rel.refl _ _
  | a :: b :: l => by
    rw [Py.join, List.flatten_cons]
    exact ((Rel.refl x a).right h).append (Rel.join h (b :: l))

theorem rel_barLine (x : Bool) (cells : List Str) : Rel x cells.flatten (barLine cells) :=
  ((Rel.join (Mk.all (by decide)) cells).cons (Mk.all (by decide))).right (Mk.all (by decide))

theorem kept_ljust (x : Bool) (s : Str) (w : Nat) : kept x (ljust s w) = kept x s := by
  unfold ljust
  rw [kept_append]
  have : kept x (List.replicate (w - s.length) ' ') = [] := by
    unfold kept
    rw [List.filter_eq_nil_iff]
    intro c hc
    rw [List.eq_of_mem_replicate hc]
    cases x <;> decide
  rw [this, List.append_nil]

theorem kept_padRow (x : Bool) : ∀ (row : List Str) (ws : List Nat), row.length ≤ ws.length →
    kept x (padRow ws row).flatten = kept x row.flatten
  | [], ws, _ => by simp [padRow]
  | c :: row, [], h => by simp at h
  | c :: row, w :: ws, h => by
    have ih := kept_padRow x row ws (by simpa using h)
    unfold padRow at ih ⊢
    rw [List.zipWith_cons_cons, List.flatten_cons, List.flatten_cons, kept_append, kept_append, kept_ljust, ih]

theorem kept_preformatCell (x : Bool) (p c : Str) : kept x (preformatCell p c) = kept x c := by
  have key : kept x c!" " = [] := by cases x <;> decide
  rw [← kept_strip x c]
  unfold preformatCell
  dsimp only
  split
  · next h => rw [h]
  · split
    · rw [kept_append, key, List.append_nil]
    · rw [kept_append, key, List.append_nil]
      exact kept_skip (kept_space (by decide))

theorem kept_flat {x : Bool} {f : Str → Str} (h : ∀ s, kept x (f s) = kept x s) : ∀ rows : List (List Str),
    kept x (rows.map fun r => r.map f).flatten.flatten = kept x rows.flatten.flatten
  | [] => rfl
  | r :: rows => by
    rw [List.map_cons, List.flatten_cons, List.flatten_cons, List.flatten_append, List.flatten_append, kept_append, kept_append,
      kept_map x h, kept_flat h rows]

theorem columns_size {n : Nat} : ∀ {rows : List (List Str)}, rows ≠ [] → (∀ r ∈ rows, r.length = n) → (columns rows).length = n
  | [], h, _ => absurd rfl h
  | [r], _, h => by rw [columns, List.length_map]; exact h r (by simp)
  | r :: r' :: rs, _, h => by
    rw [columns, List.length_zipWith, h r (by simp), columns_size (by simp) fun q hq => h q (List.mem_cons_of_mem _ hq)]
    exact Nat.min_self n

theorem allSame_spec {l : List Nat} (h : allSame l = true) : ∃ n, ∀ k ∈ l, k = n := by
  cases l with
  | nil => exact ⟨0, fun k hk => by cases hk⟩
  | cons n l =>
    refine ⟨n, fun k hk => ?_⟩
    rcases List.mem_cons.mp hk with rfl | hk
    · rfl
    · simpa using List.all_eq_true.mp h k hk

/-- a row that is padded keeps its text -/
theorem rel_row {rows : List (List Str)} (h : allSame (rows.map List.length) = true) :
    ∀ r ∈ rows, r.length ≤ ((columns rows).map maxLen).length := by
  intro r hr
  obtain ⟨n, hn⟩ := allSame_spec h
  have hall : ∀ q ∈ rows, q.length = n := fun q hq => hn _ (List.mem_map_of_mem hq)
  rw [List.length_map, columns_size (by rintro rfl; cases hr) hall, hall r hr]
  exact Nat.le_refl n

theorem rel_lines {x : Bool} {f : List Str → Str} : ∀ {rows : List (List Str)}, (∀ r ∈ rows, Rel x r.flatten (f r)) →
    Rel x rows.flatten.flatten (rows.map f).flatten
  | [], _ => Rel.refl _ _
  | r :: rows, h => by
    rw [List.flatten_cons, List.flatten_append, List.map_cons, List.flatten_cons]
    exact (h r (by simp)).append (rel_lines fun q hq => h q (List.mem_cons_of_mem _ hq))

theorem mk_plusLine {x : Bool} {c : Char} (h : Mk x [c]) (ws : List Nat) : Mk x (plusLine c ws) := by
  unfold plusLine
  refine Mk.append (Mk.append (a := c!"+") (Mk.all (by decide)) ?_) (Mk.all (by decide))
  intro hx
  rw [kept_join (by decide)]
  induction ws with
  | nil => rfl
  | cons w ws ih => rw [List.map_cons, List.flatten_cons, kept_append, Mk.replicate w h hx, ih]; rfl

theorem rel_restLines {x : Bool} {hdr : Bool} {ws : List Nat} : ∀ {rows : List (List Str)} (no : Nat),
    (∀ r ∈ rows, r.length ≤ ws.length) → Rel x rows.flatten.flatten (restLines hdr ws no rows).flatten
  | [], no, _ => by
    rw [restLines]
    simp only [List.flatten_cons, List.flatten_nil, List.append_nil]
    exact Rel.mark (mk_plusLine (Mk.all (by decide)) ws)
  | r :: rows, no, h => by
    rw [restLines, List.flatten_cons, List.flatten_append, List.flatten_cons, List.flatten_cons]
    refine Rel.left ?_ ?_
    · exact ((Rel.of_kept (kept_padRow x r ws (h r (by simp)))).trans (rel_barLine x _)).append
        (rel_restLines (no + 1) fun q hq => h q (List.mem_cons_of_mem _ hq))
    · split <;> exact mk_plusLine (Mk.all (by decide)) ws

theorem mk_mdRule {x : Bool} (ws : List Nat) :
    Mk x (c!"| " ++ join c!" | " (ws.map fun w => List.replicate (w - 2) '-') ++ c!" |") := by
  refine Mk.append (Mk.append (Mk.all (by decide)) ?_) (Mk.all (by decide))
  intro hx
  rw [kept_join (by decide)]
  induction ws with
  | nil => rfl
  | cons w ws ih =>
    rw [List.map_cons, List.flatten_cons, kept_append, Mk.replicate (x := true) (c := '-') (w - 2) (Mk.all (by decide)) rfl, ih]
    rfl

theorem rel_mdLines {x : Bool} {hdr : Bool} {ws : List Nat} : ∀ {rows : List (List Str)} (no : Nat),
    (∀ r ∈ rows, r.length ≤ ws.length) → Rel x rows.flatten.flatten (mdLines hdr ws no rows).flatten
  | [], no, _ => Rel.refl _ _
  | r :: rows, no, h => by
    rw [mdLines, List.flatten_cons, List.flatten_append, List.flatten_append, List.flatten_cons]
    refine Rel.left ?_ ?_
    · exact ((Rel.of_kept (kept_padRow x r ws (h r (by simp)))).trans (rel_barLine x _)).append
        (rel_mdLines (no + 1) fun q hq => h q (List.mem_cons_of_mem _ hq))
    · split
      · simp only [List.flatten_cons, List.flatten_nil, List.append_nil]
        exact mk_mdRule ws
      · exact fun _ => rfl

theorem sizes_map (f : Str → Str) (rows : List (List Str)) :
    (rows.map fun r => r.map f).map List.length = rows.map List.length := by
  rw [List.map_map]
  exact List.map_congr_left fun r _ => by simp

/-- the text that is written for a table -/
def tableText (lang : Lang) (t : Table) : Str :=
  match lang with
  | .creole | .textile => t.markup ++ c!"\n"
  | .markdown => '\n' :: t.markdown ++ c!"\n"
  | .rest => t.rest ++ c!"\n\n"

/-- the text of a table is written -/
theorem rel_table {x : Bool} {lang : Lang} {t : Table} (ha : t.autoWidth = decide (lang ≠ .textile))
    (h : lang = .textile ∨ allSame (t.rows.map List.length) = true) :
    Rel x t.rows.flatten.flatten (tableText lang t) := by
  have hpre : Rel x t.rows.flatten.flatten t.preformat.1.flatten.flatten := .of_kept (kept_flat (kept_preformatCell x _) _)
  have hfit : lang ≠ .textile → ∀ r ∈ t.preformat.1, r.length ≤ t.preformat.2.length := by
    intro hl
    exact rel_row (by show allSame ((t.rows.map fun r => r.map (preformatCell t.headPrefix)).map List.length) = true; rw [sizes_map]; exact h.resolve_left hl)
  have hmark : Rel x t.rows.flatten.flatten t.markup := by
    unfold Table.markup
    split
    · exact (rel_lines fun r _ => rel_barLine x r).trans (Rel.join (Mk.all (by decide)) _)
    · next hw =>
      have hl : lang ≠ .textile := by
        rintro rfl
        rw [ha] at hw
        exact hw rfl
      dsimp only
      refine (hpre.trans (rel_lines fun r hr => ?_)).trans (Rel.join (Mk.all (by decide)) _)
      exact (Rel.of_kept (kept_padRow x r _ (hfit hl r hr))).trans (rel_barLine x _)
  unfold tableText
  split
  · exact hmark.right (Mk.all (by decide))
  · exact hmark.right (Mk.all (by decide))
  · refine (Rel.cons ?_ (Mk.all (by decide))).right (Mk.all (by decide))
    exact (hpre.trans (rel_mdLines 0 (hfit (by decide)))).trans (Rel.join (Mk.all (by decide)) _)
  · refine Rel.right ?_ (Mk.all (by decide))
    exact (hpre.trans (rel_restLines 0 (hfit (by decide)))).trans (Rel.join (Mk.all (by decide)) _)

/-! ## Filling of tables -/

theorem addLast_text (text : Str) : ∀ {rows : List (List Str)}, rows ≠ [] →
    (addLast text rows).flatten.flatten = rows.flatten.flatten ++ text
  | [], h => absurd rfl h
  | [r], _ => by simp [addLast]
  | r :: r' :: rs, _ => by
    rw [addLast, List.flatten_cons, List.flatten_append, addLast_text text (by simp), List.flatten_cons (l := r), List.flatten_append,
      List.append_assoc]

theorem addLast_sizes (text : Str) : ∀ {rows : List (List Str)} {l : List Nat} {k : Nat}, rows.map List.length = l ++ [k] →
    (addLast text rows).map List.length = l ++ [k + 1]
  | [], l, k, h => by simp at h
  | [r], l, k, h => by
    cases l with
    | nil =>
      simp only [List.map_cons, List.map_nil, List.nil_append, List.cons.injEq, and_true] at h
      simp [addLast, h]
    | cons a l => simp at h
  | r :: r' :: rs, l, k, h => by
    cases l with
    | nil => simp at h
    | cons a l =>
      rw [List.map_cons, List.cons_append, List.cons.injEq] at h
      rw [addLast, List.map_cons, h.1, addLast_sizes text h.2]
      rfl

/-- the table has the text `txt`, and rows with these numbers of cells -/
structure TInv (x : Bool) (lang : Lang) (txt : Str) (sizes : List Nat) (s : ESt) : Prop where
  inv : Inv x none s
  table : ∃ t, s.table = some t ∧ t.headPrefix = (newTable lang).headPrefix ∧ t.autoWidth = (newTable lang).autoWidth ∧
    Rel x txt t.rows.flatten.flatten ∧ t.rows.map List.length = sizes

theorem Inv.drop {x : Bool} {T : Option (Option Table)} {s : ESt} (h : Inv x T s) : Inv x none s :=
  ⟨h.inner, h.markup, h.subst, fun _ ht => by cases ht⟩

theorem Inv.keep {x : Bool} {T : Option (Option Table)} {s : ESt} (h : Inv x T s) : Inv x (some s.table) s :=
  ⟨h.inner, h.markup, h.subst, fun _ ht => Option.some.inj ht⟩

/-- what keeps the table -/
theorem TInv.keep {x : Bool} {lang : Lang} {txt : Str} {sizes : List Nat} {s s' : ESt} (h : TInv x lang txt sizes s)
    (hi : Inv x (some s.table) s') : TInv x lang txt sizes s' := by
  obtain ⟨_, h1, h2⟩ := h.table
  exact ⟨hi.drop, _, (hi.table _ rfl).trans h1, h2⟩

theorem TInv.to {x : Bool} {lang : Lang} {txt txt' : Str} {sizes : List Nat} {s : ESt} (h : TInv x lang txt sizes s)
    (he : kept x txt' = kept x txt) : TInv x lang txt' sizes s := by
  obtain ⟨t, h1, h2, h3, h4, h5⟩ := h.table
  exact ⟨h.inv, t, h1, h2, h3, (Rel.of_kept he.symm).trans h4, h5⟩

theorem headPrefix_mk (x : Bool) (lang : Lang) : Mk x (newTable lang).headPrefix := by
  cases lang <;> exact Mk.all (by decide)

theorem TInv.addTr {x : Bool} {lang : Lang} {txt : Str} {sizes : List Nat} {s : ESt} {t : Table} (h : TInv x lang txt sizes s)
    (ht : s.table = some t) : TInv x lang txt (sizes ++ [0]) { s with table := some t.addTr } := by
  obtain ⟨t', h1, h2, h3, h4, h5⟩ := h.table
  rw [ht] at h1
  cases h1
  refine ⟨⟨h.inv.inner, h.inv.markup, h.inv.subst, fun _ h => by cases h⟩, t.addTr, rfl, h2, h3, ?_, ?_⟩
  · show Rel x txt (t.rows ++ [[]]).flatten.flatten
    simpa using h4
  · show (t.rows ++ [[]]).map List.length = _
    simp [h5]

theorem addTd_eq {t : Table} (h : t.rows ≠ []) (text : Str) : t.addTd text = { t with rows := addLast text t.rows } := by
  unfold Table.addTd
  have : t.rows.isEmpty = false := by cases hr : t.rows <;> simp_all
  dsimp only
  rw [if_neg (by rw [this]; decide)]

theorem TInv.addTd {x : Bool} {lang : Lang} {txt text c : Str} {sizes : List Nat} {k : Nat} {s : ESt} {t : Table}
    (h : TInv x lang txt (sizes ++ [k]) s) (ht : s.table = some t) (hc : Rel x text c) :
    TInv x lang (txt ++ text) (sizes ++ [k + 1]) { s with table := some (t.addTd c) } := by
  obtain ⟨t', h1, h2, h3, h4, h5⟩ := h.table
  rw [ht] at h1
  cases h1
  have hne : t.rows ≠ [] := by intro he; rw [he] at h5; simp at h5
  refine ⟨⟨h.inv.inner, h.inv.markup, h.inv.subst, fun _ h => by cases h⟩, t.addTd c, rfl, ?_, ?_, ?_, ?_⟩
  · rw [addTd_eq hne]; exact h2
  · rw [addTd_eq hne]; exact h3
  · rw [addTd_eq hne, addLast_text c hne]
    exact h4.append hc
  · rw [addTd_eq hne]
    exact addLast_sizes c h5

theorem TInv.addTh {x : Bool} {lang : Lang} {txt text c : Str} {sizes : List Nat} {k : Nat} {s : ESt} {t : Table}
    (h : TInv x lang txt (sizes ++ [k]) s) (ht : s.table = some t) (hc : Rel x text c) :
    TInv x lang (txt ++ text) (sizes ++ [k + 1]) { s with table := some (t.addTh c) } := by
  obtain ⟨t', h1, h2, h3, h4, h5⟩ := h.table
  rw [ht] at h1
  cases h1
  have h' : TInv x lang txt (sizes ++ [k]) { s with table := some { t with hasHeader := true } } :=
    ⟨⟨h.inv.inner, h.inv.markup, h.inv.subst, fun _ h => by cases h⟩, { t with hasHeader := true }, rfl, h2, h3, h4, h5⟩
  have := h'.addTd (t := { t with hasHeader := true }) rfl (hc.left (m := t.headPrefix) (h2 ▸ headPrefix_mk x lang))
  exact this

/-! ## Nodes -/

theorem visited_self (i : HInfo) (ch : List HNode) : i ∈ visited (.mk i ch) := by rw [visited]; exact List.mem_cons_self

theorem visited_child {i j : HInfo} {ch : List HNode} (hl : leafKinds.contains i.kind = false) (h : j ∈ visitedL ch) :
    j ∈ visited (.mk i ch) := by
  rw [visited, if_neg (by rw [hl]; decide)]
  exact List.mem_cons_of_mem _ h

theorem visitedL_cons (n : HNode) (ns : List HNode) : visitedL (n :: ns) = visited n ++ visitedL ns := by rw [visitedL]

theorem shownL_cons (n : HNode) (ns : List HNode) : shownL (n :: ns) = shown n ++ shownL ns := by rw [shownL]

theorem own_of {i : HInfo} (h : leafKinds.contains i.kind = false) : own i = [] := by
  refine own_other ?_ ?_ ?_ ?_ ?_ ?_ <;> intro hk <;> rw [hk] at h <;> exact absurd h (by decide)

/-- children of a node of this kind -/
theorem not_ol {cfg : Cfg} {i : HInfo} {anc : List Str} (h : bare cfg i = true) (hl : cfg.lang = .markdown) :
    (i.kind :: anc).head? ≠ some c!"ol" := by
  intro he
  have := bare_wordy h
  rw [hl, Option.some.inj he] at this
  cases this

theorem emitNode_ok {cfg : Cfg} {anc : List Str} {i : HInfo} {ch : List HNode} {s s' : ESt} {out : Str}
    (h : emitNode cfg anc (.mk i ch) s = .ok (out, s')) :
    ∃ pre s1 c s2, preEmit cfg.lang anc s = .ok (pre, s1) ∧ runNode cfg anc i (childrenM cfg anc i ch) s1 = .ok (c, s2) ∧
      out = pre ++ c ∧ s' = enter i s2 := by
  rw [emitNode_run] at h
  obtain ⟨pre, s1, h1, h⟩ := bind_ok.mp h
  obtain ⟨c, s2, h2, h⟩ := bind_ok.mp h
  obtain ⟨u, s3, h3, h⟩ := bind_ok.mp h
  obtain ⟨rfl, rfl⟩ := pure_ok.mp h
  cases h3
  exact ⟨pre, s1, c, s2, h1, h2, rfl, rfl⟩

theorem Inv.enter {x : Bool} {T : Option (Option Table)} {s : ESt} (h : Inv x T s) (i : HInfo) : Inv x T (Emit.enter i s) :=
  ⟨h.inner, h.markup, h.subst, h.table⟩

theorem TInv.enter {x : Bool} {lang : Lang} {txt : Str} {sizes : List Nat} {s : ESt} (h : TInv x lang txt sizes s) (i : HInfo) :
    TInv x lang txt sizes (Emit.enter i s) := ⟨h.inv.enter i, h.table⟩

theorem TInv.pre {x : Bool} {lang : Lang} {txt : Str} {sizes : List Nat} {s s1 : ESt} {l : Lang} {anc : List Str} {pre : Str}
    (h : TInv x lang txt sizes s) (hp : preEmit l anc s = .ok (pre, s1)) : TInv x lang txt sizes s1 :=
  h.keep (hol_preEmit l anc s pre s1 hp h.inv.keep).2

theorem method_tr (lang : Lang) : methodOf lang c!"tr" = some .tr := by cases lang <;> decide +kernel
theorem method_th (lang : Lang) : methodOf lang c!"th" = some .th := by cases lang <;> decide +kernel
theorem method_td (lang : Lang) : methodOf lang c!"td" = some .td := by cases lang <;> decide +kernel
theorem method_table (lang : Lang) : methodOf lang c!"table" = some .table := by cases lang <;> decide +kernel

theorem method_part {lang : Lang} {i : HInfo} {ch : List HNode} (h : isPart (.mk i ch) = true) : methodOf lang i.kind = none := by
  simp only [isPart, Bool.or_eq_true, decide_eq_true_eq] at h
  rcases h with (h | h) | h <;> rw [h] <;> cases lang <;> decide +kernel

/-- a gap holds no text -/
theorem gap_shown {x : Bool} {i : HInfo} {ch : List HNode} (h : isGap (.mk i ch) = true) : kept x (shown (.mk i ch)) = [] := by
  simp only [isGap, Bool.and_eq_true, decide_eq_true_eq, List.isEmpty_iff] at h
  obtain ⟨⟨hk, hc⟩, rfl⟩ := h
  rw [shown, shownL, List.append_nil]
  have : own i = i.content.getD [] := by unfold own; cases i.content <;> simp [hk]
  rw [this]
  unfold kept
  rw [List.filter_eq_nil_iff]
  intro c hm
  have hs := List.all_eq_true.mp hc c hm
  cases x <;> simp [counts, hs]

theorem gap_tidy {lang : Lang} {i : HInfo} {ch : List HNode} (h : isGap (.mk i ch) = true) : tidy lang .cell (.mk i ch) = true := by
  simp only [isGap, Bool.and_eq_true, decide_eq_true_eq, List.isEmpty_iff] at h
  obtain ⟨⟨hk, hc⟩, rfl⟩ := h
  rw [tidy]
  · rw [hk, if_pos (by decide)]
    simp
  all_goals (intro h; cases h)

mutual

/-- the text of a node outside of tables or in a cell is written -/
theorem node_shown {x : Bool} {cfg : Cfg} {p : Place} {T : Option (Option Table)} (hp : p = .free ∧ T = none ∨ p = .cell) :
    ∀ (n : HNode) (anc : List Str), tidy cfg.lang p n = true → (x = true → ∀ i ∈ visited n, bare cfg i = true) →
      (x = true → cfg.lang = .markdown → anc.head? ≠ some c!"ol") → Hol (Inv x T) (emitNode cfg anc n) (Rel x (shown n))
  | .mk i ch, anc, ht, hb, ha => by
    rw [emitNode_run]
    refine (hol_preEmit cfg.lang anc).bind fun pre hpre => ?_
    refine Hol.bind (Q := Rel x (shown (.mk i ch))) ?_ fun c hc => (hol_setLast i).bind fun _ _ => Hol.pure (hc.left hpre)
    have hb' : x = true → bare cfg i = true := fun hx => hb hx i (visited_self i ch)
    have ht' : (if leafKinds.contains i.kind then
        ch.isEmpty && !(cfg.lang = .markdown && i.kind = c!"inlinedata_pre" && c!"</code>".isSuffixOf (i.content.getD []))
      else if i.kind = c!"table" then
        p = .free && tidyL cfg.lang .table ch && (cfg.lang = .textile || allSame (rowSizes ch))
      else !isRow (.mk i ch) && !isCell (.mk i ch) && tidyL cfg.lang p ch) = true := by
      rcases hp with ⟨rfl, _⟩ | rfl <;> (rw [tidy] at ht <;> first | exact ht | (intro h; cases h))
    rw [shown]
    cases hl : leafKinds.contains i.kind with
    | true =>
      rw [hl, if_pos rfl] at ht'
      simp only [Bool.and_eq_true, List.isEmpty_iff] at ht'
      obtain ⟨rfl, hcode⟩ := ht'
      rw [shownL, List.append_nil]
      obtain ⟨m, hm⟩ := Props.methodOf_known (lang := cfg.lang) (kind := i.kind) (by
        cases hk : decide (i.kind ∈ knownKinds cfg.lang) with
        | true => exact of_decide_eq_true hk
        | false => rw [Props.leaf_known (of_decide_eq_false hk)] at hl; cases hl)
      rw [runNode, hm]
      refine hol_leaf hm (by rw [Props.usesChildren_iff hm, hl]; rfl) hb' ?_ _
      rintro ⟨h1, h2, h3⟩
      rw [h3] at hcode
      simp [h1, h2] at hcode
    | false =>
      rw [hl, if_neg (by decide)] at ht'
      rw [own_of hl, List.nil_append]
      have hbc : x = true → ∀ j ∈ visitedL ch, bare cfg j = true := fun hx j hj => hb hx j (visited_child hl hj)
      have hac : x = true → cfg.lang = .markdown → (i.kind :: anc).head? ≠ some c!"ol" := fun hx hm => not_ol (hb' hx) hm
      by_cases hk : i.kind = c!"table"
      · rw [if_pos hk] at ht'
        simp only [Bool.and_eq_true, Bool.or_eq_true, decide_eq_true_eq] at ht'
        obtain ⟨⟨hfree, htab⟩, hsame⟩ := ht'
        obtain ⟨_, rfl⟩ : p = .free ∧ T = none := by
          rcases hp with h | h
          · exact h
          · rw [h] at hfree; cases hfree
        rw [runNode, show methodOf cfg.lang i.kind = some .table by rw [hk, method_table]]
        show Hol (Inv x none) (tableEmit cfg.lang (childrenM cfg anc i ch)) (Rel x (shownL ch))
        intro s out s' hrun hs
        unfold tableEmit at hrun
        obtain ⟨_, s1, h1, hrun1⟩ := bind_ok.mp hrun
        obtain ⟨c, s2, h2, hrun2⟩ := bind_ok.mp hrun1
        obtain ⟨t, s3, h3, hrun3⟩ := bind_ok.mp hrun2
        have hs1 : TInv x cfg.lang [] [] (enter i s1) := by
          cases h1
          refine ⟨⟨hs.inner, hs.markup, hs.subst, fun _ h => by cases h⟩, newTable cfg.lang, ?_, rfl, rfl, ?_, ?_⟩
          · cases cfg.lang <;> rfl
          · cases cfg.lang <;> exact Rel.refl _ _
          · cases cfg.lang <;> rfl
        rw [childrenM_run] at h2
        have hs2 := rows_shown (.inl rfl) ch _ htab hbc hac h2 hs1
        obtain ⟨rfl, h3⟩ := getTable_ok h3
        obtain ⟨t', g1, g2, g3, g4, g5⟩ := hs2.table
        rw [h3] at g1
        cases g1
        rw [List.nil_append] at g4 g5
        have hfin : out = tableText cfg.lang t ∧ s' = s3 := by
          generalize cfg.lang = lang at hrun3
          cases lang <;> exact pure_ok.mp hrun3
        obtain ⟨h4, rfl⟩ := hfin
        refine ⟨?_, hs2.inv⟩
        rw [h4]
        refine g4.trans (rel_table ?_ (hsame.imp id fun h => by rw [g5]; exact h))
        rw [g3]
        cases cfg.lang <;> rfl
      · rw [if_neg hk] at ht'
        simp only [Bool.and_eq_true, Bool.not_eq_true'] at ht'
        obtain ⟨⟨hrow, hcell⟩, hch⟩ := ht'
        simp only [isRow, isCell, Bool.or_eq_false_iff, decide_eq_false_iff_not] at hrow hcell
        have hkids : Hol (Inv x T) (childrenM cfg anc i ch) (Rel x (shownL ch)) :=
          (hol_setLast i).bind fun _ _ => nodes_shown hp ch _ hch hbc hac
        rw [runNode]
        cases hm : methodOf cfg.lang i.kind with
        | some m =>
          exact hol_inner hm (by rw [Props.usesChildren_iff hm, hl]; rfl) hb' ha ⟨hk, hrow, hcell.1, hcell.2⟩ hkids
        | none =>
          refine hol_unknown (fun hx => ?_) hkids
          have := hb' hx
          simp only [bare, Bool.and_eq_true, Bool.or_eq_true, decide_eq_true_eq] at this
          refine this.1.1.2.resolve_right fun hmem => ?_
          obtain ⟨m, hm'⟩ := Props.methodOf_known (lang := cfg.lang) (kind := i.kind) (by simpa using hmem)
          rw [hm] at hm'
          cases hm'

theorem nodes_shown {x : Bool} {cfg : Cfg} {p : Place} {T : Option (Option Table)} (hp : p = .free ∧ T = none ∨ p = .cell) :
    ∀ (ns : List HNode) (anc : List Str), tidyL cfg.lang p ns = true → (x = true → ∀ i ∈ visitedL ns, bare cfg i = true) →
      (x = true → cfg.lang = .markdown → anc.head? ≠ some c!"ol") → Hol (Inv x T) (emitNodes cfg anc ns) (Rel x (shownL ns))
  | [], anc, _, _, _ => by
    rw [emitNodes, shownL]
    exact Hol.pure (Rel.refl _ _)
  | n :: ns, anc, ht, hb, ha => by
    rw [tidyL, Bool.and_eq_true] at ht
    rw [emitNodes, shownL]
    rw [visitedL_cons] at hb
    refine (node_shown hp n anc ht.1 (fun hx i hi => hb hx i (List.mem_append_left _ hi)) ha).bind fun a ha' => ?_
    refine (nodes_shown hp ns anc ht.2 (fun hx i hi => hb hx i (List.mem_append_right _ hi)) ha).bind fun b hb' => ?_
    exact Hol.pure (ha'.append hb')

/-- the cells of a row get into the table -/
theorem cells_shown {x : Bool} {cfg : Cfg} : ∀ (ns : List HNode) (anc : List Str), tidyL cfg.lang .row ns = true →
    (x = true → ∀ i ∈ visitedL ns, bare cfg i = true) → (x = true → cfg.lang = .markdown → anc.head? ≠ some c!"ol") →
    ∀ {s s' : ESt} {out txt : Str} {sizes : List Nat} {k : Nat}, emitNodes cfg anc ns s = .ok (out, s') →
      TInv x cfg.lang txt (sizes ++ [k]) s → TInv x cfg.lang (txt ++ shownL ns) (sizes ++ [k + (ns.filter isCell).length]) s'
  | [], anc, _, _, _, s, s', out, txt, sizes, k, h, hs => by
    rw [emitNodes] at h
    rw [(pure_ok.mp h).2, shownL, List.append_nil]
    exact hs
  | .mk i ch :: ns, anc, ht, hb, ha, s, s', out, txt, sizes, k, h, hs => by
    rw [tidyL, Bool.and_eq_true] at ht
    obtain ⟨ht1, ht2⟩ := ht
    rw [emitNodes] at h
    obtain ⟨a, s1, h1, h⟩ := bind_ok.mp h
    obtain ⟨b, s2, h2, h⟩ := bind_ok.mp h
    rw [visitedL_cons] at hb
    have hbn : x = true → ∀ j ∈ visited (.mk i ch), bare cfg j = true := fun hx j hj => hb hx j (List.mem_append_left _ hj)
    have hrest := fun {txt sizes k} => cells_shown ns anc ht2 (fun hx i hi => hb hx i (List.mem_append_right _ hi)) ha
      (txt := txt) (sizes := sizes) (k := k) h2
    rw [(pure_ok.mp h).2, shownL, ← List.append_assoc]
    rw [tidy] at ht1
    simp only [Bool.or_eq_true, Bool.and_eq_true] at ht1
    rcases ht1 with hg | ⟨hcell, hch⟩
    · have hi := node_shown (.inr rfl) (.mk i ch) anc (gap_tidy hg) hbn ha s a s1 h1 hs.inv.keep
      have : isCell (.mk i ch) = false := by
        simp only [isGap, Bool.and_eq_true, decide_eq_true_eq] at hg
        simp [isCell, hg.1.1]
      rw [List.filter_cons, if_neg (by rw [this]; decide)]
      refine hrest (TInv.to (hs.keep hi.2) ?_)
      rw [kept_append, gap_shown hg, List.append_nil]
    · rw [List.filter_cons, if_pos hcell, List.length_cons, ← Nat.add_assoc, Nat.add_right_comm]
      refine hrest ?_
      simp only [isCell, Bool.or_eq_true, decide_eq_true_eq] at hcell
      have hl : leafKinds.contains i.kind = false := by rcases hcell with hk | hk <;> rw [hk] <;> decide
      obtain ⟨pre, r1, c, r2, hpre, hrun, _, rfl⟩ := emitNode_ok h1
      have hr1 := hs.pre hpre
      rw [shown, own_of hl, List.nil_append]
      have hkids : ∀ {c' r}, childrenM cfg anc i ch r1 = .ok (c', r) → Rel x (shownL ch) (cellText cfg.lang c') ∧
          TInv x cfg.lang txt (sizes ++ [k]) r := by
        intro c' r hc
        rw [childrenM_run] at hc
        have := nodes_shown (T := some r1.table) (.inr rfl) ch _ hch (fun hx j hj => hbn hx j (visited_child hl hj))
          (fun hx hm => not_ol (anc := anc) (hbn hx i (visited_self i ch)) hm) _ _ _ hc (hr1.inv.keep.enter i)
        exact ⟨rel_cell _ this.1, hr1.keep this.2⟩
      refine TInv.enter ?_ i
      rcases hcell with hk | hk
      · rw [runNode, show methodOf cfg.lang i.kind = some .th by rw [hk, method_th]] at hrun
        obtain ⟨c', q1, e1, hrun1⟩ := bind_ok.mp hrun
        obtain ⟨t, q2, e2, hrun2⟩ := bind_ok.mp hrun1
        obtain ⟨_, q3, e3, hrun3⟩ := bind_ok.mp hrun2
        obtain ⟨rfl, e2⟩ := getTable_ok e2
        rw [(pure_ok.mp hrun3).2]
        cases e3
        exact (hkids e1).2.addTh e2 (hkids e1).1
      · rw [runNode, show methodOf cfg.lang i.kind = some .td by rw [hk, method_td]] at hrun
        obtain ⟨c', q1, e1, hrun1⟩ := bind_ok.mp hrun
        obtain ⟨t, q2, e2, hrun2⟩ := bind_ok.mp hrun1
        obtain ⟨_, q3, e3, hrun3⟩ := bind_ok.mp hrun2
        obtain ⟨rfl, e2⟩ := getTable_ok e2
        rw [(pure_ok.mp hrun3).2]
        cases e3
        exact (hkids e1).2.addTd e2 (hkids e1).1

/-- the rows of a table get into the table -/
theorem rows_shown {x : Bool} {cfg : Cfg} {p : Place} (hp : p = .table ∨ p = .part) : ∀ (ns : List HNode) (anc : List Str),
    tidyL cfg.lang p ns = true →
    (x = true → ∀ i ∈ visitedL ns, bare cfg i = true) → (x = true → cfg.lang = .markdown → anc.head? ≠ some c!"ol") →
    ∀ {s s' : ESt} {out txt : Str} {sizes : List Nat}, emitNodes cfg anc ns s = .ok (out, s') →
      TInv x cfg.lang txt sizes s → TInv x cfg.lang (txt ++ shownL ns) (sizes ++ rowSizes ns) s'
  | [], anc, _, _, _, s, s', out, txt, sizes, h, hs => by
    rw [emitNodes] at h
    rw [(pure_ok.mp h).2, shownL, rowSizes, List.append_nil, List.append_nil]
    exact hs
  | .mk i ch :: ns, anc, ht, hb, ha, s, s', out, txt, sizes, h, hs => by
    rw [tidyL, Bool.and_eq_true] at ht
    obtain ⟨ht1, ht2⟩ := ht
    rw [emitNodes] at h
    obtain ⟨a, s1, h1, h⟩ := bind_ok.mp h
    obtain ⟨b, s2, h2, h⟩ := bind_ok.mp h
    rw [visitedL_cons] at hb
    have hbn : x = true → ∀ j ∈ visited (.mk i ch), bare cfg j = true := fun hx j hj => hb hx j (List.mem_append_left _ hj)
    have hrest := fun {txt sizes} => rows_shown hp ns anc ht2 (fun hx i hi => hb hx i (List.mem_append_right _ hi)) ha
      (txt := txt) (sizes := sizes) h2
    rw [(pure_ok.mp h).2, shownL, rowSizes, rowSize, ← List.append_assoc, ← List.append_assoc]
    refine hrest ?_
    have ht3 : isGap (.mk i ch) = true ∨ isRow (.mk i ch) = true ∧ tidyL cfg.lang .row ch = true ∨
        isPart (.mk i ch) = true ∧ tidyL cfg.lang .part ch = true := by
      rcases hp with rfl | rfl <;> rw [tidy] at ht1
      · simp only [Bool.or_eq_true, Bool.and_eq_true] at ht1
        rcases ht1 with (h | h) | h
        · exact .inl h
        · exact .inr (.inl h)
        · exact .inr (.inr h)
      · simp only [Bool.or_eq_true, Bool.and_eq_true] at ht1
        rcases ht1 with h | h
        · exact .inl h
        · exact .inr (.inl h)
    rcases ht3 with hg | ⟨hrow, hch⟩ | ⟨hpart, hch⟩
    · have hi := node_shown (.inr rfl) (.mk i ch) anc (gap_tidy hg) hbn ha s a s1 h1 hs.inv.keep
      have hk : i.kind = c!"data" := by
        simp only [isGap, Bool.and_eq_true, decide_eq_true_eq] at hg
        exact hg.1.1
      have hr : isRow (.mk i ch) = false := by simp [isRow, hk]
      have hq : isPart (.mk i ch) = false := by simp [isPart, hk]
      rw [hr, hq, if_neg (by decide), if_neg (by decide), List.append_nil]
      refine TInv.to (hs.keep hi.2) ?_
      rw [kept_append, gap_shown hg, List.append_nil]
    · rw [if_pos hrow]
      simp only [isRow, decide_eq_true_eq] at hrow
      have hl : leafKinds.contains i.kind = false := by rw [hrow]; decide
      obtain ⟨pre, r1, c, r2, hpre, hrun, _, rfl⟩ := emitNode_ok h1
      have hr1 := hs.pre hpre
      rw [shown, own_of hl, List.nil_append]
      refine TInv.enter ?_ i
      rw [runNode, show methodOf cfg.lang i.kind = some .tr by rw [hrow, method_tr]] at hrun
      obtain ⟨t, q1, e1, hrun1⟩ := bind_ok.mp hrun
      obtain ⟨_, q2, e2, hrun2⟩ := bind_ok.mp hrun1
      obtain ⟨c', q3, e3, hrun3⟩ := bind_ok.mp hrun2
      obtain ⟨rfl, e1⟩ := getTable_ok e1
      rw [(pure_ok.mp hrun3).2]
      cases e2
      rw [childrenM_run] at e3
      have := cells_shown ch _ hch (fun hx j hj => hbn hx j (visited_child hl hj))
        (fun hx hm => not_ol (anc := anc) (hbn hx i (visited_self i ch)) hm) e3 ((hr1.addTr e1).enter i)
      simpa using this
    · have hm := method_part (lang := cfg.lang) hpart
      have hnr : isRow (.mk i ch) = false := by
        simp only [isPart, Bool.or_eq_true, decide_eq_true_eq] at hpart
        rcases hpart with (h | h) | h <;> simp [isRow, h]
      have hl : leafKinds.contains i.kind = false := by
        simp only [isPart, Bool.or_eq_true, decide_eq_true_eq] at hpart
        rcases hpart with (h | h) | h <;> rw [h] <;> decide
      rw [hnr, if_neg (by decide), if_pos hpart]
      obtain ⟨pre, r1, c, r2, hpre, hrun, _, rfl⟩ := emitNode_ok h1
      have hr1 := hs.pre hpre
      rw [shown, own_of hl, List.nil_append]
      refine TInv.enter ?_ i
      rw [runNode, hm] at hrun
      obtain ⟨c', q1, e1, hrun1⟩ := bind_ok.mp hrun
      rw [childrenM_run] at e1
      have hq := rows_shown (.inr rfl) ch _ hch (fun hx j hj => hbn hx j (visited_child hl hj))
        (fun hx hm => not_ol (anc := anc) (hbn hx i (visited_self i ch)) hm) e1 (hr1.enter i)
      have : r2 = q1 := by
        cases hpol : cfg.policy <;> rw [hpol] at hrun1 <;> first | exact (pure_ok.mp hrun1).2 | cases hrun1
      rw [this]
      exact hq

end

end Verif.Emit
