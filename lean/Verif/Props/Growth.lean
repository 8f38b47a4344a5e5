import Verif.Spec.Growth
import Verif.Emit.ShownTable
import Verif.Props.ReadHtml

/-!
# C98: how large the results of the converters from HTML become
-/

namespace Verif.Props

open Verif Py Html Emit Spec Spec.Hd Spec.Gw

/-! ## Tables in tables -/

/-- the document of `tablesIn` -/
def tabsHt : Nat → Ht
  | 0 => .text c!"a"
  | n + 1 => .el c!"table" [] [.el c!"tr" [] [.el c!"td" [] [tabsHt n]]]

theorem tabsHt_written : ∀ n, (tabsHt n).print = tablesIn n
  | 0 => by rw [tabsHt, Ht.print]; decide
  | n + 1 => by
    rw [tabsHt, tablesIn]
    simp only [Ht.print, written, tabsHt_written n, tagStart, List.flatMap_nil, List.append_nil, List.append_assoc]
    rfl

theorem tabsHt_ok : ∀ n, (tabsHt n).ok = true
  | 0 => by rw [tabsHt, Ht.ok]
  | n + 1 => by
    rw [tabsHt]
    simp only [Ht.ok, okL, tabsHt_ok n, Bool.and_true, List.all_nil]
    decide

theorem tabsHt_spaced : ∀ (n : Nat) (b : Before) (l : List Bit), spaced b ((tabsHt (n + 1)).bits ++ l) = spaced .block l
  | 0, b, l => by
    rw [tabsHt, tabsHt]
    simp only [Ht.bits, bitsL, List.append_nil, List.cons_append, List.map_cons, List.map_nil, List.nil_append,
      show isBlock c!"table" = true by decide, show isBlock c!"tr" = true by decide, show isBlock c!"td" = true by decide, if_true, spaced,
      show isSpace 'a' = false by decide]
    rfl
  | n + 1, b, l => by
    rw [tabsHt]
    simp only [Ht.bits, bitsL, List.append_nil, List.cons_append, List.append_assoc, List.nil_append,
      show isBlock c!"table" = true by decide, show isBlock c!"tr" = true by decide, show isBlock c!"td" = true by decide, if_true]
    rw [spaced, spaced, spaced, tabsHt_spaced n]
    simp only [spaced]

theorem tabsHt_neat (n : Nat) : neat [tabsHt (n + 1)] = true := by
  have h1 := tabsHt_ok (n + 1)
  have h2 := tabsHt_spaced n .block []
  have h3 : bareEdges (bitsL [tabsHt (n + 1)]) = true := by
    rw [tabsHt]
    simp only [Ht.bits, bitsL, List.append_nil, bareEdges, List.head?_cons, List.getLast?_cons, List.getLast?_append]
    rfl
  rw [neat, h3, okL, h1, okL, bitsL, bitsL, h2]
  rfl

theorem els_one {tag : Str} (ht : tag ≠ c!"tbody") (ch : List Ht) : elsL [.el tag [] ch] = [.elem tag [] (elsL ch)] := by
  rw [elsL, elsL, Ht.els, if_neg (fun h => ht h.1)]
  rfl

theorem tabsHt_els (n : Nat) : elsL [tabsHt (n + 1)] = [.elem c!"table" [] [.elem c!"tr" [] [.elem c!"td" [] (elsL [tabsHt n])]]] := by
  rw [tabsHt, els_one (by decide), els_one (by decide), els_one (by decide)]

theorem tabsHt_wf : ∀ (n : Nat), wfL true (elsL [tabsHt n]) = true
  | 0 => by rw [tabsHt, elsL, elsL, Ht.els]; rfl
  | n + 1 => by
    rw [tabsHt_els]
    simp only [wfL, El.wf, show stops (kindOf c!"table") = true by decide, show stops (kindOf c!"tr") = true by decide,
      show stops (kindOf c!"td") = true by decide, tabsHt_wf n]
    decide

/-- the nodes of `tablesIn` -/
def tabsNode : Nat → HNode
  | 0 => .mk { kind := c!"data", content := some c!"a" } []
  | n + 1 => .mk { kind := c!"table" } [.mk { kind := c!"tr" } [.mk { kind := c!"td" } [tabsNode n]]]

theorem node_plain {tag : Str} (h1 : headline? tag = none) (h2 : ¬ (tag = c!"ul" ∨ tag = c!"ol")) (h3 : tag ≠ c!"li") (ch : List El) :
    nodesL 0 [.elem tag [] ch] = [.mk { kind := tag } (nodesL 0 ch)] := by
  rw [nodesL, nodesL, El.nodes, h1]
  dsimp only
  rw [if_neg h2, if_neg h3]
  rfl

theorem tabsHt_nodes : ∀ n, nodesL 0 (elsL [tabsHt n]) = [tabsNode n]
  | 0 => by rw [tabsHt, tabsNode, elsL, elsL, Ht.els]; rfl
  | n + 1 => by
    rw [tabsHt_els, node_plain rfl (by decide) (by decide), node_plain rfl (by decide) (by decide), node_plain rfl (by decide) (by decide),
      tabsHt_nodes n, tabsNode]

/-- what is kept of a cell -/
theorem kept_cellText (x : Bool) (lang : Lang) (s : Str) : kept x (cellText lang s) = kept x s := by
  unfold cellText
  split
  · rfl
  · exact kept_escapeLinebreaks x s

theorem emit_data_a (cfg : Cfg) (anc : List Str) (s : ESt) (h : s.subst = []) :
    emitNode cfg anc (tabsNode 0) s = .ok (c!"a", enter { kind := c!"data", content := some c!"a" } s) := by
  rw [tabsNode, emitNode_known (m := .data) (by cases cfg.lang <;> decide +kernel) (fun _ => .inl h)]
  unfold runMeth
  dsimp only
  rw [if_neg (by intro hh; simp at hh)]
  rfl

theorem getTable_run {s : ESt} {t : Table} (h : s.table = some t) : getTable s = .ok (t, s) := by
  unfold getTable
  rw [bind_run, get_run]
  dsimp only
  rw [h]
  rfl

theorem emit_td {cfg : Cfg} {anc : List Str} {s s1 : ESt} {ch : List HNode} {out : Str} {t : Table} (h : s.subst = [])
    (hc : emitNodes cfg (c!"td" :: anc) ch (enter { kind := c!"td" } s) = .ok (out, s1)) (ht : s1.table = some t) :
    emitNode cfg anc (.mk { kind := c!"td" } ch) s =
      .ok ([], enter { kind := c!"td" } { s1 with table := some (t.addTd (cellText cfg.lang out)) }) := by
  rw [emitNode_known (method_td cfg.lang) (fun _ => .inl h)]
  unfold runMeth
  dsimp only
  rw [bind_run, childrenM_run, hc]
  dsimp only
  rw [bind_run, getTable_run ht]
  rfl

theorem emit_tr {cfg : Cfg} {anc : List Str} {s s1 : ESt} {ch : List HNode} {out : Str} {t : Table} (h : s.subst = []) (ht : s.table = some t)
    (hc : emitNodes cfg (c!"tr" :: anc) ch (enter { kind := c!"tr" } { s with table := some t.addTr }) = .ok (out, s1)) :
    emitNode cfg anc (.mk { kind := c!"tr" } ch) s = .ok ([], enter { kind := c!"tr" } s1) := by
  rw [emitNode_known (method_tr cfg.lang) (fun _ => .inl h)]
  unfold runMeth
  dsimp only
  rw [bind_run, getTable_run ht]
  dsimp only
  rw [bind_run, setTable, modify_run]
  dsimp only
  rw [bind_run, childrenM_run, hc]
  rfl

theorem emit_table {cfg : Cfg} {anc : List Str} {s s1 : ESt} {ch : List HNode} {out : Str} {t : Table} (h : s.subst = [])
    (hc : emitNodes cfg (c!"table" :: anc) ch (enter { kind := c!"table" } { s with table := some (newTable cfg.lang) }) = .ok (out, s1))
    (ht : s1.table = some t) :
    emitNode cfg anc (.mk { kind := c!"table" } ch) s = .ok (tableText cfg.lang t, enter { kind := c!"table" } s1) := by
  rw [emitNode_known (method_table cfg.lang) (fun _ => .inl h)]
  unfold runMeth tableEmit
  cases hl : cfg.lang <;>
  · rw [hl] at hc
    simp only [newTable] at hc
    dsimp only
    rw [bind_run, setTable, modify_run]
    dsimp only
    rw [bind_run, childrenM_run]
    dsimp only
    rw [hc]
    dsimp only
    rw [bind_run, getTable_run ht]
    rfl

/-- one table around a node that leaves a table with one row -/
theorem emit_around {cfg : Cfg} {anc : List Str} {s : ESt} (h : s.subst = []) {n : HNode} {out : Str} {row : List Str}
    (hn : ∀ (anc : List Str) (s : ESt), s.subst = [] → s.table = some { newTable cfg.lang with rows := [[]] } →
      ∃ s', emitNode cfg anc n s = .ok (out, s') ∧ s'.subst = [] ∧ s'.table = some { newTable cfg.lang with rows := [row] }) :
    ∃ s', emitNode cfg anc (.mk { kind := c!"table" } [.mk { kind := c!"tr" } [.mk { kind := c!"td" } [n]]]) s =
        .ok (tableText cfg.lang { newTable cfg.lang with rows := [row ++ [cellText cfg.lang out]] }, s') ∧
      s'.subst = [] ∧ s'.table = some { newTable cfg.lang with rows := [row ++ [cellText cfg.lang out]] } := by
  have hr : (newTable cfg.lang).rows = [] := by cases cfg.lang <;> rfl
  obtain ⟨s1, h1, h2, h3⟩ := hn (c!"td" :: c!"tr" :: c!"table" :: anc)
    (enter { kind := c!"td" } (enter { kind := c!"tr" } { (enter { kind := c!"table" } { s with table := some (newTable cfg.lang) }) with
      table := some (newTable cfg.lang).addTr })) h (by
        show some (newTable cfg.lang).addTr = _
        unfold Table.addTr
        rw [hr]
        rfl)
  refine ⟨_, emit_table h (emitNodes_one (emit_tr h rfl (emitNodes_one (emit_td h (emitNodes_one h1) h3)))) ?_, h2, ?_⟩
  · exact congrArg some (addTd_eq (by simp) _)
  · exact congrArg some (addTd_eq (by simp) _)

theorem kept_one_row {lang : Lang} {row : List Str} : kept true (tableText lang { newTable lang with rows := [row] }) = kept true row.flatten := by
  have h : Rel true _ (tableText lang { newTable lang with rows := [row] }) := rel_table (lang := lang) (t := { newTable lang with rows := [row] })
    (by cases lang <;> rfl) (.inr (by simp [Sh.allSame]))
  have h' : kept true (tableText lang { newTable lang with rows := [row] }) = kept true [row].flatten.flatten := h
  simpa using h'

theorem tabs_emit (cfg : Cfg) : ∀ (n : Nat), ∃ out row, (∀ (anc : List Str) (s : ESt), s.subst = [] →
    ∃ s', emitNode cfg anc (tabsNode (n + 1)) s = .ok (out, s') ∧ s'.subst = [] ∧
      s'.table = some { newTable cfg.lang with rows := [row] }) ∧ kept true row.flatten = List.replicate (2 ^ n) 'a' ∧
      kept true out = List.replicate (2 ^ n) 'a'
  | 0 => by
    have hk : kept true ([] ++ [cellText cfg.lang c!"a"]).flatten = List.replicate (2 ^ 0) 'a' := by
      rw [List.nil_append, List.flatten_cons, List.flatten_nil, List.append_nil, kept_cellText]
      decide
    refine ⟨_, _, fun anc s hs => emit_around hs fun anc s h h' => ⟨_, emit_data_a cfg anc s h, h, h'⟩, hk, ?_⟩
    rw [kept_one_row, hk]
  | n + 1 => by
    obtain ⟨out, row, h1, h2, h3⟩ := tabs_emit cfg n
    have hk : kept true (row ++ [cellText cfg.lang out]).flatten = List.replicate (2 ^ (n + 1)) 'a' := by
      rw [List.flatten_append, List.flatten_cons, List.flatten_nil, List.append_nil, kept_append, kept_cellText, h2, h3,
        List.replicate_append_replicate]
      congr 1
      omega
    refine ⟨_, _, fun anc s hs => emit_around hs fun anc s h _ => h1 anc s h, hk, ?_⟩
    rw [kept_one_row, hk]

theorem count_kept (s : Str) : s.count 'a' = (kept true s).count 'a' := by
  induction s with
  | nil => rfl
  | cons c s ih =>
    unfold kept at *
    rw [List.filter_cons]
    split
    · rw [List.count_cons, List.count_cons, ih]
    · next h =>
      rw [List.count_cons_of_ne (by rintro rfl; exact h (by decide)), ih]

theorem tablesIn_length : ∀ n, (tablesIn n).length = 33 * n + 1
  | 0 => rfl
  | n + 1 => by
    rw [tablesIn]
    simp only [List.length_append, tablesIn_length n, List.length_cons, List.length_nil]
    omega

/-- a document with one node -/
theorem emit_single {cfg : Cfg} {n : HNode} {out : Str} {s' : ESt}
    (h : emitNode cfg [c!"document"] n (enter { kind := c!"document" } {}) = .ok (out, s')) (hs : s'.subst = []) :
    emit cfg (.mk { kind := c!"document" } [n]) = .ok (if cfg.lang = .rest then rstrip out else strip out) := by
  have hdoc : emitNode cfg [] (.mk { kind := c!"document" } [n]) {} = .ok (out, enter { kind := c!"document" } s') := by
    rw [emitNode_known (m := .document) (by cases cfg.lang <;> decide +kernel) (fun _ => .inl rfl)]
    unfold runMeth
    dsimp only
    by_cases hl : cfg.lang = .rest
    · rw [if_pos hl]
      unfold restDocument
      rw [bind_run, childrenM_run, show emitNodes cfg _ _ _ = _ from emitNodes_one h]
      dsimp only
      rw [bind_run, get_run]
      dsimp only
      rw [if_neg (fun h => h hs)]
      rfl
    · rw [if_neg hl, childrenM_run, show emitNodes cfg _ _ _ = _ from emitNodes_one h]
  rw [emit_eq, hdoc]

/-- **C98.**  Tables in tables: the letter in `n + 1` tables is written `2 ^ n` times, although the HTML has only `33 * n + 34`
characters.  This goes for all four converters and all options. -/
theorem C98_tables_in_tables (cfg : Cfg) (n : Nat) :
    (tablesIn (n + 1)).length = 33 * n + 34 ∧ ∃ text, convert cfg (tablesIn (n + 1)) = .ok text ∧ text.count 'a' = 2 ^ n := by
  refine ⟨by rw [tablesIn_length]; omega, ?_⟩
  have hp := C60_parse_written [tabsHt (n + 1)] (tabsHt_neat n) (tabsHt_wf (n + 1)) (a := []) (b := []) (fun _ h => by cases h) (fun _ h => by cases h)
  rw [tabsHt_nodes, List.nil_append, List.append_nil, written, written, List.append_nil, tabsHt_written] at hp
  obtain ⟨out, row, h1, h2, h3⟩ := tabs_emit cfg n
  obtain ⟨s', h4, h5, h6⟩ := h1 [c!"document"] (enter { kind := c!"document" } {}) rfl
  unfold convert
  rw [hp]
  show ∃ text, emit cfg _ = .ok text ∧ _
  rw [emit_single h4 h5]
  refine ⟨_, rfl, ?_⟩
  rw [count_kept]
  split
  · rw [kept_rstrip, h3, List.count_replicate_self]
  · rw [kept_strip, h3, List.count_replicate_self]

/-- For two tables the letter is written twice, for three four times. -/
example : Emit.html2creole (tablesIn 2) = .ok c!"| a | | a | |" ∧
    Emit.html2creole (tablesIn 3) = .ok c!"| a | | a | | | a | | a | | |" := by decide +kernel

/-! ## Headings in headings -/

/-- the document of `headingsIn` -/
def headsHt : Nat → Ht
  | 0 => .text c!"a"
  | n + 1 => .el c!"h1" [] [headsHt n]

theorem headsHt_written : ∀ n, (headsHt n).print = headingsIn n
  | 0 => by rw [headsHt, Ht.print]; decide
  | n + 1 => by
    rw [headsHt, headingsIn]
    simp only [Ht.print, written, headsHt_written n, tagStart, List.flatMap_nil, List.append_nil, List.append_assoc]
    rfl

theorem headsHt_ok : ∀ n, (headsHt n).ok = true
  | 0 => by rw [headsHt, Ht.ok]
  | n + 1 => by
    rw [headsHt]
    simp only [Ht.ok, okL, headsHt_ok n, Bool.and_true, List.all_nil]
    decide

theorem headsHt_spaced : ∀ (n : Nat) (b : Before) (l : List Bit), spaced b ((headsHt (n + 1)).bits ++ l) = spaced .block l
  | 0, b, l => by
    rw [headsHt, headsHt]
    simp only [Ht.bits, bitsL, List.append_nil, List.cons_append, List.map_cons, List.map_nil, List.nil_append,
      show isBlock c!"h1" = true by decide, if_true, spaced, show isSpace 'a' = false by decide]
    rfl
  | n + 1, b, l => by
    rw [headsHt]
    simp only [Ht.bits, bitsL, List.append_nil, List.cons_append, List.append_assoc, List.nil_append, show isBlock c!"h1" = true by decide, if_true]
    rw [spaced, headsHt_spaced n]
    simp only [spaced]

theorem headsHt_neat (n : Nat) : neat [headsHt (n + 1)] = true := by
  have h1 := headsHt_ok (n + 1)
  have h2 := headsHt_spaced n .block []
  have h3 : bareEdges (bitsL [headsHt (n + 1)]) = true := by
    rw [headsHt]
    simp only [Ht.bits, bitsL, List.append_nil, bareEdges, List.head?_cons, List.getLast?_cons, List.getLast?_append]
    rfl
  rw [neat, h3, okL, h1, okL, bitsL, bitsL, h2]
  rfl

theorem headsHt_events : ∀ n, eventsL (elsL [headsHt n]) =
    List.replicate n (.start c!"h1" []) ++ .data c!"a" :: List.replicate n (.end_ c!"h1")
  | 0 => by rw [headsHt, elsL, elsL, Ht.els]; rfl
  | n + 1 => by
    rw [headsHt, els_one (by decide), eventsL, eventsL, El.events, headsHt_events n, List.replicate_succ' (n := n) (a := Event.end_ _),
      List.replicate_succ]
    simp

/-- the nodes of `headingsIn` around a node -/
def headsNode (x : HNode) : Nat → HNode
  | 0 => x
  | n + 1 => .mk { kind := c!"headline", level := some 1 } [headsNode x n]

theorem headsNode_in (x : HNode) : ∀ n, headsNode (.mk { kind := c!"headline", level := some 1 } [x]) n = headsNode x (n + 1)
  | 0 => rfl
  | n + 1 => by rw [headsNode, headsNode_in x n]; rfl

/-- an open heading -/
def openHead : Frame := { info := { kind := c!"headline", level := some 1 } }

theorem upto_heads (x : HNode) : ∀ n, uptoFrames { openHead with done := [x] } (List.replicate n openHead ++ [{ info := { kind := c!"document" } }]) =
    ({ info := { kind := c!"document" }, done := [headsNode x (n + 1)] }, [])
  | 0 => by
    rw [List.replicate_zero, List.nil_append, uptoFrames]
    show (if upKinds.contains c!"document" = true then _ else _) = _
    rw [if_pos (by decide)]
    rfl
  | n + 1 => by
    rw [List.replicate_succ, List.cons_append, uptoFrames]
    show (if upKinds.contains c!"headline" = true then _ else _) = _
    rw [if_neg (by decide)]
    have := upto_heads (.mk { kind := c!"headline", level := some 1 } [x]) n
    rw [headsNode_in] at this
    exact this

theorem starts_fold (bd : List Str) : ∀ (n : Nat) (k : Nat), (List.replicate n (Event.start c!"h1" [])).foldlM (handle bd)
      { top := openHead, below := List.replicate k openHead ++ [{ info := { kind := c!"document" } }] } =
    .ok { top := openHead, below := List.replicate (n + k) openHead ++ [{ info := { kind := c!"document" } }] }
  | 0, k => by rw [List.replicate_zero, List.foldlM_nil, Nat.zero_add]; rfl
  | n + 1, k => by
    rw [List.replicate_succ, List.foldlM_cons]
    show List.foldlM (handle bd) { top := openHead, below := List.replicate (k + 1) openHead ++ [{ info := { kind := c!"document" } }] } _ = _
    rw [starts_fold bd n (k + 1)]
    congr 3
    congr 1
    omega

theorem ends_fold (bd : List Str) (f : Frame) : ∀ n : Nat, (List.replicate n (Event.end_ c!"h1")).foldlM (handle bd) { top := f } =
    .ok { top := f }
  | 0 => rfl
  | n + 1 => by
    rw [List.replicate_succ, List.foldlM_cons]
    exact ends_fold bd f n

theorem heads_end (n : Nat) : handle [] { top := { openHead with done := [tabsNode 0] }, below := List.replicate n openHead ++ [{ info := { kind := c!"document" } }] } (.end_ c!"h1") =
      .ok { top := { info := { kind := c!"document" }, done := [headsNode (tabsNode 0) (n + 1)] } } := by
  unfold handle
  dsimp only
  unfold handleEnd
  rw [if_neg (by decide), if_neg (by decide)]
  dsimp only
  rw [if_pos (by decide), if_neg (by decide)]
  unfold PSt.goUp
  dsimp only
  rw [if_neg (by decide), upto_heads]

theorem fold_ok {α β : Type} {f : β → α → Except PyErr β} {x : α} {xs : List α} {b b' : β} (h : f b x = .ok b') :
    (x :: xs).foldlM f b = xs.foldlM f b' := by
  rw [List.foldlM_cons, h]
  rfl

theorem fold_ok_append {α β : Type} {f : β → α → Except PyErr β} {xs ys : List α} {b b' : β} (h : xs.foldlM f b = .ok b') :
    (xs ++ ys).foldlM f b = ys.foldlM f b' := by
  rw [List.foldlM_append, h]
  rfl

theorem heads_run (n : Nat) : runEvents [] (eventsL (elsL [headsHt (n + 1)])) none =
    .ok (.mk { kind := c!"document" } [headsNode (tabsNode 0) (n + 1)]) := by
  have h := starts_fold [] n 0
  rw [Nat.add_zero] at h
  have hf : (eventsL (elsL [headsHt (n + 1)])).foldlM (handle []) {} =
      .ok { top := { info := { kind := c!"document" }, done := [headsNode (tabsNode 0) (n + 1)] } } := by
    rw [headsHt_events, List.replicate_succ, List.cons_append]
    rw [fold_ok (b' := { top := openHead, below := List.replicate 0 openHead ++ [{ info := { kind := c!"document" } }] }) rfl]
    rw [fold_ok_append h]
    rw [fold_ok (b' := { top := { openHead with done := [tabsNode 0] }, below := List.replicate n openHead ++ [{ info := { kind := c!"document" } }] }) (by rw [tabsNode]; rfl)]
    rw [List.replicate_succ, fold_ok (heads_end n)]
    exact ends_fold [] _ n
  unfold runEvents
  rw [hf]
  rfl

theorem heads_emit (cfg : Cfg) (hl : cfg.lang = .rest) : ∀ (n : Nat) (anc : List Str) (s : ESt), s.subst = [] →
    ∃ out s', emitNode cfg anc (headsNode (tabsNode 0) n) s = .ok (out, s') ∧ s'.subst = [] ∧ 3 ^ n ≤ (kept false out).length
  | 0, anc, s, h => ⟨_, _, emit_data_a cfg anc s h, h, by decide⟩
  | n + 1, anc, s, h => by
    obtain ⟨t, s1, h1, h2, h3⟩ := heads_emit cfg hl n (c!"headline" :: anc) (enter { kind := c!"headline", level := some 1 } s) h
    refine ⟨List.replicate t.length '=' ++ '\n' :: t ++ '\n' :: List.replicate t.length '=' ++ c!"\n\n",
      enter { kind := c!"headline", level := some 1 } s1, ?_, ?_⟩
    · rw [headsNode, emitNode_known (m := .headline) (by cases cfg.lang <;> decide +kernel) (fun _ => .inl h)]
      unfold runMeth headlineEmit
      simp only [hl]
      unfold restHeadline
      rw [bind_run, childrenM_run, show emitNodes cfg _ _ _ = _ from emitNodes_one h1]
      rfl
    · refine ⟨h2, ?_⟩
      have hk : kept false (List.replicate t.length '=') = List.replicate t.length '=' := by
        unfold kept
        rw [List.filter_eq_self]
        intro c hc
        rw [List.eq_of_mem_replicate hc]
        decide
      have ht : (kept false t).length ≤ t.length := List.length_filter_le ..
      have e : List.replicate t.length '=' ++ '\n' :: t ++ '\n' :: List.replicate t.length '=' ++ c!"\n\n" =
          List.replicate t.length '=' ++ (c!"\n" ++ (t ++ (c!"\n" ++ (List.replicate t.length '=' ++ c!"\n\n")))) := by simp
      rw [e]
      simp only [kept_append, hk, List.length_append, List.length_replicate]
      rw [Nat.pow_succ]
      omega

theorem headingsIn_length : ∀ n, (headingsIn n).length = 9 * n + 1
  | 0 => rfl
  | n + 1 => by
    rw [headingsIn]
    simp only [List.length_append, headingsIn_length n, List.length_cons, List.length_nil]
    omega

/-- **C98.**  html2rest, headings in headings: the HTML has `9 * n + 10` characters and the result at least `3 ^ n`. -/
theorem C98_headings_in_headings (cfg : Cfg) (hl : cfg.lang = .rest) (n : Nat) :
    (headingsIn (n + 1)).length = 9 * n + 10 ∧ ∃ text, convert cfg (headingsIn (n + 1)) = .ok text ∧ 3 ^ (n + 1) ≤ text.length := by
  refine ⟨by rw [headingsIn_length]; omega, ?_⟩
  have hp : parseHtml (headingsIn (n + 1)) = .ok (.mk { kind := c!"document" } [headsNode (tabsNode 0) (n + 1)]) := by
    have h := preprocess_doc (headsHt_neat n)
    rw [written, written, List.append_nil, headsHt_written] at h
    unfold parseHtml
    rw [h]
    dsimp only
    rw [run_doc [] (by rw [okL, headsHt_ok]; rfl)]
    exact heads_run n
  obtain ⟨out, s', h4, h5, h6⟩ := heads_emit cfg hl (n + 1) [c!"document"] (enter { kind := c!"document" } {}) rfl
  unfold convert
  rw [hp]
  show ∃ text, emit cfg _ = .ok text ∧ _
  rw [emit_single h4 h5, if_pos hl]
  refine ⟨_, rfl, ?_⟩
  have : (kept false (rstrip out)).length ≤ (rstrip out).length := List.length_filter_le ..
  rw [kept_rstrip] at this
  omega

example : html2rest (headingsIn 2) = .ok c!"=======\n=\na\n=\n\n\n=======" := by decide +kernel

end Verif.Props
