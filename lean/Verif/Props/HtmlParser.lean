import Verif.Html.ParserLemmas

/-!
# C27, C28, C29: the HTML parser

The parser is driven by the handler calls ("events") of the tokenizer of the standard library.  The theorems range over
every sequence of events, so they hold for the events of every document.
-/

namespace Verif.Props

open Verif Py Html Spec

/-! ## Lemmas -/

def ownText (i : HInfo) : List (Str × Str) :=
  match i.content with
  | some c => if i.kind = c!"data" ∨ i.kind = c!"charref" ∨ i.kind = c!"entityref" then [(i.kind, c)] else []
  | none => []

def ownLevel (i : HInfo) : List (Str × Int) :=
  match i.level with
  | some l => if i.kind = c!"li" ∨ i.kind = c!"ul" ∨ i.kind = c!"ol" then [(i.kind, l)] else []
  | none => []

mutual

theorem texts_eq : ∀ n : HNode, texts n = coll ownText n
  | .mk i ch => by rw [texts, coll, textsL_eq ch]; rfl

theorem textsL_eq : ∀ l : List HNode, textsL l = collL ownText l
  | [] => rfl
  | n :: ns => by rw [textsL, collL, texts_eq n, textsL_eq ns]

end

mutual

theorem listLevels_eq : ∀ n : HNode, listLevels n = coll ownLevel n
  | .mk i ch => by rw [listLevels, coll, listLevelsL_eq ch]; rfl

theorem listLevelsL_eq : ∀ l : List HNode, listLevelsL l = collL ownLevel l
  | [] => rfl
  | n :: ns => by rw [listLevelsL, collL, listLevels_eq n, listLevelsL_eq ns]

end

theorem placeholder_shape {bd : List Str} {tag : Str} {attrs : Dict (Option Str)} {i : HInfo}
    (h : placeholderNode bd tag attrs = .ok i) : ∃ typ c, i = { kind := tag ++ '_' :: typ, content := some c } := by
  unfold placeholderNode at h
  simp only [bind, Except.bind] at h
  repeat' split at h
  all_goals first
    | (simp only [pure, Except.pure, Except.ok.injEq] at h; exact ⟨_, _, h.symm⟩)
    | simp at h
    | skip
  all_goals
    split at h
    · simp only [pure, Except.pure, Except.ok.injEq] at h
      exact ⟨_, _, h.symm⟩
    · simp at h

/-- the number of lists that are open after an event -/
def levelStep (n : Int) : Event → Int
  | .start tag _ => if isList tag then n + 1 else n
  | .end_ tag => if isList tag then n - 1 else n
  | _ => n

/-- the list element an event starts -/
def levelEvent (n : Int) : Event → List (Str × Int)
  | .start tag _ => if isList tag then [(tag, n + 1)] else if tag = c!"li" then [(tag, n)] else []
  | _ => []

theorem announced_cons (n : Int) (e : Event) (evs : List Event) :
    announcedLevels n (e :: evs) = levelEvent n e ++ announcedLevels (levelStep n e) evs := by
  cases e with
  | start tag attrs =>
    simp only [announcedLevels, levelEvent, levelStep, isList]
    by_cases h : tag = c!"ul" ∨ tag = c!"ol"
    · have : (decide (tag = c!"ul") || decide (tag = c!"ol")) = true := by simpa using h
      simp [h, this]
    · have : (decide (tag = c!"ul") || decide (tag = c!"ol")) = false := by simpa using h
      simp only [h, this, if_false, Bool.false_eq_true]
      split <;> simp
  | end_ tag =>
    simp only [announcedLevels, levelEvent, levelStep, isList]
    by_cases h : tag = c!"ul" ∨ tag = c!"ol"
    · have : (decide (tag = c!"ul") || decide (tag = c!"ol")) = true := by simpa using h
      simp [h, this]
    · have : (decide (tag = c!"ul") || decide (tag = c!"ol")) = false := by simpa using h
      simp [h, this]
  | _ => rfl

theorem ownText_startInfo (l : Int) (tag : Str) (attrs : List (Str × Option Str)) :
    ownText (startInfo l tag attrs) = [] := by
  unfold startInfo
  cases headline? tag with
  | some n => rfl
  | none =>
    simp only
    split <;> rfl

theorem ownLevel_startInfo (n : Int) (tag : Str) (attrs : List (Str × Option Str)) :
    ownLevel (startInfo (if isList tag then n + 1 else n) tag attrs) = levelEvent n (.start tag attrs) := by
  unfold startInfo
  have hl : tag = c!"li" ∨ tag = c!"ul" ∨ tag = c!"ol" → headline? tag = none := fun hh => by
    apply headline_none; rcases hh with hh | hh | hh <;> simp [hh]
  cases hh : headline? tag with
  | some m =>
    have h1 : ¬ (tag = c!"li" ∨ tag = c!"ul" ∨ tag = c!"ol") := fun e => by rw [hl e] at hh; simp at hh
    simp only [not_or] at h1
    simp [ownLevel, levelEvent, isList, h1]
  | none =>
    by_cases h1 : tag = c!"li"
    · subst h1; rfl
    · by_cases h2 : tag = c!"ul"
      · subst h2; rfl
      · by_cases h3 : tag = c!"ol"
        · subst h3; rfl
        · simp [ownLevel, levelEvent, isList, h1, h2, h3]

theorem open_level (s : PSt) (i : HInfo) : (s.open i).listLevel = s.listLevel := by unfold PSt.open; split <;> rfl
theorem goUp_level (s : PSt) : s.goUp.listLevel = s.listLevel := by unfold PSt.goUp; split <;> rfl
theorem up_level (s : PSt) : s.up.listLevel = s.listLevel := by
  unfold PSt.up
  split
  · rfl
  · split <;> rfl

/-- One event: what it adds, as long as the document itself is not closed. -/
theorem handle_good {bd : List Str} {s s' : PSt} {e : Event} {st : List Str} (hs : Good s)
    (ho : openStep s.stack e = some st) (h : handle bd s e = .ok s') :
    Good s' ∧ s'.stack = st ∧ s'.col ownText = s.col ownText ++ (eventText e).toList ∧
      s'.listLevel = levelStep s.listLevel e ∧ s'.col ownLevel = s.col ownLevel ++ levelEvent s.listLevel e := by
  have hlf : ∀ i : HInfo, Good (s.leaf (.mk i [])) ∧ (s.leaf (.mk i [])).stack = s.stack ∧
      (s.leaf (.mk i [])).col ownText = s.col ownText ++ ownText i ∧ (s.leaf (.mk i [])).listLevel = s.listLevel ∧
      (s.leaf (.mk i [])).col ownLevel = s.col ownLevel ++ ownLevel i := fun i => by
    refine ⟨(hs.leaf _).1, (hs.leaf _).2, ?_, ?_, ?_⟩
    · rw [col_leaf _ hs.notLost]; simp [coll, collL]
    · unfold PSt.leaf; split <;> rfl
    · rw [col_leaf _ hs.notLost]; simp [coll, collL]
  cases e with
  | data d =>
    simp only [openStep, Option.some.injEq] at ho
    simp only [handle, Except.ok.injEq] at h
    subst ho; subst h
    exact hlf _
  | charref d =>
    simp only [openStep, Option.some.injEq] at ho
    simp only [handle, Except.ok.injEq] at h
    subst ho; subst h
    exact hlf _
  | entityref d =>
    simp only [openStep, Option.some.injEq] at ho
    simp only [handle, Except.ok.injEq] at h
    subst ho; subst h
    exact hlf _
  | startend tag attrs =>
    simp only [openStep, Option.some.injEq] at ho
    subst ho
    simp only [handle, handleStartEnd] at h
    split at h
    · rename_i ht
      cases hp : placeholderNode bd tag (dictOf attrs) with
      | error e => rw [hp] at h; simp [bind, Except.bind] at h
      | ok i =>
        rw [hp] at h
        simp only [bind, Except.bind, pure, Except.pure, Except.ok.injEq] at h
        subst h
        obtain ⟨typ, c, hi⟩ := placeholder_shape hp
        have h1 : ownText i = [] := by
          rw [hi]
          have : tag = c!"blockdata" ∨ tag = c!"inlinedata" := by
            simp only [Bool.or_eq_true, decide_eq_true_eq] at ht
            exact ht
          rcases this with rfl | rfl <;> simp [ownText]
        have h2 : ownLevel i = [] := by rw [hi]; rfl
        have := hlf i
        rw [h1, h2] at this
        exact this
    · simp only [Except.ok.injEq] at h
      subst h
      exact hlf _
  | start tag attrs =>
    simp only [handle, Except.ok.injEq] at h
    by_cases ht : tag = c!"tbody" ∨ tag = c!"img" ∨ tag = c!"br"
    · have hst : st = s.stack := by simpa [openStep, ht] using ho.symm
      subst hst
      rcases ht with rfl | ht
      · rw [handleStart_ignore] at h
        subst h
        refine ⟨hs, rfl, ?_, rfl, ?_⟩
        · show _ = _ ++ []; simp
        · show _ = _ ++ []; simp
      · rw [handleStart_leaf s tag attrs ht] at h
        subst h
        rcases ht with rfl | rfl
        · exact hlf _
        · exact hlf _
    · have hst : st = kindOf tag :: s.stack := by simpa [openStep, ht] using ho.symm
      rw [handleStart_open s tag attrs ht] at h
      subst h
      have hg := setLevel_good hs (if isList tag then s.listLevel + 1 else s.listLevel)
      refine ⟨(hg.open _).1, ?_, ?_, ?_, ?_⟩
      · rw [(hg.open _).2, startInfo_kind, hst]; rfl
      · rw [col_open _ hg.notLost, ownText_startInfo]; rfl
      · rw [open_level]; rfl
      · rw [col_open _ hg.notLost, ownLevel_startInfo]; rfl
  | end_ tag =>
    simp only [handle, Except.ok.injEq] at h
    rw [handleEnd_eq] at h
    simp only [openStep] at ho
    by_cases ht : tag = c!"tbody" ∨ tag = c!"br"
    · rw [if_pos ht] at h ho
      simp only [Option.some.injEq] at ho
      subst h; subst ho
      have hl : isList tag = false := by rcases ht with rfl | rfl <;> rfl
      refine ⟨hs, rfl, ?_, ?_, ?_⟩
      · show _ = _ ++ []; simp
      · simp [levelStep, hl]
      · show _ = _ ++ []; simp
    · rw [if_neg ht] at h ho
      by_cases hb : blockNames.contains tag = true
      · rw [if_pos hb] at h ho
        simp only [Option.some.injEq] at ho
        subst h; subst ho
        have hg := setLevel_good hs (if isList tag then s.listLevel - 1 else s.listLevel)
        refine ⟨hg.goUp.1, hg.goUp.2, ?_, ?_, ?_⟩
        · rw [col_goUp]; show _ = _ ++ []; simp [PSt.col]
        · rw [goUp_level]; rfl
        · rw [col_goUp]; show _ = _ ++ []; simp [PSt.col]
      · rw [if_neg hb] at h ho
        subst h
        have hl : isList tag = false := by
          cases hi : isList tag
          · rfl
          · rw [isList_iff] at hi
            exfalso; apply hb
            rcases hi with rfl | rfl <;> rfl
        rcases hs.up with ⟨h1, -, -⟩ | ⟨k, st', h1, h2, h3⟩
        · rw [h1] at ho; simp at ho
        · rw [h1] at ho
          simp only [Option.some.injEq] at ho
          subst ho
          refine ⟨h2, h3, ?_, ?_, ?_⟩
          · rw [col_up]; show _ = _ ++ []; simp
          · rw [up_level]; simp [levelStep, hl]
          · rw [col_up]; show _ = _ ++ []; simp

theorem run_good {bd : List Str} : ∀ {evs : List Event} {s s' : PSt} {st : List Str}, Good s →
    evs.foldlM openStep s.stack = some st → evs.foldlM (handle bd) s = .ok s' →
    Good s' ∧ s'.stack = st ∧ s'.col ownText = s.col ownText ++ evs.filterMap eventText ∧
      s'.col ownLevel = s.col ownLevel ++ announcedLevels s.listLevel evs
  | [], s, s', st, hs, ho, h => by
    simp only [List.foldlM, pure, Except.pure, Except.ok.injEq, Option.some.injEq] at h ho
    subst h; subst ho
    simp [announcedLevels, hs]
  | e :: evs, s, s', st, hs, ho, h => by
    simp only [List.foldlM_cons] at h ho
    cases h1 : handle bd s e with
    | error x => rw [h1] at h; simp [bind, Except.bind] at h
    | ok s1 =>
      cases h2 : openStep s.stack e with
      | none => rw [h2] at ho; simp at ho
      | some st1 =>
        rw [h1] at h; rw [h2] at ho
        simp only [bind, Except.bind, Option.bind] at h ho
        obtain ⟨g1, g2, g3, g4, g5⟩ := handle_good hs h2 h1
        rw [← g2] at ho
        obtain ⟨k1, k2, k3, k4⟩ := run_good g1 ho h
        refine ⟨k1, k2, ?_, ?_⟩
        · rw [k3, g3]
          cases ht : eventText e <;> simp [List.filterMap_cons, ht]
        · rw [k4, g5, g4, announced_cons]; simp

theorem good_init : Good {} := ⟨rfl, rfl⟩

theorem runEvents_ok {bd : List Str} {evs : List Event} {root : HNode} (h : runEvents bd evs none = .ok root) :
    ∃ s, evs.foldlM (handle bd) {} = .ok s ∧ s.root = root := by
  unfold runEvents at h
  cases h1 : evs.foldlM (handle bd) {} with
  | error x => rw [h1] at h; simp [bind, Except.bind] at h
  | ok s =>
    rw [h1] at h
    simp only [bind, Except.bind, pure, Except.pure, Except.ok.injEq] at h
    exact ⟨s, rfl, h⟩

/-! ## C27 -/

/-- **C27.**  As long as no end tag closes the document itself, the tree contains every text, character reference and
entity reference, in document order, and no others. -/
theorem C27_texts_complete (bd : List Str) (evs : List Event) (stack : List Str) (root : HNode)
    (ho : openAfter evs = some stack) (h : runEvents bd evs none = .ok root) : texts root = evs.filterMap eventText := by
  obtain ⟨s, h1, h2⟩ := runEvents_ok h
  have := (run_good good_init ho h1).2.2.1
  rw [texts_eq, ← h2, col_root, this]
  rfl

/-- The events of `<p>a <b>&lt; b</i></b> c</p>`, with a stray end tag inside. -/
example : ∃ root, runEvents [] [.start c!"p" [], .data c!"a ", .start c!"b" [], .entityref c!"lt", .data c!" b", .end_ c!"i",
      .end_ c!"b", .data c!" c", .end_ c!"p"] none = .ok root ∧
    openAfter [.start c!"p" [], .data c!"a ", .start c!"b" [], .entityref c!"lt", .data c!" b", .end_ c!"i",
      .end_ c!"b", .data c!" c", .end_ c!"p"] = some [] ∧
    texts root = [(c!"data", c!"a "), (c!"entityref", c!"lt"), (c!"data", c!" b"), (c!"data", c!" c")] :=
  ⟨_, rfl, by decide +kernel, by rfl⟩

/-! ## C28 -/

theorem lost_handle {bd : List Str} {s s' : PSt} {e : Event} (hl : s.lost = true) (h : handle bd s e = .ok s') :
    s'.lost = true ∧ s'.root = s.root := by
  have hleaf : ∀ n : HNode, s.leaf n = s := fun n => by simp [PSt.leaf, hl]
  cases e with
  | data d => simp only [handle, Except.ok.injEq] at h; subst h; simp [PSt.addLeaf, hleaf, hl]
  | charref d => simp only [handle, Except.ok.injEq] at h; subst h; simp [PSt.addLeaf, hleaf, hl]
  | entityref d => simp only [handle, Except.ok.injEq] at h; subst h; simp [PSt.addLeaf, hleaf, hl]
  | startend tag attrs =>
    simp only [handle, handleStartEnd] at h
    split at h
    · cases hp : placeholderNode bd tag (dictOf attrs) with
      | error e => rw [hp] at h; simp [bind, Except.bind] at h
      | ok i =>
        rw [hp] at h
        simp only [bind, Except.bind, pure, Except.pure, Except.ok.injEq] at h
        subst h; simp [PSt.addLeaf, hleaf, hl]
    · simp only [Except.ok.injEq] at h
      subst h; simp [PSt.addLeaf, hleaf, hl]
  | start tag attrs =>
    simp only [handle, Except.ok.injEq] at h
    by_cases ht : tag = c!"tbody" ∨ tag = c!"img" ∨ tag = c!"br"
    · rcases ht with rfl | ht
      · rw [handleStart_ignore] at h; subst h; exact ⟨hl, rfl⟩
      · rw [handleStart_leaf s tag attrs ht, hleaf] at h; subst h; exact ⟨hl, rfl⟩
    · rw [handleStart_open s tag attrs ht] at h
      subst h
      simp [PSt.open, hl, PSt.root]
  | end_ tag =>
    simp only [handle, Except.ok.injEq] at h
    rw [handleEnd_eq] at h
    subst h
    split
    · exact ⟨hl, rfl⟩
    · split
      · simp [PSt.goUp, hl, PSt.root]
      · simp [PSt.up, hl, PSt.root]

theorem lost_run {bd : List Str} : ∀ {evs : List Event} {s s' : PSt}, s.lost = true → evs.foldlM (handle bd) s = .ok s' →
    s'.lost = true ∧ s'.root = s.root
  | [], s, s', hl, h => by
    simp only [List.foldlM, pure, Except.pure, Except.ok.injEq] at h
    subst h; exact ⟨hl, rfl⟩
  | e :: evs, s, s', hl, h => by
    simp only [List.foldlM_cons] at h
    cases h1 : handle bd s e with
    | error x => rw [h1] at h; simp [bind, Except.bind] at h
    | ok s1 =>
      rw [h1] at h
      simp only [bind, Except.bind] at h
      obtain ⟨k1, k2⟩ := lost_handle hl h1
      obtain ⟨k3, k4⟩ := lost_run k1 h
      exact ⟨k3, k4.trans k2⟩

/-- **C28.**  Let an inline end tag occur where no element is open.  Whatever follows, if the parser returns at all it
returns the tree of what precedes the tag: the rest of the document is dropped. -/
theorem C28_stray_end_drops_rest (bd : List Str) (before after : List Event) (tag : Str) (root : HNode)
    (ho : openAfter before = some []) (htag : tag ≠ c!"tbody" ∧ tag ∉ blockNames)
    (h : runEvents bd (before ++ .end_ tag :: after) none = .ok root) : runEvents bd before none = .ok root := by
  obtain ⟨s, h1, h2⟩ := runEvents_ok h
  rw [List.foldlM_append] at h1
  cases hb : before.foldlM (handle bd) {} with
  | error x => rw [hb] at h1; simp [bind, Except.bind] at h1
  | ok s0 =>
    rw [hb] at h1
    simp only [bind, Except.bind, List.foldlM_cons, handle] at h1
    obtain ⟨g1, g2, -, -⟩ := run_good good_init ho hb
    have hbr : tag ≠ c!"br" := fun e => htag.2 (by rw [e]; decide)
    have he : handleEnd s0 tag = s0.up := by
      rw [handleEnd_eq, if_neg (by simp [htag.1, hbr]), if_neg (by simpa using htag.2)]
    rw [he] at h1
    rcases g1.up with ⟨-, k2, k3⟩ | ⟨k, st', k1, -, -⟩
    · obtain ⟨-, k4⟩ := lost_run k2 h1
      unfold runEvents
      rw [hb]
      simp only [bind, Except.bind, pure, Except.pure]
      rw [← h2, k4, k3]
    · rw [g2] at k1; simp at k1

/-- Everything after the stray `</b>` is gone. -/
example : ∃ root, runEvents [] ([.start c!"p" [], .data c!"a", .end_ c!"p"] ++ .end_ c!"b" :: [.start c!"p" [], .data c!"lost",
      .end_ c!"p"]) none = .ok root ∧ texts root = [(c!"data", c!"a")] ∧
    openAfter [.start c!"p" [], .data c!"a", .end_ c!"p"] = some [] :=
  ⟨_, rfl, by rfl, by decide +kernel⟩

/-! ## C29 -/

/-- **C29.**  As long as no end tag closes the document itself, every list element carries as level the number of lists
that were started before it and not ended (`ul` and `ol` count themselves). -/
theorem C29_levels_running (bd : List Str) (evs : List Event) (stack : List Str) (root : HNode)
    (ho : openAfter evs = some stack) (h : runEvents bd evs none = .ok root) :
    listLevels root = announcedLevels 0 evs := by
  obtain ⟨s, h1, h2⟩ := runEvents_ok h
  have := (run_good good_init ho h1).2.2.2
  rw [listLevels_eq, ← h2, col_root, this]
  rfl

/-! ## Well-formed documents -/

/-- add finished nodes to the current one -/
def addDone (s : PSt) (ns : List HNode) : PSt := { s with top := { s.top with done := ns.reverse ++ s.top.done } }

theorem addDone_append (s : PSt) (a b : List HNode) : addDone (addDone s a) b = addDone s (a ++ b) := by
  simp [addDone]

theorem addDone_nil (s : PSt) : addDone s [] = s := by
  obtain ⟨⟨i, d⟩, below, lost, lvl⟩ := s
  simp [addDone]

theorem leaf_eq_addDone {s : PSt} (h : s.lost = false) (n : HNode) : s.leaf n = addDone s [n] := by
  simp [PSt.leaf, h, addDone]

/-- closing the element that was opened last -/
theorem end_after_start {s : PSt} (hl : s.lost = false) (i : HInfo) (tag : Str) (lvl lvl' : Int) (ns : List HNode)
    (h1 : tag ≠ c!"tbody") (h2 : tag ≠ c!"br") (hb : blockNames.contains tag = true → stops s.top.info.kind = true)
    (hlv : lvl' = if isList tag then lvl - 1 else lvl) :
    handleEnd (addDone ({ s with listLevel := lvl }.open i) ns) tag =
      { addDone s [.mk i ns] with listLevel := lvl' } := by
  obtain ⟨top, below, lost, lv⟩ := s
  simp only at hl
  subst hl
  rw [handleEnd_eq, if_neg (by simp [h1, h2])]
  split
  · rename_i hbt
    have hst : stops top.info.kind = true := hb hbt
    have hst' : upKinds.contains top.info.kind = true := by rw [upKinds_contains]; exact hst
    simp only [PSt.open, addDone, PSt.goUp, Bool.false_eq_true, if_false, uptoFrames, Frame.close, hst', if_true, Frame.node]
    simp [hlv]
  · rename_i hbt
    have hnl : isList tag = false := by
      cases hi : isList tag
      · rfl
      · rw [isList_iff] at hi
        exfalso; apply hbt
        rcases hi with rfl | rfl <;> rfl
    simp only [PSt.open, addDone, PSt.up, Bool.false_eq_true, if_false, Frame.close, Frame.node]
    simp [hlv, hnl]

theorem stops_kindOf_block {tag : Str} (h : (headline? tag).isSome) : stops (kindOf tag) = false := by
  unfold kindOf
  rw [if_pos h]
  decide +kernel

mutual

theorem run_el (bd : List Str) : ∀ (e : El) (s : PSt), s.lost = false → e.wf (stops s.top.info.kind) = true →
    e.events.foldlM (handle bd) s = .ok (addDone s (e.nodes s.listLevel))
  | .text d, s, hl, _ => by
    simp [El.events, El.nodes, List.foldlM, bind, Except.bind, pure, Except.pure, handle, PSt.addLeaf, leaf_eq_addDone hl]
  | .charref d, s, hl, _ => by
    simp [El.events, El.nodes, List.foldlM, bind, Except.bind, pure, Except.pure, handle, PSt.addLeaf, leaf_eq_addDone hl]
  | .entity d, s, hl, _ => by
    simp [El.events, El.nodes, List.foldlM, bind, Except.bind, pure, Except.pure, handle, PSt.addLeaf, leaf_eq_addDone hl]
  | .void tag attrs, s, hl, hw => by
    simp only [El.wf, Bool.and_eq_true, decide_eq_true_eq] at hw
    have hne : (decide (tag = blockPlaceholder) || decide (tag = inlinePlaceholder)) = false := by
      simp only [Bool.or_eq_false_iff, decide_eq_false_iff_not]
      exact ⟨hw.1, hw.2⟩
    simp [El.events, El.nodes, List.foldlM, bind, Except.bind, pure, Except.pure, handle, handleStartEnd, hne, PSt.addLeaf,
      leaf_eq_addDone hl]
  | .tbody ch, s, hl, hw => by
    simp only [El.wf] at hw
    have := run_els bd ch s hl hw
    simp only [El.events, El.nodes, List.foldlM_cons, List.foldlM_append, handle, handleStart_ignore]
    simp only [bind, Except.bind, this, List.foldlM_nil, pure, Except.pure, handleEnd_eq]
    simp
  | .elem tag attrs ch, s, hl, hw => by
    simp only [El.wf, Bool.and_eq_true, decide_eq_true_eq] at hw
    obtain ⟨⟨⟨⟨h1, h2⟩, h3⟩, h4⟩, h5⟩ := hw
    have h1 : tag ≠ c!"img" := by simpa using h1
    have h2 : tag ≠ c!"br" := by simpa using h2
    have h3 : tag ≠ c!"tbody" := by simpa using h3
    have hb : blockNames.contains tag = true → stops s.top.info.kind = true := fun hc => by
      rw [hc] at h4; simpa using h4
    simp only [El.events, List.foldlM_cons, List.foldlM_append, handle]
    rw [handleStart_open s tag attrs (by simp [h1, h2, h3])]
    generalize hlv : (if isList tag then s.listLevel + 1 else s.listLevel) = lvl
    generalize hi : startInfo lvl tag attrs = i
    have hik : i.kind = kindOf tag := by rw [← hi, startInfo_kind]
    have hlo : ({ s with listLevel := lvl }.open i).lost = false := by simp [PSt.open, hl]
    have htop : ({ s with listLevel := lvl }.open i).top.info.kind = kindOf tag := by simp [PSt.open, hl, hik]
    have hlevel : ({ s with listLevel := lvl }.open i).listLevel = lvl := by simp [PSt.open, hl]
    have hrec := run_els bd ch ({ s with listLevel := lvl }.open i) hlo (by rw [htop]; exact h5)
    rw [hlevel] at hrec
    simp only [bind, Except.bind, hrec, List.foldlM_nil, pure, Except.pure]
    rw [end_after_start hl i tag lvl s.listLevel _ h3 h2 hb (by rw [← hlv]; split <;> omega)]
    have hsl : ({ addDone s [HNode.mk i (nodesL lvl ch)] with listLevel := s.listLevel } : PSt) =
        addDone s [HNode.mk i (nodesL lvl ch)] := rfl
    rw [hsl]
    congr 2
    subst hi
    unfold El.nodes startInfo
    have hlist : tag = c!"ul" ∨ tag = c!"ol" → headline? tag = none := fun hh => by
      apply headline_none; rcases hh with hh | hh <;> simp [hh]
    cases hh : headline? tag with
    | some n =>
      have hnl : isList tag = false := by
        cases hi : isList tag
        · rfl
        · rw [isList_iff] at hi; rw [hlist hi] at hh; simp at hh
      rw [hnl] at hlv
      simp at hlv
      simp [hlv]
    | none =>
      by_cases g1 : tag = c!"ul" ∨ tag = c!"ol"
      · rw [(isList_iff tag).2 g1] at hlv
        simp at hlv
        have : tag = c!"li" ∨ tag = c!"ul" ∨ tag = c!"ol" := Or.inr g1
        simp [g1, hlv]
      · have hnl : isList tag = false := by
          cases hi : isList tag
          · rfl
          · exact absurd ((isList_iff tag).1 hi) g1
        rw [hnl] at hlv
        simp at hlv
        by_cases g2 : tag = c!"li"
        · have : tag = c!"li" ∨ tag = c!"ul" ∨ tag = c!"ol" := Or.inl g2
          simp [g2, hlv]
        · simp [g1, g2, hlv]

theorem run_els (bd : List Str) : ∀ (es : List El) (s : PSt), s.lost = false → wfL (stops s.top.info.kind) es = true →
    (eventsL es).foldlM (handle bd) s = .ok (addDone s (nodesL s.listLevel es))
  | [], s, _, _ => by simp [eventsL, nodesL, pure, Except.pure, addDone_nil]
  | e :: es, s, hl, hw => by
    simp only [wfL, Bool.and_eq_true] at hw
    have h1 := run_el bd e s hl hw.1
    have h2 := run_els bd es (addDone s (e.nodes s.listLevel)) hl hw.2
    simp only [eventsL, nodesL, List.foldlM_append]
    simp only [bind, Except.bind, h1]
    rw [h2, addDone_append]
    rfl

end

/-- **C27/C29, well-formed documents.**  A document whose block elements are only nested in block elements is parsed to
exactly its own tree; each list element carries the number of lists around it as level. -/
theorem C29_wellformed_tree (bd : List Str) (doc : List El) (hw : wfL true doc = true) :
    runEvents bd (eventsL doc) none = .ok (.mk { kind := c!"document" } (nodesL 0 doc)) := by
  have := run_els bd doc {} rfl hw
  unfold runEvents
  rw [this]
  simp [bind, Except.bind, pure, Except.pure, PSt.root, closeAll, addDone, Frame.node]

/-- A list in a list, with a headline and a table body. -/
example : wfL true [.elem c!"h2" [] [.text c!"T"], .elem c!"ul" [] [.elem c!"li" [] [.text c!"a", .elem c!"ol" []
    [.elem c!"li" [] [.elem c!"b" [] [.text c!"b"]]]]], .elem c!"table" [] [.tbody [.elem c!"tr" [] []]]] = true ∧
  nodesL 0 [.elem c!"ul" [] [.elem c!"li" [] [.elem c!"ol" [] [.elem c!"li" [] []]]]] =
    [.mk { kind := c!"ul", level := some 1 } [.mk { kind := c!"li", level := some 1 }
      [.mk { kind := c!"ol", level := some 2 } [.mk { kind := c!"li", level := some 2 } []]]]] :=
  ⟨by decide +kernel, by rfl⟩

/-- The condition on block elements matters: in `<i><p>x</p>y</i>` the text `y` is not inside `i`. -/
theorem C29_wellformed_needs_blocks :
    wfL true [.elem c!"i" [] [.elem c!"p" [] [.text c!"x"], .text c!"y"]] = false ∧
    runEvents [] (eventsL [.elem c!"i" [] [.elem c!"p" [] [.text c!"x"], .text c!"y"]]) none =
      .ok (.mk { kind := c!"document" } [.mk { kind := c!"i" } [.mk { kind := c!"p" }
        [.mk { kind := c!"data", content := some c!"x" } []]], .mk { kind := c!"data", content := some c!"y" } []]) :=
  ⟨by decide +kernel, by rfl⟩

end Verif.Props
