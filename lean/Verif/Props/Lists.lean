import Verif.Props.Typeface

/-!
# C36, C37: lists
-/

namespace Verif.Props

open Verif Py Html Emit Spec

/-! ## C36: documents that consist of a list -/

theorem core_innerList {s s' : ESt} (h : s'.core = s.core) : s'.innerList = s.innerList :=
  (show s'.core.innerList = s.core.innerList by rw [h])

theorem core_subst {s s' : ESt} (h : s'.core = s.core) : s'.subst = s.subst :=
  (show s'.core.subst = s.core.subst by rw [h])

theorem core_listMarkup {s s' : ESt} (h : s'.core = s.core) : s'.listMarkup = s.listMarkup :=
  (show s'.core.listMarkup = s.core.listMarkup by rw [h])

theorem emitNodes_append {cfg : Cfg} {anc : List Str} {a b : List HNode} {s s1 s2 : ESt} {t u : Str}
    (h1 : emitNodes cfg anc a s = .ok (t, s1)) (h2 : emitNodes cfg anc b s1 = .ok (u, s2)) :
    emitNodes cfg anc (a ++ b) s = .ok (t ++ u, s2) := by
  induction a generalizing s t with
  | nil =>
    rw [emitNodes_nil, pure_run] at h1
    cases h1
    exact h2
  | cons n a ih =>
    rw [emitNodes_cons] at h1
    obtain ⟨x, s3, h3, h4⟩ := bind_ok.mp h1
    obtain ⟨y, s4, h5, h6⟩ := bind_ok.mp h4
    obtain ⟨rfl, rfl⟩ := pure_ok.mp h6
    rw [List.cons_append, emitNodes_cons, bind_run, h3]
    dsimp only
    rw [bind_run, ih h5]
    dsimp only
    rw [pure_run, List.append_assoc]

/-- in creole and textile, the state knows the lists around the node -/
def ListCtx (cfg : Cfg) (ctx : List Bool) (s : ESt) : Prop :=
  cfg.lang ≠ .rest ∧ s.subst = [] ∧ (cfg.lang = .markdown ∨ s.innerList = itemPrefix .creole ctx)

theorem ListCtx.core {cfg : Cfg} {ctx : List Bool} {s s' : ESt} (h : ListCtx cfg ctx s) (hs : s'.core = s.core) :
    ListCtx cfg ctx s' :=
  ⟨h.1, by rw [core_subst hs]; exact h.2.1, by rw [core_innerList hs]; exact h.2.2⟩

/-- every line is preceded by a line end -/
def newLines (lines : List Str) : Str := lines.flatMap fun l => '\n' :: l

theorem newLines_append (a b : List Str) : newLines (a ++ b) = newLines a ++ newLines b := by simp [newLines]

theorem method_li (lang : Lang) : methodOf lang c!"li" = some .li := by cases lang <;> rfl

theorem method_list {lang : Lang} (h : lang ≠ .rest) (o : Bool) :
    methodOf lang (listTag o) = some (.list (if lang = .markdown then [] else if o then c!"#" else c!"*")) := by
  cases lang <;> cases o <;> first | rfl | exact absurd rfl h

theorem lstNode_kind (depth : Nat) (o : Bool) (items : List Item) :
    (Lst.mk o items).node depth = .mk { kind := listTag o, level := some ((depth : Int) + 1) } (itemNodes (depth + 1) items) := by
  rw [Lst.node]

/-- the text of a list, from the text of its items -/
def listText (lang : Lang) (start : Bool) (ctx : List Bool) (content : Str) : Str :=
  if ctx ≠ [] then content
  else if lang = .markdown then '\n' :: content ++ c!"\n"
  else if start then '\n' :: content ++ c!"\n\n" else strip content ++ c!"\n\n"

theorem itemPrefix_creole (ctx : List Bool) : itemPrefix .creole ctx = ctx.map fun o => if o then '#' else '*' := rfl

/-- a list, when its items are known; `ctx` are the outer lists -/
theorem list_emit {cfg : Cfg} {ctx : List Bool} {o : Bool} {items : List Item} {anc : List Str} {s : ESt} {content : Str}
    (hctx : ListCtx cfg ctx s)
    (hi : ∀ s', ListCtx cfg (ctx ++ [o]) s' →
      ∃ s1, emitNodes cfg (listTag o :: anc) (itemNodes (ctx.length + 1) items) s' = .ok (content, s1) ∧ s1.core = s'.core) :
    ∃ s', emitNode cfg anc ((Lst.mk o items).node ctx.length) s =
        .ok (listText cfg.lang (startNewline s.last) ctx content, s') ∧ s'.core = s.core := by
  obtain ⟨hr, hsub, hin⟩ := hctx
  rw [lstNode_kind, emitNode_known (i := { kind := listTag o, level := some ((ctx.length : Int) + 1) }) (method_list hr o)
    (fun h => absurd h hr)]
  by_cases hmd : cfg.lang = .markdown
  · simp only [runMeth, hmd]
    rw [mdList, bind_run, childrenM_run]
    obtain ⟨s1, h1, h2⟩ := hi (enter { kind := listTag o, level := some ((ctx.length : Int) + 1) } s) ⟨hr, hsub, .inl hmd⟩
    rw [h1]
    refine ⟨enter { kind := listTag o, level := some ((ctx.length : Int) + 1) } s1, ?_, h2⟩
    dsimp only
    cases ctx with
    | nil => rfl
    | cons c ctx =>
      rw [if_neg (by rw [Option.some.injEq, List.length_cons]; omega)]
      rfl
  · have hrun : ∀ ch, runMeth cfg anc { kind := listTag o, level := some ((ctx.length : Int) + 1) }
        (.list (if cfg.lang = .markdown then [] else if o then c!"#" else c!"*")) ch =
        baseList (if o then c!"#" else c!"*") ch := by
      intro ch
      rw [if_neg hmd]
      cases hl : cfg.lang with
      | creole => simp only [runMeth, hl]
      | textile => simp only [runMeth, hl]
      | markdown => exact absurd hl hmd
      | rest => exact absurd hl hr
    rw [hrun, baseList, bind_run, get_run]
    dsimp only
    rw [bind_run, modify_run]
    dsimp only
    rw [bind_run, childrenM_run]
    rcases hin with hin | hin
    · exact absurd hin hmd
    have hpush : s.innerList ++ (if o then c!"#" else c!"*") = itemPrefix .creole (ctx ++ [o]) := by
      rw [hin, itemPrefix_creole, itemPrefix_creole, List.map_append]
      cases o <;> rfl
    obtain ⟨s1, h1, h2⟩ := hi (enter { kind := listTag o, level := some ((ctx.length : Int) + 1) }
      { s with innerList := s.innerList ++ (if o then c!"#" else c!"*") }) ⟨hr, hsub, .inr hpush⟩
    rw [h1]
    dsimp only
    rw [bind_run, modify_run]
    dsimp only
    rw [bind_run, get_run]
    dsimp only
    have hs1 : s1.innerList.dropLast = s.innerList := by
      rw [core_innerList h2]
      show (s.innerList ++ (if o then c!"#" else c!"*")).dropLast = _
      cases o <;> simp
    have hcore : ({ s1 with innerList := s1.innerList.dropLast } : ESt).core = s.core := by
      rw [hs1]
      have : ({ s1 with innerList := s.innerList } : ESt).core = { s1.core with innerList := s.innerList } := rfl
      rw [this, h2]
      rfl
    rw [hs1] at hcore ⊢
    refine ⟨enter { kind := listTag o, level := some ((ctx.length : Int) + 1) } { s1 with innerList := s.innerList }, ?_, hcore⟩
    by_cases hc : ctx = []
    · have h0 : s.innerList = [] := by rw [hin, hc]; rfl
      rw [if_pos h0]
      simp only [listText, hc, ne_eq, not_true, if_false, hmd]
      by_cases hst : startNewline s.last = true
      · rw [if_pos hst, if_pos hst]; rfl
      · rw [if_neg hst, if_neg hst]; rfl
    · have h0 : s.innerList ≠ [] := by rw [hin, itemPrefix_creole]; simpa using hc
      rw [if_neg h0]
      simp only [listText, hc, ne_eq, not_false_eq_true, if_true]
      rfl

/-- an item, when its content is known -/
theorem item_emit {cfg : Cfg} {ctx : List Bool} {o : Bool} {text : List Inl} {subs : List Lst} {anc : List Str} {s : ESt} {sub : Str}
    (hctx : ListCtx cfg (ctx ++ [o]) s) (hok : inlOk cfg.lang text = true)
    (hi : ∀ s', ListCtx cfg (ctx ++ [o]) s' →
      ∃ s1, emitNodes cfg (c!"li" :: listTag o :: anc) (lstNodes (ctx.length + 1) subs) s' = .ok (sub, s1) ∧ s1.core = s'.core) :
    ∃ s', emitNode cfg (listTag o :: anc) ((Item.mk text subs).node (ctx.length + 1)) s =
        .ok ('\n' :: (itemPrefix cfg.lang (ctx ++ [o]) ++ c!" " ++ inlMarkup cfg.lang text) ++ sub, s') ∧ s'.core = s.core := by
  obtain ⟨hr, hsub, hin⟩ := hctx
  rw [Item.node, emitNode_known (i := { kind := c!"li", level := some ((ctx.length + 1 : Nat) : Int) }) (method_li _)
    (fun h => absurd h hr)]
  obtain ⟨s1, h1, h2⟩ := inls_emit cfg text hok (c!"li" :: listTag o :: anc)
    (enter { kind := c!"li", level := some ((ctx.length + 1 : Nat) : Int) } s) (.inl hsub)
  obtain ⟨s2, h3, h4⟩ := hi s1 (ListCtx.core ⟨hr, hsub, hin⟩ h2)
  have hc : childrenM cfg (listTag o :: anc) { kind := c!"li", level := some ((ctx.length + 1 : Nat) : Int) }
      (inlNodes text ++ lstNodes (ctx.length + 1) subs) s = .ok (inlMarkup cfg.lang text ++ sub, s2) := by
    rw [childrenM_run]
    exact emitNodes_append h1 h3
  have hcore : s2.core = s.core := h4.trans h2
  refine ⟨enter { kind := c!"li", level := some ((ctx.length + 1 : Nat) : Int) } s2, ?_, hcore⟩
  have hbase : ∀ (h : s.innerList = itemPrefix .creole (ctx ++ [o])), (baseLi (childrenM cfg (listTag o :: anc)
      { kind := c!"li", level := some ((ctx.length + 1 : Nat) : Int) } (inlNodes text ++ lstNodes (ctx.length + 1) subs))) s =
      .ok ('\n' :: (itemPrefix .creole (ctx ++ [o]) ++ c!" " ++ inlMarkup cfg.lang text) ++ sub, s2) := by
    intro h
    rw [baseLi, bind_run, hc]
    dsimp only
    rw [bind_run, get_run]
    dsimp only
    rw [pure_run, core_innerList hcore, h]
    simp only [List.append_assoc, List.cons_append, List.nil_append]
  cases hl : cfg.lang with
  | rest => exact absurd hl hr
  | creole =>
    simp only [runMeth, hl]
    rcases hin with hin | hin
    · rw [hl] at hin; cases hin
    · rw [hbase hin, hl]
  | textile =>
    simp only [runMeth, hl]
    rcases hin with hin | hin
    · rw [hl] at hin; cases hin
    · rw [hbase hin, hl]; rfl
  | markdown =>
    simp only [runMeth, hl]
    have hm : mdLi (listTag o :: anc).head? { kind := c!"li", level := some ((ctx.length + 1 : Nat) : Int) }
        (childrenM cfg (listTag o :: anc) { kind := c!"li", level := some ((ctx.length + 1 : Nat) : Int) }
          (inlNodes text ++ lstNodes (ctx.length + 1) subs)) s =
        .ok ('\n' :: rep c!"  " (((ctx.length + 1 : Nat) : Int) - 1).toNat ++ (if o then c!"1." else c!"*") ++ ' ' ::
          (inlMarkup cfg.lang text ++ sub), s2) := by
      cases o with
      | true =>
        show mdLi (some c!"ol") _ _ s = _
        unfold mdLi
        show (pure c!"1." >>= _ : EmM Str) s = _
        rw [bind_run, pure_run]
        dsimp only
        show (pure ((ctx.length + 1 : Nat) : Int) >>= _ : EmM Str) s = _
        rw [bind_run, pure_run]
        dsimp only
        rw [bind_run, hc]
        rfl
      | false =>
        show mdLi (some c!"ul") _ _ s = _
        unfold mdLi
        show (pure c!"*" >>= _ : EmM Str) s = _
        rw [bind_run, pure_run]
        dsimp only
        show (pure ((ctx.length + 1 : Nat) : Int) >>= _ : EmM Str) s = _
        rw [bind_run, pure_run]
        dsimp only
        rw [bind_run, hc]
        rfl
    rw [hm]
    have e1 : (((ctx.length + 1 : Nat) : Int) - 1).toNat = ctx.length := by omega
    have e2 : itemPrefix .markdown (ctx ++ [o]) = rep c!"  " ctx.length ++ (if o then c!"1." else c!"*") := by
      simp [itemPrefix]
    rw [e1, e2, hl]
    simp only [List.append_assoc, List.cons_append, List.nil_append]

mutual

theorem lst_lines (cfg : Cfg) : ∀ (l : Lst), l.all (inlOk cfg.lang) = true → ∀ (ctx : List Bool) (anc : List Str) (s : ESt),
    ListCtx cfg ctx s → ∃ s', emitNode cfg anc (l.node ctx.length) s =
      .ok (listText cfg.lang (startNewline s.last) ctx (newLines (l.lines cfg.lang ctx)), s') ∧ s'.core = s.core
  | .mk o items, h, ctx, anc, s, hctx => by
    rw [Lst.all] at h
    rw [Lst.lines]
    exact list_emit hctx fun s' hs' => items_lines cfg items h ctx o anc s' hs'

theorem item_lines (cfg : Cfg) : ∀ (x : Item), x.all (inlOk cfg.lang) = true → ∀ (ctx : List Bool) (o : Bool)
    (anc : List Str) (s : ESt), ListCtx cfg (ctx ++ [o]) s → ∃ s', emitNode cfg (listTag o :: anc) (x.node (ctx.length + 1)) s =
      .ok (newLines (x.lines cfg.lang (ctx ++ [o])), s') ∧ s'.core = s.core
  | .mk text subs, h, ctx, o, anc, s, hctx => by
    rw [Item.all, Bool.and_eq_true] at h
    rw [Item.lines]
    exact item_emit hctx h.1 fun s' hs' => by
      have := lsts_lines cfg subs h.2 (ctx ++ [o]) (by simp) (c!"li" :: listTag o :: anc) s' hs'
      rw [List.length_append] at this
      exact this

theorem items_lines (cfg : Cfg) : ∀ (xs : List Item), itemsAll (inlOk cfg.lang) xs = true → ∀ (ctx : List Bool) (o : Bool)
    (anc : List Str) (s : ESt), ListCtx cfg (ctx ++ [o]) s →
      ∃ s', emitNodes cfg (listTag o :: anc) (itemNodes (ctx.length + 1) xs) s =
      .ok (newLines (itemsLines cfg.lang (ctx ++ [o]) xs), s') ∧ s'.core = s.core
  | [], _, ctx, o, anc, s, _ => by
    rw [itemNodes, emitNodes_nil, itemsLines]
    exact ⟨s, rfl, rfl⟩
  | x :: xs, h, ctx, o, anc, s, hctx => by
    rw [itemsAll, Bool.and_eq_true] at h
    obtain ⟨s1, h1, h2⟩ := item_lines cfg x h.1 ctx o anc s hctx
    obtain ⟨s2, h3, h4⟩ := items_lines cfg xs h.2 ctx o anc s1 (hctx.core h2)
    rw [itemNodes, emitNodes_cons, bind_run, h1]
    dsimp only
    rw [bind_run, h3]
    dsimp only
    rw [itemsLines, newLines_append]
    exact ⟨s2, rfl, h4.trans h2⟩

theorem lsts_lines (cfg : Cfg) : ∀ (xs : List Lst), lstsAll (inlOk cfg.lang) xs = true → ∀ (ctx : List Bool), ctx ≠ [] →
    ∀ (anc : List Str) (s : ESt), ListCtx cfg ctx s → ∃ s', emitNodes cfg anc (lstNodes ctx.length xs) s =
      .ok (newLines (lstsLines cfg.lang ctx xs), s') ∧ s'.core = s.core
  | [], _, ctx, _, anc, s, _ => by
    rw [lstNodes, emitNodes_nil, lstsLines]
    exact ⟨s, rfl, rfl⟩
  | x :: xs, h, ctx, hne, anc, s, hctx => by
    rw [lstsAll, Bool.and_eq_true] at h
    obtain ⟨s1, h1, h2⟩ := lst_lines cfg x h.1 ctx anc s hctx
    obtain ⟨s2, h3, h4⟩ := lsts_lines cfg xs h.2 ctx hne anc s1 (hctx.core h2)
    rw [lstNodes, emitNodes_cons, bind_run, h1]
    dsimp only
    rw [bind_run, h3]
    dsimp only
    rw [lstsLines, newLines_append, listText, if_pos hne]
    exact ⟨s2, rfl, h4.trans h2⟩

end

theorem newLines_join {l : List Str} (h : l ≠ []) : newLines l = '\n' :: join c!"\n" l := by
  induction l with
  | nil => exact absurd rfl h
  | cons a l ih =>
    cases l with
    | nil => simp [newLines, join]
    | cons b l =>
      rw [show newLines (a :: b :: l) = '\n' :: a ++ newLines (b :: l) from rfl, ih (by simp), join_cons_cons]
      simp

/-- **C36.**  html2creole and html2textile turn every (nested) list into one line per item, in document order; the line
starts with one marker for every list around the item, outermost first, `*` for `ul` and `#` for `ol`.  html2markdown
indents by two spaces for every outer list and uses `*` and `1.`. -/
theorem C36_lists (cfg : Cfg) (hl : cfg.lang ≠ .rest) (l : Lst) (h : l.all (inlOk cfg.lang) = true) :
    emit cfg (.mk { kind := c!"document" } [l.node 0]) = .ok (strip (join c!"\n" (l.lines cfg.lang []))) := by
  obtain ⟨s1, h1, h2⟩ := lst_lines cfg l h [] [c!"document"] (enter { kind := c!"document" } {}) ⟨hl, rfl, .inr rfl⟩
  have hone := emitNodes_one h1
  rw [List.length_nil] at hone
  rw [emit_document hone (fun h => absurd h hl), if_neg hl]
  congr 1
  have hn : strip (newLines (l.lines cfg.lang [])) = strip (join c!"\n" (l.lines cfg.lang [])) := by
    by_cases h0 : l.lines cfg.lang [] = []
    · rw [h0]; rfl
    · rw [newLines_join h0]
      have := strip_pad (w := c!"\n") (w' := []) newline_space (by simp) (join c!"\n" (l.lines cfg.lang []))
      simpa using this
  have hs : startNewline (enter { kind := c!"document" } {}).last = true := by decide +kernel
  rw [hs, listText, if_neg (by simp)]
  split
  · rw [← hn]
    exact strip_pad (w := c!"\n") (w' := c!"\n") newline_space newline_space _
  · rw [if_pos rfl, ← hn]
    exact strip_pad (w := c!"\n") (w' := c!"\n\n") newline_space newlines_space _

/-- A numbered list with a bullet list inside. -/
def listSample : Lst := .mk true [.mk [.text c!"one"] [.mk false [.mk [.text c!"a"] [], .mk [.el c!"b" [.text c!"b"]] []]],
  .mk [.text c!"two"] []]

example : listSample.all (inlOk .creole) = true ∧
    listSample.lines .creole [] = [c!"# one", c!"#* a", c!"#* **b**", c!"# two"] ∧
    listSample.lines .markdown [] = [c!"1. one", c!"  * a", c!"  * **b**", c!"1. two"] := by decide +kernel

/-! ## C36: all documents -/

/-- `x` does not change `f` of the state -/
def Keeps {α β : Type} (f : ESt → β) (x : EmM α) : Prop := ∀ s a s', x s = .ok (a, s') → f s' = f s

theorem Keeps.bind {α β γ : Type} {f : ESt → γ} {x : EmM α} {g : α → EmM β} (hx : Keeps f x) (hg : ∀ a, Keeps f (g a)) :
    Keeps f (x >>= g) := by
  intro s b s' h
  obtain ⟨a, s1, h1, h2⟩ := bind_ok.mp h
  rw [hg a s1 b s' h2, hx s a s1 h1]

theorem Keeps.pure {α γ : Type} {f : ESt → γ} (a : α) : Keeps f (Pure.pure a : EmM α) := by
  intro s b s' h
  rw [(pure_ok.mp h).2]

theorem Keeps.raise {α γ : Type} {f : ESt → γ} (e : PyErr) : Keeps f (Emit.raise e : EmM α) := by
  intro s b s' h
  cases h

theorem Keeps.get {γ : Type} {f : ESt → γ} : Keeps f (MonadState.get : EmM ESt) := by
  intro s b s' h
  cases h
  rfl

theorem Keeps.modify {γ : Type} {f : ESt → γ} {g : ESt → ESt} (h : ∀ s, f (g s) = f s) : Keeps f (_root_.modify g : EmM Unit) := by
  intro s b s' h'
  cases h'
  exact h s

theorem Keeps.ofExcept {α γ : Type} {f : ESt → γ} (x : Except PyErr α) : Keeps f (Emit.ofExcept x) := by
  cases x with
  | ok a => exact Keeps.pure a
  | error e => exact Keeps.raise e

theorem Keeps.ite {α γ : Type} {f : ESt → γ} {p : Prop} [Decidable p] {x y : EmM α} (hx : Keeps f x) (hy : Keeps f y) :
    Keeps f (if p then x else y) := by
  split
  · exact hx
  · exact hy

theorem keeps_levelM {γ : Type} {f : ESt → γ} (i : HInfo) : Keeps f (levelM i) := by
  rw [levelM]
  split
  · exact Keeps.pure _
  · exact Keeps.raise _

theorem keeps_deentityM {γ : Type} {f : ESt → γ} (c : Option Str) : Keeps f (deentityM c) := by
  unfold deentityM
  split
  · exact Keeps.ofExcept _
  · exact Keeps.raise _

theorem keeps_getTable {γ : Type} {f : ESt → γ} : Keeps f getTable := by
  rw [getTable]
  refine Keeps.get.bind fun s => ?_
  split
  · exact Keeps.pure _
  · exact Keeps.raise _

theorem keeps_imgSrc {γ : Type} {f : ESt → γ} (attrs : Dict (Option Str)) : Keeps f (imgSrc attrs) := by
  rw [imgSrc]
  split
  · exact Keeps.raise _
  · exact Keeps.raise _
  · exact Keeps.ite (Keeps.pure _) (Keeps.pure _)

theorem keeps_imgText {γ : Type} {f : ESt → γ} (attrs : Dict (Option Str)) (src : Str) : Keeps f (imgText attrs src) := by
  rw [imgText]
  split
  · exact Keeps.ite (Keeps.pure _) (Keeps.pure _)
  · exact Keeps.raise _

/-- the emission of a node in html2creole and html2textile does not change the list state -/
theorem runMeth_innerList {cfg : Cfg} (hl : cfg.lang = .creole ∨ cfg.lang = .textile) (anc : List Str) (i : HInfo) (m : Meth)
    (hm : ∀ marker, m = .list marker → marker.length = 1) {ch : EmM Str} (hch : Keeps ESt.innerList ch) :
    Keeps ESt.innerList (runMeth cfg anc i m ch) := by
  have hnm : cfg.lang ≠ .markdown := by rcases hl with h | h <;> rw [h] <;> decide
  have hnr : cfg.lang ≠ .rest := by rcases hl with h | h <;> rw [h] <;> decide
  have hset : ∀ t, Keeps ESt.innerList (setTable t) := fun t => Keeps.modify fun s => rfl
  cases m with
  | blockPre =>
    rw [runMeth, blockPreEmit]
    refine (keeps_deentityM _).bind fun t => ?_
    split <;> exact Keeps.pure _
  | inlinePre =>
    rw [runMeth]
    unfold inlinePreEmit
    split
    · exact (keeps_deentityM _).bind fun t => Keeps.pure _
    · exact (keeps_deentityM _).bind fun t => Keeps.pure _
    · exact (keeps_deentityM _).bind fun t => Keeps.pure _
    · next h => exact absurd h hnm
  | blockPass => exact Keeps.ite (Keeps.pure _) (Keeps.pure _)
  | data =>
    rw [runMeth]
    split
    · exact Keeps.raise _
    · exact Keeps.ite (Keeps.pure _) (Keeps.pure _)
  | entityref => exact Keeps.pure _
  | charref => exact Keeps.ofExcept _
  | br => exact Keeps.get.bind fun s => Keeps.ite (Keeps.pure _) (Keeps.pure _)
  | hr => exact Keeps.ite (Keeps.pure _) (Keeps.pure _)
  | img =>
    rw [runMeth]
    rcases hl with h | h <;> rw [h] <;> dsimp only
    · rw [creoleImg]
      refine (keeps_imgSrc _).bind fun o => ?_
      split
      · exact Keeps.pure _
      · refine (keeps_imgText _ _).bind fun t => ?_
        split <;> exact Keeps.pure _
    · rw [textileImg]
      refine (keeps_imgSrc _).bind fun o => ?_
      split
      · exact Keeps.pure _
      · exact (keeps_imgText _ _).bind fun t => Keeps.pure _
  | p =>
    rw [runMeth]
    refine hch.bind fun c => ?_
    split
    · exact Keeps.get.bind fun s => Keeps.ite (Keeps.pure _) (Keeps.pure _)
    · exact Keeps.pure _
    · exact Keeps.pure _
  | headline =>
    rw [runMeth]
    rcases hl with h | h <;> rw [h] <;> rw [headlineEmit]
    · exact (keeps_levelM _).bind fun l => hch.bind fun c => Keeps.pure _
    · exact (keeps_levelM _).bind fun l => hch.bind fun c => Keeps.pure _
  | typeface key => exact hch.bind fun c => Keeps.pure _
  | typefaceHtml tag => exact hch.bind fun c => Keeps.pure _
  | children => exact hch
  | content => exact hch.bind fun c => Keeps.pure _
  | a =>
    rw [runMeth]
    rcases hl with h | h <;> rw [h] <;> dsimp only
    · rw [creoleLink]
      refine hch.bind fun c => ?_
      split
      · exact Keeps.pure _
      · exact Keeps.ite (Keeps.pure _) (Keeps.pure _)
    · rw [textileLink]
      refine hch.bind fun c => ?_
      split
      · exact Keeps.raise _
      · exact Keeps.pure _
  | code =>
    rw [runMeth, if_neg hnm]
    exact hch.bind fun c => Keeps.pure _
  | li =>
    rw [runMeth]
    have : Keeps ESt.innerList (baseLi ch) := hch.bind fun c => Keeps.get.bind fun s => Keeps.pure _
    rcases hl with h | h <;> rw [h] <;> exact this
  | list marker =>
    have : Keeps ESt.innerList (baseList marker ch) := by
      intro s a s' h
      rw [baseList, bind_run, get_run] at h
      dsimp only at h
      rw [bind_run, modify_run] at h
      dsimp only at h
      obtain ⟨c, s1, h1, h2⟩ := bind_ok.mp h
      have hc := hch _ _ _ h1
      rw [bind_run, modify_run] at h2
      dsimp only at h2
      rw [bind_run, get_run] at h2
      dsimp only at h2
      have hs : s1.innerList.dropLast = s.innerList := by
        rw [hc]
        obtain ⟨c, hc⟩ := List.length_eq_one_iff.mp (hm marker rfl)
        rw [hc]
        exact List.dropLast_concat
      rw [hs] at h2
      split at h2
      · split at h2
        · rw [(pure_ok.mp h2).2]
        · rw [(pure_ok.mp h2).2]
      · rw [(pure_ok.mp h2).2]
    rw [runMeth]
    rcases hl with h | h <;> rw [h] <;> exact this
  | table =>
    rw [runMeth]
    unfold tableEmit
    refine (hset _).bind fun _ => hch.bind fun _ => keeps_getTable.bind fun t => ?_
    split <;> exact Keeps.pure _
  | tr => exact keeps_getTable.bind fun t => (hset _).bind fun _ => hch.bind fun _ => Keeps.pure _
  | th => exact hch.bind fun c => keeps_getTable.bind fun t => (hset _).bind fun _ => Keeps.pure _
  | td => exact hch.bind fun c => keeps_getTable.bind fun t => (hset _).bind fun _ => Keeps.pure _
  | document => rw [runMeth, if_neg hnr]; exact hch

/-- the length of the marker of a list method -/
def markerLen : Meth → Nat
  | .list marker => marker.length
  | _ => 1

theorem marker_length {lang : Lang} (hl : lang = .creole ∨ lang = .textile) {kind marker : Str}
    (h : methodOf lang kind = some (.list marker)) : marker.length = 1 := by
  rcases hl with hl | hl <;> subst hl
  · have key : ∀ km ∈ baseMethods ++ creoleMethods, markerLen km.2 = 1 := by decide +kernel
    exact key _ (lookup_mem h)
  · have key : ∀ km ∈ baseMethods ++ textileMethods, markerLen km.2 = 1 := by decide +kernel
    exact key _ (lookup_mem h)

theorem keeps_unknown {γ : Type} {f : ESt → γ} (p : Policy) (i : HInfo) {ch : EmM Str} (h : Keeps f ch) :
    Keeps f (unknownEmit p i ch) := by
  rw [unknownEmit]
  refine h.bind fun c => ?_
  split
  · exact Keeps.pure _
  · exact Keeps.raise _
  · exact Keeps.pure _
  · exact Keeps.pure _
  · exact Keeps.pure _

theorem keeps_setLast (i : HInfo) : Keeps ESt.innerList (setLast i) := Keeps.modify fun _ => rfl

mutual

theorem emitNode_innerList {cfg : Cfg} (hl : cfg.lang = .creole ∨ cfg.lang = .textile) (anc : List Str) : ∀ n : HNode,
    Keeps ESt.innerList (emitNode cfg anc n)
  | .mk i children => by
    have hnr : cfg.lang ≠ .rest := by rcases hl with h | h <;> rw [h] <;> decide
    rw [emitNode_run, preEmit, if_neg hnr]
    refine (Keeps.pure _).bind fun pre => ?_
    have hch : Keeps ESt.innerList (setLast i >>= fun _ => emitNodes cfg (i.kind :: anc) children) :=
      (keeps_setLast i).bind fun _ => emitNodes_innerList hl (i.kind :: anc) children
    refine Keeps.bind ?_ fun t => (keeps_setLast i).bind fun _ => Keeps.pure _
    rw [runNode]
    split
    · next m hm => exact runMeth_innerList hl anc i m (fun marker h => marker_length hl (by rw [← h]; exact hm)) hch
    · exact keeps_unknown _ _ hch

theorem emitNodes_innerList {cfg : Cfg} (hl : cfg.lang = .creole ∨ cfg.lang = .textile) (anc : List Str) : ∀ ns : List HNode,
    Keeps ESt.innerList (emitNodes cfg anc ns)
  | [] => by rw [emitNodes_nil]; exact Keeps.pure _
  | n :: ns => by
    rw [emitNodes_cons]
    exact (emitNode_innerList hl anc n).bind fun a => (emitNodes_innerList hl anc ns).bind fun b => Keeps.pure _

end

/-- **C36, state.**  In html2creole and html2textile, converting any node (in any state) restores the list state. -/
theorem C36_list_state_restored {cfg : Cfg} (hl : cfg.lang = .creole ∨ cfg.lang = .textile) {anc : List Str} {n : HNode}
    {s s' : ESt} {text : Str} (h : emitNode cfg anc n s = .ok (text, s')) : s'.innerList = s.innerList :=
  emitNode_innerList hl anc n s text s' h

theorem method_ul_ol {lang : Lang} (hl : lang = .creole ∨ lang = .textile) (o : Bool) :
    methodOf lang (listTag o) = some (.list (if o then c!"#" else c!"*")) := by
  rcases hl with h | h <;> subst h <;> cases o <;> rfl

theorem markers_cons (k : Str) (anc : List Str) : markers (k :: anc) =
    markers anc ++ (if k = c!"ul" then c!"*" else if k = c!"ol" then c!"#" else []) := by
  simp only [markers, List.reverse_cons, List.filterMap_append, List.filterMap_cons, List.filterMap_nil]
  by_cases h1 : k = c!"ul"
  · simp [h1]
  · by_cases h2 : k = c!"ol"
    · simp [h2]
    · simp [h1, h2]

/-- **C36, items.**  Wherever a list item stands in a document: if the list state is the markers of the lists around it
(at the root it is empty, `C36_list_state_restored` and the next part keep it so), its text is a new line with exactly
these markers, a space and its content; and the items of a list are converted in the state with one more marker. -/
theorem C36_items {cfg : Cfg} (hl : cfg.lang = .creole ∨ cfg.lang = .textile) {anc : List Str} {i : HInfo}
    {children : List HNode} {s s' : ESt} {text : Str} (hs : s.innerList = markers anc) :
    (i.kind = c!"li" → emitNode cfg anc (.mk i children) s = .ok (text, s') →
      ∃ content s1, emitNodes cfg (c!"li" :: anc) children (enter i s) = .ok (content, s1) ∧
        text = c!"\n" ++ markers anc ++ c!" " ++ content) ∧
    (i.kind = c!"ul" ∨ i.kind = c!"ol" → emitNode cfg anc (.mk i children) s = .ok (text, s') →
      ∃ content s0 s1, s0.innerList = markers (i.kind :: anc) ∧
        emitNodes cfg (i.kind :: anc) children s0 = .ok (content, s1)) := by
  have hnr : cfg.lang ≠ .rest := by rcases hl with h | h <;> rw [h] <;> decide
  constructor
  · intro hk h
    rw [emitNode_known (m := .li) (by rw [hk]; exact method_li _) (fun h => absurd h hnr)] at h
    have hrun : ∀ ch, runMeth cfg anc i .li ch = baseLi ch := by
      intro ch
      rw [runMeth]
      rcases hl with h | h <;> rw [h]
    rw [hrun, baseLi, bind_run, childrenM_run, hk] at h
    cases hc : emitNodes cfg (c!"li" :: anc) children (enter i s) with
    | error e => rw [hc] at h; cases h
    | ok r =>
      obtain ⟨content, s1⟩ := r
      rw [hc] at h
      dsimp only at h
      rw [bind_run, get_run] at h
      dsimp only at h
      rw [pure_run] at h
      cases h
      have hin : s1.innerList = markers anc := by
        rw [emitNodes_innerList hl _ _ _ _ _ hc]; exact hs
      refine ⟨content, s1, rfl, ?_⟩
      rw [hin]
      simp
  · intro hk h
    have ho : ∃ o, i.kind = listTag o := by
      rcases hk with h | h
      · exact ⟨false, h⟩
      · exact ⟨true, h⟩
    obtain ⟨o, ho⟩ := ho
    rw [emitNode_known (m := .list (if o then c!"#" else c!"*")) (by rw [ho]; exact method_ul_ol hl o)
      (fun h => absurd h hnr)] at h
    have hrun : ∀ ch, runMeth cfg anc i (.list (if o then c!"#" else c!"*")) ch = baseList (if o then c!"#" else c!"*") ch := by
      intro ch
      rw [runMeth]
      rcases hl with h | h <;> rw [h]
    rw [hrun, baseList, bind_run, get_run] at h
    dsimp only at h
    rw [bind_run, modify_run] at h
    dsimp only at h
    rw [bind_run, childrenM_run] at h
    cases hc : emitNodes cfg (i.kind :: anc) children
        (enter i { s with innerList := s.innerList ++ (if o then c!"#" else c!"*") }) with
    | error e => rw [hc] at h; cases h
    | ok r =>
      obtain ⟨content, s1⟩ := r
      refine ⟨content, _, s1, ?_, hc⟩
      show s.innerList ++ (if o then c!"#" else c!"*") = _
      rw [hs, markers_cons, ho]
      cases o <;> rfl

example : markers [c!"li", c!"ul", c!"li", c!"ol", c!"document"] = c!"#*" := by decide +kernel

/-! ## C37 -/

/-- the non-empty lines of a text -/
def nonEmptyLines (s : Str) : List Str := (splitChar '\n' s).filter (· ≠ [])

theorem splitChar_append_general (a b : Str) : splitChar '\n' (a ++ '\n' :: b) = splitChar '\n' a ++ splitChar '\n' b := by
  induction a with
  | nil => simp [splitChar]
  | cons d a ih =>
    rw [List.cons_append, splitChar, splitChar]
    split
    · rw [ih]; rfl
    · rw [ih]
      cases h : splitChar '\n' a with
      | nil => exact absurd h (splitChar_ne_nil _ _)
      | cons l ls => rfl

theorem nonEmptyLines_append (a b : Str) : nonEmptyLines (a ++ '\n' :: b) = nonEmptyLines a ++ nonEmptyLines b := by
  rw [nonEmptyLines, splitChar_append_general, List.filter_append]
  rfl

theorem nonEmptyLines_one {a : Str} (h : '\n' ∉ a) (h' : a ≠ []) : nonEmptyLines a = [a] := by
  rw [nonEmptyLines, splitChar_of_not_mem h]
  simp [h']

theorem nonEmptyLines_nil : nonEmptyLines [] = [] := rfl

theorem nonEmptyLines_trail (a : Str) {w : Str} (h : ∀ c ∈ w, c = '\n') : nonEmptyLines (a ++ w) = nonEmptyLines a := by
  induction w with
  | nil => rw [List.append_nil]
  | cons c w ih =>
    have hc := h c List.mem_cons_self
    subst hc
    rw [nonEmptyLines_append]
    have h0 : ∀ w : Str, (∀ c ∈ w, c = '\n') → nonEmptyLines w = [] := by
      intro w
      induction w with
      | nil => intro _; rfl
      | cons c w ih =>
        intro h
        have hc := h c List.mem_cons_self
        subst hc
        have := nonEmptyLines_append [] w
        rw [List.nil_append] at this
        rw [this, ih fun x hx => h x (List.mem_cons_of_mem _ hx)]
        rfl
    rw [h0 w fun x hx => h x (List.mem_cons_of_mem _ hx), List.append_nil]

/-- what `dropEndWhile` removes -/
theorem dropEndWhile_split (p : Char → Bool) (s : Str) : ∃ w, s = dropEndWhile p s ++ w ∧ ∀ c ∈ w, p c = true := by
  induction s with
  | nil => exact ⟨[], rfl, by simp⟩
  | cons c s ih =>
    obtain ⟨w, h1, h2⟩ := ih
    rw [dropEndWhile]
    split
    · next h0 =>
      rw [h0, List.nil_append] at h1
      split
      · next hc =>
        refine ⟨c :: s, rfl, ?_⟩
        intro x hx
        rcases List.mem_cons.mp hx with hx | hx
        · rw [hx]; exact hc
        · exact h2 x (by rw [← h1]; exact hx)
      · exact ⟨s, rfl, by rw [h1]; exact h2⟩
    · next d ds h0 =>
      rw [h0] at h1
      exact ⟨w, by rw [h1]; rfl, h2⟩

/-- the marker of a list in ReSt -/
def restMarker (o : Bool) : Str := if o then c!"#." else c!"*"

theorem method_rest_list (o : Bool) : methodOf .rest (listTag o) = some (.list (restMarker o)) := by cases o <;> rfl

/-- the texts of items for which the claim is made: known tags, one line, not empty -/
def restItemText (text : List Inl) : Bool :=
  inlOk .rest text && !(inlMarkup .rest text).isEmpty && !(inlMarkup .rest text).contains '\n'

/-- what is known about the emission of (parts of) lists -/
def RestOut (o : Bool) (lines : List Str) (t : Str) (s' : ESt) : Prop :=
  nonEmptyLines t = lines ∧ (t = [] ∨ ∃ r, t = '\n' :: r) ∧ s'.subst = [] ∧ s'.listMarkup = restMarker o

theorem restOut_append {o : Bool} {l1 l2 : List Str} {t1 t2 : Str} {s1 s2 : ESt} (h1 : RestOut o l1 t1 s1)
    (h2 : RestOut o l2 t2 s2) : RestOut o (l1 ++ l2) (t1 ++ t2) s2 := by
  obtain ⟨a1, b1, c1, d1⟩ := h1
  obtain ⟨a2, b2, c2, d2⟩ := h2
  refine ⟨?_, ?_, c2, d2⟩
  · rcases b2 with b2 | ⟨r, b2⟩
    · rw [b2, List.append_nil, a1]
      rw [b2] at a2
      rw [← a2]
      simp [nonEmptyLines_nil]
    · have := nonEmptyLines_append [] r
      rw [List.nil_append, nonEmptyLines_nil, List.nil_append] at this
      rw [b2, nonEmptyLines_append, a1, ← a2, b2, this]
  · rcases b1 with b1 | ⟨r, b1⟩
    · rw [b1, List.nil_append]; exact b2
    · exact .inr ⟨r ++ t2, by rw [b1]; rfl⟩

theorem rep_newline (n : Nat) : '\n' ∉ rep c!"    " n := by
  induction n with
  | zero => simp [rep]
  | succ n ih => simp [rep, ih]

theorem itemPrefix_rest (ctx : List Bool) (o : Bool) :
    itemPrefix .rest (ctx ++ [o]) = rep c!"    " ctx.length ++ restMarker o := by
  simp [itemPrefix, restMarker]

theorem rest_item_text {pre text sub : Str} {lines : List Str} (hp : '\n' ∉ pre) (hp' : pre ≠ []) (ht : '\n' ∉ text)
    (ht' : text ≠ []) (h1 : nonEmptyLines sub = lines) (h2 : sub = [] ∨ ∃ r, sub = '\n' :: r) :
    nonEmptyLines ('\n' :: (pre ++ stripP (· == '\n') (text ++ sub) ++ c!"\n")) = (pre ++ text) :: lines := by
  have e0 : nonEmptyLines ('\n' :: (pre ++ stripP (· == '\n') (text ++ sub) ++ c!"\n")) =
      nonEmptyLines (pre ++ stripP (· == '\n') (text ++ sub)) := by
    have := nonEmptyLines_append [] (pre ++ stripP (· == '\n') (text ++ sub) ++ c!"\n")
    rw [List.nil_append, nonEmptyLines_nil, List.nil_append] at this
    rw [this, nonEmptyLines_trail _ (by simp)]
  have e1 : (text ++ sub).dropWhile (· == '\n') = text ++ sub := by
    refine dropWhile_head ?_
    intro c hc
    cases text with
    | nil => exact absurd rfl ht'
    | cons d text =>
      simp only [List.cons_append, List.head?_cons, Option.some.injEq] at hc
      subst hc
      simp only [List.mem_cons, not_or] at ht
      simpa using Ne.symm ht.1
  obtain ⟨w, hw1, hw2⟩ := dropEndWhile_split (· == '\n') (text ++ sub)
  have e2 : nonEmptyLines (pre ++ stripP (· == '\n') (text ++ sub)) = nonEmptyLines (pre ++ (text ++ sub)) := by
    have e3 : stripP (· == '\n') (text ++ sub) = dropEndWhile (· == '\n') (text ++ sub) := by rw [stripP, e1]
    have e4 := nonEmptyLines_trail (pre ++ dropEndWhile (· == '\n') (text ++ sub)) (w := w)
      (fun c hc => by simpa using hw2 c hc)
    rw [List.append_assoc, ← hw1] at e4
    rw [e3, e4]
  rw [e0, e2]
  have hpt : '\n' ∉ pre ++ text := by simp [hp, ht]
  have hpt' : pre ++ text ≠ [] := by simp [hp']
  rcases h2 with h2 | ⟨r, h2⟩
  · subst h2
    rw [nonEmptyLines_nil] at h1
    subst h1
    rw [List.append_nil, nonEmptyLines_one hpt hpt']
  · subst h2
    have := nonEmptyLines_append [] r
    rw [List.nil_append, nonEmptyLines_nil, List.nil_append, h1] at this
    rw [← List.append_assoc, nonEmptyLines_append, nonEmptyLines_one hpt hpt', ← this]
    rfl

mutual

theorem rest_lst {cfg : Cfg} (hl : cfg.lang = .rest) (o : Bool) : ∀ (l : Lst), l.all restItemText = true →
    l.uniform o = true → ∀ (ctx : List Bool) (anc : List Str) (s : ESt), s.subst = [] →
    ∃ t s', emitNode cfg anc (l.node ctx.length) s =
        .ok (if ctx = [] then join c!"\n\n" (l.lines .rest ctx) ++ c!"\n\n" else t, s') ∧
      RestOut o (l.lines .rest ctx) t s'
  | .mk o' items, h, hu, ctx, anc, s, hs => by
    rw [Lst.all] at h
    rw [Lst.uniform, Bool.and_eq_true, beq_iff_eq] at hu
    obtain ⟨rfl, hu⟩ := hu
    rw [lstNode_kind, emitNode_known (i := { kind := listTag o', level := some ((ctx.length : Int) + 1) })
      (m := .list (restMarker o')) (by rw [hl]; exact method_rest_list o') (fun _ => .inl hs)]
    have hrun : ∀ ch, runMeth cfg anc { kind := listTag o', level := some ((ctx.length : Int) + 1) }
        (.list (restMarker o')) ch =
        restList { kind := listTag o', level := some ((ctx.length : Int) + 1) } (restMarker o') ch := by
      intro ch
      rw [runMeth, hl]
    rw [hrun, restList, bind_run, modify_run]
    dsimp only
    rw [bind_run, childrenM_run]
    obtain ⟨t, s1, h1, h2⟩ := rest_items hl o' items h hu ctx anc
      (enter { kind := listTag o', level := some ((ctx.length : Int) + 1) } { s with listMarkup := restMarker o' }) hs rfl
    rw [h1]
    dsimp only
    rw [Lst.lines]
    refine ⟨t, enter { kind := listTag o', level := some ((ctx.length : Int) + 1) } s1, ?_, h2⟩
    cases ctx with
    | nil =>
      rw [if_pos (show some (((([] : List Bool).length : Nat) : Int) + 1) = some 1 from rfl), if_pos rfl]
      rw [pure_run]
      dsimp only
      rw [← nonEmptyLines, h2.1]
    | cons c ctx =>
      rw [if_neg (by rw [Option.some.injEq, List.length_cons]; omega), if_neg (by simp)]
      rfl

theorem rest_item {cfg : Cfg} (hl : cfg.lang = .rest) (o : Bool) : ∀ (x : Item), x.all restItemText = true →
    x.uniform o = true → ∀ (ctx : List Bool) (anc : List Str) (s : ESt), s.subst = [] → s.listMarkup = restMarker o →
    ∃ t s', emitNode cfg (listTag o :: anc) (x.node (ctx.length + 1)) s = .ok (t, s') ∧
      RestOut o (x.lines .rest (ctx ++ [o])) t s'
  | .mk text subs, h, hu, ctx, anc, s, hs, hm => by
    rw [Item.all, Bool.and_eq_true] at h
    rw [Item.uniform] at hu
    obtain ⟨ht, hsub⟩ := h
    rw [restItemText, Bool.and_eq_true, Bool.and_eq_true] at ht
    obtain ⟨⟨hok, hne⟩, hnl⟩ := ht
    rw [Item.node, emitNode_known (i := { kind := c!"li", level := some ((ctx.length + 1 : Nat) : Int) }) (method_li _)
      (fun _ => .inl hs)]
    have hrun : ∀ ch, runMeth cfg (listTag o :: anc) { kind := c!"li", level := some ((ctx.length + 1 : Nat) : Int) } .li ch =
        restLi { kind := c!"li", level := some ((ctx.length + 1 : Nat) : Int) } ch := by
      intro ch
      rw [runMeth, hl]
    obtain ⟨s1, h1, h2⟩ := inls_emit cfg text (by rw [hl]; exact hok) (c!"li" :: listTag o :: anc)
      (enter { kind := c!"li", level := some ((ctx.length + 1 : Nat) : Int) } s) (.inl hs)
    rw [hl] at h1
    obtain ⟨sub, s2, h3, h4⟩ := rest_lsts hl o subs hsub hu (ctx ++ [o]) (by simp) (c!"li" :: listTag o :: anc) s1
      (by rw [core_subst h2]; exact hs) (by rw [core_listMarkup h2]; exact hm)
    rw [List.length_append, List.length_singleton] at h3
    have hc : childrenM cfg (listTag o :: anc) { kind := c!"li", level := some ((ctx.length + 1 : Nat) : Int) }
        (inlNodes text ++ lstNodes (ctx.length + 1) subs) s = .ok (inlMarkup .rest text ++ sub, s2) := by
      rw [childrenM_run]
      exact emitNodes_append h1 h3
    rw [hrun, restLi, bind_run, hc]
    dsimp only
    have hlev : levelM { kind := c!"li", level := some ((ctx.length + 1 : Nat) : Int) } s2
        = .ok (((ctx.length + 1 : Nat) : Int), s2) := rfl
    rw [bind_run, hlev]
    dsimp only
    rw [bind_run, get_run]
    dsimp only
    obtain ⟨g1, g2, g3, g4⟩ := h4
    refine ⟨_, enter { kind := c!"li", level := some ((ctx.length + 1 : Nat) : Int) } s2, rfl, ?_, .inr ⟨_, rfl⟩, g3, g4⟩
    rw [Item.lines, g4, itemPrefix_rest]
    have e1 : (((ctx.length + 1 : Nat) : Int) - 1).toNat = ctx.length := by omega
    rw [e1]
    have := rest_item_text (pre := rep c!"    " ctx.length ++ restMarker o ++ c!" ") (text := inlMarkup .rest text)
      (by
        have := rep_newline ctx.length
        cases o <;> simp [restMarker, this]) (by simp) (by simpa using hnl) (by simpa using hne) g1 g2
    rw [← this]
    congr 1
    simp only [List.append_assoc, List.cons_append, List.nil_append]

theorem rest_items {cfg : Cfg} (hl : cfg.lang = .rest) (o : Bool) : ∀ (xs : List Item), itemsAll restItemText xs = true →
    itemsUniform o xs = true → ∀ (ctx : List Bool) (anc : List Str) (s : ESt), s.subst = [] → s.listMarkup = restMarker o →
    ∃ t s', emitNodes cfg (listTag o :: anc) (itemNodes (ctx.length + 1) xs) s = .ok (t, s') ∧
      RestOut o (itemsLines .rest (ctx ++ [o]) xs) t s'
  | [], _, _, ctx, anc, s, hs, hm => by
    rw [itemNodes, emitNodes_nil, itemsLines]
    exact ⟨[], s, rfl, rfl, .inl rfl, hs, hm⟩
  | x :: xs, h, hu, ctx, anc, s, hs, hm => by
    rw [itemsAll, Bool.and_eq_true] at h
    rw [itemsUniform, Bool.and_eq_true] at hu
    obtain ⟨t1, s1, h1, h2⟩ := rest_item hl o x h.1 hu.1 ctx anc s hs hm
    obtain ⟨t2, s2, h3, h4⟩ := rest_items hl o xs h.2 hu.2 ctx anc s1 h2.2.2.1 h2.2.2.2
    rw [itemNodes, emitNodes_cons, bind_run, h1]
    dsimp only
    rw [bind_run, h3]
    dsimp only
    rw [itemsLines]
    exact ⟨_, s2, rfl, restOut_append h2 h4⟩

theorem rest_lsts {cfg : Cfg} (hl : cfg.lang = .rest) (o : Bool) : ∀ (xs : List Lst), lstsAll restItemText xs = true →
    lstsUniform o xs = true → ∀ (ctx : List Bool), ctx ≠ [] → ∀ (anc : List Str) (s : ESt), s.subst = [] →
    s.listMarkup = restMarker o →
    ∃ t s', emitNodes cfg anc (lstNodes ctx.length xs) s = .ok (t, s') ∧ RestOut o (lstsLines .rest ctx xs) t s'
  | [], _, _, ctx, _, anc, s, hs, hm => by
    rw [lstNodes, emitNodes_nil, lstsLines]
    exact ⟨[], s, rfl, rfl, .inl rfl, hs, hm⟩
  | x :: xs, h, hu, ctx, hne, anc, s, hs, hm => by
    rw [lstsAll, Bool.and_eq_true] at h
    rw [lstsUniform, Bool.and_eq_true] at hu
    obtain ⟨t1, s1, h1, h2⟩ := rest_lst hl o x h.1 hu.1 ctx anc s hs
    rw [if_neg hne] at h1
    obtain ⟨t2, s2, h3, h4⟩ := rest_lsts hl o xs h.2 hu.2 ctx hne anc s1 h2.2.2.1 h2.2.2.2
    rw [lstNodes, emitNodes_cons, bind_run, h1]
    dsimp only
    rw [bind_run, h3]
    dsimp only
    rw [lstsLines]
    exact ⟨_, s2, rfl, restOut_append h2 h4⟩

end

/-- **C37, lists of one kind.**  html2rest turns a nested list in which all lists are of the same kind into one line per
item, in document order, with a blank line between; the line starts with four spaces for every outer list, the right
marker (`*` or `#.`) and a space. -/
theorem C37_lists_of_one_kind (cfg : Cfg) (hl : cfg.lang = .rest) (o : Bool) (l : Lst) (h : l.all restItemText = true)
    (hu : l.uniform o = true) :
    emit cfg (.mk { kind := c!"document" } [l.node 0]) = .ok (rstrip (join c!"\n\n" (l.lines .rest []))) := by
  obtain ⟨t, s1, h1, h2⟩ := rest_lst hl o l h hu [] [c!"document"] (enter { kind := c!"document" } {}) rfl
  have hone := emitNodes_one h1
  rw [List.length_nil, if_pos rfl] at hone
  rw [emit_document hone (fun _ => h2.2.2.1), if_pos hl]
  exact congrArg _ (dropEndWhile_append newlines_space _)

/-- A bullet list in a bullet list. -/
def restListSample : Lst := .mk false [.mk [.text c!"one"] [.mk false [.mk [.text c!"a"] []]], .mk [.text c!"two"] []]

example : restListSample.all restItemText = true ∧ restListSample.uniform false = true ∧
    restListSample.lines .rest [] = [c!"* one", c!"    * a", c!"* two"] := by decide +kernel

/-- **C37, mixed lists.**  In the numbered list `listSample`, which contains a bullet list, the outer item before the inner
list gets the marker of a bullet list. -/
theorem C37_wrong_marker_in_mixed_lists :
    listSample.all restItemText = true ∧
    emit { lang := .rest } (.mk { kind := c!"document" } [listSample.node 0]) =
      .ok c!"* one\n\n    * a\n\n    * **b**\n\n* two" ∧
    rstrip (join c!"\n\n" (listSample.lines .rest [])) = c!"#. one\n\n    * a\n\n    * **b**\n\n#. two" := by
  decide +kernel

/-- The same from HTML source. -/
theorem C37_wrong_marker_html : html2rest c!"<ol><li>one<ul><li>a</li></ul></li></ol>" = .ok c!"* one\n\n    * a" := by
  decide +kernel

end Verif.Props
