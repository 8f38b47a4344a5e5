import Verif.Spec.Spelling
import Verif.Emit.ShownRefs
import Verif.Emit.EmitLemmas
import Verif.Props.Faults

/-!
# Emitters and the division of text

The emitters give the same text for trees that differ only in how their text is divided and written.
-/

namespace Verif.Emit

open Verif Py Html Spec Spec.Sg

/-- the same attributes of an emitter, except for `last`, of which only one question is asked -/
structure SameE (s s' : ESt) : Prop where
  last : startNewline s.last = startNewline s'.last
  innerList : s.innerList = s'.innerList
  table : s.table = s'.table
  subst : s.subst = s'.subst
  usedLinks : s.usedLinks = s'.usedLinks
  usedImages : s.usedImages = s'.usedImages
  listMarkup : s.listMarkup = s'.listMarkup

theorem SameE.refl (s : ESt) : SameE s s := ⟨rfl, rfl, rfl, rfl, rfl, rfl, rfl⟩

/-- the same result, and the same attributes afterwards -/
def SameO {α : Type} : Except PyErr (α × ESt) → Except PyErr (α × ESt) → Prop
  | .ok (a, s), .ok (b, t) => a = b ∧ SameE s t
  | .error e, .error e' => e = e'
  | _, _ => False

/-- two methods that do the same -/
def SameRun {α : Type} (m m' : EmM α) : Prop := ∀ s s', SameE s s' → SameO (m s) (m' s')

theorem SameRun.pure {α : Type} (a : α) : SameRun (Pure.pure a : EmM α) (Pure.pure a) := fun _ _ h => ⟨rfl, h⟩

theorem SameRun.raise {α : Type} (e : PyErr) : SameRun (Emit.raise e : EmM α) (Emit.raise e) := fun _ _ _ => rfl

theorem SameRun.ofExcept {α : Type} (x : Except PyErr α) : SameRun (Emit.ofExcept x) (Emit.ofExcept x) := by
  cases x with
  | ok a => exact SameRun.pure a
  | error e => exact SameRun.raise e

theorem SameRun.bind {α β : Type} {m m' : EmM α} {f f' : α → EmM β} (h : SameRun m m') (hf : ∀ a, SameRun (f a) (f' a)) :
    SameRun (m >>= f) (m' >>= f') := by
  intro s s' hs
  have h1 := h s s' hs
  show SameO ((m s).bind fun p => f p.1 p.2) ((m' s').bind fun p => f' p.1 p.2)
  revert h1
  generalize m s = x
  generalize m' s' = y
  intro h1
  match x, y, h1 with
  | .ok (a, t), .ok (b, t'), h1 =>
    obtain ⟨rfl, ht⟩ := h1
    exact hf a t t' ht
  | .error e, .error e', h1 => exact h1

theorem SameRun.get {β : Type} {f f' : ESt → EmM β} (hf : ∀ s s', SameE s s' → SameRun (f s) (f' s')) :
    SameRun (MonadState.get >>= f) (MonadState.get >>= f') := fun s s' hs => hf s s' hs s s' hs

theorem SameRun.modify {f : ESt → ESt} (hf : ∀ s s', SameE s s' → SameE (f s) (f s')) :
    SameRun (_root_.modify f : EmM Unit) (_root_.modify f) := fun s s' hs => ⟨rfl, hf s s' hs⟩

theorem SameRun.ite {α : Type} {c : Prop} [Decidable c] {a a' b b' : EmM α} (h1 : SameRun a a') (h2 : SameRun b b') :
    SameRun (if c then a else b) (if c then a' else b') := by
  split
  · exact h1
  · exact h2

theorem SameRun.getTable : SameRun Emit.getTable Emit.getTable :=
  SameRun.get fun s s' h => by
    rw [h.table]
    split
    · exact SameRun.pure _
    · exact SameRun.raise _

theorem SameRun.setTable (t : Table) : SameRun (Emit.setTable t) (Emit.setTable t) :=
  SameRun.modify fun _ _ h => ⟨h.last, h.innerList, rfl, h.subst, h.usedLinks, h.usedImages, h.listMarkup⟩

theorem SameRun.levelM (i : HInfo) : SameRun (Emit.levelM i) (Emit.levelM i) := by
  unfold Emit.levelM
  split
  · exact SameRun.pure _
  · exact SameRun.raise _

theorem SameRun.deentityM (c : Option Str) : SameRun (Emit.deentityM c) (Emit.deentityM c) := by
  unfold Emit.deentityM
  split
  · exact SameRun.ofExcept _
  · exact SameRun.raise _

theorem SameRun.getBlockData : SameRun Emit.getBlockData Emit.getBlockData :=
  SameRun.get fun s s' h => by
    rw [h.subst]
    exact SameRun.bind (SameRun.modify fun _ _ h => ⟨h.last, h.innerList, h.table, rfl, h.usedLinks, h.usedImages, h.listMarkup⟩)
      fun _ => SameRun.pure _

theorem SameRun.flushSubst (b : Bool) : SameRun (Emit.flushSubst b) (Emit.flushSubst b) :=
  SameRun.get fun s s' h => by
    rw [h.subst]
    exact SameRun.ite (SameRun.bind SameRun.getBlockData fun _ => SameRun.pure _) (SameRun.pure _)

theorem SameRun.setLast (i : HInfo) : SameRun (Emit.setLast i) (Emit.setLast i) :=
  SameRun.modify fun _ _ h => ⟨rfl, h.innerList, h.table, h.subst, h.usedLinks, h.usedImages, h.listMarkup⟩

theorem SameRun.quoteAttr (cfg : Cfg) (v : Option (Option Str)) : SameRun (Emit.quoteAttr cfg v) (Emit.quoteAttr cfg v) := by
  unfold Emit.quoteAttr
  split
  · exact SameRun.raise _
  · exact SameRun.pure _
  · exact SameRun.ofExcept _

theorem SameRun.imgSrc (attrs : Dict (Option Str)) : SameRun (Emit.imgSrc attrs) (Emit.imgSrc attrs) := by
  unfold Emit.imgSrc
  split
  · exact SameRun.raise _
  · exact SameRun.raise _
  · exact SameRun.ite (SameRun.pure _) (SameRun.pure _)

theorem SameRun.imgText (attrs : Dict (Option Str)) (src : Str) : SameRun (Emit.imgText attrs src) (Emit.imgText attrs src) := by
  unfold Emit.imgText
  split
  · exact SameRun.ite (SameRun.pure _) (SameRun.pure _)
  · exact SameRun.raise _

theorem SameRun.baseList (marker : Str) {ch ch' : EmM Str} (h : SameRun ch ch') : SameRun (Emit.baseList marker ch) (Emit.baseList marker ch') := by
  refine SameRun.get fun s s' h0 => ?_
  dsimp only
  rw [h0.last]
  refine SameRun.bind (SameRun.modify fun _ _ h => ⟨h.last, by simp only [h.innerList], h.table, h.subst, h.usedLinks, h.usedImages, h.listMarkup⟩) fun _ => ?_
  refine SameRun.bind h fun content => ?_
  refine SameRun.bind (SameRun.modify fun _ _ h => ⟨h.last, by simp only [h.innerList], h.table, h.subst, h.usedLinks, h.usedImages, h.listMarkup⟩) fun _ => ?_
  refine SameRun.get fun s s' h => ?_
  rw [h.innerList]
  exact SameRun.ite (SameRun.ite (SameRun.pure _) (SameRun.pure _)) (SameRun.pure _)

theorem SameRun.restLink (anc : List Str) (attrs : Dict (Option Str)) {ch ch' : EmM Str} (h : SameRun ch ch') :
    SameRun (Emit.restLink anc attrs ch) (Emit.restLink anc attrs ch') := by
  refine SameRun.bind h fun text => ?_
  split
  · exact SameRun.raise _
  · refine SameRun.get fun s s' h => ?_
    rw [h.usedLinks]
    refine SameRun.bind (SameRun.ofExcept _) fun p => ?_
    refine SameRun.bind (SameRun.modify fun _ _ h => ⟨h.last, h.innerList, h.table, h.subst, rfl, h.usedImages, h.listMarkup⟩) fun _ => ?_
    refine SameRun.ite ?_ (SameRun.ite (SameRun.pure _) (SameRun.pure _))
    refine SameRun.ite (SameRun.bind (SameRun.modify fun _ _ h => ⟨h.last, h.innerList, h.table, by simp only [h.subst], h.usedLinks, h.usedImages, h.listMarkup⟩)
      fun _ => SameRun.pure _) (SameRun.pure _)

theorem SameRun.restImg (attrs : Dict (Option Str)) : SameRun (Emit.restImg attrs) (Emit.restImg attrs) := by
  refine SameRun.bind (SameRun.imgSrc _) fun o => ?_
  split
  · exact SameRun.pure _
  · refine SameRun.bind (SameRun.imgText _ _) fun text => ?_
    refine SameRun.get fun s s' h => ?_
    rw [h.usedImages]
    refine SameRun.bind (SameRun.ofExcept _) fun p => ?_
    refine SameRun.bind (SameRun.modify fun _ _ h => ⟨h.last, h.innerList, h.table, h.subst, h.usedLinks, rfl, h.listMarkup⟩) fun _ => ?_
    refine SameRun.ite (SameRun.bind (SameRun.modify fun _ _ h => ⟨h.last, h.innerList, h.table, by simp only [h.subst], h.usedLinks, h.usedImages, h.listMarkup⟩)
      fun _ => SameRun.pure _) (SameRun.pure _)

/-- every method does the same if its node has children that do the same -/
theorem SameRun.runMeth (cfg : Cfg) (anc : List Str) (i : HInfo) (m : Meth) {ch ch' : EmM Str} (h : SameRun ch ch') :
    SameRun (Emit.runMeth cfg anc i m ch) (Emit.runMeth cfg anc i m ch') := by
  have same : ∀ (f : Str → Str), SameRun (ch >>= fun c => Pure.pure (f c)) (ch' >>= fun c => Pure.pure (f c)) :=
    fun f => SameRun.bind h fun _ => SameRun.pure _
  cases m with
  | blockPre =>
    refine SameRun.bind (SameRun.deentityM _) fun t => ?_
    split <;> exact SameRun.pure _
  | inlinePre =>
    unfold Emit.runMeth inlinePreEmit
    dsimp only
    split
    · exact SameRun.bind (SameRun.deentityM _) fun _ => SameRun.pure _
    · exact SameRun.bind (SameRun.deentityM _) fun _ => SameRun.pure _
    · exact SameRun.bind (SameRun.deentityM _) fun _ => SameRun.pure _
    · unfold mdInlinePre
      split
      · exact SameRun.raise _
      · refine SameRun.ite ?_ (SameRun.bind (SameRun.ofExcept _) fun _ => SameRun.pure _)
        refine SameRun.bind (SameRun.ofExcept _) fun root => ?_
        split
        · exact SameRun.raise _
        · split
          · exact SameRun.raise _
          · refine SameRun.bind (SameRun.deentityM _) fun t => ?_
            split <;> exact SameRun.pure _
  | blockPass => exact SameRun.ite (SameRun.pure _) (SameRun.pure _)
  | data =>
    unfold Emit.runMeth
    dsimp only
    split
    · exact SameRun.raise _
    · exact SameRun.ite (SameRun.pure _) (SameRun.pure _)
  | entityref => exact SameRun.pure _
  | charref => exact SameRun.ofExcept _
  | p =>
    refine SameRun.bind h fun c => ?_
    split
    · refine SameRun.get fun s s' h => ?_
      rw [h.innerList]
      exact SameRun.ite (SameRun.pure _) (SameRun.pure _)
    · exact SameRun.pure _
    · exact SameRun.pure _
  | br =>
    refine SameRun.get fun s s' h => ?_
    rw [h.innerList]
    exact SameRun.ite (SameRun.pure _) (SameRun.pure _)
  | headline =>
    unfold Emit.runMeth headlineEmit
    dsimp only
    split
    · exact SameRun.bind (SameRun.levelM _) fun _ => same _
    · exact SameRun.bind (SameRun.levelM _) fun _ => same _
    · exact SameRun.bind (SameRun.levelM _) fun _ => same _
    · refine SameRun.bind h fun t => SameRun.bind (SameRun.levelM _) fun n => ?_
      dsimp only
      split
      · exact SameRun.raise _
      · exact SameRun.ite (SameRun.pure _) (SameRun.pure _)
  | typeface key => exact same _
  | typefaceHtml tag => exact same _
  | children => exact h
  | content => exact same _
  | hr => exact SameRun.ite (SameRun.pure _) (SameRun.pure _)
  | a =>
    unfold Emit.runMeth
    dsimp only
    split
    · refine SameRun.bind h fun t => ?_
      split
      · exact SameRun.pure _
      · exact SameRun.ite (SameRun.pure _) (SameRun.pure _)
    · refine SameRun.bind h fun t => ?_
      split
      · exact SameRun.raise _
      · exact SameRun.pure _
    · refine SameRun.bind h fun t => SameRun.bind (SameRun.quoteAttr _ _) fun u => ?_
      split <;> exact SameRun.pure _
    · exact SameRun.restLink _ _ h
  | img =>
    unfold Emit.runMeth
    dsimp only
    split
    · refine SameRun.bind (SameRun.imgSrc _) fun o => ?_
      split
      · exact SameRun.pure _
      · refine SameRun.bind (SameRun.imgText _ _) fun t => ?_
        split <;> exact SameRun.pure _
    · refine SameRun.bind (SameRun.imgSrc _) fun o => ?_
      split
      · exact SameRun.pure _
      · exact SameRun.bind (SameRun.imgText _ _) fun t => SameRun.pure _
    · refine SameRun.bind (SameRun.quoteAttr _ _) fun u => ?_
      dsimp only
      split <;> exact SameRun.pure _
    · exact SameRun.restImg _
  | code =>
    refine SameRun.ite (SameRun.bind h fun t => ?_) (same _)
    exact SameRun.ite (SameRun.raise _) (SameRun.ite (SameRun.pure _) (SameRun.pure _))
  | li =>
    unfold Emit.runMeth
    dsimp only
    have base : SameRun (baseLi ch) (baseLi ch') := by
      refine SameRun.bind h fun t => SameRun.get fun s s' h => ?_
      rw [h.innerList]
      exact SameRun.pure _
    split
    · exact base
    · exact base
    · unfold mdLi
      have tail : ∀ marker : Str, SameRun (do let level ← Emit.levelM i; let content ← ch; return '\n' :: rep c!"  " (level - 1).toNat ++ marker ++ ' ' :: content)
          (do let level ← Emit.levelM i; let content ← ch'; return '\n' :: rep c!"  " (level - 1).toNat ++ marker ++ ' ' :: content) :=
        fun marker => SameRun.bind (SameRun.levelM _) fun _ => same _
      split
      · exact SameRun.ite (tail _) (SameRun.ite (tail _) (SameRun.bind (SameRun.raise _) fun _ => tail _))
      · exact SameRun.bind (SameRun.raise _) fun _ => tail _
    · refine SameRun.bind h fun t => SameRun.bind (SameRun.levelM _) fun n => SameRun.get fun s s' h => ?_
      rw [h.listMarkup]
      exact SameRun.pure _
  | list marker =>
    unfold Emit.runMeth
    dsimp only
    split
    · exact SameRun.baseList _ h
    · exact SameRun.baseList _ h
    · exact SameRun.bind h fun t => SameRun.ite (SameRun.pure _) (SameRun.pure _)
    · refine SameRun.bind (SameRun.modify fun _ _ h => ⟨h.last, h.innerList, h.table, h.subst, h.usedLinks, h.usedImages, rfl⟩) fun _ => ?_
      exact SameRun.bind h fun t => SameRun.ite (SameRun.pure _) (SameRun.pure _)
  | table =>
    refine SameRun.bind (SameRun.setTable _) fun _ => SameRun.bind h fun _ => SameRun.bind SameRun.getTable fun t => ?_
    split <;> exact SameRun.pure _
  | tr => exact SameRun.bind SameRun.getTable fun t => SameRun.bind (SameRun.setTable _) fun _ => SameRun.bind h fun _ => SameRun.pure _
  | th => exact SameRun.bind h fun _ => SameRun.bind SameRun.getTable fun t => SameRun.bind (SameRun.setTable _) fun _ => SameRun.pure _
  | td => exact SameRun.bind h fun _ => SameRun.bind SameRun.getTable fun t => SameRun.bind (SameRun.setTable _) fun _ => SameRun.pure _
  | document =>
    refine SameRun.ite ?_ h
    refine SameRun.bind h fun t => SameRun.get fun s s' h => ?_
    rw [h.subst]
    refine SameRun.ite ?_ (SameRun.pure _)
    exact SameRun.bind SameRun.getBlockData fun _ => SameRun.pure _

theorem SameRun.runNode (cfg : Cfg) (anc : List Str) (i : HInfo) {ch ch' : EmM Str} (h : SameRun ch ch') :
    SameRun (Emit.runNode cfg anc i ch) (Emit.runNode cfg anc i ch') := by
  unfold Emit.runNode
  split
  · exact SameRun.runMeth cfg anc i _ h
  · refine SameRun.bind h fun t => ?_
    split
    · exact SameRun.pure _
    · exact SameRun.raise _
    · exact SameRun.pure _
    · exact SameRun.pure _
    · exact SameRun.pure _

/-! ## Runs of text -/

theorem charref_denotes {n : Str} {c : Char} (h : Denotes n c) : charrefText (some n) = .ok [c] := by
  cases h with
  | dec ds c hne hall hlen hv =>
    have hx : ∀ hex, n ≠ 'x' :: hex := by
      rintro hex rfl
      exact absurd (hall 'x' (by simp)) (by decide)
    unfold charrefText
    split
    · next hex heq => exact absurd (Option.some.inj heq) (hx hex)
    · next name _ heq =>
      cases heq
      rw [replaceNumber, Props.pyInt_digits hne hall hlen, hv]
      change (pyChr c.toNat).map (fun c => [c]) = _
      rw [Props.pyChr_char]
      rfl
    · next heq => cases heq
  | hex hs c hne hall hv =>
    rw [charrefText, replaceHex, if_neg, Props.hexNat_eq hall, hv, Props.pyChr_char]
    · rfl
    · intro hc
      rcases Bool.or_eq_true _ _ ▸ hc with h1 | h1
      · exact hne (List.isEmpty_iff.mp h1)
      · rw [Bool.not_eq_true', List.all_eq_false] at h1
        obtain ⟨d, hd, h2⟩ := h1
        exact h2 (Props.hexDigit_mem (hall d hd)).2

/-- a leaf gives its text -/
theorem leaf_run {cfg : Cfg} {anc : List Str} {i : HInfo} {t : Str} (h : Leaf i t) (hc : clearText cfg i = true) (ch : EmM Str) :
    runNode cfg anc i ch = pure t := by
  cases h with
  | text t hk hi =>
    have hm : methodOf cfg.lang c!"data" = some .data := by cases cfg.lang <;> rfl
    simp only [clearText, hi, hk, Bool.and_eq_true, Bool.or_eq_true, decide_eq_true_eq, ne_eq, not_true_eq_false, decide_false, Bool.false_eq_true, false_or] at hc
    rw [runNode, hk, hm]
    dsimp only
    simp only [runMeth, hi]
    rw [if_neg]
    intro h2
    simp only [Bool.and_eq_true, decide_eq_true_eq] at h2
    rcases hc.2.2 with h3 | h3
    · exact h3 h2.1
    · exact h3 h2.2
  | name n c hk hi hn =>
    have hm : methodOf cfg.lang c!"entityref" = some .entityref := by cases cfg.lang <;> rfl
    rw [runNode, hk, hm]
    simp only [runMeth, hi, entityrefText]
    cases hr : replaceNamed n with
    | error e => rw [Props.replaceNamed_error hr] at hn; cases hn
    | ok u =>
      obtain ⟨d, h1, rfl⟩ := Props.replaceNamed_ok hr
      rw [h1] at hn
      cases hn
      rfl
  | number n c hk hi hd =>
    have hm : methodOf cfg.lang c!"charref" = some .charref := by cases cfg.lang <;> rfl
    rw [runNode, hk, hm]
    simp only [runMeth, hi, charref_denotes hd]
    rfl

theorem leaf_ne {cfg : Cfg} {i : HInfo} {t : Str} (h : Leaf i t) (hc : clearText cfg i = true) : t ≠ [] := by
  cases h with
  | text t hk hi =>
    simp only [clearText, hi, hk, Bool.and_eq_true, Bool.or_eq_true, decide_eq_true_eq, ne_eq, not_true_eq_false, decide_false, Bool.false_eq_true, false_or] at hc
    intro h
    simp [h] at hc
  | name n c hk hi hn => simp
  | number n c hk hi hd => simp

theorem leaf_last {cfg : Cfg} {i : HInfo} {t : Str} (h : Leaf i t) (hc : clearText cfg i = true) :
    startNewline (some (i.kind, i.content)) = true := by
  have hl : ∀ u, i.content = some u → u.getLast? ≠ some '\n' := by
    intro u hu
    simp only [clearText, hu, Bool.and_eq_true, decide_eq_true_eq] at hc
    exact hc.1
  have key : ∀ k u, i.kind = k → blockTags.contains k = false → i.content = some u → startNewline (some (i.kind, i.content)) = true := by
    intro k u hk hb hu
    simp only [startNewline, hk, hb, hu]
    simp [hl u hu]
  cases h with
  | text t hk hi => exact key _ _ hk (by decide) hi
  | name n c hk hi hn => exact key _ _ hk (by decide) hi
  | number n c hk hi hd => exact key _ _ hk (by decide) hi

theorem flush_spelt (b : Bool) (s : ESt) : flushSubst b s =
    if (s.subst ≠ [] && b) = true then .ok (join c!"\n" s.subst ++ c!"\n\n", { s with subst := [] }) else .ok ([], s) := by
  show (if (s.subst ≠ [] && b) = true then _ else _ : EmM Str) s = _
  split <;> rfl

theorem flush_clear {β : Type} {b : Bool} {s : ESt} (h : ¬ (s.subst ≠ [] && b) = true) (f : Str → EmM β) : (flushSubst b >>= f) s = f [] s := by
  rw [bind_run, flush_spelt, if_neg h]

/-- nothing is left to be emitted before a second node -/
theorem pre_twice {β : Type} (lang : Lang) (anc : List Str) (i : HInfo) (F : Str → Str → EmM β) :
    (preEmit lang anc >>= fun p => setLast i >>= fun _ => preEmit lang anc >>= fun q => F p q) =
      preEmit lang anc >>= fun p => setLast i >>= fun _ => F p [] := by
  unfold preEmit
  split
  · funext s
    rw [bind_run, bind_run, flush_spelt]
    by_cases h : (s.subst ≠ [] && decide (anc.length = 1)) = true
    · rw [if_pos h]
      exact flush_clear (b := decide (anc.length = 1)) (s := { s with subst := [], last := some (i.kind, i.content) }) (by simp) _
    · rw [if_neg h]
      exact flush_clear (b := decide (anc.length = 1)) (s := { s with last := some (i.kind, i.content) }) h _
  · rfl

theorem setLast_twice {β : Type} (i j : HInfo) (F : EmM β) : (setLast i >>= fun _ => setLast j >>= fun _ => F) = setLast j >>= fun _ => F := rfl

/-- what becomes of a run of leaves -/
theorem run_emit {cfg : Cfg} (anc : List Str) (ns : List HNode) : ∀ {a : List HNode} {t : Str}, Run cfg a t → a ≠ [] →
    ∃ i : HInfo, startNewline (some (i.kind, i.content)) = true ∧
      emitNodes cfg anc (a ++ ns) = preEmit cfg.lang anc >>= fun p => setLast i >>= fun _ => emitNodes cfg anc ns >>= fun r =>
        pure (p ++ (t ++ r))
  | _, _, .nil, h => absurd rfl h
  | _, _, .cons (i := i) (t := t) (ns := a) (u := u) hl hc hr, _ => by
    have one : emitNodes cfg anc (.mk i [] :: (a ++ ns)) = preEmit cfg.lang anc >>= fun p => setLast i >>= fun _ =>
        emitNodes cfg anc (a ++ ns) >>= fun r => pure (p ++ (t ++ r)) := by
      rw [emitNodes_cons, emitNode_run, leaf_run hl hc]
      simp only [bind_assoc, pure_bind, List.append_assoc]
    by_cases ha : a = []
    · subst ha
      cases hr
      exact ⟨i, leaf_last hl hc, by rw [List.append_nil]; exact one⟩
    · obtain ⟨j, hj, h⟩ := run_emit anc ns hr ha
      refine ⟨j, hj, ?_⟩
      rw [List.cons_append, one]
      simp only [h, bind_assoc, pure_bind]
      rw [pre_twice cfg.lang anc i fun p q => setLast j >>= fun _ => emitNodes cfg anc ns >>= fun r => pure (p ++ (t ++ (q ++ (u ++ r))))]
      simp only [List.nil_append, List.append_assoc]
      rfl

theorem SameRun.preEmit (lang : Lang) (anc : List Str) : SameRun (Emit.preEmit lang anc) (Emit.preEmit lang anc) :=
  SameRun.ite (SameRun.flushSubst _) (SameRun.pure _)

theorem SameRun.setLasts {i j : HInfo} (hi : startNewline (some (i.kind, i.content)) = true)
    (hj : startNewline (some (j.kind, j.content)) = true) : SameRun (Emit.setLast i) (Emit.setLast j) := fun _ _ h =>
  ⟨rfl, by show startNewline (some _) = startNewline (some _); rw [hi, hj], h.innerList, h.table, h.subst, h.usedLinks, h.usedImages, h.listMarkup⟩

/-- trees that differ only in how their text is divided and written give the same -/
theorem SameRun.nodes {cfg : Cfg} : ∀ {ns ns' : List HNode}, Alike cfg ns ns' → ∀ anc : List Str, SameRun (emitNodes cfg anc ns) (emitNodes cfg anc ns')
  | _, _, .nil, anc => by rw [emitNodes_nil]; exact SameRun.pure _
  | _, _, .node i hch hns, anc => by
    rw [emitNodes_cons, emitNodes_cons, emitNode_run, emitNode_run]
    refine SameRun.bind ?_ fun a => SameRun.bind (SameRun.nodes hns anc) fun b => SameRun.pure _
    refine SameRun.bind (SameRun.preEmit _ _) fun p => SameRun.bind (SameRun.runNode cfg anc i ?_) fun c => SameRun.bind (SameRun.setLast i) fun _ => SameRun.pure _
    exact SameRun.bind (SameRun.setLast i) fun _ => SameRun.nodes hch _
  | _, _, .run (a := a) (b := b) (t := t) ha hb ht hns, anc => by
    have hna : a ≠ [] := by rintro rfl; cases ha; exact ht rfl
    have hnb : b ≠ [] := by rintro rfl; cases hb; exact ht rfl
    obtain ⟨i, hi, h1⟩ := run_emit anc _ ha hna
    obtain ⟨j, hj, h2⟩ := run_emit anc _ hb hnb
    rw [h1, h2]
    exact SameRun.bind (SameRun.preEmit _ _) fun p => SameRun.bind (SameRun.setLasts hi hj) fun _ => SameRun.bind (SameRun.nodes hns anc) fun r => SameRun.pure _

theorem emit_alike {cfg : Cfg} (i : HInfo) {ch ch' : List HNode} (h : Alike cfg ch ch') : emit cfg (.mk i ch) = emit cfg (.mk i ch') := by
  have hr := SameRun.nodes (.node i h .nil : Alike cfg [.mk i ch] [.mk i ch']) []
  rw [emitNodes_cons, emitNodes_cons, emitNodes_nil] at hr
  have h1 := hr {} {} (SameE.refl _)
  simp only [bind_run, pure_run] at h1
  rw [emit_eq, emit_eq]
  revert h1
  cases emitNode cfg [] (.mk i ch) {} with
  | error e =>
    cases emitNode cfg [] (.mk i ch') {} with
    | error e' => intro h1; cases (h1 : e = e'); rfl
    | ok r => intro h1; exact h1.elim
  | ok r =>
    cases emitNode cfg [] (.mk i ch') {} with
    | error e' => intro h1; exact h1.elim
    | ok r' =>
      intro h1
      have := h1.1
      simp only [List.append_nil] at this
      simp [this]

end Verif.Emit
