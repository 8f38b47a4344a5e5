import Verif.Emit.EmitLemmas

/-!
# The changes of the emitters' attributes

Every emission changes the attributes of the emitter in small steps; a property that is kept by each step is kept by
every emission.
-/

namespace Verif.Emit

open Verif Py Html

/-- the table that `table_emit` creates -/
def newTable : Lang → Table
  | .creole => { headPrefix := c!"= " }
  | .textile => { headPrefix := c!"_. ", autoWidth := false }
  | .markdown | .rest => { headPrefix := [] }

/-- one change of the attributes -/
inductive Step (lang : Lang) : ESt → ESt → Prop where
  | last (s : ESt) (l : Option (Str × Option Str)) : Step lang s { s with last := l }
  | inner (s : ESt) (x : Str) : lang = .creole ∨ lang = .textile → Step lang s { s with innerList := x }
  | markup (s : ESt) (x : Str) : lang = .rest → Step lang s { s with listMarkup := x }
  | newTable (s : ESt) : Step lang s { s with table := some (newTable lang) }
  | addTr (s : ESt) (t : Table) : s.table = some t → Step lang s { s with table := some t.addTr }
  | addTh (s : ESt) (t : Table) (c : Str) : s.table = some t → Step lang s { s with table := some (t.addTh (cellText lang c)) }
  | addTd (s : ESt) (t : Table) (c : Str) : s.table = some t → Step lang s { s with table := some (t.addTd (cellText lang c)) }
  | flush (s : ESt) : lang = .rest → Step lang s { s with subst := [] }
  | link (s : ESt) (text : Str) (url : Option Str) (old : Option Str) (d : Dict (Option Str)) : lang = .rest →
      oldSubst s.usedLinks text url = .ok (old, d) → Step lang s { s with usedLinks := d }
  | image (s : ESt) (text : Str) (url : Option Str) (old : Option Str) (d : Dict (Option Str)) : lang = .rest →
      oldSubst s.usedImages text url = .ok (old, d) → Step lang s { s with usedImages := d }
  | define (s : ESt) (x : Str) : lang = .rest → Step lang s { s with subst := s.subst ++ [x] }

/-- any number of changes -/
inductive Steps (lang : Lang) : ESt → ESt → Prop where
  | refl (s : ESt) : Steps lang s s
  | cons {s s1 s2 : ESt} : Step lang s s1 → Steps lang s1 s2 → Steps lang s s2

theorem Steps.trans {lang : Lang} {s s1 s2 : ESt} (h : Steps lang s s1) (h' : Steps lang s1 s2) : Steps lang s s2 := by
  induction h with
  | refl s => exact h'
  | cons a _ ih => exact .cons a (ih h')

theorem Step.steps {lang : Lang} {s s1 : ESt} (h : Step lang s s1) : Steps lang s s1 := .cons h (.refl _)

/-- what is kept by each step is kept by all -/
theorem Steps.inv {lang : Lang} {P : ESt → Prop} (hP : ∀ s s', Step lang s s' → P s → P s') {s s' : ESt}
    (h : Steps lang s s') (hs : P s) : P s' := by
  induction h with
  | refl s => exact hs
  | cons a _ ih => exact ih (hP _ _ a hs)

/-- `x` changes the attributes in steps only -/
def Via {α : Type} (lang : Lang) (x : EmM α) : Prop := ∀ s a s', x s = .ok (a, s') → Steps lang s s'

theorem Via.bind {lang : Lang} {α β : Type} {x : EmM α} {g : α → EmM β} (hx : Via lang x) (hg : ∀ a, Via lang (g a)) :
    Via lang (x >>= g) := by
  intro s b s' h
  obtain ⟨a, s1, h1, h2⟩ := bind_ok.mp h
  exact (hx s a s1 h1).trans (hg a s1 b s' h2)

theorem Via.pure {lang : Lang} {α : Type} (a : α) : Via lang (Pure.pure a : EmM α) := by
  intro s b s' h
  rw [(pure_ok.mp h).2]
  exact .refl _

theorem Via.raise {lang : Lang} {α : Type} (e : PyErr) : Via lang (Emit.raise e : EmM α) := by
  intro s b s' h
  cases h

theorem Via.get {lang : Lang} : Via lang (MonadState.get : EmM ESt) := by
  intro s b s' h
  cases h
  exact .refl _

theorem Via.modify {lang : Lang} {g : ESt → ESt} (h : ∀ s, Step lang s (g s)) : Via lang (_root_.modify g : EmM Unit) := by
  intro s b s' h'
  cases h'
  exact (h s).steps

theorem Via.ofExcept {lang : Lang} {α : Type} (x : Except PyErr α) : Via lang (Emit.ofExcept x) := by
  cases x with
  | ok a => exact Via.pure a
  | error e => exact Via.raise e

theorem Via.ite {lang : Lang} {α : Type} {p : Prop} [Decidable p] {x y : EmM α} (hx : Via lang x) (hy : Via lang y) :
    Via lang (if p then x else y) := by
  split
  · exact hx
  · exact hy

theorem via_levelM {lang : Lang} (i : HInfo) : Via lang (levelM i) := by
  rw [levelM]
  split
  · exact Via.pure _
  · exact Via.raise _

theorem via_deentityM {lang : Lang} (c : Option Str) : Via lang (deentityM c) := by
  unfold deentityM
  split
  · exact Via.ofExcept _
  · exact Via.raise _

theorem getTable_ok {s s' : ESt} {t : Table} (h : getTable s = .ok (t, s')) : s' = s ∧ s.table = some t := by
  rw [getTable, bind_run, get_run] at h
  dsimp only at h
  cases ht : s.table with
  | none => rw [ht] at h; cases h
  | some t' =>
    rw [ht] at h
    obtain ⟨h1, h2⟩ := pure_ok.mp h
    rw [h1]
    exact ⟨h2, rfl⟩

theorem via_imgSrc {lang : Lang} (attrs : Dict (Option Str)) : Via lang (imgSrc attrs) := by
  rw [imgSrc]
  split
  · exact Via.raise _
  · exact Via.raise _
  · exact Via.ite (Via.pure _) (Via.pure _)

theorem via_imgText {lang : Lang} (attrs : Dict (Option Str)) (src : Str) : Via lang (imgText attrs src) := by
  rw [imgText]
  split
  · exact Via.ite (Via.pure _) (Via.pure _)
  · exact Via.raise _

theorem via_setLast {lang : Lang} (i : HInfo) : Via lang (setLast i) := Via.modify fun s => Step.last s _

/-- read the table, change it -/
theorem via_changeTable {lang : Lang} {f : Table → Table}
    (h : ∀ s t, s.table = some t → Step lang s { s with table := some (f t) }) :
    Via lang (getTable >>= fun t => setTable (f t)) := by
  intro s a s' h'
  obtain ⟨t, s1, h1, h2⟩ := bind_ok.mp h'
  obtain ⟨rfl, ht⟩ := getTable_ok h1
  cases h2
  exact (h _ t ht).steps

theorem via_getTable {lang : Lang} : Via lang getTable := by
  intro s a s' h
  rw [(getTable_ok h).1]
  exact .refl _

theorem via_getBlockData {lang : Lang} (hl : lang = .rest) : Via lang getBlockData := by
  unfold getBlockData
  exact Via.get.bind fun s => (Via.modify fun s => Step.flush s hl).bind fun _ => Via.pure _

theorem via_quoteAttr {lang : Lang} (cfg : Cfg) (v : Option (Option Str)) : Via lang (quoteAttr cfg v) := by
  unfold quoteAttr
  split
  · exact Via.raise _
  · exact Via.pure _
  · exact Via.ofExcept _

theorem via_runMeth {cfg : Cfg} (anc : List Str) (i : HInfo) (m : Meth) {ch : EmM Str} (hch : Via cfg.lang ch) :
    Via cfg.lang (runMeth cfg anc i m ch) := by
  cases m with
  | blockPre =>
    rw [runMeth, blockPreEmit]
    refine (via_deentityM _).bind fun t => ?_
    split <;> exact Via.pure _
  | inlinePre =>
    rw [runMeth]
    unfold inlinePreEmit
    split
    · exact (via_deentityM _).bind fun t => Via.pure _
    · exact (via_deentityM _).bind fun t => Via.pure _
    · exact (via_deentityM _).bind fun t => Via.pure _
    · unfold mdInlinePre
      split
      · exact Via.raise _
      · split
        · refine (Via.ofExcept _).bind fun root => ?_
          split
          · exact Via.raise _
          · split
            · exact Via.raise _
            · refine (via_deentityM _).bind fun t => ?_
              split <;> exact Via.pure _
        · exact (Via.ofExcept _).bind fun t => Via.pure _
  | blockPass => exact Via.ite (Via.pure _) (Via.pure _)
  | data =>
    rw [runMeth]
    split
    · exact Via.raise _
    · exact Via.ite (Via.pure _) (Via.pure _)
  | entityref => exact Via.pure _
  | charref => exact Via.ofExcept _
  | br => exact Via.get.bind fun s => Via.ite (Via.pure _) (Via.pure _)
  | hr => exact Via.ite (Via.pure _) (Via.pure _)
  | img =>
    rw [runMeth]
    split
    · rw [creoleImg]
      refine (via_imgSrc _).bind fun o => ?_
      split
      · exact Via.pure _
      · refine (via_imgText _ _).bind fun t => ?_
        split <;> exact Via.pure _
    · rw [textileImg]
      refine (via_imgSrc _).bind fun o => ?_
      split
      · exact Via.pure _
      · exact (via_imgText _ _).bind fun t => Via.pure _
    · rw [mdImg]
      refine (via_quoteAttr _ _).bind fun src => ?_
      dsimp only
      split <;> exact Via.pure _
    · next hl =>
      rw [restImg]
      refine (via_imgSrc _).bind fun o => ?_
      split
      · exact Via.pure _
      · refine (via_imgText _ _).bind fun t => ?_
        intro s a s' h
        rw [bind_run, get_run] at h
        dsimp only at h
        obtain ⟨⟨old, d⟩, s1, h1, h2⟩ := bind_ok.mp h
        rw [ofExcept_run] at h1
        cases ho : oldSubst s.usedImages t (some _) with
        | error e => rw [ho] at h1; cases h1
        | ok r =>
          rw [ho] at h1
          cases h1
          rw [bind_run, modify_run] at h2
          refine .cons (Step.image s t _ old d hl ho) ?_
          dsimp only at h2
          revert h2
          generalize ({ s with usedImages := d } : ESt) = s2
          intro h2
          split at h2
          · rw [bind_run, modify_run] at h2
            rw [(pure_ok.mp h2).2]
            exact (Step.define s2 _ hl).steps
          · rw [(pure_ok.mp h2).2]
            exact .refl _
  | p =>
    rw [runMeth]
    refine hch.bind fun c => ?_
    split
    · exact Via.get.bind fun s => Via.ite (Via.pure _) (Via.pure _)
    · exact Via.pure _
    · exact Via.pure _
  | headline =>
    rw [runMeth]
    unfold headlineEmit
    split
    · exact (via_levelM _).bind fun l => hch.bind fun c => Via.pure _
    · exact (via_levelM _).bind fun l => hch.bind fun c => Via.pure _
    · exact (via_levelM _).bind fun l => hch.bind fun c => Via.pure _
    · rw [restHeadline]
      refine hch.bind fun c => (via_levelM _).bind fun l => ?_
      dsimp only
      split
      · exact Via.raise _
      · split <;> exact Via.pure _
  | typeface key => exact hch.bind fun c => Via.pure _
  | typefaceHtml tag => exact hch.bind fun c => Via.pure _
  | children => exact hch
  | content => exact hch.bind fun c => Via.pure _
  | a =>
    rw [runMeth]
    split
    · rw [creoleLink]
      refine hch.bind fun c => ?_
      split
      · exact Via.pure _
      · exact Via.ite (Via.pure _) (Via.pure _)
    · rw [textileLink]
      refine hch.bind fun c => ?_
      split
      · exact Via.raise _
      · exact Via.pure _
    · rw [mdLink]
      refine hch.bind fun c => (via_quoteAttr _ _).bind fun url => ?_
      split <;> exact Via.pure _
    · next hl =>
      rw [restLink]
      refine hch.bind fun t => ?_
      split
      · exact Via.raise _
      · intro s a s' h
        rw [bind_run, get_run] at h
        dsimp only at h
        obtain ⟨⟨old, d⟩, s1, h1, h2⟩ := bind_ok.mp h
        rw [ofExcept_run] at h1
        cases ho : oldSubst s.usedLinks t _ with
        | error e => rw [ho] at h1; cases h1
        | ok r =>
          rw [ho] at h1
          cases h1
          rw [bind_run, modify_run] at h2
          refine .cons (Step.link s t _ old d hl ho) ?_
          dsimp only at h2
          revert h2
          generalize ({ s with usedLinks := d } : ESt) = s2
          intro h2
          split at h2
          · split at h2
            · rw [bind_run, modify_run] at h2
              rw [(pure_ok.mp h2).2]
              exact (Step.define s2 _ hl).steps
            · rw [(pure_ok.mp h2).2]
              exact .refl _
          · split at h2
            · rw [(pure_ok.mp h2).2]
              exact .refl _
            · rw [(pure_ok.mp h2).2]
              exact .refl _
  | code =>
    rw [runMeth]
    split
    · rw [mdCode]
      refine hch.bind fun c => ?_
      dsimp only
      exact Via.ite (Via.raise _) (Via.ite (Via.pure _) (Via.pure _))
    · exact hch.bind fun c => Via.pure _
  | li =>
    have hb : Via cfg.lang (baseLi ch) := hch.bind fun c => Via.get.bind fun s => Via.pure _
    rw [runMeth]
    split
    · exact hb
    · exact hb
    · unfold mdLi
      split
      · split
        · exact (Via.pure _).bind fun m => (via_levelM _).bind fun l => hch.bind fun c => Via.pure _
        · split
          · exact (Via.pure _).bind fun m => (via_levelM _).bind fun l => hch.bind fun c => Via.pure _
          · exact (Via.raise _).bind fun m => (via_levelM _).bind fun l => hch.bind fun c => Via.pure _
      · exact (Via.raise _).bind fun m => (via_levelM _).bind fun l => hch.bind fun c => Via.pure _
    · exact hch.bind fun c => (via_levelM _).bind fun l => Via.get.bind fun s => Via.pure _
  | list marker =>
    have hb : cfg.lang = .creole ∨ cfg.lang = .textile → Via cfg.lang (baseList marker ch) := by
      intro hl
      rw [baseList]
      refine Via.get.bind fun s => ?_
      dsimp only
      refine (Via.modify fun s => Step.inner s _ hl).bind fun _ => hch.bind fun c =>
        (Via.modify fun s => Step.inner s _ hl).bind fun _ => Via.get.bind fun s => ?_
      exact Via.ite (Via.ite (Via.pure _) (Via.pure _)) (Via.pure _)
    rw [runMeth]
    split
    · next h => exact hb (.inl h)
    · next h => exact hb (.inr h)
    · exact hch.bind fun c => Via.ite (Via.pure _) (Via.pure _)
    · next h => exact (Via.modify fun s => Step.markup s _ h).bind fun _ => hch.bind fun c => Via.ite (Via.pure _) (Via.pure _)
  | table =>
    rw [runMeth]
    unfold tableEmit
    refine Via.bind (Via.modify fun s => ?_) fun _ => hch.bind fun _ => via_getTable.bind fun t => ?_
    · have h := Step.newTable (lang := cfg.lang) s
      revert h
      cases cfg.lang <;> exact id
    · split <;> exact Via.pure _
  | tr =>
    rw [runMeth, ← bind_assoc]
    exact (via_changeTable (fun s t ht => Step.addTr s t ht)).bind fun _ => hch.bind fun _ => Via.pure _
  | th =>
    rw [runMeth]
    refine hch.bind fun c => ?_
    dsimp only
    rw [← bind_assoc]
    exact (via_changeTable (fun s t ht => Step.addTh s t c ht)).bind fun _ => Via.pure _
  | td =>
    rw [runMeth]
    refine hch.bind fun c => ?_
    dsimp only
    rw [← bind_assoc]
    exact (via_changeTable (fun s t ht => Step.addTd s t c ht)).bind fun _ => Via.pure _
  | document =>
    rw [runMeth]
    split
    · next hl =>
      rw [restDocument]
      refine hch.bind fun c => Via.get.bind fun s => ?_
      exact Via.ite ((via_getBlockData hl).bind fun _ => Via.pure _) (Via.pure _)
    · exact hch

theorem via_unknown {lang : Lang} (p : Policy) (i : HInfo) {ch : EmM Str} (h : Via lang ch) : Via lang (unknownEmit p i ch) := by
  rw [unknownEmit]
  refine h.bind fun c => ?_
  split
  · exact Via.pure _
  · exact Via.raise _
  · exact Via.pure _
  · exact Via.pure _
  · exact Via.pure _

theorem via_preEmit (lang : Lang) (anc : List Str) : Via lang (preEmit lang anc) := by
  rw [preEmit]
  split
  · next hl =>
    rw [flushSubst]
    refine Via.get.bind fun s => ?_
    exact Via.ite ((via_getBlockData hl).bind fun _ => Via.pure _) (Via.pure _)
  · exact Via.pure _

mutual

/-- every emission is made of steps -/
theorem via_emitNode (cfg : Cfg) (anc : List Str) : ∀ n : HNode, Via cfg.lang (emitNode cfg anc n)
  | .mk i children => by
    rw [emitNode_run]
    have hch : Via cfg.lang (setLast i >>= fun _ => emitNodes cfg (i.kind :: anc) children) :=
      (via_setLast i).bind fun _ => via_emitNodes cfg (i.kind :: anc) children
    refine (via_preEmit _ _).bind fun pre => Via.bind ?_ fun t => (via_setLast i).bind fun _ => Via.pure _
    rw [runNode]
    split
    · exact via_runMeth anc i _ hch
    · exact via_unknown _ _ hch

theorem via_emitNodes (cfg : Cfg) (anc : List Str) : ∀ ns : List HNode, Via cfg.lang (emitNodes cfg anc ns)
  | [] => by rw [emitNodes_nil]; exact Via.pure _
  | n :: ns => by
    rw [emitNodes_cons]
    exact (via_emitNode cfg anc n).bind fun a => (via_emitNodes cfg anc ns).bind fun b => Via.pure _

end

end Verif.Emit
