import Verif.Emit.Emitter

/-!
# Lemmas about the emitter monad and the emitter methods
-/

namespace Verif.Emit

open Verif Py Html

/-! ## The monad -/

theorem bind_run {α β : Type} (x : EmM α) (f : α → EmM β) (s : ESt) :
    (x >>= f) s = match x s with | .ok (a, s') => f a s' | .error e => .error e := by
  simp only [Bind.bind, StateT.bind, Except.bind]
  cases x s with
  | error e => rfl
  | ok r => rfl

theorem pure_run {α : Type} (a : α) (s : ESt) : (pure a : EmM α) s = .ok (a, s) := rfl
theorem raise_run {α : Type} (e : PyErr) (s : ESt) : (raise e : EmM α) s = .error e := rfl
theorem get_run (s : ESt) : (get : EmM ESt) s = .ok (s, s) := rfl
theorem modify_run (f : ESt → ESt) (s : ESt) : (modify f : EmM Unit) s = .ok ((), f s) := rfl

theorem ofExcept_run {α : Type} (x : Except PyErr α) (s : ESt) : ofExcept x s = x.map fun a => (a, s) := by
  cases x <;> rfl

theorem setLast_run (i : HInfo) (s : ESt) : setLast i s = .ok ((), { s with last := some (i.kind, i.content) }) := rfl

theorem bind_ok {α β : Type} {x : EmM α} {f : α → EmM β} {s s' : ESt} {b : β} :
    (x >>= f) s = .ok (b, s') ↔ ∃ a s1, x s = .ok (a, s1) ∧ f a s1 = .ok (b, s') := by
  rw [bind_run]
  cases x s with
  | error e => simp
  | ok r =>
    obtain ⟨a, s1⟩ := r
    constructor
    · intro h
      exact ⟨a, s1, rfl, h⟩
    · rintro ⟨a', s1', h, h'⟩
      cases h
      exact h'

theorem pure_ok {α : Type} {a b : α} {s s' : ESt} : (pure a : EmM α) s = .ok (b, s') ↔ b = a ∧ s' = s := by
  rw [pure_run]; simp [eq_comm]

/-! ## One node -/

/-- what is emitted before a node -/
def preEmit (lang : Lang) (anc : List Str) : EmM Str :=
  if lang = .rest then flushSubst (anc.length = 1) else pure []

theorem emitNode_run (cfg : Cfg) (anc : List Str) (i : HInfo) (children : List HNode) :
    emitNode cfg anc (.mk i children) = preEmit cfg.lang anc >>= fun pre =>
      runNode cfg anc i (setLast i >>= fun _ => emitNodes cfg (i.kind :: anc) children) >>= fun content =>
      setLast i >>= fun _ => pure (pre ++ content) := by
  rw [emitNode, preEmit]
  split <;> rfl

theorem emitNodes_nil (cfg : Cfg) (anc : List Str) : emitNodes cfg anc [] = pure [] := by rw [emitNodes]

theorem emitNodes_cons (cfg : Cfg) (anc : List Str) (n : HNode) (ns : List HNode) :
    emitNodes cfg anc (n :: ns) = (do let a ← emitNode cfg anc n; let b ← emitNodes cfg anc ns; return a ++ b) := by
  rw [emitNodes]

/-- methods that emit the children of their node -/
def Meth.usesChildren : Meth → Bool
  | .blockPre | .inlinePre | .blockPass | .data | .entityref | .charref | .br | .hr | .img => false
  | _ => true

/-- the other methods ignore the children -/
theorem runMeth_leaf {cfg : Cfg} {anc : List Str} {i : HInfo} {m : Meth} (h : m.usesChildren = false) (ch ch' : EmM Str) :
    runMeth cfg anc i m ch = runMeth cfg anc i m ch' := by
  cases m <;> first | rfl | simp [Meth.usesChildren] at h

/-- a method emits the children once, between a first part and a last part -/
theorem runMeth_form {cfg : Cfg} {anc : List Str} {i : HInfo} {m : Meth} (h : m.usesChildren = true) :
    ∃ (A : Type) (pre : EmM A) (post : A → Str → EmM Str), ∀ ch : EmM Str,
      runMeth cfg anc i m ch = pre >>= fun a => ch >>= fun c => post a c := by
  have simple : ∀ (f : EmM Str → EmM Str) (post : Str → EmM Str), (∀ ch, f ch = ch >>= post) →
      ∃ (A : Type) (pre : EmM A) (post : A → Str → EmM Str), ∀ ch : EmM Str,
        f ch = pre >>= fun a => ch >>= fun c => post a c := by
    intro f post hf
    exact ⟨Unit, pure (), fun _ c => post c, fun ch => by rw [hf ch]; rfl⟩
  cases m with
  | blockPre => simp [Meth.usesChildren] at h
  | inlinePre => simp [Meth.usesChildren] at h
  | blockPass => simp [Meth.usesChildren] at h
  | data => simp [Meth.usesChildren] at h
  | entityref => simp [Meth.usesChildren] at h
  | charref => simp [Meth.usesChildren] at h
  | br => simp [Meth.usesChildren] at h
  | hr => simp [Meth.usesChildren] at h
  | img => simp [Meth.usesChildren] at h
  | p => exact simple _ _ fun ch => rfl
  | headline =>
    unfold runMeth headlineEmit
    dsimp only
    split
    · exact ⟨Int, levelM i, _, fun ch => rfl⟩
    · exact ⟨Int, levelM i, _, fun ch => rfl⟩
    · exact ⟨Int, levelM i, _, fun ch => rfl⟩
    · exact simple _ _ fun ch => rfl
  | typeface key => exact simple _ _ fun ch => rfl
  | typefaceHtml tag => exact simple _ _ fun ch => rfl
  | children => exact simple _ pure fun ch => by rw [bind_pure]; rfl
  | content => exact simple _ _ fun ch => rfl
  | a =>
    unfold runMeth
    dsimp only
    split
    · exact simple _ _ fun ch => rfl
    · exact simple _ _ fun ch => rfl
    · exact simple _ _ fun ch => rfl
    · exact simple _ _ fun ch => rfl
  | code =>
    unfold runMeth
    dsimp only
    split
    · exact simple _ _ fun ch => rfl
    · exact simple _ _ fun ch => rfl
  | li =>
    unfold runMeth
    dsimp only
    split
    · exact simple _ _ fun ch => rfl
    · exact simple _ _ fun ch => rfl
    · refine ⟨Str × Int, (do
        let marker ← match anc.head? with
          | some k =>
            if k = c!"ul" then pure c!"*" else if k = c!"ol" then pure c!"1." else raise .notImplementedError
          | none => raise .attributeError
        let level ← levelM i
        return (marker, level)), fun a c => return '\n' :: rep c!"  " (a.2 - 1).toNat ++ a.1 ++ ' ' :: c, fun ch => ?_⟩
      unfold mdLi
      cases anc.head? with
      | none => rfl
      | some k =>
        dsimp only
        by_cases h1 : k = c!"ul"
        · simp only [if_pos h1, bind_assoc, pure_bind]
        · by_cases h2 : k = c!"ol"
          · simp only [if_neg h1, if_pos h2, bind_assoc, pure_bind]
          · simp only [if_neg h1, if_neg h2]
            rfl
    · exact simple _ _ fun ch => rfl
  | list marker =>
    unfold runMeth
    dsimp only
    split
    · refine ⟨Bool, (do
        let start := startNewline (← get).last
        modify fun s => { s with innerList := s.innerList ++ marker }
        return start), fun start content => (do
          modify fun s => { s with innerList := s.innerList.dropLast }
          if (← get).innerList = [] then
            if start then return '\n' :: content ++ c!"\n\n" else return strip content ++ c!"\n\n"
          else return content), fun ch => ?_⟩
      simp only [baseList, bind_assoc, pure_bind]
    · refine ⟨Bool, (do
        let start := startNewline (← get).last
        modify fun s => { s with innerList := s.innerList ++ marker }
        return start), fun start content => (do
          modify fun s => { s with innerList := s.innerList.dropLast }
          if (← get).innerList = [] then
            if start then return '\n' :: content ++ c!"\n\n" else return strip content ++ c!"\n\n"
          else return content), fun ch => ?_⟩
      simp only [baseList, bind_assoc, pure_bind]
    · exact simple _ _ fun ch => rfl
    · exact ⟨Unit, modify fun s => { s with listMarkup := marker }, fun _ content =>
        if i.level = some 1 then return join c!"\n\n" ((splitChar '\n' content).filter (· ≠ [])) ++ c!"\n\n"
        else return content, fun ch => rfl⟩
  | table =>
    exact ⟨Unit, _, _, fun ch => rfl⟩
  | tr =>
    refine ⟨Unit, (do setTable (← getTable).addTr), fun _ _ => return [], fun ch => ?_⟩
    simp only [runMeth, bind_assoc]
  | th => exact simple _ _ fun ch => rfl
  | td => exact simple _ _ fun ch => rfl
  | document =>
    unfold runMeth
    dsimp only
    split
    · exact simple _ _ fun ch => rfl
    · exact simple _ pure fun ch => by rw [bind_pure]

theorem lookup_mem {α : Type} {k : Str} {v : α} : ∀ {l : List (Str × α)}, l.lookup k = some v → (k, v) ∈ l
  | [], h => by cases h
  | (k', v') :: l, h => by
    rw [List.lookup_cons] at h
    split at h
    · next hk =>
      simp only [beq_iff_eq] at hk
      cases h
      subst hk
      exact List.mem_cons_self
    · exact List.mem_cons_of_mem _ (lookup_mem h)

theorem emit_eq (cfg : Cfg) (root : HNode) : emit cfg root =
    match emitNode cfg [] root {} with
    | .ok (t, _) => .ok (if cfg.lang = .rest then rstrip t else strip t)
    | .error e => .error e := by
  rw [emit]
  show (emitNode cfg [] root {} >>= fun p : Str × ESt => _) = _
  cases emitNode cfg [] root {} with
  | error e => rfl
  | ok r => rfl

/-- the state in which the children of a node are emitted -/
def enter (i : HInfo) (s : ESt) : ESt := { s with last := some (i.kind, i.content) }

/-- nothing is emitted before a node unless substitution definitions are pending at a child of the root -/
theorem preEmit_nil {lang : Lang} {anc : List Str} {s : ESt} (h : lang = .rest → s.subst = [] ∨ anc.length ≠ 1) :
    preEmit lang anc s = .ok ([], s) := by
  rw [preEmit]
  split
  · next hr =>
    rw [flushSubst, bind_run, get_run]
    dsimp only
    rw [if_neg]
    · rfl
    · rcases h hr with h | h <;> simp [h]
  · rfl

/-- the emission of the children of a node -/
def childrenM (cfg : Cfg) (anc : List Str) (i : HInfo) (children : List HNode) : EmM Str :=
  setLast i >>= fun _ => emitNodes cfg (i.kind :: anc) children

theorem childrenM_run (cfg : Cfg) (anc : List Str) (i : HInfo) (children : List HNode) (s : ESt) :
    childrenM cfg anc i children s = emitNodes cfg (i.kind :: anc) children (enter i s) := by
  rw [childrenM, bind_run, setLast_run]; rfl

theorem emitNode_known {cfg : Cfg} {anc : List Str} {i : HInfo} {children : List HNode} {m : Meth} {s : ESt}
    (hm : methodOf cfg.lang i.kind = some m) (h : cfg.lang = .rest → s.subst = [] ∨ anc.length ≠ 1) :
    emitNode cfg anc (.mk i children) s = match runMeth cfg anc i m (childrenM cfg anc i children) s with
      | .ok (t, s1) => .ok (t, enter i s1)
      | .error e => .error e := by
  rw [emitNode_run, bind_run, preEmit_nil h]
  dsimp only
  rw [bind_run, runNode, hm]
  rw [← childrenM]
  dsimp only
  cases runMeth cfg anc i m (childrenM cfg anc i children) s with
  | error e => rfl
  | ok r => rfl

/-- the state without `last` -/
def ESt.core (s : ESt) : ESt := { s with last := none }

theorem enter_core (i : HInfo) (s : ESt) : (enter i s).core = s.core := rfl

theorem emitNodes_one {cfg : Cfg} {anc : List Str} {n : HNode} {s s' : ESt} {t : Str}
    (h : emitNode cfg anc n s = .ok (t, s')) : emitNodes cfg anc [n] s = .ok (t, s') := by
  rw [emitNodes_cons, emitNodes_nil, bind_run, h]
  dsimp only
  rw [bind_run, pure_run]
  dsimp only
  rw [pure_run, List.append_nil]

end Verif.Emit
