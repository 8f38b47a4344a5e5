import Verif.Creole.MacroSource
import Verif.Creole.EmitterLemmas
import Verif.Creole.PageTags
import Verif.Props.Calling

/-!
# C94: macros in a dict or an object, and what is written to stderr
-/

namespace Verif.Props

open Verif Py Creole

/-- `w` has, under every name, the macro that the dict `ms` has under it.  `None` is no macro. -/
def SameMacros (ms : Macros) (w : World) : Prop :=
  ∀ name, dictGet name ms = match w.get name with
    | some (.is m) => some m
    | _ => none

/-- the same result, with the same macros after it if there is no exception -/
def SameResult (a : EM) (b : EW) : Prop :=
  match a with
  | .ok (s, ms) => b.1 = .ok s ∧ SameMacros ms b.2
  | .error e => b.1 = .error e

theorem SameMacros.set {ms : Macros} {w : World} (h : SameMacros ms w) (name : Str) (m : Macro) :
    SameMacros (dictSet name m ms) (w.set name (.is m)) := by
  intro k
  unfold World.set World.get
  by_cases hk : k = name
  · subst hk; rw [dictGet_dictSet_self, dictGet_dictSet_self]
  · rw [dictGet_dictSet_ne hk, dictGet_dictSet_ne hk]; exact h k

theorem dictGet_recordV (k : Str) (c : MacroCall) (d : Dict MacroVal) :
    dictGet k (d.map fun (k, v) => (k, v.record c)) = (dictGet k d).map (·.record c) := by
  induction d with
  | nil => rfl
  | cons x d ih =>
    obtain ⟨k', m⟩ := x
    simp only [dictGet, List.map_cons, List.lookup_cons] at ih ⊢
    split
    · rfl
    · exact ih

theorem SameMacros.record {ms : Macros} {w : World} (h : SameMacros ms w) (c : MacroCall) :
    SameMacros (ms.map fun (k, m) => (k, m.record c)) (w.record c) := by
  intro k
  have hk := h k
  unfold World.record World.get at *
  rw [dictGet_record, dictGet_recordV, dictGet_recordV, hk]
  cases dictGet k w.own with
  | some v => cases v <;> rfl
  | none =>
    cases dictGet k w.inherited with
    | none => rfl
    | some v => cases v <;> rfl

theorem SameMacros.log {ms : Macros} {w : World} (h : SameMacros ms w) (l : List Trace) : SameMacros ms { w with stderr := l } := h

theorem SameResult.error {env : Env} {text : Str} {t : Option Trace} {ms : Macros} {w : World} (h : SameMacros ms w) :
    SameResult (.ok (errorText env text, ms)) (errorW env text t w) := by
  unfold errorW
  refine ⟨rfl, ?_⟩
  cases t with
  | none => exact h
  | some t =>
    dsimp only
    split
    · exact h.log _
    · exact h

theorem callMacroW_same (name : Str) (mac : Macro) (kwargs : Dict PVal) {ms : Macros} {w : World} (h : SameMacros ms w) :
    (callMacro name mac kwargs ms).1 = (callMacroW name mac kwargs w).1 ∧
      SameMacros (callMacro name mac kwargs ms).2 (callMacroW name mac kwargs w).2 := by
  cases mac with
  | fn f => exact ⟨rfl, h⟩
  | obj past f => exact ⟨rfl, h.record _⟩
  | toc t =>
    unfold callMacro callMacroW
    dsimp only
    split
    · exact ⟨rfl, h⟩
    · exact ⟨rfl, h.set _ _⟩

theorem macroEmitW_same (env : Env) (i : Info) {ms : Macros} {w : World} (h : SameMacros ms w) :
    SameResult (macroEmit env i ms) (macroEmitW env i w) := by
  unfold macroEmit macroEmitW
  dsimp only
  cases string2dict i.macroArgs with
  | error e => cases e <;> first | exact .error h | exact rfl
  | ok kwargs =>
    dsimp only
    rw [h i.macroName]
    cases w.get i.macroName with
    | none => exact .error h
    | some v =>
      cases v with
      | none => exact .error h
      | is mac =>
        dsimp only
        obtain ⟨h1, h2⟩ := callMacroW_same i.macroName mac (dictSet c!"text" (optVal i.content) kwargs) h
        generalize callMacro i.macroName mac (dictSet c!"text" (optVal i.content) kwargs) ms = a at *
        generalize callMacroW i.macroName mac (dictSet c!"text" (optVal i.content) kwargs) w = b at *
        obtain ⟨out, ms'⟩ := a
        obtain ⟨out', w'⟩ := b
        dsimp only at h1 h2
        subst h1
        cases out with
        | ret s => exact ⟨rfl, h2⟩
        | other d => exact .error h2
        | typeError m =>
          dsimp only
          split
          · exact rfl
          · exact .error h2
        | exc m => exact .error h2
        | baseExc => exact rfl

theorem headerEmitW_same (env : Env) (n : Nat) (s : Str) {ms : Macros} {w : World} (h : SameMacros ms w) :
    SameResult (headerEmit env n s ms) (headerEmitW env n s w) := by
  unfold headerEmit headerEmitW
  dsimp only
  split
  · rw [h c!"toc"]
    cases w.get c!"toc" with
    | none => exact rfl
    | some v =>
      cases v with
      | none => exact rfl
      | is m =>
        cases m with
        | fn f => exact rfl
        | obj p f => exact rfl
        | toc t =>
          dsimp only
          cases t.addHeadline n s with
          | error e => exact rfl
          | ok t => exact ⟨rfl, h.set _ _⟩
  · exact ⟨rfl, h⟩

theorem SameResult.map {a : EM} {b : EW} (h : SameResult a b) (f : Str → Str) : SameResult (emap f a) (wmap f b) := by
  obtain ⟨r, w⟩ := b
  cases a with
  | error e => cases (show r = .error e from h); exact rfl
  | ok x =>
    obtain ⟨s, ms⟩ := x
    obtain ⟨h1, h2⟩ := h
    cases (show r = .ok s from h1)
    exact ⟨rfl, h2⟩

theorem SameResult.pure (r : Except PyErr Str) {ms : Macros} {w : World} (h : SameMacros ms w) : SameResult (pureText r ms) (r, w) := by
  cases r with
  | error e => exact rfl
  | ok s => exact ⟨rfl, h⟩

mutual

theorem emitNodeW_same (env : Env) (parent : Info) : ∀ (n : Node) {ms : Macros} {w : World}, SameMacros ms w →
    SameResult (emitNode env parent n ms) (emitNodeW env parent n w)
  | .mk i cs, ms, w, h => by
    rw [emitNode, emitNodeW]
    cases i.kind <;> dsimp only
    case document => exact emitNodesW_same env i cs h
    case text => exact .pure _ h
    case separator => exact ⟨rfl, h⟩
    case bullet_list | number_list | list_item =>
      cases i.levelE with
      | ok n => exact (emitNodesW_same env i cs h).map _
      | error e => exact rfl
    case header =>
      cases i.levelE with
      | error e => exact rfl
      | ok n =>
        cases i.contentE with
        | error e => exact rfl
        | ok s => exact headerEmitW_same env n s h
    case link =>
      cases i.contentE with
      | error e => exact rfl
      | ok s =>
        dsimp only
        split
        · exact ⟨rfl, h⟩
        · exact (emitNodesW_same env i cs h).map _
    case image | brk | pre_block | pre_inline => exact .pure _ h
    case line => exact ⟨rfl, h⟩
    case macro_inline | macro_block => exact macroEmitW_same env i h
    all_goals exact (emitNodesW_same env i cs h).map _

theorem emitNodesW_same (env : Env) (parent : Info) : ∀ (ns : List Node) {ms : Macros} {w : World}, SameMacros ms w →
    SameResult (emitNodes env parent ns ms) (emitNodesW env parent ns w)
  | [], ms, w, h => by rw [emitNodes, emitNodesW]; exact ⟨rfl, h⟩
  | n :: ns, ms, w, h => by
    rw [emitNodes, emitNodesW]
    have h1 := emitNodeW_same env parent n h
    generalize emitNodeW env parent n w = b at *
    obtain ⟨r, w1⟩ := b
    cases he : emitNode env parent n ms with
    | error e =>
      rw [he] at h1
      cases (show r = .error e from h1)
      exact rfl
    | ok x =>
      obtain ⟨s, ms1⟩ := x
      rw [he] at h1
      obtain ⟨h1, h2⟩ := h1
      cases (show r = .ok s from h1)
      dsimp only
      have h3 := emitNodesW_same env parent ns h2
      generalize emitNodesW env parent ns w1 = b at *
      obtain ⟨r, w2⟩ := b
      cases he : emitNodes env parent ns ms1 with
      | error e =>
        rw [he] at h3
        cases (show r = .error e from h3)
        exact rfl
      | ok x =>
        obtain ⟨t, ms2⟩ := x
        rw [he] at h3
        obtain ⟨h3, h4⟩ := h3
        cases (show r = .ok t from h3)
        exact ⟨rfl, h4⟩

end

theorem emitDocW_same (verbose : Int) (strict : Bool) (d : Creole.Doc) {ms : Macros} {w : World} (h : SameMacros ms w)
    (htoc : ∀ v, w.get c!"toc" = some v → ∃ m, v = .is m) : SameResult (emitDoc verbose strict d ms) (emitDocW verbose strict d w) := by
  unfold emitDoc emitDocW
  dsimp only
  obtain ⟨ms1, hms⟩ : ∃ m, m = (if (d.used.contains c!"toc" && (dictGet c!"toc" ms).isNone) = true then dictSet c!"toc" (.toc {}) ms else ms) := ⟨_, rfl⟩
  obtain ⟨w1, hw⟩ : ∃ m, m = (if (d.used.contains c!"toc" && (w.get c!"toc").isNone) = true then w.set c!"toc" (.is (.toc {})) else w) := ⟨_, rfl⟩
  rw [← hms, ← hw]
  have hnone : (dictGet c!"toc" ms).isNone = (w.get c!"toc").isNone := by
    rw [h c!"toc"]
    cases hg : w.get c!"toc" with
    | none => rfl
    | some v => obtain ⟨m, rfl⟩ := htoc v hg; rfl
  have hsame : SameMacros ms1 w1 := by
    rw [hms, hw, hnone]
    split
    · exact h.set _ _
    · exact h
  have huse : (d.used.contains c!"toc" && w1.has c!"toc") = d.used.contains c!"toc" := by
    cases hu : d.used.contains c!"toc" with
    | false => rfl
    | true =>
      rw [hw, hu]
      unfold World.has
      cases hg : w.get c!"toc" with
      | none =>
        simp only [Option.isNone_none, Bool.and_self, if_true]
        unfold World.set World.get
        rw [dictGet_dictSet_self]
        rfl
      | some v =>
        obtain ⟨m, rfl⟩ := htoc v hg
        simp [hg]
  rw [huse]
  have h1 := emitNodeW_same { verbose, strict, useToc := d.used.contains c!"toc" } { kind := .document } d.root hsame
  generalize emitNodeW { verbose, strict, useToc := d.used.contains c!"toc" } { kind := .document } d.root w1 = b at *
  obtain ⟨r, w2⟩ := b
  cases he : emitNode { verbose, strict, useToc := d.used.contains c!"toc" } { kind := .document } d.root ms1 with
  | error e =>
    rw [he] at h1
    cases (show r = .error e from h1)
    exact rfl
  | ok x =>
    obtain ⟨s, ms2⟩ := x
    rw [he] at h1
    obtain ⟨h1, h2⟩ := h1
    cases (show r = .ok s from h1)
    show SameResult (if _ then _ else _) (if _ then _ else _)
    split
    · rw [h2 c!"toc"]
      dsimp only
      cases w2.get c!"toc" with
      | none => exact rfl
      | some v =>
        cases v with
        | none => exact rfl
        | is m =>
          cases m with
          | fn f => exact rfl
          | obj p f => exact rfl
          | toc t =>
            dsimp only
            cases t.emit (strip s) with
            | error e => exact rfl
            | ok t => exact ⟨rfl, h2⟩
    · exact ⟨rfl, h2⟩

/-- C94: an object (a module, for instance) may be given in the place of a dict.  If its attributes, of its own or inherited,
are the macros of the dict, then the HTML or the exception is the same, and afterwards (a table of contents may have been added)
its attributes are again those of the dict.  The same goes for a dict with values `None`: a name with such a value is a name that
does not exist.  For `toc` this is not so: `None` turns the table of contents off (see the example). -/
theorem C94_object (o : Opts) (arg : MacrosArg) (w : World) (ms : Macros) (markup : Str) (ha : arg.world = some w)
    (h : SameMacros ms w) (htoc : ∀ v, w.get c!"toc" = some v → ∃ m, v = .is m) :
    (creole2htmlW o arg markup).1 = (creole2htmlM o ms markup).map (·.1) ∧
    ∀ html ms', creole2htmlM o ms markup = .ok (html, ms') → ∃ w', (creole2htmlW o arg markup).2 = some w' ∧ SameMacros ms' w' := by
  unfold creole2htmlW creole2htmlM
  cases parse o.blog markup with
  | error e => exact ⟨rfl, by intro _ _ hx; cases hx⟩
  | ok d =>
    rw [ha]
    dsimp only
    have h1 := emitDocW_same o.verbose o.strict d h htoc
    show _ = (emitDoc o.verbose o.strict d ms).map _ ∧ ∀ html ms', emitDoc o.verbose o.strict d ms = .ok (html, ms') → _
    generalize emitDocW o.verbose o.strict d w = b at *
    obtain ⟨r, w2⟩ := b
    cases he : emitDoc o.verbose o.strict d ms with
    | error e =>
      rw [he] at h1
      cases (show r = .error e from h1)
      exact ⟨rfl, by intro _ _ hx; cases hx⟩
    | ok x =>
      obtain ⟨s, ms2⟩ := x
      rw [he] at h1
      obtain ⟨h1, h2⟩ := h1
      cases (show r = .ok s from h1)
      refine ⟨rfl, ?_⟩
      intro html ms' hx
      cases hx
      exact ⟨w2, rfl, h2⟩

/-! ## stderr -/

/-- what is written: nothing unless `verbose > 1`, and only if there is an error message in the text -/
def Logged (verbose : Int) (w : World) (b : EW) : Prop :=
  ∃ l, b.2.stderr = w.stderr ++ l ∧ (l ≠ [] → verbose > 1 ∧ ∀ s, b.1 = .ok s → c!"[Error:" <:+: s)

theorem Logged.same {verbose : Int} {w : World} {b : EW} (h : b.2.stderr = w.stderr) : Logged verbose w b :=
  ⟨[], by rw [h, List.append_nil], fun h => absurd rfl h⟩

theorem Logged.error (env : Env) (text : Str) (t : Option Trace) {w w' : World} (h : w'.stderr = w.stderr) :
    Logged env.verbose w (errorW env text t w') := by
  unfold errorW
  cases t with
  | none => exact .same h
  | some t =>
    dsimp only
    split
    · next hv =>
      refine ⟨[t], by simp [h], fun _ => ⟨hv, fun s hs => ?_⟩⟩
      cases hs
      unfold errorText
      rw [if_pos (by omega)]
      exact ⟨[], c!" " ++ text ++ c!"]\n", by simp⟩
    · exact .same h

theorem callMacroW_stderr (name : Str) (mac : Macro) (kwargs : Dict PVal) (w : World) :
    (callMacroW name mac kwargs w).2.stderr = w.stderr := by
  cases mac with
  | fn f => rfl
  | obj past f => rfl
  | toc t =>
    unfold callMacroW
    dsimp only
    split <;> rfl

theorem macroEmitW_logged (env : Env) (i : Info) (w : World) : Logged env.verbose w (macroEmitW env i w) := by
  unfold macroEmitW
  dsimp only
  cases string2dict i.macroArgs with
  | error e => cases e <;> first | exact .error _ _ _ rfl | exact .same rfl
  | ok kwargs =>
    dsimp only
    cases w.get i.macroName with
    | none => exact .error _ _ _ rfl
    | some v =>
      cases v with
      | none => exact .error _ _ _ rfl
      | is mac =>
        dsimp only
        have h2 := callMacroW_stderr i.macroName mac (dictSet c!"text" (optVal i.content) kwargs) w
        generalize callMacroW i.macroName mac (dictSet c!"text" (optVal i.content) kwargs) w = b at *
        obtain ⟨out, w'⟩ := b
        dsimp only at h2
        cases out with
        | ret s => exact .same h2
        | other d => exact .error _ _ _ h2
        | typeError m =>
          dsimp only
          split
          · exact .same h2
          · exact .error _ _ _ h2
        | exc m => exact .error _ _ _ h2
        | baseExc => exact .same h2

theorem headerEmitW_logged (env : Env) (n : Nat) (s : Str) (w : World) : Logged env.verbose w (headerEmitW env n s w) := by
  unfold headerEmitW
  dsimp only
  split
  · split
    · split <;> exact .same rfl
    · exact .same rfl
  · exact .same rfl

theorem Logged.map {verbose : Int} {w : World} {b : EW} (h : Logged verbose w b) {f : Str → Str} (hf : ∀ s, s <:+: f s) :
    Logged verbose w (wmap f b) := by
  obtain ⟨l, h1, h2⟩ := h
  refine ⟨l, h1, fun hl => ⟨(h2 hl).1, fun s hs => ?_⟩⟩
  obtain ⟨r, w'⟩ := b
  cases r with
  | error e => cases hs
  | ok t => cases hs; exact ((h2 hl).2 t rfl).trans (hf t)

theorem around_infix (a b s : Str) : s <:+: a ++ s ++ b := ⟨a, b, rfl⟩

theorem typeface_infix (tag s : Str) : s <:+: typeface tag s := ⟨'<' :: tag ++ c!">", c!"</" ++ tag ++ c!">", by simp [typeface]⟩

theorem listEmit_infix (k : Kind) (n : Nat) (tag : Str) (b : Bool) (s : Str) : s <:+: listEmit k n tag b s := by
  unfold listEmit
  cases b
  · exact ⟨(if k = .document then [] else c!"\n") ++ (tabs n ++ '<' :: tag ++ c!">"), '\n' :: tabs n ++ c!"</" ++ tag ++ c!">", by simp⟩
  · exact ⟨(if k = .document then [] else c!"\n") ++ (tabs n ++ '<' :: tag ++ c!">"), c!"</" ++ tag ++ c!">", by simp⟩

mutual

theorem emitNodeW_logged (env : Env) (parent : Info) : ∀ (n : Node) (w : World), Logged env.verbose w (emitNodeW env parent n w)
  | .mk i cs, w => by
    rw [emitNodeW]
    have hall := emitNodesW_logged env i cs w
    cases i.kind <;> dsimp only
    case document => exact hall
    case text | separator | image | brk | pre_block | pre_inline | line => exact .same rfl
    case bullet_list | number_list | list_item =>
      cases i.levelE with
      | ok n => exact hall.map fun s => listEmit_infix _ _ _ _ s
      | error e => exact .same rfl
    case header =>
      cases i.levelE with
      | error e => exact .same rfl
      | ok n =>
        cases i.contentE with
        | error e => exact .same rfl
        | ok s => exact headerEmitW_logged env n s w
    case link =>
      cases i.contentE with
      | error e => exact .same rfl
      | ok s =>
        dsimp only
        split
        · exact .same rfl
        · exact hall.map fun s => around_infix _ _ s
    case macro_inline | macro_block => exact macroEmitW_logged env i w
    case emphasis | strong | monospace | superscript | subscript | underline | small | delete => exact hall.map fun s => typeface_infix _ s
    all_goals exact hall.map fun s => around_infix _ _ s

theorem emitNodesW_logged (env : Env) (parent : Info) : ∀ (ns : List Node) (w : World), Logged env.verbose w (emitNodesW env parent ns w)
  | [], w => by rw [emitNodesW]; exact .same rfl
  | n :: ns, w => by
    rw [emitNodesW]
    obtain ⟨l, h1, h2⟩ := emitNodeW_logged env parent n w
    generalize emitNodeW env parent n w = b at *
    obtain ⟨r, w1⟩ := b
    cases r with
    | error e => exact ⟨l, h1, fun hl => ⟨(h2 hl).1, fun s hs => by cases hs⟩⟩
    | ok s =>
      dsimp only
      obtain ⟨l', h3, h4⟩ := emitNodesW_logged env parent ns w1
      generalize emitNodesW env parent ns w1 = b at *
      obtain ⟨r, w2⟩ := b
      have hv : l ++ l' ≠ [] → env.verbose > 1 := by
        intro hl
        by_cases hl1 : l = []
        · exact (h4 (by simpa [hl1] using hl)).1
        · exact (h2 hl1).1
      dsimp only at h1 h3
      cases r with
      | error e => exact ⟨l ++ l', by dsimp only; rw [h3, h1, List.append_assoc], fun hl => ⟨hv hl, fun s hs => by cases hs⟩⟩
      | ok t =>
        refine ⟨l ++ l', by dsimp only; rw [h3, h1, List.append_assoc], fun hl => ⟨hv hl, fun s' hs => ?_⟩⟩
        cases hs
        by_cases hl1 : l = []
        · exact ((h4 (by simpa [hl1] using hl)).2 t rfl).trans ⟨s, [], by simp⟩
        · exact ((h2 hl1).2 s rfl).trans ⟨[], t, by simp⟩

end

/-- a text that has nothing of the beginning of `old` stays where it is at the beginning -/
theorem replaceFirst_prefix {c : Char} {old new : Str} : ∀ {y s : Str}, c ∉ y → y <+: s → y <+: replaceFirst (c :: old) new s
  | [], _, _, _ => List.nil_prefix
  | d :: y, s, hy, hp => by
    obtain ⟨t, rfl⟩ := hp
    rw [List.mem_cons, not_or] at hy
    show _ <+: replaceFirst (c :: old) new (d :: (y ++ t))
    rw [replaceFirst, if_neg (by simp [List.isPrefixOf, hy.1])]
    exact List.cons_prefix_cons.mpr ⟨rfl, replaceFirst_prefix hy.2 ⟨t, rfl⟩⟩

theorem replaceFirst_infix {c e : Char} {old new x : Str} (hc : c ∉ e :: x) (he : e ∉ c :: old) : ∀ {s : Str}, e :: x <:+: s →
    e :: x <:+: replaceFirst (c :: old) new s
  | [], h => by simp at h
  | d :: s, h => by
    rw [replaceFirst]
    split
    · next hp =>
      obtain ⟨t, ht⟩ := List.isPrefixOf_iff_prefix.mp hp
      rw [← ht, List.drop_left]
      have : e :: x <:+: t := by
        obtain ⟨a, b, hab⟩ := h
        rw [← ht] at hab
        rw [List.append_assoc] at hab
        rcases List.append_eq_append_iff.mp hab with ⟨u, hu, hu'⟩ | ⟨u, hu, hu'⟩
        · cases u with
          | nil => exact ⟨[], b, by simpa using hu'⟩
          | cons f u =>
            rw [List.cons_append, List.cons_append, List.cons.injEq] at hu'
            exact absurd (show e ∈ c :: old by rw [hu, hu'.1]; simp) he
        · exact ⟨u, b, by rw [hu', List.append_assoc]⟩
      exact this.trans ⟨new, [], by simp⟩
    · rcases List.infix_cons_iff.mp h with h | h
      · obtain ⟨t, ht⟩ := h
        rw [List.cons_append, List.cons.injEq] at ht
        obtain ⟨rfl, ht⟩ := ht
        rw [List.mem_cons, not_or] at hc
        exact (List.cons_prefix_cons.mpr ⟨rfl, replaceFirst_prefix hc.2 ⟨t, ht⟩⟩).isInfix
      · exact (replaceFirst_infix (new := new) hc he h).trans ⟨[d], [], by simp⟩

theorem toc_emit_infix (t : Toc) {s html : Str} (h : t.emit s = .ok html) (hs : c!"[Error:" <:+: s) : c!"[Error:" <:+: html := by
  unfold Toc.emit at h
  cases hn : flatToNest t.headlines with
  | error e => rw [hn] at h; cases h
  | ok nest =>
    rw [hn] at h
    change (if _ then _ else _) = _ at h
    split at h <;> cases h
    · exact replaceFirst_infix (by decide) (by decide) hs
    · exact replaceFirst_infix (by decide) (by decide) hs

theorem strip_infix_error {s : Str} (h : c!"[Error:" <:+: s) : c!"[Error:" <:+: strip s := by
  obtain ⟨a, b, rfl⟩ := h
  obtain ⟨a', b', hm, _⟩ := strip_mid (pre := a) (post := b)
  rw [hm c!"[Error:" ⟨'[', ':', rfl, rfl, rfl, rfl⟩]
  exact ⟨a', b', rfl⟩

theorem emitDocW_logged (verbose : Int) (strict : Bool) (d : Creole.Doc) (w : World) : Logged verbose w (emitDocW verbose strict d w) := by
  unfold emitDocW
  dsimp only
  obtain ⟨w1, hw⟩ : ∃ m, m = (if (d.used.contains c!"toc" && (w.get c!"toc").isNone) = true then w.set c!"toc" (.is (.toc {})) else w) := ⟨_, rfl⟩
  rw [← hw]
  have h0 : w1.stderr = w.stderr := by rw [hw]; split <;> rfl
  generalize (d.used.contains c!"toc" && w1.has c!"toc") = useToc
  obtain ⟨l, h1, h2⟩ := emitNodeW_logged { verbose, strict, useToc } { kind := .document } d.root w1
  generalize emitNodeW { verbose, strict, useToc } { kind := .document } d.root w1 = b at *
  obtain ⟨r, w2⟩ := b
  dsimp only at h1
  rw [h0] at h1
  cases r with
  | error e => exact ⟨l, h1, fun hl => ⟨(h2 hl).1, fun s hs => by cases hs⟩⟩
  | ok s =>
    dsimp only
    split
    · split
      · exact ⟨l, h1, fun hl => ⟨(h2 hl).1, fun html hs => toc_emit_infix _ hs (strip_infix_error ((h2 hl).2 s rfl))⟩⟩
      · exact ⟨l, h1, fun hl => ⟨(h2 hl).1, fun s hs => by cases hs⟩⟩
    · exact ⟨l, h1, fun hl => ⟨(h2 hl).1, fun html hs => by cases hs; exact strip_infix_error ((h2 hl).2 s rfl)⟩⟩

theorem world_stderr {arg : MacrosArg} {w : World} (h : arg.world = some w) : w.stderr = [] := by
  cases arg <;> cases h <;> rfl

theorem creole2htmlW_logged (o : Opts) (arg : MacrosArg) (markup : Str) {w : World} (h : (creole2htmlW o arg markup).2 = some w)
    (hw : w.stderr ≠ []) : o.verbose > 1 ∧ ∀ html, (creole2htmlW o arg markup).1 = .ok html → c!"[Error:" <:+: html := by
  unfold creole2htmlW at h ⊢
  cases hp : parse o.blog markup with
  | error e => rw [hp] at h; cases h
  | ok d =>
    rw [hp] at h
    dsimp only at h ⊢
    cases ha : arg.world with
    | none => rw [ha] at h; cases h
    | some w0 =>
      rw [ha] at h
      dsimp only at h ⊢
      obtain ⟨l, h1, h2⟩ := emitDocW_logged o.verbose o.strict d w0
      generalize emitDocW o.verbose o.strict d w0 = b at *
      obtain ⟨r, w1⟩ := b
      cases h
      rw [world_stderr ha, List.nil_append] at h1
      exact h2 (h1 ▸ hw)

/-- C94: nothing is written to `stderr` unless `verbose` is greater than 1 (by default it is 1), whatever the text and the macros
are, and whether or not the conversion raises. -/
theorem C94_quiet (o : Opts) (hv : o.verbose ≤ 1) (arg : MacrosArg) (markup : Str) (w : World)
    (h : (creole2htmlW o arg markup).2 = some w) : w.stderr = [] :=
  Decidable.byContradiction fun hw => by
    have := (creole2htmlW_logged o arg markup h (by simpa using hw)).1
    omega

/-- C94: if a traceback is written to `stderr` then there is also an error message in the HTML. -/
theorem C94_visible (o : Opts) (arg : MacrosArg) (markup : Str) (w : World) (h : (creole2htmlW o arg markup).2 = some w)
    (hw : w.stderr ≠ []) (html : Str) (hr : (creole2htmlW o arg markup).1 = .ok html) : c!"[Error:" <:+: html :=
  (creole2htmlW_logged o arg markup h hw).2 html hr

/-- C94: something that can be called, for instance a class with the macros as static methods, is refused for every text. -/
theorem C94_callable (o : Opts) (markup : Str) :
    (creole2htmlW o .callable markup).1 = .error (.typeError c!"Callable macros are not supported anymore!") := by
  obtain ⟨d, hd, _⟩ := parse_infoMac o markup
  unfold creole2htmlW
  rw [hd]
  rfl

/-- an object with a macro of its own, one that it inherits, and an attribute that cannot be called -/
def exampleObject : MacrosArg :=
  .object [(c!"shout", .is (.fn fun _ => .ret c!"HEY")), (c!"gone", .none)]
    [(c!"shout", .is (.fn fun _ => .ret c!"hidden")), (c!"fails", .is (.fn fun _ => .exc c!"oops")),
      (c!"__name__", .is (.fn fun _ => .typeError c!"'str' object is not callable"))]

/-- the dict for `exampleObject` -/
def exampleDict : Macros :=
  [(c!"shout", .fn fun _ => .ret c!"HEY"), (c!"fails", .fn fun _ => .exc c!"oops"),
    (c!"__name__", .fn fun _ => .typeError c!"'str' object is not callable")]

example : ∃ w, exampleObject.world = some w ∧ SameMacros exampleDict w ∧ w.get c!"toc" = none := by
  refine ⟨_, rfl, ?_, rfl⟩
  intro name
  unfold exampleDict World.get dictGet
  simp only [List.lookup_cons, List.lookup_nil]
  cases hs : name == c!"shout" <;> cases hg : name == c!"gone" <;> cases hf : name == c!"fails" <;> cases hn : name == c!"__name__" <;>
    simp_all
example : (creole2htmlW { verbose := 2 } exampleObject c!"<<shout>> <<gone>> <<fails>> <<__name__>> <<other>>").1 =
    .ok c!"<p>HEY [Error: Macro 'gone' doesn't exist]\n [Error: Macro 'fails' error: oops]\n [Error: Macro '__name__' error: 'str' object is not callable]\n [Error: Macro 'other' doesn't exist]\n</p>" ∧
    (creole2htmlW { verbose := 2 } exampleObject c!"<<shout>> <<gone>> <<fails>> <<__name__>> <<other>>").2.map (·.stderr) =
      some [.failed c!"fails", .failed c!"__name__", .missing c!"other"] := by decide +kernel
example : (creole2htmlW {} (.dict [(c!"toc", .none)]) c!"<<toc>>\n= a").1 = .ok c!"<p>[Error: Macro 'toc' doesn't exist]\n</p>\n<h1>a</h1>" := by
  decide +kernel

end Verif.Props
