import Verif.Creole.EmitterLemmas
import Verif.Creole.UsedNames
import Verif.Spec.Calling

/-!
# The emitter fills places for macros
-/

namespace Verif.Spec.Cr

open Verif Py Creole

/-! ## A single call -/

/-- the call that a node stands for -/
def callOf (i : Info) : Call := ⟨i.macroName, i.macroArgs, i.content, i.kind = .macro_block⟩

theorem withText_eq (t : Option Str) (kw : Dict PVal) : withText t kw = dictSet c!"text" (optVal t) kw := by
  cases t <;> rfl

theorem errorLine_env (env : Env) (t : Str) : errorLine env.verbose t = errorText env t := by
  unfold errorLine errorText
  by_cases h : env.verbose > 0
  · rw [if_pos h, if_pos (by omega)]
  · rw [if_neg h, if_neg (by omega)]

theorem NoTocs.record {ms : Macros} (h : NoTocs ms) (c : MacroCall) : NoTocs (ms.map fun (k, m) => (k, m.record c)) := by
  intro k t hm
  rw [dictGet_record] at hm
  cases hd : dictGet k ms with
  | none => rw [hd] at hm; cases hm
  | some m' =>
    rw [hd] at hm
    cases m' with
    | fn f => cases hm
    | obj p f => cases hm
    | toc t => exact h k t hd

theorem Runs.noTocs {ms ms' : Macros} {name : Str} {kw : Dict PVal} {out : Outcome} (h : NoTocs ms)
    (hr : Runs ms name kw out ms') : NoTocs ms' := by
  cases hr with
  | fn _ => exact h
  | obj _ => exact NoTocs.record h _

theorem Answers.noTocs {verbose : Int} {ms ms' : Macros} {c : Call} {s : Str} (h : NoTocs ms)
    (ha : Answers verbose ms c s ms') : NoTocs ms' := by
  cases ha with
  | returns _ hr => exact hr.noTocs h
  | wrongArgs _ => exact h
  | unknown _ _ => exact h
  | raises _ hr _ => exact hr.noTocs h
  | notString _ hr => exact hr.noTocs h

theorem runs_iff {ms ms' : Macros} {name : Str} {kw : Dict PVal} {out : Outcome} (h : NoTocs ms) {m : Macro}
    (hm : dictGet name ms = some m) : Runs ms name kw out ms' ↔ callMacro name m kw ms = (out, ms') := by
  cases m with
  | fn f =>
    constructor
    · intro hr
      cases hr with
      | fn h' => rw [hm] at h'; cases h'; rfl
      | obj h' => rw [hm] at h'; cases h'
    · intro hr
      cases hr
      exact .fn hm
  | obj p f =>
    constructor
    · intro hr
      cases hr with
      | fn h' => rw [hm] at h'; cases h'
      | obj h' => rw [hm] at h'; cases h'; rfl
    · intro hr
      cases hr
      exact .obj hm
  | toc t => exact absurd hm (h _ _)

theorem Runs.get {ms ms' : Macros} {name : Str} {kw : Dict PVal} {out : Outcome} (hr : Runs ms name kw out ms') :
    ∃ m, dictGet name ms = some m := by
  cases hr with
  | fn h => exact ⟨_, h⟩
  | obj h => exact ⟨_, h⟩

/-- the emitter does with a macro node what the call says -/
theorem macroEmit_iff (env : Env) (i : Info) (ms ms' : Macros) (s : Str) (h : NoTocs ms) :
    macroEmit env i ms = .ok (s, ms') ↔ Answers env.verbose ms (callOf i) s ms' := by
  unfold macroEmit
  simp only
  cases ha : string2dict i.macroArgs with
  | error e =>
    have := string2dict_err ha
    subst this
    constructor
    · intro hr
      cases hr
      rw [← errorLine_env]
      exact .wrongArgs ha
    · intro hr
      cases hr with
      | wrongArgs _ => rw [← errorLine_env]; rfl
      | returns h' _ | unknown h' _ | raises h' _ _ | notString h' _ => rw [show (callOf i).args = i.macroArgs from rfl, ha] at h'; cases h'
  | ok kw =>
    have ha' : string2dict (callOf i).args = .ok kw := ha
    simp only
    cases hm : dictGet i.macroName ms with
    | none =>
      constructor
      · intro hr
        cases hr
        rw [← errorLine_env]
        exact .unknown ha hm
      · intro hr
        cases hr with
        | unknown _ _ => rw [← errorLine_env]; rfl
        | wrongArgs h' => rw [ha'] at h'; cases h'
        | returns _ h' | raises _ h' _ | notString _ h' =>
          obtain ⟨m, h'⟩ := h'.get
          rw [show (callOf i).name = i.macroName from rfl, hm] at h'
          cases h'
    | some m =>
      have hi := fun (out : Outcome) ms' => runs_iff (kw := withText i.content kw) (out := out) (ms' := ms') h hm
      rw [← withText_eq]
      simp only
      cases hc : callMacro i.macroName m (withText i.content kw) ms with
      | mk out ms1 =>
        have hrun := (hi out ms1).mpr hc
        have huniq : ∀ out' ms2, Runs ms (callOf i).name (withText (callOf i).text kw) out' ms2 → out' = out ∧ ms2 = ms1 := by
          intro out' ms2 h'
          have := (hi out' ms2).mp h'
          rw [hc] at this
          cases this
          exact ⟨rfl, rfl⟩
        have hkw : ∀ kw', string2dict (callOf i).args = .ok kw' → kw' = kw := by
          intro kw' h'
          rw [ha'] at h'
          cases h'
          rfl
        constructor
        · intro hr
          cases out with
          | ret t =>
            simp only [Except.ok.injEq, Prod.mk.injEq] at hr
            obtain ⟨h1, rfl⟩ := hr
            have := Answers.returns (verbose := env.verbose) ha' hrun
            rw [← h1]
            simp only [callOf, decide_eq_true_eq] at this
            split
            · rename_i hk
              rwa [if_pos hk] at this
            · rename_i hk
              rwa [if_neg hk, List.append_nil] at this
          | other d => cases hr; rw [← errorLine_env]; exact .notString ha' hrun
          | exc msg => cases hr; rw [← errorLine_env]; exact .raises ha' hrun (.inl rfl)
          | typeError msg =>
            simp only at hr
            split at hr
            · cases hr
            · rename_i hv
              cases hr
              rw [← errorLine_env]
              exact .raises ha' hrun (.inr ⟨rfl, by omega⟩)
          | baseExc => cases hr
        · intro hr
          cases hr with
          | wrongArgs h' => rw [ha'] at h'; cases h'
          | unknown _ h' => rw [show (callOf i).name = i.macroName from rfl, hm] at h'; cases h'
          | returns h1 h2 =>
            cases hkw _ h1
            obtain ⟨rfl, rfl⟩ := huniq _ _ h2
            simp only [callOf, decide_eq_true_eq]
            split <;> simp
          | notString h1 h2 =>
            cases hkw _ h1
            obtain ⟨rfl, rfl⟩ := huniq _ _ h2
            simp only
            rw [← errorLine_env]
            rfl
          | raises h1 h2 h3 =>
            cases hkw _ h1
            obtain ⟨rfl, rfl⟩ := huniq _ _ h2
            rcases h3 with rfl | ⟨rfl, hv⟩
            · simp only; rw [← errorLine_env]; rfl
            · simp only
              rw [if_neg (by omega), ← errorLine_env]
              rfl

/-! ## Texts with places -/

theorem Filled.append {verbose : Int} {a : List Hole} {x : Str} {ms ms1 : Macros} (ha : Filled verbose ms a x ms1) :
    ∀ {b : List Hole} {y : Str} {ms2 : Macros}, Filled verbose ms1 b y ms2 → Filled verbose ms (a ++ b) (x ++ y) ms2 := by
  induction ha with
  | nil => intro b y ms2 hb; exact hb
  | text _ ih => intro b y ms2 hb; rw [List.append_assoc]; exact .text (ih hb)
  | call h _ ih => intro b y ms2 hb; rw [List.append_assoc]; exact .call h (ih hb)

theorem Filled.split {verbose : Int} : ∀ {a b : List Hole} {z : Str} {ms ms2 : Macros}, Filled verbose ms (a ++ b) z ms2 →
    ∃ x y ms1, Filled verbose ms a x ms1 ∧ Filled verbose ms1 b y ms2 ∧ z = x ++ y
  | [], b, z, ms, ms2, h => ⟨[], z, ms, .nil, h, rfl⟩
  | .text s :: a, b, z, ms, ms2, h => by
    cases h with
    | text h =>
      obtain ⟨x, y, ms1, h1, h2, rfl⟩ := Filled.split h
      exact ⟨s ++ x, y, ms1, .text h1, h2, by simp⟩
  | .call c :: a, b, z, ms, ms2, h => by
    cases h with
    | call hc h =>
      obtain ⟨x, y, ms1, h1, h2, rfl⟩ := Filled.split h
      exact ⟨_ ++ x, y, ms1, .call hc h1, h2, by simp⟩

theorem filled_text {verbose : Int} {s z : Str} {ms ms' : Macros} : Filled verbose ms [.text s] z ms' ↔ z = s ∧ ms' = ms := by
  constructor
  · intro h
    cases h with
    | text h => cases h; exact ⟨by simp, rfl⟩
  · rintro ⟨rfl, rfl⟩
    have := Filled.text (verbose := verbose) (s := z) (Filled.nil (macros := ms'))
    simpa using this

theorem Filled.noTocs {verbose : Int} {ms ms' : Macros} {a : List Hole} {s : Str} (hf : Filled verbose ms a s ms') :
    NoTocs ms → NoTocs ms' := by
  induction hf with
  | nil => exact id
  | text _ ih => exact ih
  | call h _ ih => exact fun hn => ih (Answers.noTocs hn h)

/-- `Fills holes r`: emitting is filling these places, for all macros and all `verbose` -/
def Fills (holes : List Hole) (r : Int → Macros → EM) : Prop :=
  ∀ verbose ms s ms', NoTocs ms → (r verbose ms = .ok (s, ms') ↔ Filled verbose ms holes s ms')

theorem Fills.text (s : Str) : Fills [.text s] fun _ ms => .ok (s, ms) := by
  intro v ms t ms' _
  rw [filled_text]
  constructor
  · intro h; cases h; exact ⟨rfl, rfl⟩
  · rintro ⟨rfl, rfl⟩; rfl

theorem Fills.emap {holes : List Hole} {r : Int → Macros → EM} (h : Fills holes r) {f : Str → Str} {a b : Str}
    (hf : ∀ s, f s = a ++ s ++ b) : Fills (.text a :: (holes ++ [.text b])) fun v ms => Creole.emap f (r v ms) := by
  intro v ms t ms' hn
  dsimp only
  constructor
  · intro hr
    cases hx : r v ms with
    | error e => rw [hx] at hr; cases hr
    | ok x =>
      obtain ⟨s, m⟩ := x
      rw [hx] at hr
      cases hr
      have := ((h v ms s _ hn).mp hx).append (filled_text.mpr ⟨rfl, rfl⟩ : Filled v _ [.text b] b _)
      show Filled v ms _ (f s) _
      rw [hf, List.append_assoc]
      exact .text this
  · intro hr
    cases hr with
    | text hr =>
      obtain ⟨x, y, m, h1, h2, rfl⟩ := hr.split
      obtain ⟨rfl, rfl⟩ := filled_text.mp h2
      have := (h v ms x _ hn).mpr h1
      simp only [this]
      show Except.ok (f x, _) = _
      rw [hf]
      simp

theorem Fills.macro (i : Info) {strict : Bool} :
    Fills [.call (callOf i)] fun verbose ms => macroEmit { verbose, strict, useToc := false } i ms := by
  intro v ms t ms' hn
  rw [macroEmit_iff _ _ _ _ _ hn]
  constructor
  · intro h
    have := Filled.call h .nil
    rwa [List.append_nil] at this
  · intro h
    cases h with
    | call h h' =>
      cases h'
      rwa [List.append_nil]

/-- the attributes that are needed are present, and the names of the macros are among those with `p` -/
def InfoMac (p : Str → Prop) (i : Info) : Prop :=
  InfoOK True i ∧ (i.kind = .macro_inline ∨ i.kind = .macro_block → p i.macroName)

/-! ## All nodes -/

/-- `G names r`: something that holds for the emitting `r` of nodes with calls of these macros, because it is kept by the ways in
which the emitter makes texts -/
structure Scheme (strict useToc : Bool) (p : Str → Prop) (G : List Str → (Int → Macros → EM) → Prop) : Prop where
  text : ∀ s, G [] fun _ ms => .ok (s, ms)
  wrap : ∀ {ns r f a b}, G ns r → (∀ s, f s = a ++ s ++ b) → G ns fun v ms => Creole.emap f (r v ms)
  cons : ∀ {ns ns' r r'}, G ns r → G ns' r' → G (ns ++ ns') fun v ms =>
    match r v ms with
    | .error e => .error e
    | .ok (s, ms) =>
      match r' v ms with
      | .error e => .error e
      | .ok (t, ms) => .ok (s ++ t, ms)
  mac : ∀ i, p i.macroName → G [i.macroName] fun v ms => macroEmit { verbose := v, strict, useToc } i ms
  head : ∀ n s, G [] fun v ms => headerEmit { verbose := v, strict, useToc } (n + 1) s ms

mutual
theorem Scheme.node {strict useToc : Bool} {p : Str → Prop} {G : List Str → (Int → Macros → EM) → Prop} (S : Scheme strict useToc p G) :
    ∀ (n : Node) (parent : Info), InfoOK True parent → n.All (InfoMac p) →
    G n.macNames fun verbose ms => emitNode { verbose, strict, useToc } parent n ms
  | .mk i cs, parent, hpar, hn => by
    obtain ⟨hinfo, hmac⟩ := hn.info
    have hc := S.nodes cs i hinfo hn.children
    simp only [emitNode, Node.macNames]
    unfold InfoOK at hinfo
    have face : ∀ tag : Str, G (macNamesL cs) fun verbose ms => Creole.emap (typeface tag) (emitNodes { verbose, strict, useToc } i cs ms) :=
      fun tag => S.wrap (a := c!"<" ++ tag ++ c!">") (b := c!"</" ++ tag ++ c!">") hc fun s => by simp [typeface]
    cases hk : i.kind <;> simp only [hk] at hinfo ⊢ <;>
      simp only [reduceCtorEq, or_self, or_true, true_or, if_false, if_true, isInner, Bool.false_eq_true]
    case document => exact hc
    case image =>
      obtain ⟨s, hs⟩ := Option.isSome_iff_exists.mp hinfo
      simp only [Info.contentE, hs, Except.map, pureText]
      exact S.text (imageEmit { verbose := 0, strict, useToc } s (getText i cs))
    case text | pre_block | pre_inline =>
      obtain ⟨s, hs⟩ := Option.isSome_iff_exists.mp hinfo
      simp only [Info.contentE, hs, Except.map, pureText]
      exact S.text _
    case separator | line => exact S.text _
    case brk =>
      unfold breakEmit
      split
      · rename_i hp
        unfold InfoOK at hpar
        simp only [hp] at hpar
        obtain ⟨s, hs⟩ := Option.isSome_iff_exists.mp hpar
        simp only [Info.levelE, hs, Except.map, pureText]
        exact S.text _
      · split <;> exact S.text _
    case header =>
      obtain ⟨s, hs⟩ := Option.isSome_iff_exists.mp hinfo.1
      obtain ⟨n, hl⟩ := hinfo.2
      simp only [Info.levelE, Info.contentE, hs, hl]
      exact S.head n s
    case link =>
      obtain ⟨s, hs⟩ := Option.isSome_iff_exists.mp hinfo
      simp only [Info.contentE, hs]
      cases cs with
      | nil => exact S.text _
      | cons c cs =>
        simp only [List.isEmpty_cons, Bool.false_eq_true, if_false]
        exact S.wrap (a := c!"<a href=\"" ++ attrEscape s ++ c!"\">") (b := c!"</a>") hc fun s => by simp
    case macro_inline => exact S.mac i (hmac (.inl hk))
    case macro_block => exact S.mac i (hmac (.inr hk))
    case bullet_list =>
      obtain ⟨n, hl⟩ := Option.isSome_iff_exists.mp hinfo
      simp only [Info.levelE, hl]
      refine S.wrap (a := (if parent.kind = .document then [] else c!"\n") ++ (tabs n ++ '<' :: c!"ul" ++ c!">")) (b := '\n' :: tabs n ++ c!"</" ++ c!"ul" ++ c!">") hc fun s => ?_
      simp only [listEmit, Bool.false_eq_true, if_false, List.append_assoc, List.cons_append, List.nil_append]
    case number_list =>
      obtain ⟨n, hl⟩ := Option.isSome_iff_exists.mp hinfo
      simp only [Info.levelE, hl]
      refine S.wrap (a := (if parent.kind = .document then [] else c!"\n") ++ (tabs n ++ '<' :: c!"ol" ++ c!">")) (b := '\n' :: tabs n ++ c!"</" ++ c!"ol" ++ c!">") hc fun s => ?_
      simp only [listEmit, Bool.false_eq_true, if_false, List.append_assoc, List.cons_append, List.nil_append]
    case list_item =>
      obtain ⟨n, hl⟩ := Option.isSome_iff_exists.mp hinfo
      simp only [Info.levelE, hl]
      refine S.wrap (a := (if parent.kind = .document then [] else c!"\n") ++ (tabs n ++ '<' :: c!"li" ++ c!">")) (b := c!"</" ++ c!"li" ++ c!">") hc fun s => ?_
      simp only [listEmit, if_true, List.append_assoc, List.cons_append, List.nil_append]
    case emphasis | strong | monospace | superscript | subscript | underline | small | delete => exact face _
    case paragraph | table | table_row | table_cell | table_head => exact S.wrap hc fun s => rfl
theorem Scheme.nodes {strict useToc : Bool} {p : Str → Prop} {G : List Str → (Int → Macros → EM) → Prop} (S : Scheme strict useToc p G) :
    ∀ (ns : List Node) (parent : Info), InfoOK True parent → (∀ n ∈ ns, n.All (InfoMac p)) →
    G (macNamesL ns) fun verbose ms => emitNodes { verbose, strict, useToc } parent ns ms
  | [], parent, _, _ => S.text []
  | n :: ns, parent, hpar, hn => by
    simp only [emitNodes, macNamesL]
    exact S.cons (S.node n parent hpar (hn n (by simp))) (S.nodes ns parent hpar fun m hm => hn m (by simp [hm]))
end

/-- two texts with places, one behind the other -/
theorem Fills.cons {h h' : List Hole} {r r' : Int → Macros → EM} (f1 : Fills h r) (f2 : Fills h' r') :
    Fills (h ++ h') fun v ms =>
      match r v ms with
      | .error e => .error e
      | .ok (s, ms) =>
        match r' v ms with
        | .error e => .error e
        | .ok (t, ms) => .ok (s ++ t, ms) := by
  intro v ms s ms' hnt
  dsimp only
  constructor
  · intro hr
    cases e1 : r v ms with
    | error e => rw [e1] at hr; cases hr
    | ok x =>
      obtain ⟨t, m1⟩ := x
      rw [e1] at hr
      dsimp only at hr
      have g1 := (f1 v ms t m1 hnt).mp e1
      cases e2 : r' v m1 with
      | error e => rw [e2] at hr; cases hr
      | ok y =>
        obtain ⟨u, m2⟩ := y
        rw [e2] at hr
        cases hr
        exact g1.append ((f2 v m1 u _ (g1.noTocs hnt)).mp e2)
  · intro hr
    obtain ⟨x, y, m1, g1, g2, rfl⟩ := hr.split
    have e1 := (f1 v ms x m1 hnt).mpr g1
    have e2 := (f2 v m1 y ms' (g1.noTocs hnt)).mpr g2
    rw [e1]
    dsimp only
    rw [e2]

/-- the calls of a text with places -/
def callsIn (holes : List Hole) : List Call := holes.filterMap fun | .text _ => none | .call c => some c

/-- without a table of contents, emitting is filling places -/
theorem scheme_fills (strict : Bool) (p : Str → Prop) : Scheme strict false p fun ns r =>
    ∃ holes, (callsIn holes).map (·.name) = ns ∧ (∀ c ∈ callsIn holes, p c.name) ∧ Fills holes r where
  text s := ⟨_, rfl, by simp [callsIn], .text s⟩
  wrap := by
    rintro ns r f a b ⟨holes, h1, h2, h3⟩ hf
    refine ⟨_, ?_, ?_, h3.emap hf⟩
    · rw [← h1]
      simp [callsIn, List.filterMap_append]
    · intro c hc
      refine h2 c ?_
      simpa [callsIn, List.filterMap_append] using hc
  cons := by
    rintro ns ns' r r' ⟨h1, a1, b1, c1⟩ ⟨h2, a2, b2, c2⟩
    refine ⟨h1 ++ h2, ?_, ?_, c1.cons c2⟩
    · rw [← a1, ← a2]
      simp [callsIn, List.filterMap_append]
    · intro c hc
      rw [callsIn, List.filterMap_append, List.mem_append] at hc
      exact hc.elim (b1 c) (b2 c)
  mac i hi := by
    refine ⟨[.call (callOf i)], rfl, ?_, .macro i⟩
    intro c hc
    simp only [callsIn, List.filterMap_cons, List.filterMap_nil, List.mem_singleton] at hc
    subst hc
    exact hi
  head n s := by
    simp only [headerEmit, Bool.false_eq_true, if_false, pure, Except.pure]
    exact ⟨_, rfl, by simp [callsIn], .text _⟩

end Verif.Spec.Cr
