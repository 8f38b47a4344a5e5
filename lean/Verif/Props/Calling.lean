import Verif.Props.Macros
import Verif.Creole.Holes

/-!
# C83: each call of a macro is made once, from left to right
-/

namespace Verif.Props

open Verif Py Creole Spec Spec.Cr

theorem parse_infoMac (o : Opts) (markup : Str) :
    ∃ d, parse o.blog markup = .ok d ∧ d.root.All (InfoMac fun name => mayCall name markup = true) := by
  obtain ⟨d, h1, h2, h3⟩ := parse_ok (p := InfoMac fun name => mayCall name markup = true) (blog := o.blog) (raw := markup)
    (by
      have := allows_infoOK True
      constructor
      · exact fun s => ⟨this.text s, by simp⟩
      · exact fun s => ⟨this.link s, by simp⟩
      · exact fun s => ⟨this.image s, by simp⟩
      · exact fun s => ⟨this.preInline s, by simp⟩
      · exact fun s => ⟨this.preBlock s, by simp⟩
      · exact fun s => ⟨this.brk s, by simp⟩
      · exact ⟨this.line, by simp⟩
      · refine fun k hk => ⟨this.plain k hk, ?_⟩
        rintro (e | e) <;> (simp only at e; subst e; simp at hk)
      · refine fun k n hk => ⟨this.list k n hk, ?_⟩
        rintro (e | e) <;> (simp only at e; subst e; simp at hk)
      · exact fun n => ⟨this.item n, by simp⟩
      · exact fun s n => ⟨this.header s n, by simp⟩
      · intro nm hc k c a hk
        refine ⟨this.macros nm trivial k c a hk, fun _ => ?_⟩
        rw [normNewlines, crlf_eq] at hc
        have hn : '\n' ∉ nm := fun hm => by have := hc.2.1 _ hm; exact absurd this (by decide)
        exact called_crlf hn hc.1 hc)
  exact ⟨d, h1, h2⟩

theorem parse_mac {o : Opts} {markup : Str} (h : mayCall c!"toc" markup = false) :
    ∃ d, parse o.blog markup = .ok d ∧ d.root.All (InfoMac fun name => mayCall name markup = true) ∧
      d.used.contains c!"toc" = false := by
  obtain ⟨d', h1', _, h3'⟩ := parse_used (o := o) h
  obtain ⟨d, h1, h2⟩ := parse_infoMac o markup
  have e : d' = d := by rw [h1] at h1'; cases h1'; rfl
  subst e
  exact ⟨d', h1, h2, h3'⟩

/-- **C83.**  For every text that does not call `toc` there is a text with places for calls, such that converting it is the same
as filling the places: each place by one call, from left to right, with the macros in the state in which the calls before left
them.  The places do not depend on the macros or on `verbose`; all macros called there are called in the text.  (The conversion
raises an exception exactly if the places cannot be filled.  White space around the whole is cut off.) -/
theorem C83_filled (o : Opts) (markup : Str) (h : mayCall c!"toc" markup = false) :
    ∃ holes : List Hole, (∀ c, .call c ∈ holes → mayCall c.name markup = true) ∧
      ∀ (verbose : Int) (macros macros' : Macros) (html : Str), NoTocs macros →
        (creole2htmlM { o with verbose } macros markup = .ok (html, macros') ↔
          ∃ s, Filled verbose macros holes s macros' ∧ html = strip s) := by
  obtain ⟨d, h1, h2, h3⟩ := parse_mac (o := o) h
  obtain ⟨holes, _, hc, hf⟩ := (scheme_fills o.strict _).node d.root { kind := .document } trivial h2
  refine ⟨holes, fun c h => hc c (List.mem_filterMap.mpr ⟨_, h, rfl⟩), ?_⟩
  intro v ms ms' html hn
  unfold creole2htmlM emitDoc
  simp only [h1, ok_bind, h3, Bool.false_and, Bool.false_eq_true, if_false]
  have hf' := fun s ms' => hf v ms s ms' hn
  dsimp only at hf'
  cases hr : emitNode { verbose := v, strict := o.strict, useToc := false } { kind := .document } d.root ms with
  | error e =>
    rw [hr] at hf'
    constructor
    · intro hx; cases hx
    · rintro ⟨s, hs, -⟩
      exact absurd ((hf' _ _).mpr hs) (by simp)
  | ok x =>
    obtain ⟨t, m⟩ := x
    rw [hr] at hf'
    constructor
    · intro hx
      cases hx
      exact ⟨t, (hf' _ _).mp rfl, rfl⟩
    · rintro ⟨s, hs, rfl⟩
      have := (hf' _ _).mpr hs
      cases this
      rfl

theorem callsOf_record (macros : Macros) (x : MacroCall) (l : List Call) :
    callsOf (macros.map fun (k, m) => (k, m.record x)) l = callsOf macros l := by
  unfold callsOf
  congr 1
  funext c
  rw [dictGet_record]
  cases string2dict c.args with
  | error e => rfl
  | ok kw =>
    cases dictGet c.name macros with
    | none => rfl
    | some m => cases m <;> rfl

theorem callsOf_cons (macros : Macros) (c : Call) (l : List Call) :
    callsOf macros (c :: l) = callsOf macros [c] ++ callsOf macros l := by
  unfold callsOf
  rw [← List.filterMap_append]
  rfl

/-- what is written down for a call -/
theorem answers_recorded {verbose : Int} {macros macros' : Macros} {c : Call} {s : Str} (h : Answers verbose macros c s macros') :
    (∀ l, callsOf macros' l = callsOf macros l) ∧
    ∀ name p f, dictGet name macros = some (.obj p f) → dictGet name macros' = some (.obj (p ++ callsOf macros [c]) f) := by
  have hrun : ∀ kw out, string2dict c.args = .ok kw → Runs macros c.name (withText c.text kw) out macros' →
      (∀ l, callsOf macros' l = callsOf macros l) ∧
      ∀ name p f, dictGet name macros = some (.obj p f) → dictGet name macros' = some (.obj (p ++ callsOf macros [c]) f) := by
    intro kw out ha hr
    cases hr with
    | fn hm =>
      refine ⟨fun _ => rfl, fun name p f hd => ?_⟩
      simp [callsOf, ha, hm, hd]
    | obj hm =>
      refine ⟨fun l => callsOf_record _ _ l, fun name p f hd => ?_⟩
      rw [dictGet_record, hd]
      simp [callsOf, ha, hm, Macro.record]
  cases h with
  | returns ha hr => exact hrun _ _ ha hr
  | raises ha hr _ => exact hrun _ _ ha hr
  | notString ha hr => exact hrun _ _ ha hr
  | wrongArgs ha =>
    refine ⟨fun _ => rfl, fun name p f hd => ?_⟩
    simp [callsOf, ha, hd]
  | unknown ha hm =>
    refine ⟨fun _ => rfl, fun name p f hd => ?_⟩
    simp [callsOf, ha, hm, hd]

theorem filled_recorded {verbose : Int} {macros macros' : Macros} {holes : List Hole} {s : Str} (h : Filled verbose macros holes s macros') :
    ∀ name p f, dictGet name macros = some (.obj p f) →
      dictGet name macros' = some (.obj (p ++ callsOf macros (callsIn holes)) f) := by
  induction h with
  | nil => intro name p f hd; simpa [callsIn, callsOf] using hd
  | text _ ih => exact ih
  | call ha _ ih =>
    intro name p f hd
    obtain ⟨h1, h2⟩ := answers_recorded ha
    rw [ih _ _ _ (h2 _ _ _ hd), h1]
    rw [show callsIn (Hole.call _ :: _) = _ :: callsIn _ from rfl, callsOf_cons _ _ (callsIn _), List.append_assoc]

/-- **C83.**  The calls that a text makes do not depend on what the macros do: for every text that does not call `toc` there is a
list of calls such that, with all macros for which the conversion succeeds, exactly those calls of the list are made, each once
and in the order of the list, for which there is a macro and the arguments are well formed.  (What is made is seen in the
state of the macros that have one.) -/
theorem C83_calls (o : Opts) (markup : Str) (h : mayCall c!"toc" markup = false) :
    ∃ calls : List Call, (∀ c ∈ calls, mayCall c.name markup = true) ∧
      ∀ (verbose : Int) (macros macros' : Macros) (html : Str), NoTocs macros →
        creole2htmlM { o with verbose } macros markup = .ok (html, macros') →
        ∀ name past f, dictGet name macros = some (.obj past f) →
          dictGet name macros' = some (.obj (past ++ callsOf macros calls) f) := by
  obtain ⟨holes, h1, h2⟩ := C83_filled o markup h
  refine ⟨callsIn holes, ?_, ?_⟩
  · intro c hc
    refine h1 c ?_
    simp only [callsIn, List.mem_filterMap] at hc
    obtain ⟨x, hx, e⟩ := hc
    cases x with
    | text s => cases e
    | call c' => cases e; exact hx
  · intro v ms ms' html hn hr
    obtain ⟨s, hs, -⟩ := (h2 v ms ms' html hn).mp hr
    exact filled_recorded hs

/-- a macro that counts its calls -/
def counter : Macros := [(c!"count", .obj [] fun past _ => .ret (natDigits (past.length + 1)))]

instance : DecidableEq MacroCall := inferInstanceAs (DecidableEq (List Char × List (List Char × PVal)))
instance : DecidableEq (Str × List MacroCall) := inferInstanceAs (DecidableEq (List Char × List MacroCall))

/-- the HTML, and the calls that the first macro has seen -/
def seen : EM → Option (Str × List MacroCall)
  | .ok (html, (_, .obj past _) :: _) => some (html, past)
  | _ => none

/-- a text with calls -/
def counted : Str := c!"<<count>>, **<<count x=1>>** <<nothing>>\n* <<count x>><<count />>"

/-- a text and a macro that meet the hypotheses; the third call of the macro is not made because its arguments are wrong -/
example : mayCall c!"toc" counted = false ∧ seen (creole2htmlM { verbose := 0 } counter counted) =
      some (c!"<p>1, <strong>2</strong> </p>\n<ul>\n\t<li>3</li>\n</ul>", [(c!"count", [(c!"text", .none)]),
        (c!"count", [(c!"x", .int 1), (c!"text", .none)]), (c!"count", [(c!"text", .none)])]) := by
  decide +kernel

example : NoTocs counter := by
  intro name t h
  unfold counter dictGet at h
  simp only [List.lookup_cons, List.lookup_nil] at h
  split at h <;> cases h

end Verif.Props
