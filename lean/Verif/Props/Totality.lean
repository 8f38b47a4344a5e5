import Verif.Creole.TocLemmas
import Verif.Py.StrLemmas
import Verif.Spec.TocFree

/-!
# C01, C18, C24: which conversions raise

`creole2html o markup` is the model of `creole2html(markup, ...)` with `macros=None`, `creole2htmlM o macros
markup` the one with a dict of macros.  A raised exception is the value `.error e`.
-/

namespace Verif.Props

open Verif Py Creole Spec

theorem mayCall_of_infix {n w s : Str} (hn : ∀ c ∈ n, isSpace c = false) (hne : n ≠ []) (hw : w.all isSpace = true)
    (h : c!"<<" ++ w ++ n <:+: s) : mayCall n s = true := by
  obtain ⟨a, b, rfl⟩ := h
  induction a with
  | nil =>
    have hd : (w ++ n ++ b).dropWhile isSpace = n ++ b := by
      rw [List.append_assoc, List.dropWhile_append_of_pos (fun c hc => List.all_eq_true.mp hw c hc)]
      cases n with
      | nil => exact absurd rfl hne
      | cons c n => rw [List.cons_append, List.dropWhile_cons, if_neg (by simp [hn c List.mem_cons_self])]
    have : mayCall n (c!"<<" ++ (w ++ n ++ b)) = true := by
      show ((c!"<<".isPrefixOf (c!"<<" ++ (w ++ n ++ b)) && n.isPrefixOf ((w ++ n ++ b).dropWhile isSpace)) || _) = true
      rw [hd, show n.isPrefixOf (n ++ b) = true from by simp]
      simp
    simpa using this
  | cons c a ih =>
    show (_ || mayCall n (a ++ (c!"<<" ++ w ++ n) ++ b)) = true
    rw [ih, Bool.or_true]

/-- blanks and a name at the beginning of a text with normalised line ends -/
theorem prefix_crlf {n : Str} (hn : '\n' ∉ n) : ∀ {s w : Str}, w.all isSpace = true → w ++ n <+: crlf s →
    ∃ v, v.all isSpace = true ∧ v ++ n <+: s := by
  intro s
  fun_induction crlf s with
  | case1 => intro w hw h; exact ⟨w, hw, h⟩
  | case2 s ih =>
    intro w hw h
    cases w with
    | nil =>
      cases n with
      | nil => exact ⟨[], rfl, List.nil_prefix⟩
      | cons c n => simp only [List.nil_append, List.cons_prefix_cons] at h; simp [h.1] at hn
    | cons c w =>
      rw [List.cons_append, List.cons_prefix_cons] at h
      obtain ⟨v, hv, hp⟩ := ih (by simp at hw ⊢; exact hw.2) h.2
      exact ⟨'\r' :: '\n' :: v, by simp [hv]; decide, by simpa [List.cons_prefix_cons] using hp⟩
  | case3 s hs ih =>
    intro w hw h
    cases w with
    | nil =>
      cases n with
      | nil => exact ⟨[], rfl, List.nil_prefix⟩
      | cons c n => simp only [List.nil_append, List.cons_prefix_cons] at h; simp [h.1] at hn
    | cons c w =>
      rw [List.cons_append, List.cons_prefix_cons] at h
      obtain ⟨v, hv, hp⟩ := ih (by simp at hw ⊢; exact hw.2) h.2
      exact ⟨'\r' :: v, by simp [hv]; decide, by simpa [List.cons_prefix_cons] using hp⟩
  | case4 c s hc ih =>
    intro w hw h
    cases w with
    | nil =>
      refine ⟨[], rfl, prefix_of_crlf (c :: s) n hn ?_⟩
      rw [crlf.eq_def (c :: s)]
      simpa [hc] using h
    | cons d w =>
      rw [List.cons_append, List.cons_prefix_cons] at h
      obtain ⟨v, hv, hp⟩ := ih (by simp at hw ⊢; exact hw.2) h.2
      refine ⟨c :: v, ?_, by simpa [List.cons_prefix_cons] using hp⟩
      rw [List.all_cons, hv, Bool.and_true, ← h.1]
      rw [List.all_cons, Bool.and_eq_true] at hw
      exact hw.1

theorem called_crlf {n s : Str} (hn : '\n' ∉ n) (hne : n ≠ []) (h : Called n (crlf s)) : mayCall n s = true := by
  obtain ⟨_, hs, w, hw, hi⟩ := h
  obtain ⟨t, h1, h2⟩ := List.infix_iff_prefix_suffix.mp hi
  obtain ⟨s', h3, rfl⟩ := suffix_of_crlf s t h2
  have key : ∀ {x : Str} {s : Str}, '<' :: x <+: crlf s → ∃ s1, s = '<' :: s1 ∧ x <+: crlf s1 := by
    intro x s
    fun_induction crlf s with
    | case1 => intro h; simp at h
    | case2 s ih => intro h; rw [List.cons_prefix_cons] at h; exact absurd h.1 (by decide)
    | case3 s hs ih => intro h; rw [List.cons_prefix_cons] at h; exact absurd h.1 (by decide)
    | case4 c s hc ih => intro h; rw [List.cons_prefix_cons] at h; exact ⟨s, by rw [h.1], h.2⟩
  obtain ⟨s1, rfl, h4⟩ := key (x := '<' :: (w ++ n)) h1
  obtain ⟨s2, rfl, h5⟩ := key h4
  obtain ⟨v, hv, h6⟩ := prefix_crlf hn hw h5
  refine mayCall_of_infix hs hne hv (List.infix_iff_prefix_suffix.mpr ⟨_, ?_, h3⟩)
  show '<' :: '<' :: (v ++ n) <+: _
  simpa [List.cons_prefix_cons] using h6

/-- the names of macros in a parsed document occur in the text where a call may begin -/
theorem parse_used {o : Opts} {markup : Str} (h : mayCall c!"toc" markup = false) :
    ∃ d, parse o.blog markup = .ok d ∧ d.root.All (InfoOK True) ∧ d.used.contains c!"toc" = false := by
  obtain ⟨d, h1, h2, h3⟩ := parse_ok (p := InfoOK True) (blog := o.blog) (raw := markup)
    (by have := allows_infoOK True; exact { this with macros := fun nm _ => this.macros nm trivial })
  refine ⟨d, h1, h2, ?_⟩
  cases hc : d.used.contains c!"toc" with
  | false => rfl
  | true =>
    have := h3 c!"toc" (by simpa using hc)
    rw [normNewlines, crlf_eq] at this
    rw [called_crlf (by decide) (by decide) this] at h
    cases h

theorem emitDoc_noToc {verbose : Int} {strict : Bool} {d : Doc} {macros : Macros} {Inv : Macros → Prop}
    {E : PyErr → Prop} (hd : d.root.All (InfoOK True)) (hu : d.used.contains c!"toc" = false)
    (hmac : ∀ i ms, Inv ms → Good Inv E (macroEmit { verbose, strict, useToc := false } i ms))
    (hinv : Inv macros) : Good Inv E (emitDoc verbose strict d macros) := by
  unfold emitDoc
  simp only [hu, Bool.false_and, Bool.false_eq_true, if_false]
  have := emitNode_good (mac := True) (Inv := Inv) (E := E) (env := { verbose, strict, useToc := false })
    (fun i ms _ h => hmac i ms h) (fun n s ms h => headerEmit_noToc rfl _ _ _ h) d.root { kind := .document } macros
    trivial hd hinv
  cases hr : emitNode { verbose, strict, useToc := false } { kind := .document } d.root macros with
  | error e => rw [hr] at this; exact this
  | ok x => rw [hr] at this; exact this

/-- **C01.** Converting a text that does not call the macro `toc` (there is no `<<`, followed by blanks and `toc`)
returns a string, for all options, including any `verbose`. -/
theorem C01_creole2html_total (o : Opts) (markup : Str) (h : mayCall c!"toc" markup = false) :
    ∃ html, creole2html o markup = .ok html := by
  obtain ⟨d, h1, h2, h3⟩ := parse_used (o := o) h
  have := emitDoc_noToc (verbose := o.verbose) (strict := o.strict) (macros := []) (Inv := fun ms => ms = [])
    (E := fun _ => False) h2 h3 (by
      rintro i ms rfl; exact macroEmit_nil i) rfl
  unfold creole2html creole2htmlM
  rw [h1, ok_bind]
  cases hr : emitDoc o.verbose o.strict d [] with
  | error e => rw [hr] at this; exact absurd this id
  | ok x => exact ⟨x.1, rfl⟩

example : mayCall c!"toc" c!"= toc\n* **a** [[b]] <<x toc=1>>\n|=t| <toc>" = false := by decide

/-- blanks and line ends are allowed, and so is a longer word: this is a call of `toc` with the argument `foo` -/
example : mayCall c!"toc" c!"a <<\r\n toc>>b<</toc>>" = true ∧ mayCall c!"toc" c!"<<tocfoo>>b<</toc>>" = true ∧
    (parse true c!"<<tocfoo>>b<</toc>>").toOption.map Doc.used = some [c!"toc"] := by
  decide +kernel

/-- **C01**, all documents: with `macros=None` the only exception `creole2html` can raise is `TypeError`.  In
particular the errors that stand for a stuck representation (`badCursor`, `staleText`) and for an
unbounded recursion over inline markup (`recursionError`) never occur. -/
theorem C01_only_typeError (o : Opts) (markup : Str) :
    (∃ html, creole2html o markup = .ok html) ∨ ∃ msg, creole2html o markup = .error (.typeError msg) := by
  obtain ⟨d, h1, h2, -⟩ := parse_ok (p := InfoOK True) (blog := o.blog) (raw := markup)
    (by have := allows_infoOK True; exact { this with macros := fun nm _ => this.macros nm trivial })
  have key : Good (fun _ => True) (fun e => ∃ msg, e = .typeError msg) (emitDoc o.verbose o.strict d []) := by
    cases hu : d.used.contains c!"toc" with
    | false =>
      have := emitDoc_noToc (verbose := o.verbose) (strict := o.strict) (Inv := fun ms => ms = [])
        (E := fun e => ∃ msg, e = .typeError msg) h2 hu (by rintro i ms rfl; exact macroEmit_nil i) rfl
      cases hr : emitDoc o.verbose o.strict d [] with
      | error e => rw [hr] at this; exact this
      | ok x => trivial
    | true =>
      unfold emitDoc
      simp only [hu, if_true, dictGet, List.lookup_nil, Option.isNone_none, Bool.and_self, dictSet]
      have := emitNode_good (mac := True) (Inv := TocTable) (E := fun e => ∃ msg, e = .typeError msg)
        (env := { verbose := o.verbose, strict := o.strict, useToc := true })
        (fun i ms _ h => by
          have := macroEmit_toc (env := { verbose := o.verbose, strict := o.strict, useToc := true }) i ms h
          cases hr : macroEmit { verbose := o.verbose, strict := o.strict, useToc := true } i ms with
          | error e => rw [hr] at this; exact ⟨_, this.1⟩
          | ok x => rw [hr] at this; exact this)
        (fun n s ms h => headerEmit_toc rfl _ _ _ h) d.root { kind := .document } [(c!"toc", .toc {})]
        trivial h2 ⟨{}, rfl, by simp⟩
      cases hr : emitNode { verbose := o.verbose, strict := o.strict, useToc := true } { kind := .document } d.root
        [(c!"toc", .toc {})] with
      | error e => rw [hr] at this; exact this
      | ok x =>
        obtain ⟨s, ms⟩ := x
        rw [hr] at this
        obtain ⟨t, rfl, ht⟩ := this
        obtain ⟨a, ha, -⟩ := flatToNest_spec t.headlines ht
        simp only [ok_bind, List.lookup_cons, beq_self_eq_true]
        unfold Toc.emit
        rw [ha, ok_bind]
        split <;> trivial
  unfold creole2html creole2htmlM
  rw [h1, ok_bind]
  cases hr : emitDoc o.verbose o.strict d [] with
  | error e =>
    rw [hr] at key
    obtain ⟨msg, rfl⟩ := key
    exact .inr ⟨msg, rfl⟩
  | ok x => exact .inl ⟨x.1, rfl⟩

/-- **C24.** The remaining `TypeError` is real: a toc with a depth that is not a number, followed by a headline,
makes `creole2html` with default arguments raise. -/
theorem C24_toc_depth_raises : ∃ markup msg, creole2html {} markup = .error (.typeError msg) :=
  ⟨c!"<<toc depth=\"a\">>\n= b", c!"'<=' not supported between instances of 'int' and 'str'", by decide +kernel⟩

/-- **C18.** With `verbose <= 2`, whatever the macro table contains (as long as its functions raise nothing but
`Exception`s) and whatever macros the document calls, conversion does not raise, unless the toc macro is
involved. -/
theorem C18_macro_failures_contained (o : Opts) (macros : Macros) (markup : Str) (hv : o.verbose ≤ 2)
    (hm : ∀ name m, dictGet name macros = some m → ¬ m.May .baseExc)
    (h : mayCall c!"toc" markup = false) : ∃ html macros', creole2htmlM o macros markup = .ok (html, macros') := by
  obtain ⟨d, h1, h2, h3⟩ := parse_used (o := o) h
  have := emitDoc_noToc (verbose := o.verbose) (strict := o.strict) (macros := macros) (Inv := NoBase)
    (E := fun _ => False) h2 h3 (fun i ms hi => macroEmit_noBase hv i ms hi) hm
  unfold creole2htmlM
  rw [h1, ok_bind]
  cases hr : emitDoc o.verbose o.strict d macros with
  | error e => rw [hr] at this; exact absurd this id
  | ok x => exact ⟨x.1, x.2, rfl⟩

end Verif.Props
