import Verif.Props.Totality

/-!
# C17, C18, C22, C23: macros
-/

namespace Verif.Props

open Verif Py Creole Spec

/-! ## C22, C23: histories of conversions -/

/-- A program converts documents one after the other, always passing the same dict `macros`, which a conversion
may change.  The result lists what each conversion returns (or raises), and the final contents of the
dict; a conversion that raises ends the history. -/
def history (o : Opts) : List Str → Macros → List (Except PyErr Str) × Macros
  | [], ms => ([], ms)
  | doc :: docs, ms =>
    match creole2htmlM o ms doc with
    | .error e => ([.error e], ms)
    | .ok (html, ms') => let (rs, ms'') := history o docs ms'; (.ok html :: rs, ms'')

/-- the macros are functions (not `TableOfContent` objects left behind by an earlier conversion) -/
def OnlyFunctions (macros : Macros) : Prop := ∀ name m, dictGet name macros = some m → ∃ f, m = .fn f

theorem macroEmit_keeps {env : Env} {macros : Macros} (h : OnlyFunctions macros) (i : Info) :
    Good (fun ms => ms = macros) (fun _ => True) (macroEmit env i macros) := by
  unfold macroEmit
  simp only
  cases hs : string2dict i.macroArgs with
  | error e => rw [string2dict_err hs]; exact rfl
  | ok kw =>
    simp only
    cases hm : dictGet i.macroName macros with
    | none => exact rfl
    | some m =>
      obtain ⟨f, rfl⟩ := h _ _ hm
      simp only [callMacro]
      cases f (dictSet c!"text" (optVal i.content) kw) with
      | typeError msg => simp only; split <;> trivial
      | baseExc => trivial
      | _ => exact rfl

/-- a conversion of a document without toc does not change the dict -/
theorem C22_dict_unchanged (o : Opts) (macros : Macros) (doc : Str) (hm : OnlyFunctions macros)
    (h : mayCall c!"toc" doc = false) {html : Str} {macros' : Macros}
    (hr : creole2htmlM o macros doc = .ok (html, macros')) : macros' = macros := by
  obtain ⟨d, h1, h2, h3⟩ := parse_used (o := o) h
  have := emitDoc_noToc (verbose := o.verbose) (strict := o.strict) (macros := macros) (Inv := fun ms => ms = macros)
    (E := fun _ => True) h2 h3 (by rintro i ms rfl; exact macroEmit_keeps hm i) rfl
  unfold creole2htmlM at hr
  rw [h1, ok_bind] at hr
  rw [hr] at this
  exact this

/-- **C22.** Any sequence of conversions of documents that do not call the macro `toc`, with the same dict of
macro functions, gives for every document the result of converting it alone, and leaves the dict
unchanged.  (`verbose <= 2` and macros that raise nothing but `Exception`s keep the history from ending early.) -/
theorem C22_stateless (o : Opts) (macros : Macros) (docs : List Str) (hv : o.verbose ≤ 2)
    (hm : OnlyFunctions macros) (hb : ∀ name m, dictGet name macros = some m → ¬ m.May .baseExc)
    (hd : ∀ doc ∈ docs, mayCall c!"toc" doc = false) :
    history o docs macros = (docs.map fun doc => (creole2htmlM o macros doc).map (·.1), macros) := by
  induction docs with
  | nil => rfl
  | cons doc docs ih =>
    obtain ⟨html, ms', hr⟩ := C18_macro_failures_contained o macros doc hv hb (hd doc (by simp))
    have := C22_dict_unchanged o macros doc hm (hd doc (by simp)) hr
    subst this
    simp only [history, hr, ih (fun d h => hd d (by simp [h])), List.map_cons, Except.map]

/-- a dict with a macro that meets the hypotheses -/
example : OnlyFunctions [(c!"html", .fn fun kw => match dictGet c!"text" kw with
    | some (.str s) => .ret s | _ => .exc c!"?")] := by
  intro name m h
  simp only [dictGet, List.lookup_cons, List.lookup_nil] at h
  split at h
  · simp at h; exact ⟨_, h.symm⟩
  · simp at h

/-- **C23.** Sharing a dict between documents with a toc is not harmless: the second of two conversions of the
same document with the same, initially empty, dict does not give the fresh result (its toc is not expanded any
more), and the dict has been changed. -/
theorem C23_shared_dict_leaks : ∃ doc first second, (history {} [doc, doc] []).1 = [.ok first, .ok second] ∧
    creole2html {} doc = .ok first ∧ first ≠ second ∧ (history {} [doc] []).2 ≠ [] := by
  refine ⟨c!"<<toc>>\n= b", c!"<ul>\n\t<li><a href=\"#b\">b</a></li>\n</ul>\n<a name=\"b\"><h1>b</h1></a>",
    c!"<p>&lt;&lt;toc&gt;&gt;</p>\n<a name=\"b\"><h1>b</h1></a>", ?_, ?_, ?_, ?_⟩
  · decide +kernel
  · decide +kernel
  · decide
  · intro h
    have : (history {} [c!"<<toc>>\n= b"] []).2.length = 0 := by rw [h]; rfl
    exact absurd this (by decide +kernel)

end Verif.Props
