import Verif.Creole.ExampleMacros
import Verif.Props.Safety
import Verif.Props.Unknown

/-!
# C92: the example macros

`htmlMacro`, `preMacro` and `codeMacro` are the functions of `creole.shared.example_macros`, `codeMacroP pg` is `code` where
Pygments is installed.  The arguments are a dict, as for any macro.
-/

namespace Verif.Props

open Verif Py Creole Spec

/-- the arguments of a call `<<code ext="...">>text<</code>>`: `ext` and `text` (`None` if the call has no text) -/
def CodeArgs (kw : Dict PVal) (ext : PVal) (text : Option Str) : Prop :=
  dictGet c!"ext" kw = some ext ∧ dictGet c!"text" kw = some (optVal text) ∧ ∀ k v, (k, v) ∈ kw → k = c!"ext" ∨ k = c!"text"

theorem CodeArgs.bind {kw : Dict PVal} {ext : PVal} {text : Option Str} (h : CodeArgs kw ext text) (k : Outcome) :
    bindArgs c!"code" [c!"ext", c!"text"] kw k = k := by
  obtain ⟨h1, h2, h3⟩ := h
  unfold bindArgs
  have : kw.find? (fun (n, _) => ![c!"ext", c!"text"].contains n) = none := by
    rw [List.find?_eq_none]
    rintro ⟨n, v⟩ hm
    rcases h3 n v hm with rfl | rfl <;> simp
  rw [this]
  simp [h1, h2]

/-! ## Lines -/

theorem breaks_lines (s : Str) : replace c!"\n" c!"<br />\n" (htmlEscape s) = join c!"<br />\n" ((splitChar '\n' s).map escaped) := by
  rw [replace_single, escaped_eq]
  induction s with
  | nil => rfl
  | cons c s ih =>
    have hne : (splitChar '\n' s).map escaped ≠ [] := by simpa using splitChar_ne_nil '\n' s
    by_cases hc : c = '\n'
    · subst hc
      have h1 : splitChar '\n' ('\n' :: s) = [] :: splitChar '\n' s := by rw [splitChar]; simp
      rw [h1, List.map_cons, join_cons _ hne, ← ih]
      rfl
    · have h1 : ∃ l ls, splitChar '\n' s = l :: ls ∧ splitChar '\n' (c :: s) = (c :: l) :: ls := by
        cases hs : splitChar '\n' s with
        | nil => exact absurd hs (splitChar_ne_nil '\n' s)
        | cons l ls => exact ⟨l, ls, rfl, by rw [splitChar]; simp [hc, hs]⟩
      obtain ⟨l, ls, h2, h3⟩ := h1
      have h4 : escaped (c :: s) = escaped [c] ++ escaped s := by simp [escaped]
      have h5 : escaped (c :: l) = escaped [c] ++ escaped l := by simp [escaped]
      have h6 : ((escaped [c]).flatMap fun d => if d = '\n' then c!"<br />\n" else [d]) = escaped [c] := by
        have : ∀ x : Str, '\n' ∉ x → (x.flatMap fun d => if d = '\n' then c!"<br />\n" else [d]) = x := by
          intro x
          induction x with
          | nil => intro _; rfl
          | cons d x ihx =>
            intro h
            rw [List.mem_cons, not_or] at h
            rw [List.flatMap_cons, if_neg (fun e => h.1 e.symm), ihx h.2]
            rfl
        refine this _ ?_
        simp only [escaped, List.flatMap_cons, List.flatMap_nil, List.append_nil]
        split
        · decide
        · split
          · decide
          · split
            · decide
            · simpa using fun e : '\n' = c => hc e.symm
      rw [h3, List.map_cons, h4, h5, List.flatMap_append, h6, ih, h2, List.map_cons]
      cases ls with
      | nil => rfl
      | cons b ls =>
        rw [List.map_cons, join_cons_cons, join_cons_cons]
        simp only [List.append_assoc]

/-! ## The theorems -/

/-- **C92, without Pygments.**  `pre` and `code` show the text in `<pre>`, escaped. -/
theorem C92_plain (kw : Dict PVal) (ext : PVal) (s : Str) (h : CodeArgs kw ext (some s)) :
    codeMacro kw = .ret (c!"<pre>" ++ escaped s ++ c!"</pre>") ∧
    preMacro [(c!"text", .str s)] = .ret (c!"<pre>" ++ escaped s ++ c!"</pre>") := by
  constructor
  · unfold codeMacro
    rw [h.bind, h.2.1, ← escaped_eq]
    rfl
  · rw [← escaped_eq]
    rfl

/-- **C92, with Pygments.**  If the language is known then `code` always returns a text: the highlighted one, with `<br />` at
the end of its lines, and if Pygments cannot highlight it (whatever is raised) the escaped lines in `<pre>`. -/
theorem C92_highlighted {L : Type} (pg : Pygments L) (kw : Dict PVal) (ext s : Str) (l : L) (h : CodeArgs kw (.str ext) (some s))
    (hl : pg.byName (sourceType ext) = some l) :
    codeMacroP pg kw = .ret (match pg.highlight l (some s) with
      | some t => replace c!"\n" c!"<br />\n" t
      | none => c!"<pre>" ++ join c!"<br />\n" ((splitChar '\n' s).map escaped) ++ c!"</pre>") := by
  unfold codeMacroP
  rw [h.bind, h.1]
  dsimp only
  rw [Pygments.lexer, hl]
  dsimp only
  rw [h.2.1]
  simp only [optVal]
  rw [codeText]
  cases hh : pg.highlight l (some s) with
  | some t => rfl
  | none =>
    simp only [Option.none_or, Option.map_some]
    rw [← breaks_lines, replace_single, replace_single, List.flatMap_append, List.flatMap_append]
    rfl

/-- **C92, the language.**  It is the word given as `ext`, or what follows the first dot in it, up to the next one. -/
theorem C92_language {w w' before name after : Str} (hw : ∀ c ∈ w, isSpace c = true) (hw' : ∀ c ∈ w', isSpace c = true)
    (hb : ∀ c ∈ before, isSpace c = false ∧ c ≠ '.') (hn : ∀ c ∈ name, isSpace c = false ∧ c ≠ '.')
    (ha : ∀ c ∈ after, isSpace c = false) :
    sourceType (w ++ name ++ w') = name ∧ sourceType (w ++ (before ++ c!"." ++ name) ++ w') = name ∧
    sourceType (w ++ (before ++ c!"." ++ name ++ c!"." ++ after) ++ w') = name := by
  have dot : ∀ {x : Str}, (∀ c ∈ x, isSpace c = true) → '.' ∉ x := fun h hm => by
    have := h _ hm
    revert this
    decide
  have nodot : ∀ {x : Str}, (∀ c ∈ x, isSpace c = false ∧ c ≠ '.') → '.' ∉ x := fun h hm => (h _ hm).2 rfl
  have hstrip : ∀ x : Str, (∀ c ∈ x, isSpace c = false) → strip x = x := fun x h =>
    strip_id (fun c hc => h c (List.mem_of_mem_head? hc)) fun c hc => h c (List.mem_of_mem_getLast? hc)
  have hd : isSpace '.' = false := by decide
  refine ⟨?_, ?_, ?_⟩
  · unfold sourceType
    rw [if_neg (by simp [dot hw, dot hw', nodot hn]), strip_pad hw hw', hstrip name fun c hc => (hn c hc).1]
  · unfold sourceType
    rw [if_pos (by simp), strip_pad hw hw', hstrip _ fun c hc => ?_, List.append_assoc]
    · rw [show c!"." ++ name = '.' :: name from rfl, splitChar_append (nodot hb), splitChar_of_not_mem (nodot hn)]
      rfl
    · simp only [List.mem_append, List.mem_singleton] at hc
      rcases hc with (hc | hc) | hc
      · exact (hb c hc).1
      · rw [hc]; exact hd
      · exact (hn c hc).1
  · unfold sourceType
    rw [if_pos (by simp), strip_pad hw hw', hstrip _ fun c hc => ?_,
      show before ++ c!"." ++ name ++ c!"." ++ after = before ++ '.' :: (name ++ '.' :: after) by simp,
      splitChar_append (nodot hb), splitChar_append (nodot hn)]
    · rfl
    · simp only [List.mem_append, List.mem_singleton] at hc
      rcases hc with (((hc | hc) | hc) | hc) | hc
      · exact (hb c hc).1
      · rw [hc]; exact hd
      · exact (hn c hc).1
      · rw [hc]; exact hd
      · exact ha c hc

/-- **C92, unknown languages.**  If Pygments does not know the language, it is asked to guess it, but from the macro function
instead of the text: if this fails the macro raises, for every text, and the text is not shown. -/
theorem C92_unknown_language {L : Type} (pg : Pygments L) (kw : Dict PVal) (ext : Str) (text : Option Str) (e : Failure)
    (h : CodeArgs kw (.str ext) text) (hl : pg.byName (sourceType ext) = none) (hg : pg.guess = .error e) :
    codeMacroP pg kw = e.outcome := by
  unfold codeMacroP
  rw [h.bind, h.1]
  dsimp only
  rw [Pygments.lexer, hl, hg]

/-- **C92, arguments.**  An `ext` that is read as a number, `True`, `False` or `None` makes the macro raise TypeError if
Pygments is installed. -/
theorem C92_no_language {L : Type} (pg : Pygments L) (kw : Dict PVal) (ext : PVal) (text : Option Str)
    (h : CodeArgs kw ext text) (he : ∀ s, ext ≠ .str s) : ∃ msg, codeMacroP pg kw = .typeError msg := by
  unfold codeMacroP
  rw [h.bind, h.1]
  cases ext with
  | str s => exact absurd rfl (he s)
  | int n => exact ⟨_, rfl⟩
  | bool b => exact ⟨_, rfl⟩
  | none => exact ⟨_, rfl⟩

theorem bindArgs_ret {fname : Str} {params : List Str} {kw : Dict PVal} {k : Outcome} {s : Str}
    (h : bindArgs fname params kw k = .ret s) : k = .ret s := by
  unfold bindArgs at h
  split at h
  · cases h
  · split at h
    · exact h
    · cases h

theorem preformatted_safe {s : Str} (h : SafeHtml s) : SafeHtml (c!"<pre>" ++ s ++ c!"</pre>") := by
  have := SafeHtml.elem (tag := c!"pre") (.inl (by decide)) h .nil
  rw [List.append_nil] at this
  have e : c!"<pre>" ++ s ++ c!"</pre>" = c!"<" ++ c!"pre" ++ c!">" ++ s ++ c!"</" ++ c!"pre" ++ c!">" := by simp
  rw [e]
  exact this

/-- **C92, safety.**  Texts with `<<pre>>` and `<<code>>` are converted to safe HTML (as in C02: strict, without error
messages).  `html` passes any HTML on and is not among the macros. -/
theorem C92_safe (blog : Bool) (verbose : Int) (macros' : Macros) (markup html : Str) (hv : verbose ≤ 0)
    (h : mayCall c!"toc" markup = false)
    (hr : creole2htmlM { blog, verbose, strict := true } [(c!"pre", .fn preMacro), (c!"code", .fn codeMacro)] markup =
      .ok (html, macros')) : SafeHtml html := by
  refine C02_safe_macros blog verbose _ macros' markup html hv ?_ h hr
  intro name m hm
  have hm' : m = .fn preMacro ∨ m = .fn codeMacro := by
    unfold dictGet at hm
    simp only [List.lookup] at hm
    split at hm
    · cases hm; exact .inl rfl
    · split at hm
      · cases hm; exact .inr rfl
      · cases hm
  have key : ∀ (kw : Dict PVal) (s : Str), (match dictGet c!"text" kw with
      | some (PVal.str s) => Outcome.ret (c!"<pre>" ++ htmlEscape s ++ c!"</pre>")
      | _ => noneAttr) = .ret s → SafeHtml s := by
    intro kw s hs
    split at hs
    · cases hs
      exact preformatted_safe (safe_htmlEscape _)
    · cases hs
  rcases hm' with rfl | rfl
  · refine ⟨fun t ht => (by cases ht), ?_⟩
    rintro s ⟨kw, hs⟩
    exact key kw s (bindArgs_ret hs)
  · refine ⟨fun t ht => (by cases ht), ?_⟩
    rintro s ⟨kw, hs⟩
    exact key kw s (bindArgs_ret hs)

/-! ## Examples -/

/-- a Pygments that knows `py`, highlights one text and cannot guess -/
def examplePygments : Pygments Unit where
  byName n := if n = c!"py" then some () else none
  guess := .error (.typeError c!"object of type 'function' has no len()")
  highlight _ t := if t = some c!"x\ny" then some c!"<b>x</b>\ny" else none

example : CodeArgs [(c!"ext", .str c!".py"), (c!"text", .str c!"a<\nb")] (.str c!".py") (some c!"a<\nb") :=
  ⟨rfl, rfl, fun k v h => by simp at h; rcases h with h | h <;> simp [h]⟩
example : (creole2htmlM {} [(c!"code", .fn (codeMacroP examplePygments))]
    c!"<<code ext=\".py\">>\nx\ny\n<</code>>\n\n<<code ext=\".py\">>\na<\nb\n<</code>>").map (·.1) =
    .ok c!"<b>x</b><br />\ny\n\n<pre>a&lt;<br />\nb</pre>" := by decide +kernel
example : (creole2htmlM {} [(c!"code", .fn (codeMacroP examplePygments))] c!"a <<code ext=\"foo\">>x<</code>> <<code ext=5>>x<</code>>").map (·.1) =
    .ok c!"<p>a [Error: Macro 'code' error: object of type 'function' has no len()]\n [Error: Macro 'code' error: argument of type 'int' is not iterable]\n</p>" := by
  decide +kernel
example : (creole2htmlM { verbose := 0, strict := true } [(c!"pre", .fn preMacro), (c!"code", .fn codeMacro)]
    c!"a <<pre>><b><</pre>> <<code ext=.py>>c<</code>>").map (·.1) = .ok c!"<p>a <pre>&lt;b&gt;</pre> <pre>c</pre></p>" ∧
    mayCall c!"toc" c!"a <<pre>><b><</pre>> <<code ext=.py>>c<</code>>" = false := by decide +kernel

end Verif.Props
