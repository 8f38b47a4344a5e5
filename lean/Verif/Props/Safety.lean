import Verif.Creole.SafeLemmas
import Verif.Props.Totality

/-!
# C02, C03, C05: the HTML produced by `creole2html` is safe, and where it is not

The meaning of safe is the grammar `SafeHtml` in `Verif/Spec/Html.lean`.
-/

namespace Verif.Props

open Verif Py Creole Spec

/-! ## C05 -/

/-- **C05.** Decoding the entities gives the text back, and escaped text has no angle bracket. -/
theorem C05_escape_reversible (s : Str) :
    unescape (htmlEscape s) = s ∧ '<' ∉ htmlEscape s ∧ '>' ∉ htmlEscape s := by
  induction s with
  | nil => exact ⟨rfl, by simp [htmlEscape_nil], by simp [htmlEscape_nil]⟩
  | cons c s ih =>
    rw [htmlEscape_cons]
    obtain ⟨h1, h2, h3⟩ := ih
    unfold escChar
    by_cases ha : c = '&'
    · subst ha
      exact ⟨by simp [unescape, h1], by simp [h2], by simp [h3]⟩
    · by_cases hl : c = '<'
      · subst hl
        exact ⟨by simp [unescape, h1], by simp [h2], by simp [h3]⟩
      · by_cases hg : c = '>'
        · subst hg
          exact ⟨by simp [unescape, h1], by simp [h2], by simp [h3]⟩
        · simp only [ha, hl, hg, if_false, List.singleton_append, List.mem_cons, not_or]
          refine ⟨?_, ⟨fun h => hl h.symm, h2⟩, fun h => hg h.symm, h3⟩
          rw [unescape.eq_def]
          split
          all_goals simp_all

/-- **C05.** Escaping loses nothing: different texts are escaped differently. -/
theorem C05_escape_injective {s t : Str} (h : htmlEscape s = htmlEscape t) : s = t := by
  rw [← (C05_escape_reversible s).1, h, (C05_escape_reversible t).1]

/-- **C05.** The same for attribute values, which moreover contain no double quote.  (The entity for the quote
is written without a semicolon, and `unescapeAttr` decodes that form.) -/
theorem C05_attr_escape_reversible (s : Str) :
    unescapeAttr (attrEscape s) = s ∧ '"' ∉ attrEscape s ∧ '<' ∉ attrEscape s ∧ '>' ∉ attrEscape s := by
  refine ⟨?_, isAttrValue_attrEscape s⟩
  induction s with
  | nil => rfl
  | cons c s ih =>
    rw [attrEscape_cons]
    unfold attrChar escChar
    by_cases hq : c = '"'
    · subst hq; simp [unescapeAttr, ih]
    by_cases ha : c = '&'
    · subst ha; simp [unescapeAttr, ih]
    by_cases hl : c = '<'
    · subst hl; simp [unescapeAttr, ih]
    by_cases hg : c = '>'
    · subst hg; simp [unescapeAttr, ih]
    simp only [hq, ha, hl, hg, if_false, List.singleton_append]
    rw [unescapeAttr.eq_def]
    split
    all_goals simp_all

theorem C05_attr_escape_injective {s t : Str} (h : attrEscape s = attrEscape t) : s = t := by
  rw [← (C05_attr_escape_reversible s).1, h, (C05_attr_escape_reversible t).1]

example : htmlEscape c!"a<b> & \"c\"" = c!"a&lt;b&gt; &amp; \"c\"" := by decide
example : attrEscape c!"a<b> & \"c\"" = c!"a&lt;b&gt; &amp; &quotc&quot" := by decide

/-! ## C02 -/

/-- safety of the emission of a parsed document, given the safety of the emission of its macros -/
theorem emitDoc_safe {mac : Prop} {Inv : Macros → Prop} {verbose : Int} {d : Doc} {ms : Macros} {html : Str}
    {ms' : Macros} (hd : d.root.All (InfoOK mac)) (hu : d.used.contains c!"toc" = false)
    (hmac : ∀ i ms, mac → Inv ms → SafeR Inv (macroEmit { verbose, strict := true, useToc := false } i ms))
    (hi : Inv ms) (h : emitDoc verbose true d ms = .ok (html, ms')) : SafeHtml html := by
  unfold emitDoc at h
  simp only [hu, Bool.false_and, Bool.false_eq_true, if_false] at h
  have := emitNode_safe (mac := mac) (env := { verbose, strict := true, useToc := false }) rfl rfl hmac d.root
    { kind := .document } ms hd hi
  cases hr : emitNode { verbose, strict := true, useToc := false } { kind := .document } d.root ms with
  | error e => rw [hr] at h; simp [bind, Except.bind] at h
  | ok x =>
    rw [hr] at h
    simp only [ok_bind, pure, Except.pure, Except.ok.injEq, Prod.mk.injEq] at h
    rw [← h.1]
    exact (this _ _ hr).1.strip

/-- **C02.** If the text contains no `<<` and `strict` is set, `creole2html` returns safe HTML: properly nested
elements from a fixed list, without attributes except for the quoted ones of links and images, and escaped
text everywhere else.  This holds whatever macros are passed. -/
theorem C02_safe (blog : Bool) (verbose : Int) (macros : Macros) (markup : Str) (h : ¬ c!"<<" <:+: markup) :
    ∃ html, creole2htmlM { blog, verbose, strict := true } macros markup = .ok (html, macros) ∧ SafeHtml html := by
  have hno : ¬ c!"<<" <:+: normNewlines markup := fun hc => h (by
    rw [normNewlines, crlf_eq] at hc
    exact infix_of_infix_crlf (by decide) hc)
  obtain ⟨d, h1, h2, h3⟩ := parse_ok (p := InfoOK False) (blog := blog) (raw := markup)
    (by have := allows_infoOK False; exact { this with macros := fun _ hc => absurd hc.mark hno })
  have hu : d.used.contains c!"toc" = false := by
    cases hc : d.used.contains c!"toc" with
    | false => rfl
    | true => exact absurd (h3 _ (by simpa using hc)).mark hno
  have hg : Good (fun m => m = macros) (fun _ => False) (emitDoc verbose true d macros) := by
    unfold emitDoc
    simp only [hu, Bool.false_and, Bool.false_eq_true, if_false]
    have := emitNode_good (mac := False) (Inv := fun m => m = macros) (E := fun _ => False)
      (env := { verbose, strict := true, useToc := false })
      (fun i ms hm _ => hm.elim) (fun n s ms h => headerEmit_noToc rfl _ _ _ h) d.root { kind := .document } macros
      trivial h2 rfl
    cases hr : emitNode { verbose, strict := true, useToc := false } { kind := .document } d.root macros with
    | error e => rw [hr] at this; exact this
    | ok x => rw [hr] at this; exact this
  unfold creole2htmlM
  simp only [h1, ok_bind]
  cases hr : emitDoc verbose true d macros with
  | error e => rw [hr] at hg; exact absurd hg id
  | ok x =>
    obtain ⟨html, ms⟩ := x
    rw [hr] at hg
    cases (show ms = macros from hg)
    exact ⟨html, rfl, emitDoc_safe (Inv := fun _ => True) h2 hu (fun _ _ hf => hf.elim) trivial hr⟩

/-- all macros are functions that return safe HTML (if they return a string), in whatever state they are -/
def SafeMacros (macros : Macros) : Prop :=
  ∀ name m, dictGet name macros = some m → (∀ t, m ≠ .toc t) ∧ ∀ s, m.May (.ret s) → SafeHtml s

theorem SafeMacros.record {ms : Macros} (h : SafeMacros ms) (c : MacroCall) :
    SafeMacros (ms.map fun (k, m) => (k, m.record c)) := by
  intro k m hm
  rw [dictGet_record] at hm
  cases hd : dictGet k ms with
  | none => rw [hd] at hm; cases hm
  | some m' =>
    rw [hd] at hm
    cases hm
    obtain ⟨h1, h2⟩ := h k m' hd
    refine ⟨?_, fun s hs => h2 s ((Macro.may_record _ _ _).mp hs)⟩
    cases m' with
    | fn f => intro t e; cases e
    | obj p f => intro t e; cases e
    | toc t => exact absurd rfl (h1 t)

theorem macroEmit_safe {env : Env} (hv : env.verbose ≤ 0) (i : Info) (ms : Macros) (h : SafeMacros ms) :
    SafeR SafeMacros (macroEmit env i ms) := by
  have he : ∀ text, errorText env text = [] := fun text => by
    unfold errorText; rw [if_neg (by omega)]
  unfold macroEmit
  simp only [he]
  cases hs : string2dict i.macroArgs with
  | error e => rw [string2dict_err hs]; exact safeR_ok h .nil
  | ok kw =>
    simp only
    cases hm : dictGet i.macroName ms with
    | none => exact safeR_ok h .nil
    | some m =>
      obtain ⟨ht, hf⟩ := h _ _ hm
      have hc : SafeMacros (callMacro i.macroName m (dictSet c!"text" (optVal i.content) kw) ms).2 ∧
          ∀ s, (callMacro i.macroName m (dictSet c!"text" (optVal i.content) kw) ms).1 = .ret s → m.May (.ret s) := by
        cases m with
        | fn f => exact ⟨h, fun s hs => ⟨_, hs⟩⟩
        | obj p f => exact ⟨h.record _, fun s hs => ⟨_, _, hs⟩⟩
        | toc t => exact absurd rfl (ht t)
      simp only
      cases hx : callMacro i.macroName m (dictSet c!"text" (optVal i.content) kw) ms with
      | mk out ms' =>
      rw [hx] at hc
      obtain ⟨h, ho⟩ := hc
      cases out with
      | ret s =>
        simp only
        split
        · exact safeR_ok h ((hf _ (ho _ rfl)).append safe_nl)
        · exact safeR_ok h (hf _ (ho _ rfl))
      | other d => exact safeR_ok h .nil
      | typeError m =>
        simp only
        split
        · exact safeR_error
        · exact safeR_ok h .nil
      | exc m => exact safeR_ok h .nil
      | baseExc => exact safeR_error

/-- **C02**, documents that do contain macro tags: with `verbose <= 0` (no error messages) and `strict=True` the
HTML is safe if all macros return safe HTML and the toc macro is not involved. -/
theorem C02_safe_macros (blog : Bool) (verbose : Int) (macros macros' : Macros) (markup html : Str)
    (hv : verbose ≤ 0) (hm : SafeMacros macros) (h : mayCall c!"toc" markup = false)
    (hr : creole2htmlM { blog, verbose, strict := true } macros markup = .ok (html, macros')) : SafeHtml html := by
  obtain ⟨d, h1, h2, h3⟩ := parse_used (o := { blog, verbose := 0, strict := true }) h
  unfold creole2htmlM at hr
  simp only at h1
  simp only [h1, ok_bind] at hr
  exact emitDoc_safe h2 h3 (fun i ms _ hi => macroEmit_safe hv i ms hi) hm hr

/-- in particular with `macros=None` -/
theorem C02_safe_silent (blog : Bool) (markup : Str) (h : mayCall c!"toc" markup = false) :
    ∃ html, creole2html { blog, verbose := 0, strict := true } markup = .ok html ∧ SafeHtml html := by
  obtain ⟨html, hr⟩ := C01_creole2html_total { blog, verbose := 0, strict := true } markup h
  refine ⟨html, hr, ?_⟩
  unfold creole2html at hr
  obtain ⟨⟨s, ms⟩, h1, rfl⟩ := map_ok hr
  exact C02_safe_macros blog 0 [] ms markup s (by omega) (fun name m hm => by simp [dictGet] at hm) h h1

example : creole2html { verbose := 0, strict := true } c!"a <<x <b>y</b>>> <<z>> //c//" =
    .ok c!"<p>a &gt;  <i>c</i></p>" := by decide +kernel

/-- a document with most kinds of markup meets the hypothesis -/
example : ¬ c!"<<" <:+: c!"= a<b =\n* **x** [[u\"v|w]] {{i|t}}\n|=h|c|\n{{{\n<b>\n}}}" := by decide

example : creole2html { strict := true } c!"= a<b\n**x** [[u\"v|w]]" =
    .ok c!"<h1>a&lt;b</h1>\n<p><strong>x</strong> <a href=\"u&quotv\">w</a></p>" := by decide +kernel

/-! ## C03 -/

/-- one step of an automaton that looks for `<sc`; state 3 means found -/
def scanStep : Nat → Char → Nat
  | 3, _ => 3
  | 1, c => if c = 's' then 2 else if c = '<' then 1 else 0
  | 2, c => if c = 'c' then 3 else if c = '<' then 1 else 0
  | _, c => if c = '<' then 1 else 0

def scan (q : Nat) (s : Str) : Nat := s.foldl scanStep q

theorem scan_append (q : Nat) (a b : Str) : scan q (a ++ b) = scan (scan q a) b := List.foldl_append

theorem scan_noLt {s : Str} (h : '<' ∉ s) : scan 0 s = 0 := by
  induction s with
  | nil => rfl
  | cons c s ih =>
    simp only [List.mem_cons, not_or] at h
    have : scanStep 0 c = 0 := by
      show (if c = '<' then 1 else 0) = 0
      rw [if_neg (fun e => h.1 e.symm)]
    show scan (scanStep 0 c) s = 0
    rw [this]; exact ih h.2

theorem scan_tag {tag : Str} (h : tag ∈ plainTags ∨ IsHeadingTag tag) :
    scan 0 (c!"<" ++ tag ++ c!">") = 0 ∧ scan 0 (c!"</" ++ tag ++ c!">") = 0 := by
  rcases h with h | ⟨ds, rfl, -, hd⟩
  · revert tag; decide
  · have hn : '<' ∉ ds ++ c!">" := by
      intro hm
      simp only [List.mem_append, List.mem_singleton] at hm
      rcases hm with hm | hm
      · exact absurd (hd _ hm) (by decide)
      · exact absurd hm (by decide)
    constructor
    · show scan 0 (c!"<h" ++ (ds ++ c!">")) = 0
      rw [scan_append]; exact scan_noLt hn
    · show scan 0 (c!"</h" ++ (ds ++ c!">")) = 0
      rw [scan_append]; exact scan_noLt hn

/-- safe HTML contains no `<sc`, in particular no script element -/
theorem scan_safe {s : Str} (h : SafeHtml s) : scan 0 s = 0 := by
  induction h with
  | nil => rfl
  | char h1 h2 h3 _ ih =>
    show scan (scanStep 0 _) _ = 0
    simp only [scanStep, h1, if_false]; exact ih
  | entity he _ ih =>
    rw [scan_append, scan_noLt, ih]
    revert he; rename_i e _ _; revert e; decide
  | void he _ ih =>
    rename_i e _ _
    have : scan 0 e = 0 := by revert e; decide
    rw [scan_append, this, ih]
  | elem ht _ _ iha ihb =>
    have := scan_tag ht
    rename_i tag a b _ _
    have e : c!"<" ++ tag ++ c!">" ++ a ++ c!"</" ++ tag ++ c!">" ++ b =
        (c!"<" ++ tag ++ c!">") ++ (a ++ ((c!"</" ++ tag ++ c!">") ++ b)) := by simp
    rw [e, scan_append, this.1, scan_append, iha, scan_append, this.2, ihb]
  | link hv _ _ iha ihb =>
    rw [scan_append, scan_append, scan_append, scan_append, scan_append]
    rw [show scan 0 c!"<a href=\"" = 0 by decide, scan_noLt hv.2.1, show scan 0 c!"\">" = 0 by decide, iha,
      show scan 0 c!"</a>" = 0 by decide, ihb]
  | image h1 h2 _ ih =>
    rw [scan_append, scan_append, scan_append, scan_append, scan_append, scan_append, scan_append]
    rw [show scan 0 c!"<img src=\"" = 0 by decide, scan_noLt h1.2.1, show scan 0 c!"\" title=\"" = 0 by decide,
      scan_noLt h2.2.1, show scan 0 c!"\" alt=\"" = 0 by decide, scan_noLt h2.2.1,
      show scan 0 c!"\" />" = 0 by decide, ih]

/-- **C03.** The restrictions in C02 are needed.  With default arguments (and `macros=None`), malformed macro
arguments are copied unescaped into the error message, ... -/
theorem C03_macro_error_unescaped : ∃ markup html, creole2html { strict := true } markup = .ok html ∧
    c!"<script>alert(1)</script>" <:+: html ∧ ¬ SafeHtml html := by
  refine ⟨c!"<<x <script>alert(1)</script> />>", c!"<p>[Error: Wrong macro arguments: \"<script>alert(1)</script>\" for macro 'x' (maybe wrong macro tag syntax?)]\n</p>",
     by decide +kernel, by decide, fun h => ?_⟩
  exact absurd (scan_safe h) (by decide +kernel)

/-- ... headlines are copied unescaped into the table of contents, ... -/
theorem C03_toc_unescaped : ∃ markup html, creole2html { strict := true, verbose := 0 } markup = .ok html ∧
    c!"<script>alert(1)</script>" <:+: html ∧ ¬ SafeHtml html := by
  refine ⟨c!"<<toc>>\n= <script>alert(1)</script>", c!"<ul>\n\t<li><a href=\"#<script>alert(1)</script>\"><script>alert(1)</script></a></li>\n</ul>\n<a name=\"&lt;script&gt;alert(1)&lt;/script&gt;\"><h1>&lt;script&gt;alert(1)&lt;/script&gt;</h1></a>",
    by decide +kernel, by decide, fun h => ?_⟩
  exact absurd (scan_safe h) (by decide +kernel)

/-- ... and, unless `strict` is set, the target of an image with a size but no title is copied unescaped, even
if the text contains no `<<`. -/
theorem C03_image_unescaped : ∃ markup html, ¬ c!"<<" <:+: markup ∧ creole2html {} markup = .ok html ∧
    c!"<script>alert(1)</script>" <:+: html ∧ ¬ SafeHtml html := by
  refine ⟨c!"{{\"><script>alert(1)</script>||5x6}}", c!"<p><img src=\"&quot&gt;&lt;script&gt;alert(1)&lt;/script&gt;\" title=\"\"><script>alert(1)</script>\" alt=\"\"><script>alert(1)</script>\" width=\"5\" height=\"6\" /></p>",
    by decide, by decide +kernel, by decide, fun h => ?_⟩
  exact absurd (scan_safe h) (by decide +kernel)

end Verif.Props
