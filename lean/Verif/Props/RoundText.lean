import Verif.Html.FineGrid
import Verif.Props.NeverFail

/-!
# C81: the text survives the way from creole through HTML to another language
-/

namespace Verif.Props

open Verif Py Html Emit Spec Spec.Hd Spec.Gr Creole

/-! ## Characters -/

theorem kp_solid (s : Str) : Kp.letters (solidText s) = Kp.letters s := by
  unfold Kp.letters solidText
  rw [List.filter_filter]
  refine List.filter_congr fun c _ => ?_
  unfold Kp.keeps
  cases isSpace c <;> simp

theorem kp_same {a b : Str} (h : solidText a = solidText b) : Kp.letters a = Kp.letters b := by
  rw [← kp_solid a, h, kp_solid]

theorem kp_sh (s : Str) : Kp.letters (Sh.letters s) = Kp.letters s := by
  unfold Kp.letters Sh.letters
  rw [List.filter_filter]
  refine List.filter_congr fun c _ => ?_
  unfold Kp.keeps
  by_cases h : c = '\\'
  · subst h; decide
  · cases isSpace c <;> simp [h]

theorem words_kp (s : Str) : Gd.words s = Kp.letters (Sh.words s) := by
  unfold Gd.words Kp.letters Sh.words Sh.letters
  rw [List.filter_filter, List.filter_filter, List.filter_filter, List.filter_filter]
  refine List.filter_congr fun c _ => ?_
  cases Kp.keeps c <;> simp

mutual
theorem visited_contexts (anc : List Str) : ∀ n : HNode, visited n = (contexts anc n).map (·.2)
  | .mk i ch => by
    rw [visited, contexts, List.map_cons]
    split
    · rfl
    · rw [visitedL_contexts (i.kind :: anc) ch]
theorem visitedL_contexts (anc : List Str) : ∀ l : List HNode, visitedL l = (contextsL anc l).map (·.2)
  | [] => rfl
  | n :: ns => by rw [visitedL, contextsL, List.map_append, visited_contexts anc n, visitedL_contexts anc ns]
end

/-- a node of a document without links and pictures adds only markup in creole -/
theorem mild_bare {anc : List Str} {i : HInfo} (h : Mild true anc i) (strict : Bool) : Sh.bare { lang := .creole, policy := .transparent, strict } i = true := by
  have hk := h.known
  have hm := h.media rfl
  have hc := h.charref
  have hp : i.kind ≠ c!"blockdata_pass" := by
    intro e; rw [e] at hk; exact absurd hk (by decide)
  have he : i.kind ≠ c!"entityref" ∨ i.content.isSome = true := by
    by_cases e : i.kind = c!"entityref"
    · refine .inr ?_
      cases hcon : i.content with
      | none => exact absurd hcon (h.entity e)
      | some _ => rfl
    · exact .inl e
  unfold Sh.bare
  rcases he with he | he <;> simp [Sh.wordyKinds, hm.1, hm.2, hc, hp, he]

/-! ## The theorems -/

/-- what is known of the HTML of a text and of the tree that is read from it -/
theorem read_back (o : Opts) (macros : Macros) (markup : Str) (h : ¬ c!"<<" <:+: markup) :
    ∃ html, creole2htmlM o macros markup = .ok (html, macros) ∧ (html.length ≤ 10 ^ maxIntDigits →
      ¬ c!"<a href=" <:+: html → ¬ c!"<img src=" <:+: html → ∃ root, parseHtml html = .ok root ∧
        Kp.letters (Sh.shown root) = Kp.letters markup ∧ (∀ p ∈ contexts [] root, Mild true p.1 p.2) ∧
        ∀ lang : Lang, lang = .textile ∨ Gd.level html = true → Sh.tidy lang .free root = true) := by
  obtain ⟨html, ms, h0, g2⟩ := C70_letters_kept o macros markup h
  obtain ⟨html', hh⟩ := C82_options o markup h
  have e := hh o.verbose o.strict macros (.inl rfl)
  rw [show ({ o with verbose := o.verbose, strict := o.strict } : Opts) = o from rfl, h0] at e
  cases e
  refine ⟨_, h0, fun hlen ha hi => ?_⟩
  obtain ⟨l, h1, h2, h3⟩ := converted_lines o macros markup h (.inr (.inr (.inr fun x hx => by
    have e := hh o.verbose o.strict [] (.inl rfl)
    unfold creole2html at hx
    rw [show o = { o with verbose := o.verbose, strict := o.strict } from rfl, e] at hx
    cases hx
    exact hi)))
  rw [h0] at h1
  cases h1
  have hm := media_pieces l .doc h2 ha hi
  obtain ⟨root, first, nodes, h4, rfl, h6, h7, h8, h9⟩ := parse_structured h2 h3 hlen
  refine ⟨_, h4, ?_, h9 true fun _ => hm, fun lang ht => ?_⟩
  · rw [kp_same (shown_structured h3 h6 h7 h8), ← kp_same (flat_seenL l .doc h2), ← reading_flat h2 hm, g2 ha hi]
  · exact tidy_structured h2 h3 (ht.imp id fun e => by rw [← level_written h2 hm]; exact e) h6 h7 h8

/-- **C81.**  Nothing is lost on the way from creole through HTML to any of the four languages: if the HTML of a text without
`<<` has neither links nor pictures and the rows of each of its tables have equally many cells (which does not matter for
textile), and it is converted to another language, all the characters of the text that are neither blanks nor markup are in the
result, in the same order. -/
theorem C81_nothing_lost (o : Opts) (macros : Macros) (markup : Str) (h : ¬ c!"<<" <:+: markup) (cfg : Cfg) :
    ∃ html, creole2htmlM o macros markup = .ok (html, macros) ∧ (html.length ≤ 10 ^ maxIntDigits →
      ¬ c!"<a href=" <:+: html → ¬ c!"<img src=" <:+: html → cfg.lang = .textile ∨ Gd.level html = true →
      ∀ out, convert cfg html = .ok out → (Kp.letters markup).Sublist (Kp.letters out)) := by
  obtain ⟨html, h1, h2⟩ := read_back o macros markup h
  refine ⟨html, h1, fun hlen ha hi ht out ho => ?_⟩
  obtain ⟨root, h3, h4, _, h5⟩ := h2 hlen ha hi
  unfold convert at ho
  rw [h3] at ho
  have := (C71_text_kept cfg root out (h5 _ ht) ho).filter Kp.keeps
  rw [← h4, ← kp_sh, ← kp_sh out]
  exact this

/-- **C81.**  On the way from creole to HTML and back, the text stays the same except for blanks and markup characters: nothing
is lost, added or moved. -/
theorem C81_same_words (o : Opts) (macros : Macros) (markup : Str) (h : ¬ c!"<<" <:+: markup) (strict : Bool) :
    ∃ html, creole2htmlM o macros markup = .ok (html, macros) ∧ (html.length ≤ 10 ^ maxIntDigits →
      ¬ c!"<a href=" <:+: html → ¬ c!"<img src=" <:+: html → Gd.level html = true →
      ∃ out, html2creole html .transparent strict = .ok out ∧ Gd.words out = Gd.words markup) := by
  obtain ⟨html, h1, h2⟩ := read_back o macros markup h
  refine ⟨html, h1, fun hlen ha hi ht => ?_⟩
  obtain ⟨html', g1, g2⟩ := C80_creole_back o macros markup h (.inr (.inr (.inr fun x hx => by
    obtain ⟨y, hh⟩ := C82_options o markup h
    have e1 := hh o.verbose o.strict [] (.inl rfl)
    have e2 := hh o.verbose o.strict macros (.inl rfl)
    unfold creole2html at hx
    rw [show ({ o with verbose := o.verbose, strict := o.strict } : Opts) = o from rfl] at e1 e2
    rw [e1] at hx
    rw [h1] at e2
    cases hx
    cases e2
    exact hi))) .transparent (by decide) strict
  rw [h1] at g1
  cases g1
  obtain ⟨⟨out, ho⟩, _⟩ := g2 hlen
  refine ⟨out, ho, ?_⟩
  obtain ⟨root, h3, h4, h5, h6⟩ := h2 hlen ha hi
  unfold html2creole convert at ho
  rw [h3] at ho
  have := C71_words_same _ root out (h6 .creole (.inr ht)) (fun i hi => ?_) ho
  · rw [words_kp, this, ← words_kp]
    unfold Gd.words
    rw [h4]
  · rw [visited_contexts []] at hi
    obtain ⟨p, hp, rfl⟩ := List.mem_map.1 hi
    exact mild_bare (h5 p hp) strict

/-! ## Examples and limits -/

/-- a text with a heading, a list, an escaped character, preformatted text and a table -/
def roundTextSample : Str := c!"= A\n* b **c\n\nd ~* AT&T\n{{{\n&lt;\n}}}\n|=d|e {{{f}}}|\n|g|h\\\\i|"

def roundTextHtml : Str :=
  c!"<h1>A</h1>\n<ul>\n\t<li>b **c</li>\n</ul>\n<p>d * AT&amp;T</p>\n<pre>\n&amp;lt;\n</pre>\n<table>\n" ++
    c!"<tr>\n\t<th>d</th>\n\t<td>e <code>f</code></td>\n</tr>\n<tr>\n\t<td>g</td>\n\t<td>h<br />\n\t\ti</td>\n</tr>\n</table>"

example : ¬ c!"<<" <:+: roundTextSample ∧ creole2html {} roundTextSample = .ok roundTextHtml ∧
    ¬ c!"<a href=" <:+: roundTextHtml ∧ ¬ c!"<img src=" <:+: roundTextHtml ∧ Gd.level roundTextHtml = true ∧
    html2creole roundTextHtml = .ok c!"= A\n\n\n\n* b **c\n\nd * AT&T\n\n{{{\n&lt;\n}}}\n|= d | e f  |\n| g  | h\\\\i |" ∧
    Gd.words roundTextSample = c!"AbcdAT&T&lt;defghi" ∧ Kp.letters roundTextSample = c!"AbcdAT&T&lt;defghi" :=
  ⟨by decide, by decide +kernel, by decide, by decide, by decide +kernel, by decide +kernel,
    by decide +kernel, by decide +kernel⟩

/-- Without the condition on tables, text is lost.  Markup characters that were escaped are markup on the way back, and the
address of a link is moved behind its text in other languages. -/
theorem C81_limits :
    thereAndBack c!"|a|\n|b|lost|" = .ok c!"| a |\n| b |" ∧
    thereAndBack c!"~**a~**" = .ok c!"**a**" ∧
    thereAndBack c!"a ~<~<b>> c" = .ok c!"a <<b>> c" ∧
    (do html2textile (← creole2html {} c!"[[a|b]]")) = .ok c!"\"b\":a" := by
  decide +kernel

end Verif.Props
