import Verif.Html.ReadPre

/-!
# C60: the HTML parser on written documents with preformatted text
-/

namespace Verif.Props

open Verif Py Html Spec Spec.Hd

/-- **C60.**  The same for documents with areas of preformatted text on lines of their own: every area is parsed to one node
with the text between its tags, as it is written there; blanks, line breaks and entities in it are not touched, and what
stands around it is parsed as if it were not there.  (Python refuses to read numbers of more than 4300 digits, hence the
bound on the number of areas.) -/
theorem C60_parse_preformatted (first : List Ht) (l : List Area) (h : preNeat first l = true)
    (hw : wfL true (elsL first) = true) (hwl : ∀ x ∈ l, wfL true (elsL x.after) = true) (hlen : l.length ≤ 10 ^ 4300)
    {a b : Str} (ha : ∀ c ∈ a, isSpace c = true) (hb : ∀ c ∈ b, isSpace c = true) :
    parseHtml (a ++ preWritten first l ++ b) = .ok (.mk { kind := c!"document" } (preNodes first l)) := by
  have hp : preprocess (a ++ preWritten first l ++ b) = (solidPrints (first ++ places 0 l), l.map Area.content) := by
    rw [← preprocess_pre h]
    unfold preprocess
    rw [strip_pad ha hb]
  have hok : okL (first ++ places 0 l) = true := by
    have := places_neat h
    simp only [neat, Bool.and_eq_true] at this
    exact this.1.1
  have h1 := run_els (l.map Area.content) (elsL first) {} rfl hw
  have h2 := run_places (l.map Area.content) l 0 (addDone {} (nodesL 0 (elsL first))) rfl
    (by rw [List.length_map]; exact hlen) rfl rfl rfl hwl
  unfold parseHtml
  rw [hp]
  simp only [run_doc _ hok, elsL_places, eventsL_append]
  unfold runEvents
  rw [List.foldlM_append, show (({} : PSt).listLevel) = 0 from rfl] at *
  simp only [bind, Except.bind, h1, h2, addDone_append]
  simp [pure, Except.pure, PSt.root, closeAll, addDone, Frame.node, preNodes]

/-- the document of the example below -/
def exampleFirst : List Ht := [.el c!"p" [] [.text c!"a"], .white c!"\n\n"]
def exampleAreas : List Area := [
  { lines := [c!"  if a < b:", c!"", c!"\treturn"], white := c!"\n \n", after := [] },
  { lines := [c!"x"], white := c!"\n", after := [.el c!"p" [] [.text c!"b"], .white c!"\n"] },
  { lines := [c!"</pre>"], white := c!"", after := [] }]

example : preNeat exampleFirst exampleAreas = true ∧ wfL true (elsL exampleFirst) = true ∧
    (∀ x ∈ exampleAreas, wfL true (elsL x.after) = true) ∧ exampleAreas.length ≤ 10 ^ 4300 ∧
    preWritten exampleFirst exampleAreas = c!"<p>a</p>\n\n<pre>\n  if a &lt; b:\n\n\treturn\n</pre>\n \n<pre>\nx\n</pre>\n<p>b</p>\n<pre>\n&lt;/pre&gt;\n</pre>" := by
  refine ⟨by decide +kernel, by decide +kernel, by decide +kernel, ?_, by decide +kernel⟩
  exact Nat.le_trans (show 3 ≤ 10 ^ 1 by decide) (Nat.pow_le_pow_right (by decide) (by decide))

/-- the conditions matter: blank lines at the beginning of an area are lost -/
example : parseHtml c!"<pre>\n\n  \n a\n</pre>" =
    .ok (.mk { kind := c!"document" } [.mk { kind := c!"blockdata_pre", content := some c!"\n a\n" } []]) := by rfl

/-- the conditions matter: an area that does not begin at the start of a line is something else -/
example : parseHtml c!"<ul><li>a</li></ul><pre>\nb\n</pre>" =
    .ok (.mk { kind := c!"document" } [.mk { kind := c!"ul", level := some 1 } [.mk { kind := c!"li", level := some 1 }
      [.mk { kind := c!"data", content := some c!"a" } []]], .mk { kind := c!"inlinedata_pre", content := some c!"\nb\n" } []]) := by rfl

end Verif.Props
