import Verif.Html.ReadPreAny
import Verif.Props.ReadAny

/-!
# C79: the HTML parser on documents with preformatted text and any white space
-/

namespace Verif.Props

open Verif Py Html Spec Spec.Hd

/-- **C79.**  A document with any number of preformatted areas between its top-level elements, and with any white space, is
parsed to the tree in which each area is one node with its text as it is written, at its place, and in which the other
elements are those of a document that differs in white space only.  An area that begins a line is a block, and its leading blank
lines are dropped; any other area is inline and complete. -/
theorem C79_areas_read (first : List Ht) (l : List Pre) (hf : fitsL first = true) (hl : presOk l = true)
    (hlen : l.length ≤ 10 ^ maxIntDigits) (hw : wfL true (elsL first) = true) (hlw : ∀ a ∈ l, wfL true (elsL a.after) = true) :
    ∃ first' nodes, SameSolid first' first ∧ fitsL first' = true ∧ ReadAs (firstLine (written first)) l nodes ∧
      parseHtml (written first ++ presWritten l) =
        .ok (.mk { kind := c!"document" } (nodesL 0 (elsL (asReadL first')) ++ nodes)) := by
  rw [wf_nestL] at hw
  cases l with
  | nil =>
    obtain ⟨l', h1, h2, h3⟩ := preprocess_any hf
    refine ⟨l', [], h2, h3, .nil _, ?_⟩
    unfold parseHtml
    rw [presWritten, List.append_nil, List.append_nil, h1]
    simp only [run_written [] h3]
    refine C29_wellformed_tree [] _ ?_
    rw [wf_nestL, nestL_asRead, ← nestL_solid, h2, nestL_solid, hw]
  | cons a l => exact parse_pres first (a :: l) (by simp) hf hl hlen hw fun x hx => by rw [← wf_nestL]; exact hlw x hx

/-- **C79.**  Dropping leading blank lines drops nothing but blanks. -/
theorem C79_blanks_dropped (s : Str) (h : s.head? = some '\n') : ∃ w, Blank w ∧ s = w ++ unlead s := by
  obtain ⟨w, h1, h2, _, _⟩ := unlead_split s h
  exact ⟨w, h1, h2⟩

/-- the documents of the examples below -/
def preFirst : List Ht := [.white c!"\n\n", .el c!"p" [] [.text c!" a ", .el c!"b" [] [.text c!"b "]], .white c!"\n"]
def preAreas : List Pre := [
  ⟨c!"\n \n  1 < 2\n\n", [.white c!" \n", .el c!"ul" [] [.el c!"li" [] [.text c!"x"]], .white c!"\n "]⟩,
  ⟨c!"\n\n**\n", [.white c!"\n"]⟩, ⟨c!"\n", [.white c!" "]⟩]

example : fitsL preFirst = true ∧ presOk preAreas = true ∧ wfL true (elsL preFirst) = true ∧
    (∀ a ∈ preAreas, wfL true (elsL a.after) = true) ∧ firstLine (written preFirst) = true ∧
    written preFirst ++ presWritten preAreas =
      c!"\n\n<p> a <b>b </b></p>\n<pre>\n \n  1 &lt; 2\n\n</pre> \n<ul><li>x</li></ul>\n <pre>\n\n**\n</pre>\n<pre>\n</pre> " := by
  decide +kernel

/-- the first and third area are blocks, the second one is not -/
example : preprocess (written preFirst ++ presWritten preAreas) =
    (c!"<p>a <b>b</b> </p><blockdata type=\"pre\" id=\"0\" /><ul><li>x</li></ul><inlinedata type=\"pre\" id=\"2\" /> <blockdata type=\"pre\" id=\"1\" />",
      [c!"\n  1 &lt; 2\n\n", c!"\n", c!"\n\n**\n"]) := by decide +kernel

/-- The condition on line breaks is needed: if something follows the end tag on its line, the area goes on to the end of the
next one. -/
theorem C79_needs_line_breaks : preprocess c!"<pre>\na\n</pre><p>b</p>\n<pre>\nc\n</pre>" =
    (c!"<blockdata type=\"pre\" id=\"0\" />", [c!"\na\n</pre><p>b</p>\n<pre>\nc\n"]) := by decide +kernel

end Verif.Props
