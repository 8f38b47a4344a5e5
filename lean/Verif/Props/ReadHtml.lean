import Verif.Html.ReadDoc

/-!
# C60: the HTML parser on written documents
-/

namespace Verif.Props

open Verif Py Html Spec Spec.Hd

/-- **C60.**  A document whose tags are properly nested and whose blanks are in order is parsed to exactly its own tree:
white space that lays out the document, also at its beginning and end, has no effect, and nothing else is changed. -/
theorem C60_parse_written (l : List Ht) (h : neat l = true) (hw : wfL true (elsL l) = true) {a b : Str}
    (ha : ∀ c ∈ a, isSpace c = true) (hb : ∀ c ∈ b, isSpace c = true) :
    parseHtml (a ++ written l ++ b) = .ok (.mk { kind := c!"document" } (nodesL 0 (elsL l))) := by
  have hp : preprocess (a ++ written l ++ b) = (solidPrints l, []) := by
    rw [← preprocess_doc h]
    unfold preprocess
    rw [strip_pad ha hb]
  have hok : okL l = true := by simp only [neat, Bool.and_eq_true] at h; exact h.1.1
  unfold parseHtml
  rw [hp]
  simp only [run_doc [] hok]
  exact C29_wellformed_tree [] (elsL l) hw

/-- the document of the example below -/
def exampleHtml : List Ht := [
  .el c!"h1" [] [.text c!"A < B"], .white c!"\n\n",
  .el c!"ul" [(c!"class", c!"x & y")] [.white c!"\n\t", .el c!"li" [] [.text c!"one ", .el c!"b" [] [.text c!"two"], .text c!" three",
    .white c!" \n ", .void c!"br" [], .text c!"x", .bare c!"br" [], .white c!"\n", .void c!"img" [(c!"src", c!"/a b.png"), (c!"alt", c!"")], .text c!" ", .bare c!"img" [(c!"src", c!"b")], .text c!"end"], .white c!"\n"],
  .white c!"\n",
  .el c!"table" [] [.white c!"\n", .el c!"tr" [] [.el c!"td" [] [.text c!"&"]]]]

example : neat exampleHtml = true ∧ wfL true (elsL exampleHtml) = true ∧
    written exampleHtml = c!"<h1>A &lt; B</h1>\n\n<ul class=\"x &amp; y\">\n\t<li>one <b>two</b> three \n <br />x<br>\n<img src=\"/a b.png\" alt=\"\" /> <img src=\"b\">end</li>\n</ul>\n<table>\n<tr><td>&amp;</td></tr></table>" := by
  decide +kernel

end Verif.Props
