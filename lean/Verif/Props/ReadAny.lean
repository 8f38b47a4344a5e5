import Verif.Html.ReadAny

/-!
# C77: the HTML parser on documents with any white space
-/

namespace Verif.Props

open Verif Py Html Spec Spec.Hd

/-- **C77.**  Whatever white space stands in and around a document whose tags are properly nested: it is parsed to the tree of
a document that differs in white space only.  No tag, attribute or other character is added, lost or moved. -/
theorem C77_any_blanks (l : List Ht) (h : fitsL l = true) (hw : wfL true (elsL l) = true) :
    ∃ l', SameSolid l' l ∧ parseHtml (written l) = .ok (.mk { kind := c!"document" } (nodesL 0 (elsL (asReadL l')))) := by
  obtain ⟨l', h1, h2, h3⟩ := preprocess_any h
  refine ⟨l', h2, ?_⟩
  unfold parseHtml
  rw [h1]
  simp only [run_written [] h3]
  refine C29_wellformed_tree [] _ ?_
  rw [wf_nestL, nestL_asRead, ← nestL_solid, h2, nestL_solid, ← wf_nestL]
  exact hw

/-- **C77.**  The value of an attribute is read as it was, unless a semicolon follows a quote. -/
theorem C77_values_kept (v : Str) (h : ¬ c!"\";" <:+: v) : held v = v := by
  induction v with
  | nil => rfl
  | cons c v ih =>
    have ih := ih fun hv => h (hv.trans (List.suffix_cons c v).isInfix)
    rw [held]
    · rw [ih]
    · rintro s rfl rfl
      exact h (List.prefix_append c!"\";" s).isInfix

/-- the document of the examples below -/
def blankHtml : List Ht := [
  .white c!"\n ", .el c!"h1" [] [.text c!" A \n < B"], .text c!" \t", .el c!"p" [] [.text c!"\n", .el c!"b" [] [.text c!" x  "],
    .el c!"i" [] [], .text c!" y\n", .el c!"a" [(c!"href", c!"a\"b")] [.text c!" z "], .text c!".", .bare c!"br" [], .text c!"  end  "]]

example : fitsL blankHtml = true ∧ wfL true (elsL blankHtml) = true ∧
    written blankHtml = c!"\n <h1> A \n &lt; B</h1> \t<p>\n<b> x  </b><i></i> y\n<a href=\"a&quotb\"> z </a>.<br>  end  </p>" := by
  decide +kernel

/-- blanks at the edges of inline elements move out of them -/
example : preprocess (written blankHtml) =
    (c!"<h1>A &lt; B</h1><p> <b>x</b> <i></i> y <a href=\"a&quotb\">z</a> .<br>end</p>", []) := by decide +kernel

end Verif.Props
