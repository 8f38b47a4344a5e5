import Verif.Html.SpeltRead

/-!
# C90: how characters are written does not matter

A character can be written as itself, by its name or by its number, and comments may stand between the characters.  What the
converters from HTML make of a document depends only on what it consists of.
-/

namespace Verif.Props

open Verif Html Spec Emit
open _root_.Verif.Spec.Sg (Tok Atom Alike View Part Run Leaf neatly pieces tidy noLonely)

/-! ## Documents -/

/-- Two written documents that consist of the same characters and tags are converted to the same text, no matter which
characters are written by names and numbers, where comments stand and how the documents are laid out.  For markdown, no
blank may stand alone between tags and references. -/
theorem C90_written (cfg : Cfg) (l l' : List Tok) (h : neatly l) (h' : neatly l') (hp : pieces l = pieces l')
    (hl : cfg.lang = .markdown → noLonely false (tidy l) = true ∧ noLonely false (tidy l') = true) :
    convert cfg (Sg.text l) = convert cfg (Sg.text l') := Html.Sp.convert_spelt cfg h h' hp hl

/-- a document as it is usually written -/
def spelt₁ : List Tok :=
  [.start c!"ul" [], .white c!"\n", .start c!"li" [], .chr 'c', .chr 'a', .chr 'f', .chr 'é', .chr ' ', .chr '€', .stop c!"li",
    .white c!"\n  ", .start c!"li" [], .start c!"a" [(c!"href", c!"/x")], .chr 'a', .chr '&', .chr 'b', .stop c!"a",
    .start c!"br" [], .chr '<', .stop c!"li", .white c!"\n", .stop c!"ul"]

/-- the same document with references and comments -/
def spelt₂ : List Tok :=
  [.start c!"ul" [], .start c!"li" [], .number c!"99" 'c', .chr 'a', .chr 'f', .name c!"eacute" 'é', .chr ' ', .chr '€',
    .note c!" the price ", .stop c!"li",
    .start c!"li" [], .start c!"a" [(c!"href", c!"/x")], .chr 'a', .number c!"x26" '&', .note c!"", .chr 'b', .stop c!"a",
    .void c!"br" [], .name c!"lt" '<', .stop c!"li", .stop c!"ul"]

example : Sg.text spelt₁ =
    c!"<ul>\n<li>café €</li>\n  <li><a href=\"/x\">a&amp;b</a><br>&lt;</li>\n</ul>" := by decide +kernel
example : Sg.text spelt₂ =
    c!"<ul><li>&#99;af&eacute; €<!-- the price --></li><li><a href=\"/x\">a&#x26;<!---->b</a><br />&lt;</li></ul>" := by
  decide +kernel

theorem spelt₁_neat : neatly spelt₁ := by
  refine ⟨?_, by decide +kernel, by decide +kernel⟩
  simp only [spelt₁, List.forall_mem_cons, List.not_mem_nil, false_implies, implies_true, Tok.ok, and_true, true_and]
  decide +kernel

theorem spelt₂_neat : neatly spelt₂ := by
  refine ⟨?_, by decide +kernel, by decide +kernel⟩
  have h1 : Denotes c!"99" 'c' := .dec _ _ (by decide) (by decide) (by decide) (by decide)
  have h2 : Denotes c!"x26" '&' := .hex _ _ (by decide) (by decide) (by decide)
  simp only [spelt₂, List.forall_mem_cons, List.not_mem_nil, false_implies, implies_true, Tok.ok, and_true, true_and]
  refine ⟨?_, ?_, h1, ?_, ?_, ?_, ?_, ?_, h2, ?_⟩ <;> decide +kernel

example (cfg : Cfg) : convert cfg (Sg.text spelt₁) = convert cfg (Sg.text spelt₂) :=
  C90_written cfg _ _ spelt₁_neat spelt₂_neat (by decide +kernel) (fun _ => by decide +kernel)

example : html2creole (Sg.text spelt₂) = .ok c!"* café €\n* [[/x|a&b]]\\\\<" ∧
    html2creole (Sg.text spelt₁) = .ok c!"* café €\n* [[/x|a&b]]\\\\<" := by decide +kernel

/-! ## Tags and trees -/

/-- the same for what the tokenizer of the standard library reports -/
theorem C90_tags (cfg : Cfg) (areas : List Str) (es es' : List Event) (ps : List Part) (h : View cfg es ps) (h' : View cfg es' ps)
    (err : Option PyErr) :
    (runEvents areas es err >>= emit cfg) = (runEvents areas es' err >>= emit cfg) := Html.Sp.run_alike cfg areas h h' err

example (cfg : Cfg) (areas : List Str) (err : Option PyErr) :
    (runEvents areas [.start c!"p" [], .data c!"a<b", .end_ c!"p"] err >>= emit cfg) =
      (runEvents areas [.start c!"p" [], .data c!"a", .entityref c!"lt", .data c!"b", .end_ c!"p"] err >>= emit cfg) := by
  have h1 : ∀ t : Str, t.getLast? ≠ some '\n' → t ≠ [] → t ≠ c!" " →
      Sg.clearText cfg { kind := c!"data", content := some t } = true := by
    intro t a b c
    simp [Sg.clearText, a, b, c]
  refine C90_tags cfg areas _ _ [.tag (.start c!"p" []), .chr 'a', .chr '<', .chr 'b', .tag (.end_ c!"p")] ?_ ?_ err
  · exact .tag rfl (.text (h1 _ (by decide) (by decide) (by decide)) (.tag rfl .nil))
  · exact .tag rfl (.text (h1 _ (by decide) (by decide) (by decide)) (.name (by decide +kernel) (by decide)
      (.text (h1 _ (by decide) (by decide) (by decide)) (.tag rfl .nil))))

/-- the same for trees of the HTML parser -/
theorem C90_tree (cfg : Cfg) (i : HInfo) (ch ch' : List HNode) (h : Alike cfg ch ch') : emit cfg (.mk i ch) = emit cfg (.mk i ch') :=
  emit_alike i h

example (cfg : Cfg) (i j : HInfo) :
    emit cfg (.mk i [.mk j [.mk { kind := c!"data", content := some c!"a<" } []]]) =
      emit cfg (.mk i [.mk j [.mk { kind := c!"charref", content := some c!"97" } [],
        .mk { kind := c!"entityref", content := some c!"lt" } []]]) := by
  refine C90_tree cfg i _ _ (.node j ?_ .nil)
  refine .run (a := [_]) (b := [_, _]) (ns := []) (ns' := []) (t := c!"a<") ?_ ?_ (by decide) .nil
  · exact .cons (t := c!"a<") (u := []) (.text _ rfl rfl) (by simp [Sg.clearText]) .nil
  · exact .cons (t := c!"a") (u := c!"<") (.number c!"97" 'a' rfl rfl (.dec _ _ (by decide) (by decide) (by decide) (by decide)))
      (by simp [Sg.clearText]) (.cons (t := c!"<") (u := []) (.name c!"lt" '<' rfl rfl (by decide +kernel)) (by simp [Sg.clearText]) .nil)

/-! ## What does matter -/

/-- In markdown a blank between two references is lost, if it is not written by its number: `a& &b`. -/
theorem C90_markdown_blank :
    html2markdown (fun _ => true) c!"<p>a&amp; &amp;b</p>" = .ok c!"a&&b" ∧
      html2markdown (fun _ => true) c!"<p>a&amp;&#32;&amp;b</p>" = .ok c!"a& &b" := by decide +kernel

/-- The blanks around a comment between blocks become a blank before the next block. -/
theorem C90_comment_blank : html2creole c!"<p>a</p>\n<!-- x -->\n<p>b</p>" = .ok c!"a\n\n b" ∧
    html2creole c!"<p>a</p><!-- x --><p>b</p>" = .ok c!"a\n\nb" := by decide +kernel

/-- A hexadecimal number after a capital X is refused. -/
theorem C90_capital_x : html2creole c!"<p>&#x41;</p>" = .ok c!"A" ∧ html2creole c!"<p>&#X41;</p>" = .error .valueError := by
  decide +kernel

end Verif.Props
