import Verif.Emit.MaskedDoc
import Verif.Creole.ExampleMacros
import Verif.Props.RoundTrip

/-!
# C74: elements that creole does not have

`html2creole html (unknown_emit = use_html_macro)` puts the tags of unknown elements into calls of the macro `html`;
`creole2html` with the macro `html` of `creole.shared.example_macros` turns them into tags again.
-/

namespace Verif.Props

open Verif Py Html Emit Spec Spec.Hd Spec.Rt Spec.Mk

/-- the macro `html` gives the text of the call -/
theorem htmlCx_readWith (o : Creole.Opts) (macros : Creole.Macros) (hstrict : o.strict = false)
    (hm : dictGet c!"html" macros = some (.fn Creole.htmlMacro)) : Cr.ReadWith o macros htmlCx where
  strict := hstrict.symm
  anchors := rfl
  calls := by
    intro c s h
    obtain ⟨name, args, text, block⟩ := c
    simp only [htmlCx] at h
    split at h
    · rename_i e
      obtain ⟨rfl, rfl, rfl⟩ := e
      subst h
      have := Cr.CallGives.returns (verbose := o.verbose) (macros := macros) (c := ⟨c!"html", [], some s, false⟩) (kwargs := []) (s := s)
        hm (show string2dict [] = .ok [] by decide +kernel) rfl
      simpa using this
    · cases h

theorem mkLaid_gaps : ∀ (d : List Wb) (b : Wb), ∀ x ∈ mkLaid b d, ∀ c ∈ x.1, c = '\n'
  | [], _, x, hx => by simp [mkLaid] at hx
  | b' :: d, b, x, hx => by
    rw [mkLaid] at hx
    rcases List.mem_cons.mp hx with rfl | hx
    · exact C57_between _ _
    · exact mkLaid_gaps d b' x hx

/-- creole2html on the creole text of a document -/
theorem creole2html_mk (o : Creole.Opts) (macros : Creole.Macros) (b : Wb) (bs : List Wb)
    (hblog : o.blog = true) (hstrict : o.strict = false) (hm : dictGet c!"html" macros = some (.fn Creole.htmlMacro))
    (hb : ∀ x ∈ b :: bs, x.ok = true) (hok : Cr.docOk htmlCx true (creole b bs) = true)
    (hl : ∀ l ∈ Cr.docLines (creole b bs), ∀ c ∈ l, c ≠ '\r' ∧ c ≠ '\n') :
    Creole.creole2htmlM o macros (joinLines c!"\n" (Cr.docLines (creole b bs))) = .ok (written (Mk.docHt b (mkLaid b bs)), macros) := by
  obtain ⟨h1, h2⟩ := mk_body bs b hb
  have := Creole.creole2html_noMac (cx := htmlCx) o macros (joinLines c!"\n" (Cr.docLines (creole b bs))) (creole b bs) []
    (by rw [hblog]; exact hok) (htmlCx_readWith o macros hstrict hm) rfl (by
      rw [List.append_nil]
      refine textLines_joinLines _ (.inl rfl) _ ?_ hl
      rw [mkLines_doc]
      exact bare_ne (mkLines_bare bs b hb)) h2
  rw [hblog, h1] at this
  exact this

/-- **C74.**  Elements that creole does not have survive in the text of paragraphs and lists: html2creole with
`use_html_macro` puts each of their tags into a call of the macro `html`, and creole2html with this macro gives back the
same blocks.  Only the white space between the blocks changes. -/
theorem C74_unknown_elements (o : Creole.Opts) (macros : Creole.Macros) (b : Wb) (d : List (Str × Wb))
    (hblog : o.blog = true) (hstrict : o.strict = false) (hm : dictGet c!"html" macros = some (.fn Creole.htmlMacro))
    (hb : b.ok = true ∧ neat [b.ht] = true) (hd : ∀ x ∈ d, x.2.ok = true ∧ neat [x.2.ht] = true ∧ x.1.all isSpace = true)
    (hok : Cr.docOk htmlCx true (creole b (d.map (·.2))) = true)
    (hl : ∀ l ∈ Cr.docLines (creole b (d.map (·.2))), ∀ c ∈ l, c ≠ '\r' ∧ c ≠ '\n')
    {w w' : Str} (hw : ∀ c ∈ w, isSpace c = true) (hw' : ∀ c ∈ w', isSpace c = true) :
    ∃ text d', Emit.html2creole (w ++ written (Mk.docHt b d) ++ w') (policy := .htmlMacro) = .ok text ∧
      text = joinLines c!"\n" (Cr.docLines (creole b (d.map (·.2)))) ∧
      Creole.creole2htmlM o macros text = .ok (written (Mk.docHt b d'), macros) ∧
      d'.map (·.2) = d.map (·.2) ∧ ∀ x ∈ d', ∀ c ∈ x.1, c = '\n' := by
  have hall : ∀ x ∈ b :: d.map (·.2), x.ok = true := by
    intro x hx
    rcases List.mem_cons.mp hx with rfl | hx
    · exact hb.1
    · obtain ⟨y, hy, rfl⟩ := List.mem_map.mp hx
      exact (hd y hy).1
  exact ⟨_, mkLaid b (d.map (·.2)), html2creole_mk hb hd hw hw', rfl, creole2html_mk o macros b _ hblog hstrict hm hall hok hl,
    mkLaid_blocks _ _, mkLaid_gaps _ _⟩

/-- **C74.**  The creole text with the calls of the macro comes back unchanged from creole2html and html2creole. -/
theorem C74_creole_unchanged (o : Creole.Opts) (macros : Creole.Macros) (b : Wb) (bs : List Wb)
    (hblog : o.blog = true) (hstrict : o.strict = false) (hm : dictGet c!"html" macros = some (.fn Creole.htmlMacro))
    (hb : ∀ x ∈ b :: bs, x.ok = true ∧ neat [x.ht] = true) (hok : Cr.docOk htmlCx true (creole b bs) = true)
    (hl : ∀ l ∈ Cr.docLines (creole b bs), ∀ c ∈ l, c ≠ '\r' ∧ c ≠ '\n') :
    ∃ html, Creole.creole2htmlM o macros (joinLines c!"\n" (Cr.docLines (creole b bs))) = .ok (html, macros) ∧
      Emit.html2creole html (policy := .htmlMacro) = .ok (joinLines c!"\n" (Cr.docLines (creole b bs))) := by
  refine ⟨_, creole2html_mk o macros b bs hblog hstrict hm (fun x hx => (hb x hx).1) hok hl, ?_⟩
  have := html2creole_mk (b := b) (d := mkLaid b bs) (hb b List.mem_cons_self) (fun x hx => by
      have h2 : x.2 ∈ bs := by
        have := List.mem_map_of_mem (f := (·.2)) hx
        rw [mkLaid_blocks] at this
        exact this
      refine ⟨(hb _ (List.mem_cons_of_mem _ h2)).1, (hb _ (List.mem_cons_of_mem _ h2)).2, ?_⟩
      rw [List.all_eq_true]
      intro c hc
      rw [mkLaid_gaps _ _ x hx c hc]
      rfl) (w := []) (w' := []) (by simp) (by simp)
  rw [List.nil_append, List.append_nil, mkLaid_blocks] at this
  exact this

/-- the document of the examples below -/
def exampleMasked : Wb × List Wb := (
  .para [[.piece (.chr 'a'), .piece (.chr ' '), .other c!"abbr" [(c!"class", c!"x y"), (c!"title", c!"it's")]
      [.piece (.chr 'b'), .face .strong [.piece (.chr 'c'), .other c!"s" [] [.piece (.chr 'd')]], .other c!"q" [] [.piece (.chr 'e')]],
      .piece (.chr '.')], [.piece (.chr 'f'), .single c!"wbr" [], .piece (.chr 'g')]],
  [.list .number [.mk [.other c!"kbd" [] [.piece (.chr 'j')], .piece (.chr 'i')] .bullet [.mk [.other c!"s" [] [.piece (.chr 'k')]] .bullet []]],
   .known (.head 2 c!"T")])

example : (∀ x ∈ exampleMasked.1 :: exampleMasked.2, x.ok = true ∧ neat [x.ht] = true) ∧
    Cr.docOk htmlCx true (creole exampleMasked.1 exampleMasked.2) = true ∧
    dictGet c!"html" Creole.exampleMacros = some (.fn Creole.htmlMacro) ∧
    written (Mk.docHt exampleMasked.1 (exampleMasked.2.map fun x => (c!"\n", x))) =
      c!"<p>a <abbr class=\"x y\" title=\"it's\">b<strong>c<s>d</s></strong><q>e</q></abbr>.<br />\nf<wbr />g</p>\n<ol>\n\t<li><kbd>j</kbd>i\n\t<ul>\n\t\t<li><s>k</s></li>\n\t</ul></li>\n</ol>\n<h2>T</h2>" ∧
    joinLines c!"\n" (Cr.docLines (creole exampleMasked.1 exampleMasked.2)) = c!"a <<html>><abbr class=\"x y\" title=\"it's\"><</html>>b**c<<html>><s><</html>>d<<html>></s><</html>>**<<html>><q><</html>>e<<html>></q><</html>><<html>></abbr><</html>>.\nf<<html>><wbr /><</html>>g\n\n# <<html>><kbd><</html>>j<<html>></kbd><</html>>i\n#* <<html>><s><</html>>k<<html>></s><</html>>\n\n== T" := by
  refine ⟨by decide +kernel, by decide +kernel, rfl, by decide +kernel, by decide +kernel⟩

/-- The limits, on concrete documents.  A paragraph that begins with an unknown tag: the tag comes back before the
paragraph.  Escaped characters in an attribute come back without the escape.  An empty element comes back as a single
tag. -/
theorem C74_limits :
    Emit.html2creole c!"<p><q>foo</q> b</p>" (policy := .htmlMacro) = .ok c!"<<html>><q><</html>>foo<<html>></q><</html>> b" ∧
    (Creole.creole2htmlM {} Creole.exampleMacros c!"<<html>><q><</html>>foo<<html>></q><</html>> b").map (·.1) = .ok c!"<q>\n<p>foo</q> b</p>" ∧
    Emit.html2creole c!"<p>a <q cite=\"b&amp;c\">d</q></p>" (policy := .htmlMacro) =
      .ok c!"a <<html>><q cite=\"b&c\"><</html>>d<<html>></q><</html>>" ∧
    Emit.html2creole c!"<p>a <q></q></p>" (policy := .htmlMacro) = .ok c!"a <<html>><q /><</html>>" := by
  refine ⟨?_, ?_, ?_, ?_⟩ <;> decide +kernel

end Verif.Props
