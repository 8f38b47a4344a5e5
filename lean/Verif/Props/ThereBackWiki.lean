import Verif.Props.ThereBackPre
import Verif.Props.RoundTripWiki

/-!
# C89 with wiki style line breaks
-/

namespace Verif.Props

open Verif Py Html Emit Spec Spec.Hd Spec.Rt Spec.Ar

/-- **C89** with wiki style line breaks: from HTML to creole and back to HTML with `blog_line_breaks=False`.  The same article comes
back, if its creole text means what it says in this mode. -/
theorem C89_wiki (o : Creole.Opts) (macros : Creole.Macros) (hblog : o.blog = false) (hstrict : o.strict = false)
    (head : List Bl) (areas : List (List Str × List Bl)) (hok : ∀ b ∈ head, b.Ok .creole anyHost)
    (hok' : ∀ x ∈ areas, ∀ b ∈ x.2, b.Ok .creole anyHost) (x : Sec) (d : List Sec) (hx : secs head areas = x :: d)
    (hclear : ClearWiki x d) (first : List Ht) (l : List Area) (h : StandsForSecs first l head areas)
    (hn : preNeat first l = true) (hlen : areas.length ≤ 10 ^ 4300) (w w' : Str)
    (hw : ∀ c ∈ w, isSpace c = true) (hw' : ∀ c ∈ w', isSpace c = true) :
    ∃ text first' l', Emit.html2creole (w ++ preWritten first l ++ w') = .ok text ∧
      Creole.creole2htmlM o macros text = .ok (preWritten first' l', macros) ∧ ComesBackAs first' l' head areas := by
  obtain ⟨hc1, hc2, hc3⟩ := hclear
  have hall : ∀ y ∈ x :: d, SecOk y ∧ y.full = true := fun y hy => ⟨secs_ok hok hok' y (hx ▸ hy), (hc1 y hy).1⟩
  have hst : ∀ y ∈ x.part :: d.map Sec.part, Part.Fine y ∧ y.stable = true := by
    rw [← List.map_cons]
    intro y hy
    obtain ⟨z, hz, rfl⟩ := List.mem_map.mp hy
    exact ⟨sec_fine (hc1 z hz).1, (hc1 z hz).2.1⟩
  obtain ⟨h1, h2⟩ := partsDoc_stable (p := x.part) (d := d.map Sec.part) hst
  obtain ⟨b1, b2, _⟩ := back_secs d x hall
  have hcx : Cr.ReadWith o macros {} := by
    have := Cr.ReadWith.plain o macros
    rw [hstrict] at this
    exact this
  have htext : secsText .creole (secs head areas) = joinLines c!"\n" (Cr.docLines (partsDoc x.part (d.map Sec.part))) := by
    rw [hx, secsText, ← b1, strip_bare (partsBack_bare _ _ hst), h1]
  have hl2 : textLines (joinLines c!"\n" (Cr.docLines (partsDoc x.part (d.map Sec.part)))) =
      Cr.docLines (partsDoc x.part (d.map Sec.part)) ++ [] := by
    rw [List.append_nil]
    refine textLines_joinLines _ (.inl rfl) _ ?_ hc3
    rw [h1]
    exact b2
  have e2 := Creole.creole2html_noMac (cx := {}) o macros _ (partsDoc x.part (d.map Sec.part)) [] (by rw [hblog]; exact hc2) hcx rfl hl2
    (partsFor_notMac _ _ h2)
  rw [hblog, docBody_wiki (by
    rw [← List.map_cons]
    intro y hy
    obtain ⟨z, hz, rfl⟩ := List.mem_map.mp hy
    exact (hc1 z hz).2.2)] at e2
  let lay := partsLaidOut x.part.written (restParts x.part (d.map Sec.part)) (d.map Sec.part)
  obtain ⟨a1, a2⟩ := again_parts lay x d (partsLaidOut_parts _ _ _ h2.2) hall
  rw [← hx, group_secs] at a1 a2
  refine ⟨_, (partsHt x.part lay).1, (partsHt x.part lay).2, C87_html2creole head areas hok hok' first l h hn hlen w w' hw hw', ?_, a1, a2⟩
  rw [htext, e2, partsDoc, Cr.docBody, written_parts, parts_tail _ _ _ _ h2.1 h2.2]

/-- **C89** with wiki style line breaks: what is lost.  A second heading becomes a paragraph, and a line break a blank. -/
theorem C89_wiki_lost :
    Emit.html2creole c!"<h1>a</h1>\n<h2>b</h2>" = .ok c!"= a\n\n== b" ∧
    Creole.creole2html { blog := false } c!"= a\n\n== b" = .ok c!"<h1>a</h1>\n\n<p>== b</p>" ∧
    Emit.html2creole c!"<p>a<br />b</p>" = .ok c!"a\nb" ∧
    Creole.creole2html { blog := false } c!"a\nb" = .ok c!"<p>a b</p>" := by decide +kernel

/-! ## A case that meets the conditions -/

/-- a heading, a paragraph and a rule -/
def exWikiArticle : List Bl :=
  [.head 2 [.text c!"A & B"], .para [.text c!"see ", .link exAddress [] [.text c!"this"], .text c!" and ", .face c!"strong" [.text c!"that"]], .hr]

def exWikiHtml : List Ht :=
  [.el c!"h2" [] [.text c!"A & B"], .white c!"\n", .el c!"p" [] [.text c!"see ", .el c!"a" [(c!"href", c!"http://x.org/a b")] [.text c!"this"],
    .text c!" and ", .el c!"strong" [] [.text c!"that"]], .white c!"  ", .void c!"hr" []]

example : (∃ x d, secs exWikiArticle [] = x :: d ∧ ClearWiki x d) ∧ StandsForSecs exWikiHtml [] exWikiArticle [] ∧
    preNeat exWikiHtml [] = true := by
  refine ⟨⟨_, _, rfl, ?_⟩, ⟨rfl, rfl⟩, by decide +kernel⟩
  unfold ClearWiki
  decide +kernel

example : ∀ b ∈ exWikiArticle, b.Ok .creole anyHost := by
  have ha : AddressOk .creole anyHost exAddress := fun _ => ⟨exAddress_ok, rfl⟩
  have h1 : (delimiters To.creole.lang c!"strong").isSome = true := by decide +kernel
  have h2 : c!"strong" ∉ blockNames := by decide +kernel
  simp [exWikiArticle, Bl.Ok, SpsOk, Sp.Ok, isText, h1, h2, ha]

end Verif.Props
