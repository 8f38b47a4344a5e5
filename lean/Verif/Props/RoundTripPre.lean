import Verif.Emit.BackPre
import Verif.Props.RoundTrip

/-!
# C61, C62, C63, C64 for documents with preformatted text
-/

namespace Verif.Props

open Verif Py Html Emit Spec Spec.Hd Spec.Rt

theorem partsLaidOut_gaps : ∀ (d : Cr.Doc) (rs : List Part) (k : Cr.Block), ∀ x ∈ partsLaidOut k d rs, ∀ c ∈ x.1, c = '\n'
  | [], _, _, x, hx => by simp [partsLaidOut] at hx
  | _ :: _, [], _, x, hx => by simp [partsLaidOut] at hx
  | (g, b') :: d, r :: rs, k, x, hx => by
    rw [partsLaidOut] at hx
    rcases List.mem_cons.mp hx with rfl | hx
    · exact C57_between _ _
    · exact partsLaidOut_gaps d rs b' x hx

/-- **C61.**  html2creole turns the HTML of a document of blocks and preformatted text into its creole text.  Preformatted
text comes back line by line between `{{{` and `}}}`, nothing inside of it is changed or read as markup.  The tags of
preformatted text stand on lines of their own, otherwise the layout of the HTML between the parts does not matter. -/
theorem C61_html2creole_pre (p : Part) (d : List (Str × Part)) (hp : p.decent = true) (hd : ∀ x ∈ d, x.2.decent = true)
    (ha : allApart p d = true) (hlen : d.length < 10 ^ 4300) {w w' : Str}
    (hw : ∀ c ∈ w, isSpace c = true) (hw' : ∀ c ∈ w', isSpace c = true) :
    Emit.html2creole (w ++ partsHtml p d ++ w') = .ok (strip (joinLines c!"\n" (partsBack p (d.map (·.2))))) :=
  html2creole_parts hp hd ha hlen hw hw'

/-- **C62.**  creole2html, then html2creole: the text of the parts that the document stands for. -/
theorem C62_there_and_back_pre (o : Creole.Opts) (macros : Creole.Macros) (markup : Str) (g : List Str) (k : Cr.Block) (d : Cr.Doc)
    (p : Part) (ps : List Part) (trail : List Str) (hblog : o.blog = true) (hstrict : o.strict = false)
    (hok : Cr.docOk {} true ((g, k) :: d) = true) (htr : trail.all Cr.blank = true)
    (hl : textLines markup = Cr.docLines ((g, k) :: d) ++ trail) (hfor : PartsFor ((g, k) :: d) (p :: ps))
    (hdec : ∀ x ∈ p :: ps, x.decent = true) (hend : listsEnd k d = true) (hlen : ps.length < 10 ^ 4300) :
    ∃ html, Creole.creole2htmlM o macros markup = .ok (html, macros) ∧
      Emit.html2creole html = .ok (strip (joinLines c!"\n" (partsBack p ps))) := by
  have hcx : Cr.ReadWith o macros {} := by
    have := Cr.ReadWith.plain o macros
    rw [hstrict] at this
    exact this
  refine ⟨Cr.docBody {} true ((g, k) :: d), ?_, ?_⟩
  · have := Creole.creole2html_noMac (cx := {}) o macros markup ((g, k) :: d) trail (by rw [hblog]; exact hok) hcx htr hl (partsFor_notMac _ _ hfor)
    rw [hblog] at this
    exact this
  · have hps := partsLaidOut_parts d ps k hfor.2
    have := C61_html2creole_pre p (partsLaidOut k d ps) (hdec p List.mem_cons_self) (fun x hx => by
        refine hdec _ (List.mem_cons_of_mem _ ?_)
        rw [← hps]
        exact List.mem_map_of_mem hx)
      (parts_apart d ps k p hfor.1 hfor.2 hend C57_between) (by rw [← List.length_map (f := (·.2)), hps]; exact hlen)
      (w := []) (w' := []) (by simp) (by simp)
    rw [List.nil_append, List.append_nil, parts_tail d ps k p hfor.1 hfor.2, hps] at this
    exact this

/-- **C63.**  A creole text that is written in the way html2creole writes it comes back unchanged. -/
theorem C63_unchanged_pre (o : Creole.Opts) (macros : Creole.Macros) (p : Part) (ps : List Part) (hblog : o.blog = true)
    (hstrict : o.strict = false) (hok : Cr.docOk {} true (partsDoc p ps) = true)
    (hp : ∀ x ∈ p :: ps, x.decent = true ∧ x.stable = true) (hlen : ps.length < 10 ^ 4300)
    (hl : ∀ l ∈ Cr.docLines (partsDoc p ps), ∀ c ∈ l, c ≠ '\r' ∧ c ≠ '\n') :
    ∃ html, Creole.creole2htmlM o macros (joinLines c!"\n" (Cr.docLines (partsDoc p ps))) = .ok (html, macros) ∧
      Emit.html2creole html = .ok (joinLines c!"\n" (Cr.docLines (partsDoc p ps))) := by
  have hf : ∀ x ∈ p :: ps, Part.Fine x ∧ x.stable = true := fun x hx => ⟨Part.decent_fine (hp x hx).1, (hp x hx).2⟩
  obtain ⟨h1, h2⟩ := partsDoc_stable (p := p) (d := ps) hf
  obtain ⟨html, h4, h5⟩ := C62_there_and_back_pre o macros (joinLines c!"\n" (Cr.docLines (partsDoc p ps))) [] p.written (restParts p ps) p ps []
    hblog hstrict hok rfl (by
      rw [List.append_nil]
      refine textLines_joinLines _ (.inl rfl) _ ?_ hl
      rw [h1]
      exact partsBack_ne ps p (hp p List.mem_cons_self).1) h2 (fun x hx => (hp x hx).1) (restParts_listsEnd ps p) hlen
  refine ⟨html, h4, ?_⟩
  rw [h5, strip_bare (partsBack_bare ps p hf), h1]

/-- **C64.**  The round trip keeps the meaning: the HTML of the creole text that comes back consists of the same blocks as
the HTML of the original text.  For documents whose text is still written unambiguously without the tildes (`docOk` of the
text that comes back). -/
theorem C64_meaning_kept_pre (o : Creole.Opts) (macros : Creole.Macros) (markup : Str) (g : List Str) (k : Cr.Block) (d : Cr.Doc)
    (p : Part) (ps : List Part) (trail : List Str) (hblog : o.blog = true) (hstrict : o.strict = false)
    (hok : Cr.docOk {} true ((g, k) :: d) = true) (htr : trail.all Cr.blank = true)
    (hl : textLines markup = Cr.docLines ((g, k) :: d) ++ trail) (hfor : PartsFor ((g, k) :: d) (p :: ps))
    (hdec : ∀ x ∈ p :: ps, x.decent = true ∧ x.norm.stable = true) (hend : listsEnd k d = true) (hlen : ps.length < 10 ^ 4300)
    (hok' : Cr.docOk {} true (partsDoc p.norm (ps.map Part.norm)) = true)
    (hl' : ∀ l ∈ Cr.docLines (partsDoc p.norm (ps.map Part.norm)), ∀ c ∈ l, c ≠ '\r' ∧ c ≠ '\n') :
    ∃ html text html', Creole.creole2htmlM o macros markup = .ok (html, macros) ∧ Emit.html2creole html = .ok text ∧
      Creole.creole2htmlM o macros text = .ok (html', macros) ∧ SameBlocks html html' := by
  have hst : ∀ x ∈ p.norm :: ps.map Part.norm, Part.Fine x ∧ x.stable = true := by
    rw [← List.map_cons]
    intro x hx
    obtain ⟨y, hy, rfl⟩ := List.mem_map.mp hx
    exact ⟨Part.norm_fine (hdec y hy).1, (hdec y hy).2⟩
  obtain ⟨h1, h2⟩ := partsDoc_stable (p := p.norm) (d := ps.map Part.norm) hst
  obtain ⟨html, h4, h5⟩ := C62_there_and_back_pre o macros markup g k d p ps trail hblog hstrict hok htr hl hfor
    (fun x hx => (hdec x hx).1) hend hlen
  have hcx : Cr.ReadWith o macros {} := by
    have := Cr.ReadWith.plain o macros
    rw [hstrict] at this
    exact this
  have e1 := Creole.creole2html_noMac (cx := {}) o macros markup ((g, k) :: d) trail (by rw [hblog]; exact hok) hcx htr hl (partsFor_notMac _ _ hfor)
  rw [← partsBack_norm, strip_bare (partsBack_bare _ _ hst), ← h1] at h5
  have hl2 : textLines (joinLines c!"\n" (Cr.docLines (partsDoc p.norm (ps.map Part.norm)))) =
      Cr.docLines (partsDoc p.norm (ps.map Part.norm)) ++ [] := by
    rw [List.append_nil]
    refine textLines_joinLines _ (.inl rfl) _ ?_ hl'
    rw [h1, partsBack_norm]
    exact partsBack_ne _ _ (hdec _ List.mem_cons_self).1
  have e2 := Creole.creole2html_noMac (cx := {}) o macros _ (partsDoc p.norm (ps.map Part.norm)) [] (by rw [hblog]; exact hok') hcx rfl hl2
    (partsFor_notMac _ _ h2)
  rw [hblog] at e1 e2
  refine ⟨_, _, _, e1, ?_, e2, ?_⟩
  · have : html = Cr.docBody {} true ((g, k) :: d) := congrArg Prod.fst (Except.ok.inj (h4.symm.trans e1))
    rw [← this]
    exact h5
  · rw [partsDoc, Cr.docBody, Cr.docBody, ← parts_tail d ps k p hfor.1 hfor.2, ← parts_tail _ _ _ _ h2.1 h2.2]
    refine sameBlocks_parts ps p _ _ (partsLaidOut_parts d ps k hfor.2) (partsLaidOut_parts _ _ _ h2.2) ?_ ?_
    · exact partsLaidOut_gaps _ _ _
    · exact partsLaidOut_gaps _ _ _

/-- the parts of the examples below -/
def exampleParts : List Part := [
  .block (.head 1 c!"Title"), .pre [c!"  if a < b && c:", c!"", c!"    **print** <b>"], .block (.list .bullet [.mk [] [.face .strong ((c!"x").map .chr)] .bullet []]),
  .pre [c!"<pre>"], .pre [c!"</pre>", c!" }}}"], .block .hr, .pre [c!"1"],
  .block (.table [[⟨true, (c!"A").map .chr⟩]]), .pre [c!"2"], .block (.para [(c!"end").map .chr])]

example : (∀ x ∈ exampleParts, x.decent = true ∧ x.stable = true) ∧ Cr.docOk {} true (partsDoc (.pre [c!"0"]) exampleParts) = true ∧
    Cr.docLines (partsDoc (.pre [c!"0"]) exampleParts) = [c!"{{{", c!"0", c!"}}}", c!"= Title", c!"", c!"{{{", c!"  if a < b && c:", c!"",
      c!"    **print** <b>", c!"}}}", c!"* **x**", c!"", c!"{{{", c!"<pre>", c!"}}}", c!"{{{", c!"</pre>", c!" }}}", c!"}}}", c!"----", c!"", c!"{{{",
      c!"1", c!"}}}", c!"|= A |", c!"{{{", c!"2", c!"}}}", c!"end"] := by
  decide +kernel

/-- the same HTML, and another one that differs in the layout -/
example : allApart (.pre [c!"<b>"]) [(c!"  \n ", .block .hr), (c!"\t\n\n", .pre [c!"x"]), (c!"\n", .pre [c!"y"])] = true ∧
    partsHtml (.pre [c!"<b>"]) [(c!"  \n ", .block .hr), (c!"\t\n\n", .pre [c!"x"]), (c!"\n", .pre [c!"y"])] =
      c!"<pre>\n&lt;b&gt;\n</pre>  \n <hr />\t\n\n<pre>\nx\n</pre>\n<pre>\ny\n</pre>" ∧
    partsBack (.pre [c!"<b>"]) [.block .hr, .pre [c!"x"], .pre [c!"y"]] =
      [c!"{{{", c!"<b>", c!"}}}", c!"----", c!"", c!"{{{", c!"x", c!"}}}", c!"{{{", c!"y", c!"}}}"] := by
  decide +kernel

/-- a document that is written in another way than html2creole does -/
def exampleOtherPre : Cr.Doc := [
  ([], .head 2 c!"  " c!"T" c!" =="),
  ([], .pre [c!"a  ", c!"[[b"]),
  ([[], []], .pre [c!"c"]),
  ([], .list ⟨[], .bullet, [.chr 'd']⟩ []),
  ([[], c!" "], .pre [c!"e"])]

example : ∃ rs : List Part, Cr.docOk {} true exampleOtherPre = true ∧ PartsFor exampleOtherPre (.block (.head 2 c!"T") :: rs) ∧
    (∀ x ∈ Part.block (.head 2 c!"T") :: rs, x.decent = true ∧ x.norm.stable = true) ∧
    (match exampleOtherPre with | (_, k) :: d => listsEnd k d | [] => false) = true ∧
    Cr.docLines exampleOtherPre = [c!"==  T ==", c!"{{{", c!"a  ", c!"[[b", c!"}}}", c!"", c!"", c!"{{{", c!"c", c!"}}}", c!"* d", c!"", c!" ", c!"{{{", c!"e", c!"}}}"] ∧
    partsBack (.block (.head 2 c!"T")) rs = [c!"== T", c!"", c!"{{{", c!"a  ", c!"[[b", c!"}}}", c!"{{{", c!"c", c!"}}}", c!"* d", c!"", c!"{{{", c!"e", c!"}}}"] ∧
    Cr.docOk {} true (partsDoc (Part.block (.head 2 c!"T")).norm (rs.map Part.norm)) = true :=
  ⟨[.pre [c!"a  ", c!"[[b"], .pre [c!"c"], .block (.list .bullet [.mk [] [.chr 'd'] .bullet []]), .pre [c!"e"]], by decide +kernel,
    ⟨⟨rfl, rfl⟩, (by show _ = _; decide +kernel), (by show _ = _; decide +kernel), by exact ⟨rfl, rfl⟩, (by show _ = _; decide +kernel), trivial⟩, by decide +kernel, by decide +kernel, by decide +kernel,
    by decide +kernel, by decide +kernel⟩

/-- **C63, what is missing:** the escaped end `~}}}` of preformatted text comes back without its tilde, and then ends the
preformatted text. -/
theorem C63_ends_are_lost : Creole.creole2html {} c!"{{{\na\n~}}}\nb\n}}}" = .ok c!"<pre>\na\n}}}\nb\n</pre>" ∧
    Emit.html2creole c!"<pre>\na\n}}}\nb\n</pre>" = .ok c!"{{{\na\n}}}\nb\n}}}" ∧
    Creole.creole2html {} c!"{{{\na\n}}}\nb\n}}}" = .ok c!"<pre>\na\n</pre>\n<p>b<br />\n}}}</p>" := by
  decide +kernel

/-- preformatted text directly below a list: its tag does not begin a line, html2creole reads it as an inline one -/
theorem C63_pre_below_list : Creole.creole2html {} c!"* a\n{{{\nx\n}}}\n* b" = .ok c!"<ul>\n\t<li>a</li>\n</ul><pre>\nx\n</pre>\n<ul>\n\t<li>b</li>\n</ul>" ∧
    Emit.html2creole c!"<ul>\n\t<li>a</li>\n</ul><pre>\nx\n</pre>\n<ul>\n\t<li>b</li>\n</ul>" = .ok c!"* a\n\n{{{\nx\n}}} \n\n* b" := by
  decide +kernel

end Verif.Props
