import Verif.Emit.BackNorm
import Verif.Props.LineEndings
import Verif.Props.Documents

/-!
# C61, C62, C63: from creole to HTML and back
-/

namespace Verif.Props

open Verif Py Html Emit Spec Spec.Hd Spec.Rt

theorem docFor_notMac : ∀ (d : Cr.Doc) (rs : List Rt), DocFor d rs → ∀ x ∈ d, x.2.notMac = true := by
  intro d
  induction d with
  | nil => intro rs _ x hx; cases hx
  | cons y d ih =>
    intro rs h x hx
    cases rs with
    | nil => exact h.elim
    | cons r rs =>
      rcases List.mem_cons.mp hx with rfl | hx
      · have := h.1
        cases hb : x.2 <;> rw [hb] at this <;> first | rfl | exact (by cases r <;> exact this.elim)
      · exact ih rs h.2 x hx

theorem laidOut_gaps : ∀ (d : Cr.Doc) (rs : List Rt) (k : Cr.Block), ∀ x ∈ laidOut k d rs, ∀ c ∈ x.1, c = '\n'
  | [], _, _, x, hx => by simp [laidOut] at hx
  | _ :: _, [], _, x, hx => by simp [laidOut] at hx
  | (g, b') :: d, r :: rs, k, x, hx => by
    rw [laidOut] at hx
    rcases List.mem_cons.mp hx with rfl | hx
    · exact C57_between _ _
    · exact laidOut_gaps d rs b' x hx

/-- **C61.**  html2creole turns the HTML of a document of paragraphs, headings, rules, lists and tables into its creole
text: one line for every line of a paragraph, item of a list and row of a table; the columns of a table are aligned.  The
layout of the HTML between the blocks does not matter. -/
theorem C61_html2creole (b : Rt) (d : List (Str × Rt)) (hb : b.decent = true ∧ neat [b.ht] = true)
    (hd : ∀ x ∈ d, x.2.decent = true ∧ neat [x.2.ht] = true ∧ x.1.all isSpace = true) {w w' : Str}
    (hw : ∀ c ∈ w, isSpace c = true) (hw' : ∀ c ∈ w', isSpace c = true) :
    Emit.html2creole (w ++ written (docHt b d) ++ w') = .ok (strip (joinLines c!"\n" (backDoc b (d.map (·.2))))) :=
  html2creole_doc hb.1 (fun x hx => (hd x hx).1) (neat_doc hb hd) hw hw'

/-- **C62.**  creole2html, then html2creole: the text of the blocks that the document stands for. -/
theorem C62_there_and_back (o : Creole.Opts) (macros : Creole.Macros) (markup : Str) (g : List Str) (k : Cr.Block) (d : Cr.Doc)
    (b : Rt) (bs : List Rt) (trail : List Str) (hblog : o.blog = true) (hstrict : o.strict = false)
    (hok : Cr.docOk {} true ((g, k) :: d) = true) (htr : trail.all Cr.blank = true)
    (hl : textLines markup = Cr.docLines ((g, k) :: d) ++ trail) (hfor : DocFor ((g, k) :: d) (b :: bs))
    (hdec : ∀ x ∈ b :: bs, x.decent = true ∧ neat [x.ht] = true) :
    ∃ html, Creole.creole2htmlM o macros markup = .ok (html, macros) ∧
      Emit.html2creole html = .ok (strip (joinLines c!"\n" (backDoc b bs))) := by
  have hcx : Cr.ReadWith o macros {} := by
    have := Cr.ReadWith.plain o macros
    rw [hstrict] at this
    exact this
  refine ⟨Cr.docBody {} true ((g, k) :: d), ?_, ?_⟩
  · have := Creole.creole2html_noMac (cx := {}) o macros markup ((g, k) :: d) trail (by rw [hblog]; exact hok) hcx htr hl (docFor_notMac _ _ hfor)
    rw [hblog] at this
    exact this
  · have hlay : ∀ (d : Cr.Doc) (rs : List Rt) (k : Cr.Block), (∀ x ∈ rs, x.decent = true ∧ neat [x.ht] = true) →
        ∀ x ∈ laidOut k d rs, x.2.decent = true ∧ neat [x.2.ht] = true ∧ x.1.all isSpace = true := by
      intro d
      induction d with
      | nil => intro rs k _ x hx; simp [laidOut] at hx
      | cons y d ih =>
        intro rs k h x hx
        cases rs with
        | nil => simp [laidOut] at hx
        | cons r rs =>
          rw [laidOut] at hx
          rcases List.mem_cons.mp hx with rfl | hx
          · refine ⟨(h r List.mem_cons_self).1, (h r List.mem_cons_self).2, ?_⟩
            rw [List.all_eq_true]
            intro c hc
            rw [C57_between _ _ c hc]
            rfl
          · exact ih rs _ (fun x hx => h x (List.mem_cons_of_mem _ hx)) x hx
    have := C61_html2creole b (laidOut k d bs) (hdec b List.mem_cons_self)
      (hlay d bs k fun x hx => hdec x (List.mem_cons_of_mem _ hx)) (w := []) (w' := []) (by simp) (by simp)
    rw [List.nil_append, List.append_nil, written_tail d bs k b hfor.1 hfor.2, laidOut_blocks d bs k hfor.2] at this
    exact this

/-- **C63.**  A creole text that is written in the way html2creole writes it comes back unchanged. -/
theorem C63_unchanged (o : Creole.Opts) (macros : Creole.Macros) (b : Rt) (bs : List Rt) (hblog : o.blog = true) (hstrict : o.strict = false)
    (hok : Cr.docOk {} true (creoleDoc b bs) = true) (hb : ∀ x ∈ b :: bs, x.decent = true ∧ x.stable = true ∧ neat [x.ht] = true)
    (hl : ∀ l ∈ Cr.docLines (creoleDoc b bs), ∀ c ∈ l, c ≠ '\r' ∧ c ≠ '\n') :
    ∃ html, Creole.creole2htmlM o macros (joinLines c!"\n" (Cr.docLines (creoleDoc b bs))) = .ok (html, macros) ∧
      Emit.html2creole html = .ok (joinLines c!"\n" (Cr.docLines (creoleDoc b bs))) := by
  obtain ⟨h1, h2, h3⟩ := creoleDoc_stable (b := b) (d := bs) fun x hx => ⟨(hb x hx).1, (hb x hx).2.1⟩
  obtain ⟨html, h4, h5⟩ := C62_there_and_back o macros (joinLines c!"\n" (Cr.docLines (creoleDoc b bs))) [] b.block (restDoc b bs) b bs []
    hblog hstrict hok rfl (by
      rw [List.append_nil]
      refine textLines_joinLines _ (.inl rfl) _ ?_ hl
      rw [h1]
      exact backDoc_ne bs b (hb b List.mem_cons_self).1) h2 fun x hx => ⟨(hb x hx).1, (hb x hx).2.2⟩
  refine ⟨html, h4, ?_⟩
  rw [h5, strip_bare (backDoc_bare bs b fun x hx => ⟨(hb x hx).1, (hb x hx).2.1⟩), h1]

/-- **C64.**  The round trip keeps the meaning: the HTML of the creole text that comes back consists of the same blocks as
the HTML of the original text.  For documents whose text is still written unambiguously without the tildes (`docOk` of the
text that comes back). -/
theorem C64_meaning_kept (o : Creole.Opts) (macros : Creole.Macros) (markup : Str) (g : List Str) (k : Cr.Block) (d : Cr.Doc)
    (b : Rt) (bs : List Rt) (trail : List Str) (hblog : o.blog = true) (hstrict : o.strict = false)
    (hok : Cr.docOk {} true ((g, k) :: d) = true) (htr : trail.all Cr.blank = true)
    (hl : textLines markup = Cr.docLines ((g, k) :: d) ++ trail) (hfor : DocFor ((g, k) :: d) (b :: bs))
    (hdec : ∀ x ∈ b :: bs, x.decent = true ∧ neat [x.ht] = true ∧ x.norm.stable = true)
    (hok' : Cr.docOk {} true (creoleDoc b.norm (bs.map Rt.norm)) = true)
    (hl' : ∀ l ∈ Cr.docLines (creoleDoc b.norm (bs.map Rt.norm)), ∀ c ∈ l, c ≠ '\r' ∧ c ≠ '\n') :
    ∃ html text html', Creole.creole2htmlM o macros markup = .ok (html, macros) ∧ Emit.html2creole html = .ok text ∧
      Creole.creole2htmlM o macros text = .ok (html', macros) ∧ SameBlocks html html' := by
  have hst : ∀ x ∈ b.norm :: bs.map Rt.norm, x.decent = true ∧ x.stable = true := by
    rw [← List.map_cons]
    intro x hx
    obtain ⟨y, hy, rfl⟩ := List.mem_map.mp hx
    exact ⟨(block_norm y).2.2 (hdec y hy).1, (hdec y hy).2.2⟩
  obtain ⟨h1, h2, h3⟩ := creoleDoc_stable (b := b.norm) (d := bs.map Rt.norm) hst
  obtain ⟨html, h4, h5⟩ := C62_there_and_back o macros markup g k d b bs trail hblog hstrict hok htr hl hfor
    fun x hx => ⟨(hdec x hx).1, (hdec x hx).2.1⟩
  have hcx : Cr.ReadWith o macros {} := by
    have := Cr.ReadWith.plain o macros
    rw [hstrict] at this
    exact this
  have e1 := Creole.creole2html_noMac (cx := {}) o macros markup ((g, k) :: d) trail (by rw [hblog]; exact hok) hcx htr hl (docFor_notMac _ _ hfor)
  rw [← backDoc_norm, strip_bare (backDoc_bare _ _ hst), ← h1] at h5
  have hl2 : textLines (joinLines c!"\n" (Cr.docLines (creoleDoc b.norm (bs.map Rt.norm)))) =
      Cr.docLines (creoleDoc b.norm (bs.map Rt.norm)) ++ [] := by
    rw [List.append_nil]
    refine textLines_joinLines _ (.inl rfl) _ ?_ hl'
    rw [h1]
    exact backDoc_ne _ _ (hst _ List.mem_cons_self).1
  have e2 := Creole.creole2html_noMac (cx := {}) o macros _ (creoleDoc b.norm (bs.map Rt.norm)) [] (by rw [hblog]; exact hok') hcx rfl hl2
    (docFor_notMac _ _ h2)
  rw [hblog] at e1 e2
  refine ⟨_, _, _, e1, ?_, e2, ?_⟩
  · have : html = Cr.docBody {} true ((g, k) :: d) := congrArg Prod.fst (Except.ok.inj (h4.symm.trans e1))
    rw [← this]
    exact h5
  · rw [creoleDoc, Cr.docBody, Cr.docBody, ← written_tail d bs k b hfor.1 hfor.2, ← written_tail _ _ _ _ h2.1 h2.2]
    refine sameBlocks_docHt bs b _ _ (laidOut_blocks d bs k hfor.2) (laidOut_blocks _ _ _ h2.2) ?_ ?_
    · exact laidOut_gaps _ _ _
    · exact laidOut_gaps _ _ _

/-- the blocks of the examples below -/
def exampleBlocks : List Rt := [
  .list .bullet [.mk [] ((c!"one").map .chr) .number [.mk c!"*" ((c!"two").map .chr ++ [.br, .link c!"http://x/?a&b" ((c!"here").map .chr)]) .bullet []],
    .mk [] [.face .strong ((c!"three").map .chr)] .bullet []],
  .para [(c!"some ").map .chr ++ [.face .emphasis ((c!"slanted").map .chr), .chr ' '] ++ (c!"text").map .chr, [.image c!"/a.png" c!"A"]],
  .table [[⟨true, (c!"A").map .chr⟩, ⟨true, (c!"B").map .chr⟩], [⟨false, (c!"long cell").map .chr⟩, ⟨false, [.face .delete ((c!"x").map .chr)]⟩]],
  .hr]

example : (∀ x ∈ Rt.head 1 c!"Title & more" :: exampleBlocks, x.decent = true ∧ x.stable = true ∧ neat [x.ht] = true) ∧
    Cr.docOk {} true (creoleDoc (.head 1 c!"Title & more") exampleBlocks) = true ∧
    Cr.docLines (creoleDoc (.head 1 c!"Title & more") exampleBlocks) = [c!"= Title & more", c!"", c!"", c!"", c!"* one", c!"*# two\\\\[[http://x/?a&b|here]]",
      c!"* **three**", c!"", c!"some //slanted// text", c!"{{/a.png|A}}", c!"", c!"|= A        |= B    |", c!"| long cell | ~~x~~ |", c!"----"] := by
  decide +kernel

/-- a document that is written in another way than html2creole does -/
def exampleOther : Cr.Doc := [
  ([], .head 2 c!"  " c!"T" c!" =="),
  ([], .para [[.url c!"http://a", .chr ' ', .esc '*', .chr '*'], [.nowiki c!"[[", .image c!"b" [], .sized c!"c" c!"d" 1 2]]),
  ([[]], .table [[.th 0 0 ((c!"x").map .chr) 0, .td 0 ((c!"y").map .chr) 3]])]

example : ∃ rs : List Rt, Cr.docOk {} true exampleOther = true ∧ DocFor exampleOther rs ∧ (∀ x ∈ rs, x.decent = true ∧ neat [x.ht] = true) ∧
    Cr.docLines exampleOther = [c!"==  T ==", c!"http://a ~**", c!"{{{[[}}}{{b}}{{c|d|1x2}}", c!"", c!"|=x|y   |"] ∧
    backDoc (.hr) rs = [c!"----", c!"", c!"== T", c!"", c!"[[http://a]] **", c!"[[{{b|b}}{{c|d|2x1}}", c!"", c!"|= x | y |"] :=
  ⟨[.head 2 c!"T", .para [[.url c!"http://a", .chr ' ', .esc '*', .chr '*'], [.nowiki c!"[[", .image c!"b" [], .sized c!"c" c!"d" 1 2]],
    .table [[⟨true, (c!"x").map .chr⟩, ⟨false, (c!"y").map .chr⟩]]], by decide +kernel, ⟨⟨rfl, rfl⟩, ⟨rfl, by decide +kernel⟩, rfl, trivial⟩,
    by decide +kernel, by decide +kernel, by decide +kernel⟩

example : Cr.docOk {} true [([], .para [[.esc 'a', .chr ' ', .url c!"http://a"], [.image c!"b" []]]), ([[], []], .list ⟨[], .bullet, [.link c!"c" [.chr 'c']]⟩ [])] = true ∧
    (∀ x ∈ [Rt.para [[.esc 'a', .chr ' ', .url c!"http://a"], [.image c!"b" []]], .list .bullet [.mk [] [.link c!"c" [.chr 'c']] .bullet []]],
      x.decent = true ∧ neat [x.ht] = true ∧ x.norm.stable = true) ∧
    Cr.docLines (creoleDoc (Rt.para [[.esc 'a', .chr ' ', .url c!"http://a"], [.image c!"b" []]]).norm
      [(Rt.list .bullet [.mk [] [.link c!"c" [.chr 'c']] .bullet []]).norm]) = [c!"a [[http://a]]", c!"{{b|b}}", c!"", c!"* [[c]]"] ∧
    Cr.docOk {} true (creoleDoc (Rt.para [[.esc 'a', .chr ' ', .url c!"http://a"], [.image c!"b" []]]).norm
      [(Rt.list .bullet [.mk [] [.link c!"c" [.chr 'c']] .bullet []]).norm]) = true := by
  decide +kernel

/-- **C63, what is missing:** an escaped text comes back without its tildes, and then means something else. -/
theorem C63_escapes_are_lost : Creole.creole2html {} c!"~**a~**" = .ok c!"<p>**a**</p>" ∧
    Emit.html2creole c!"<p>**a**</p>" = .ok c!"**a**" ∧ Creole.creole2html {} c!"**a**" = .ok c!"<p><strong>a</strong></p>" := by
  decide +kernel

/-- the sizes of an image are exchanged -/
theorem C63_sizes_are_exchanged :
    Creole.creole2html {} c!"{{a|b|10x20}}" = .ok c!"<p><img src=\"a\" title=\"b\" alt=\"b\" width=\"10\" height=\"20\" /></p>" ∧
    Emit.html2creole c!"<p><img src=\"a\" title=\"b\" alt=\"b\" width=\"10\" height=\"20\" /></p>" = .ok c!"{{a|b|20x10}}" := by
  decide +kernel

/-- two more empty lines between a heading and a list -/
theorem C63_heading_and_list : Creole.creole2html {} c!"= a\n\n* b" = .ok c!"<h1>a</h1>\n\n<ul>\n\t<li>b</li>\n</ul>" ∧
    Emit.html2creole c!"<h1>a</h1>\n\n<ul>\n\t<li>b</li>\n</ul>" = .ok c!"= a\n\n\n\n* b" := by
  decide +kernel

/-- The blank after `<img>` without a slash is lost: the tag is taken for a start tag, and the blank behind it for a blank at
the edge of the element. -/
theorem C60_open_image :
    Emit.html2creole c!"<p>a <img src=\"x\" alt=\"y\" /> b</p>" = .ok c!"a {{x|y}} b" ∧
    Emit.html2creole c!"<p>a <img src=\"x\" alt=\"y\"> b</p>" = .ok c!"a {{x|y}}b" := by
  decide +kernel

end Verif.Props
