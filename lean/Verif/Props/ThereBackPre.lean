import Verif.Spec.ThereBackPre
import Verif.Props.ThereBack
import Verif.Props.ArticlePre
import Verif.Props.RoundTripPre

/-!
# C89 for articles with preformatted text
-/

namespace Verif.Props

open Verif Py Html Emit Spec Spec.Hd Spec.Rt Spec.Ar

/-! ## The text -/

theorem secGap_part (x y : Sec) : Part.gap x.part y.part = secGap .creole x y := by
  cases x with
  | pre ls => cases y <;> rfl
  | block b =>
    cases y with
    | pre ls => cases b <;> rfl
    | block b' => exact gap_rt b b'

/-- the blocks among the parts are fine -/
def SecOk : Sec → Prop
  | .block b => b.Ok .creole anyHost
  | .pre _ => True

theorem sec_fine {x : Sec} (h : x.full = true) : Part.Fine x.part := by
  cases x with
  | pre ls => intro b hb; cases hb
  | block b =>
    intro b' hb
    cases hb
    rw [Sec.full, Bool.and_eq_true] at h
    exact h.2

theorem sec_back {x : Sec} (h : SecOk x) (hf : x.full = true) :
    joinLines c!"\n" x.part.back = joinLines c!"\n" (x.lines .creole) ∧ x.part.back ≠ [] ∧ x.lines .creole ≠ [] := by
  cases x with
  | pre ls => exact ⟨rfl, by simp [Sec.part, Part.back], by simp [Sec.lines]⟩
  | block b =>
    rw [Sec.full, Bool.and_eq_true] at hf
    exact ⟨back_bl h hf.1, Emit.back_ne hf.2, lines_ne h⟩

theorem back_secs : ∀ (d : List Sec) (x : Sec), (∀ y ∈ x :: d, SecOk y ∧ y.full = true) →
    joinLines c!"\n" (partsBack x.part (d.map Sec.part)) = joinLines c!"\n" (secsLines .creole (x :: d)) ∧
      partsBack x.part (d.map Sec.part) ≠ [] ∧ secsLines .creole (x :: d) ≠ []
  | [], x, h => by
    obtain ⟨h1, h2⟩ := h x List.mem_cons_self
    rw [List.map_nil, partsBack, secsLines]
    exact sec_back h1 h2
  | y :: d, x, h => by
    obtain ⟨h1, h2⟩ := h x List.mem_cons_self
    obtain ⟨g1, g2, g3⟩ := sec_back h1 h2
    obtain ⟨i1, i2, i3⟩ := back_secs d y fun z hz => h z (List.mem_cons_of_mem _ hz)
    rw [List.map_cons, partsBack, secsLines, secGap_part, List.append_assoc, List.append_assoc,
      joinLines_append _ _ g2 (by simp [i2]), joinLines_append _ _ g3 (by simp [i3]), g1]
    refine ⟨?_, by simp [i2], by simp [i3]⟩
    congr 1
    cases hg : secGap .creole x y with
    | nil => rw [List.nil_append, List.nil_append, i1]
    | cons g gs => rw [joinLines_append _ _ (by simp) i2, joinLines_append _ _ (by simp) i3, i1]

/-! ## The elements -/

/-- the blocks before the first area, and the areas -/
def groupSecs : List Sec → List Bl × List (List Str × List Bl)
  | [] => ([], [])
  | .block b :: d => (b :: (groupSecs d).1, (groupSecs d).2)
  | .pre ls :: d => ([], (ls, (groupSecs d).1) :: (groupSecs d).2)

theorem group_blocks : ∀ (l : List Bl) (d : List Sec), groupSecs (l.map .block ++ d) = (l ++ (groupSecs d).1, (groupSecs d).2)
  | [], d => rfl
  | b :: l, d => by rw [List.map_cons, List.cons_append, groupSecs, group_blocks l d]; rfl

theorem group_areas : ∀ areas : List (List Str × List Bl),
    groupSecs (areas.flatMap fun x => .pre x.1 :: x.2.map .block) = ([], areas)
  | [] => rfl
  | (ls, bs) :: r => by
    rw [List.flatMap_cons, List.cons_append, groupSecs, group_blocks, group_areas r, List.append_nil]

theorem group_secs (head : List Bl) (areas : List (List Str × List Bl)) : groupSecs (secs head areas) = (head, areas) := by
  rw [secs, group_blocks, group_areas, List.append_nil]

theorem again_parts : ∀ (l : List (Str × Part)) (x : Sec) (d : List Sec), l.map (·.2) = d.map Sec.part →
    (∀ y ∈ x :: d, SecOk y ∧ y.full = true) →
    elsL (partsHt x.part l).1 = (groupSecs (x :: d)).1.map Bl.again ∧
      (partsHt x.part l).2.map (fun a => (a.lines, elsL a.after)) = (groupSecs (x :: d)).2.map fun y => (y.1, y.2.map Bl.again)
  | [], .pre ls, [], _, _ => ⟨rfl, rfl⟩
  | [], .block b, [], _, h => by
    obtain ⟨h1, h2⟩ := h _ List.mem_cons_self
    rw [Sec.full, Bool.and_eq_true] at h2
    refine ⟨?_, rfl⟩
    rw [Sec.part, partsHt, again_bl h1 h2.1]
    rfl
  | [], _, _ :: _, hl, _ => by simp at hl
  | _ :: _, _, [], hl, _ => by simp at hl
  | (w, p) :: l, x, y :: d, hl, h => by
    rw [List.map_cons, List.map_cons, List.cons.injEq] at hl
    obtain ⟨h1, h2⟩ := hl
    dsimp only at h1
    subst h1
    obtain ⟨i1, i2⟩ := again_parts l y d h2 fun z hz => h z (List.mem_cons_of_mem _ hz)
    obtain ⟨g1, g2⟩ := h x List.mem_cons_self
    cases x with
    | pre ls =>
      refine ⟨rfl, ?_⟩
      rw [Sec.part, partsHt, groupSecs, List.map_cons, List.map_cons, i1, i2]
    | block b =>
      rw [Sec.full, Bool.and_eq_true] at g2
      rw [Sec.part, partsHt, groupSecs]
      refine ⟨?_, i2⟩
      dsimp only
      rw [again_bl g1 g2.1, elsL, Ht.els, i1, List.map_cons]

theorem secs_ok {head : List Bl} {areas : List (List Str × List Bl)} (hok : ∀ b ∈ head, b.Ok .creole anyHost)
    (hok' : ∀ x ∈ areas, ∀ b ∈ x.2, b.Ok .creole anyHost) : ∀ y ∈ secs head areas, SecOk y := by
  intro y hy
  simp only [secs, List.mem_append, List.mem_map, List.mem_flatMap, List.mem_cons] at hy
  rcases hy with ⟨b, hb, rfl⟩ | ⟨z, hz, rfl | ⟨b, hb, rfl⟩⟩
  · exact hok b hb
  · trivial
  · exact hok' z hz b hb

/-- **C89** for articles with preformatted text: from HTML to creole and back.  The blocks come back as in
`C89_there_and_back`, and every area of preformatted text comes back at its place, with the lines that it had. -/
theorem C89_there_and_back_pre (o : Creole.Opts) (macros : Creole.Macros) (hblog : o.blog = true) (hstrict : o.strict = false)
    (head : List Bl) (areas : List (List Str × List Bl)) (hok : ∀ b ∈ head, b.Ok .creole anyHost)
    (hok' : ∀ x ∈ areas, ∀ b ∈ x.2, b.Ok .creole anyHost) (x : Sec) (d : List Sec) (hx : secs head areas = x :: d)
    (hclear : ClearSecs x d) (first : List Ht) (l : List Area) (h : StandsForSecs first l head areas)
    (hn : preNeat first l = true) (hlen : areas.length ≤ 10 ^ 4300) (w w' : Str)
    (hw : ∀ c ∈ w, isSpace c = true) (hw' : ∀ c ∈ w', isSpace c = true) :
    ∃ text first' l', Emit.html2creole (w ++ preWritten first l ++ w') = .ok text ∧
      Creole.creole2htmlM o macros text = .ok (preWritten first' l', macros) ∧ ComesBackAs first' l' head areas := by
  obtain ⟨hc1, hc2, hc3⟩ := hclear
  have hall : ∀ y ∈ x :: d, SecOk y ∧ y.full = true := fun y hy => ⟨secs_ok hok hok' y (hx ▸ hy), (hc1 y hy).1⟩
  have hst : ∀ y ∈ x.part :: d.map Sec.part, Part.Fine y ∧ y.stable = true := by
    rw [← List.map_cons]
    intro y hy
    obtain ⟨z, hz, rfl⟩ := List.mem_map.mp hy
    exact ⟨sec_fine (hc1 z hz).1, (hc1 z hz).2⟩
  obtain ⟨h1, h2⟩ := partsDoc_stable (p := x.part) (d := d.map Sec.part) hst
  obtain ⟨b1, b2, _⟩ := back_secs d x hall
  have hcx : Cr.ReadWith o macros {} := by
    have := Cr.ReadWith.plain o macros
    rw [hstrict] at this
    exact this
  have htext : secsText .creole (secs head areas) = joinLines c!"\n" (Cr.docLines (partsDoc x.part (d.map Sec.part))) := by
    rw [hx, secsText, ← b1, strip_bare (partsBack_bare _ _ hst), h1]
  have hl2 : textLines (joinLines c!"\n" (Cr.docLines (partsDoc x.part (d.map Sec.part)))) =
      Cr.docLines (partsDoc x.part (d.map Sec.part)) ++ [] := by
    rw [List.append_nil]
    refine textLines_joinLines _ (.inl rfl) _ ?_ hc3
    rw [h1]
    exact b2
  have e2 := Creole.creole2html_noMac (cx := {}) o macros _ (partsDoc x.part (d.map Sec.part)) [] (by rw [hblog]; exact hc2) hcx rfl hl2
    (partsFor_notMac _ _ h2)
  rw [hblog] at e2
  let lay := partsLaidOut x.part.written (restParts x.part (d.map Sec.part)) (d.map Sec.part)
  obtain ⟨a1, a2⟩ := again_parts lay x d (partsLaidOut_parts _ _ _ h2.2) hall
  rw [← hx, group_secs] at a1 a2
  refine ⟨_, (partsHt x.part lay).1, (partsHt x.part lay).2, C87_html2creole head areas hok hok' first l h hn hlen w w' hw hw', ?_, a1, a2⟩
  rw [htext, e2, partsDoc, Cr.docBody, written_parts, parts_tail _ _ _ _ h2.1 h2.2]

/-- **C89** for articles with preformatted text: an article with no pictures, code and titles, in the typefaces that creole has
and with plain headings, comes back as it was. -/
theorem C89_same_pre (o : Creole.Opts) (macros : Creole.Macros) (hblog : o.blog = true) (hstrict : o.strict = false)
    (head : List Bl) (areas : List (List Str × List Bl)) (hok : ∀ b ∈ head, b.Ok .creole anyHost)
    (hok' : ∀ x ∈ areas, ∀ b ∈ x.2, b.Ok .creole anyHost) (x : Sec) (d : List Sec) (hx : secs head areas = x :: d)
    (hclear : ClearSecs x d) (hsame : ∀ b ∈ head, b.same = true) (hsame' : ∀ y ∈ areas, ∀ b ∈ y.2, b.same = true)
    (first : List Ht) (l : List Area) (h : StandsForSecs first l head areas)
    (hn : preNeat first l = true) (hlen : areas.length ≤ 10 ^ 4300) (w w' : Str)
    (hw : ∀ c ∈ w, isSpace c = true) (hw' : ∀ c ∈ w', isSpace c = true) :
    ∃ text first' l', Emit.html2creole (w ++ preWritten first l ++ w') = .ok text ∧
      Creole.creole2htmlM o macros text = .ok (preWritten first' l', macros) ∧ StandsForSecs first' l' head areas := by
  obtain ⟨text, first', l', h1, h2, h3, h4⟩ := C89_there_and_back_pre o macros hblog hstrict head areas hok hok' x d hx hclear
    first l h hn hlen w w' hw hw'
  refine ⟨text, first', l', h1, h2, ?_, ?_⟩
  · rw [h3]
    exact List.map_congr_left fun b hb => same_bl (hsame b hb)
  · rw [h4]
    refine List.map_congr_left fun y hy => ?_
    rw [List.map_congr_left fun b hb => same_bl (hsame' y hy b hb)]

/-- **C89** for articles with preformatted text: after this the article does not change any more. -/
theorem C89_settled_pre (o : Creole.Opts) (macros : Creole.Macros) (hblog : o.blog = true) (hstrict : o.strict = false)
    (head : List Bl) (areas : List (List Str × List Bl)) (hok : ∀ b ∈ head, b.Ok .creole anyHost)
    (hok' : ∀ x ∈ areas, ∀ b ∈ x.2, b.Ok .creole anyHost) (x : Sec) (d : List Sec) (hx : secs head areas = x :: d)
    (hclear : ClearSecs x d) (hneat : ∀ y ∈ x :: d, y.part.decent = true) (hmany : d.length < 10 ^ 4300)
    (first : List Ht) (l : List Area) (h : StandsForSecs first l head areas)
    (hn : preNeat first l = true) (hlen : areas.length ≤ 10 ^ 4300) (w w' : Str)
    (hw : ∀ c ∈ w, isSpace c = true) (hw' : ∀ c ∈ w', isSpace c = true) :
    ∃ text html, Emit.html2creole (w ++ preWritten first l ++ w') = .ok text ∧
      Creole.creole2htmlM o macros text = .ok (html, macros) ∧ Emit.html2creole html = .ok text := by
  obtain ⟨hc1, hc2, hc3⟩ := hclear
  have hall : ∀ y ∈ x :: d, SecOk y ∧ y.full = true := fun y hy => ⟨secs_ok hok hok' y (hx ▸ hy), (hc1 y hy).1⟩
  have hst : ∀ y ∈ x.part :: d.map Sec.part, y.decent = true ∧ y.stable = true := by
    rw [← List.map_cons]
    intro y hy
    obtain ⟨z, hz, rfl⟩ := List.mem_map.mp hy
    exact ⟨hneat z hz, (hc1 z hz).2⟩
  have hst' : ∀ y ∈ x.part :: d.map Sec.part, Part.Fine y ∧ y.stable = true := fun y hy => ⟨Part.decent_fine (hst y hy).1, (hst y hy).2⟩
  have htext : secsText .creole (secs head areas) = joinLines c!"\n" (Cr.docLines (partsDoc x.part (d.map Sec.part))) := by
    rw [hx, secsText, ← (back_secs d x hall).1, strip_bare (partsBack_bare _ _ hst'), (partsDoc_stable hst').1]
  obtain ⟨html, g1, g2⟩ := C63_unchanged_pre o macros x.part (d.map Sec.part) hblog hstrict hc2 hst (by rw [List.length_map]; exact hmany) hc3
  rw [← htext] at g1 g2
  exact ⟨_, html, C87_html2creole head areas hok hok' first l h hn hlen w w' hw hw', g1, g2⟩

/-- **C89**: what is lost.  A line `}}}` ends preformatted text in creole, and html2creole does not escape it. -/
theorem C89_lost_pre :
    Emit.html2creole c!"<pre>\na\n}}}\nb\n</pre>" = .ok c!"{{{\na\n}}}\nb\n}}}" ∧
    Creole.creole2html {} c!"{{{\na\n}}}\nb\n}}}" = .ok c!"<pre>\na\n</pre>\n<p>b<br />\n}}}</p>" := by decide +kernel

/-! ## A case that meets the conditions -/

example : ∃ x d, secs exPreHead exPreBlocks = x :: d ∧ ClearSecs x d ∧ (∀ y ∈ x :: d, y.part.decent = true) ∧ StandsForSecs exPreHtml exPreAreas exPreHead exPreBlocks := by
  refine ⟨_, _, rfl, ?_, ?_, rfl, rfl⟩
  · unfold ClearSecs
    decide +kernel
  · decide +kernel

example : Creole.creole2html {} c!"== T\n\n{{{\nif a < b:\n\n    c\n}}}\nx //y//\n\n{{{\nq\n}}}\n{{{\n  {{{ r }}}\n}}}\n----" =
    .ok c!"<h2>T</h2>\n\n<pre>\nif a &lt; b:\n\n    c\n</pre>\n<p>x <i>y</i></p>\n\n<pre>\nq\n</pre>\n<pre>\n  {{{ r }}}\n</pre>\n<hr />" := by
  decide +kernel

end Verif.Props
