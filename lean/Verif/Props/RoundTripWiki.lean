import Verif.Spec.RoundTripWiki
import Verif.Props.RoundTripPre

/-!
# C62, C63 with wiki style line breaks
-/

namespace Verif.Props

open Verif Py Html Emit Spec Spec.Hd Spec.Rt

theorem oneLineOf_html : ∀ ls : List (List Cr.Inl), Cr.paraHtml {} c!" " ls = Cr.htmls {} c!"<br />\n" (oneLineOf ls)
  | [] => rfl
  | [l] => rfl
  | l :: m :: ls => by
    rw [Cr.paraHtml, oneLineOf, Creole.htmls_append, Creole.htmls_append, oneLineOf_html (m :: ls)]
    congr 2
    split <;> rfl

theorem joinedBlock_html (b : Cr.Block) : b.html {} false = (joinedBlock b).html {} true := by
  cases b <;> try rfl
  case para ls =>
    rw [joinedBlock, Cr.Block.html, Cr.Block.html, Cr.paraHtml]
    simp only [Bool.false_eq_true, if_false]
    rw [oneLineOf_html]

theorem joinedBlock_gap (b : Cr.Block) (g : List Str) : Cr.gapHtml (joinedBlock b) g = Cr.gapHtml b g := by
  cases b <;> rfl

theorem joinedDoc_tail : ∀ (d : Cr.Doc) (b : Cr.Block), Cr.docTail {} false b d = Cr.docTail {} true (joinedBlock b) (joinedDoc d)
  | [], _ => rfl
  | (g, b') :: d, b => by
    rw [joinedDoc, List.map_cons, Cr.docTail, Cr.docTail, joinedBlock_gap, joinedBlock_html, joinedDoc_tail d b']
    rfl

theorem joinedDoc_notMac {d : Cr.Doc} (h : ∀ x ∈ joinedDoc d, x.2.notMac = true) : ∀ x ∈ d, x.2.notMac = true := by
  intro x hx
  have := h _ (List.mem_map_of_mem hx)
  dsimp only at this
  cases hb : x.2 <;> rw [hb] at this <;> first | rfl | exact this

/-- **C62** with wiki style line breaks.  creole2html, then html2creole: the text of the parts that the document stands for, where
the lines of a paragraph are one line. -/
theorem C62_wiki (o : Creole.Opts) (macros : Creole.Macros) (markup : Str) (g : List Str) (k : Cr.Block) (d : Cr.Doc)
    (p : Part) (ps : List Part) (trail : List Str) (hblog : o.blog = false) (hstrict : o.strict = false)
    (hok : Cr.docOk {} false ((g, k) :: d) = true) (htr : trail.all Cr.blank = true)
    (hl : textLines markup = Cr.docLines ((g, k) :: d) ++ trail) (hfor : PartsFor (joinedDoc ((g, k) :: d)) (p :: ps))
    (hdec : ∀ x ∈ p :: ps, x.decent = true) (hend : listsEnd (joinedBlock k) (joinedDoc d) = true) (hlen : ps.length < 10 ^ 4300) :
    ∃ html, Creole.creole2htmlM o macros markup = .ok (html, macros) ∧
      Emit.html2creole html = .ok (strip (joinLines c!"\n" (partsBack p ps))) := by
  have hcx : Cr.ReadWith o macros {} := by
    have := Cr.ReadWith.plain o macros
    rw [hstrict] at this
    exact this
  refine ⟨Cr.docBody {} false ((g, k) :: d), ?_, ?_⟩
  · have := Creole.creole2html_noMac (cx := {}) o macros markup ((g, k) :: d) trail (by rw [hblog]; exact hok) hcx htr hl
      (joinedDoc_notMac (partsFor_notMac _ _ hfor))
    rw [hblog] at this
    exact this
  · have hps := partsLaidOut_parts (joinedDoc d) ps (joinedBlock k) hfor.2
    have := C61_html2creole_pre p (partsLaidOut (joinedBlock k) (joinedDoc d) ps) (hdec p List.mem_cons_self) (fun x hx => by
        refine hdec _ (List.mem_cons_of_mem _ ?_)
        rw [← hps]
        exact List.mem_map_of_mem hx)
      (parts_apart (joinedDoc d) ps (joinedBlock k) p hfor.1 hfor.2 hend C57_between)
      (by rw [← List.length_map (f := (·.2)), hps]; exact hlen)
      (w := []) (w' := []) (by simp) (by simp)
    rw [List.nil_append, List.append_nil, parts_tail (joinedDoc d) ps (joinedBlock k) p hfor.1 hfor.2, hps] at this
    rw [Cr.docBody, joinedBlock_html, joinedDoc_tail]
    exact this

theorem joined_written {p : Part} (h : p.oneLine = true) : joinedBlock p.written = p.written := by
  cases p with
  | pre ls => rfl
  | block b =>
    cases b with
    | para ls =>
      match ls, h with
      | [l], _ => rfl
    | list k bs =>
      rw [Part.written, Rt.block]
      split <;> rfl
    | head n t => rfl
    | hr => rfl
    | table rows => rfl

theorem joined_rest : ∀ (ps : List Part) (p : Part), (∀ x ∈ ps, x.oneLine = true) → joinedDoc (restParts p ps) = restParts p ps
  | [], _, _ => rfl
  | q :: ps, p, h => by
    have := joined_rest ps q fun x hx => h x (List.mem_cons_of_mem _ hx)
    rw [joinedDoc] at this
    rw [restParts, joinedDoc, List.map_cons, this, joined_written (h q List.mem_cons_self)]

/-- **C63** with wiki style line breaks.  A creole text that is written in the way html2creole writes it comes back unchanged, if
every paragraph has one line. -/
theorem C63_wiki (o : Creole.Opts) (macros : Creole.Macros) (p : Part) (ps : List Part) (hblog : o.blog = false)
    (hstrict : o.strict = false) (hok : Cr.docOk {} false (partsDoc p ps) = true)
    (hp : ∀ x ∈ p :: ps, x.decent = true ∧ x.stable = true ∧ x.oneLine = true) (hlen : ps.length < 10 ^ 4300)
    (hl : ∀ l ∈ Cr.docLines (partsDoc p ps), ∀ c ∈ l, c ≠ '\r' ∧ c ≠ '\n') :
    ∃ html, Creole.creole2htmlM o macros (joinLines c!"\n" (Cr.docLines (partsDoc p ps))) = .ok (html, macros) ∧
      Emit.html2creole html = .ok (joinLines c!"\n" (Cr.docLines (partsDoc p ps))) := by
  have hf : ∀ x ∈ p :: ps, Part.Fine x ∧ x.stable = true := fun x hx => ⟨Part.decent_fine (hp x hx).1, (hp x hx).2.1⟩
  obtain ⟨h1, h2⟩ := partsDoc_stable (p := p) (d := ps) hf
  have hj := joined_rest ps p fun x hx => (hp x (List.mem_cons_of_mem _ hx)).2.2
  have hk := joined_written (hp p List.mem_cons_self).2.2
  obtain ⟨html, h4, h5⟩ := C62_wiki o macros (joinLines c!"\n" (Cr.docLines (partsDoc p ps))) [] p.written (restParts p ps) p ps []
    hblog hstrict hok rfl (by
      rw [List.append_nil]
      refine textLines_joinLines _ (.inl rfl) _ ?_ hl
      rw [h1]
      exact partsBack_ne ps p (hp p List.mem_cons_self).1) (by
      have : joinedDoc (([], p.written) :: restParts p ps) = ([], p.written) :: restParts p ps := by
        rw [joinedDoc, List.map_cons]
        dsimp only
        rw [hk]
        congr 1
      rw [this]
      exact h2) (fun x hx => (hp x hx).1) (by rw [hk, hj]; exact restParts_listsEnd ps p) hlen
  refine ⟨html, h4, ?_⟩
  rw [h5, strip_bare (partsBack_bare ps p hf), h1]

theorem docBody_wiki {p : Part} {ps : List Part} (h : ∀ x ∈ p :: ps, x.oneLine = true) :
    Cr.docBody {} false (partsDoc p ps) = Cr.docBody {} true (partsDoc p ps) := by
  rw [partsDoc, Cr.docBody, Cr.docBody, joinedBlock_html, joinedDoc_tail, joined_written (h p List.mem_cons_self),
    joined_rest ps p fun x hx => h x (List.mem_cons_of_mem _ hx)]

/-- **C64** with wiki style line breaks.  The round trip keeps the meaning, if no paragraph of the text that comes back has
several lines (that is, if no line breaks were forced). -/
theorem C64_wiki (o : Creole.Opts) (macros : Creole.Macros) (markup : Str) (g : List Str) (k : Cr.Block) (d : Cr.Doc)
    (p : Part) (ps : List Part) (trail : List Str) (hblog : o.blog = false) (hstrict : o.strict = false)
    (hok : Cr.docOk {} false ((g, k) :: d) = true) (htr : trail.all Cr.blank = true)
    (hl : textLines markup = Cr.docLines ((g, k) :: d) ++ trail) (hfor : PartsFor (joinedDoc ((g, k) :: d)) (p :: ps))
    (hdec : ∀ x ∈ p :: ps, x.decent = true ∧ x.norm.stable = true ∧ x.norm.oneLine = true)
    (hend : listsEnd (joinedBlock k) (joinedDoc d) = true) (hlen : ps.length < 10 ^ 4300)
    (hok' : Cr.docOk {} false (partsDoc p.norm (ps.map Part.norm)) = true)
    (hl' : ∀ l ∈ Cr.docLines (partsDoc p.norm (ps.map Part.norm)), ∀ c ∈ l, c ≠ '\r' ∧ c ≠ '\n') :
    ∃ html text html', Creole.creole2htmlM o macros markup = .ok (html, macros) ∧ Emit.html2creole html = .ok text ∧
      Creole.creole2htmlM o macros text = .ok (html', macros) ∧ SameBlocks html html' := by
  have hst : ∀ x ∈ p.norm :: ps.map Part.norm, Part.Fine x ∧ x.stable = true := by
    rw [← List.map_cons]
    intro x hx
    obtain ⟨y, hy, rfl⟩ := List.mem_map.mp hx
    exact ⟨Part.norm_fine (hdec y hy).1, (hdec y hy).2.1⟩
  have hone : ∀ x ∈ p.norm :: ps.map Part.norm, x.oneLine = true := by
    rw [← List.map_cons]
    intro x hx
    obtain ⟨y, hy, rfl⟩ := List.mem_map.mp hx
    exact (hdec y hy).2.2
  obtain ⟨h1, h2⟩ := partsDoc_stable (p := p.norm) (d := ps.map Part.norm) hst
  obtain ⟨html, h4, h5⟩ := C62_wiki o macros markup g k d p ps trail hblog hstrict hok htr hl hfor
    (fun x hx => (hdec x hx).1) hend hlen
  have hcx : Cr.ReadWith o macros {} := by
    have := Cr.ReadWith.plain o macros
    rw [hstrict] at this
    exact this
  have e1 := Creole.creole2html_noMac (cx := {}) o macros markup ((g, k) :: d) trail (by rw [hblog]; exact hok) hcx htr hl
    (joinedDoc_notMac (partsFor_notMac _ _ hfor))
  rw [← partsBack_norm, strip_bare (partsBack_bare _ _ hst), ← h1] at h5
  have hl2 : textLines (joinLines c!"\n" (Cr.docLines (partsDoc p.norm (ps.map Part.norm)))) =
      Cr.docLines (partsDoc p.norm (ps.map Part.norm)) ++ [] := by
    rw [List.append_nil]
    refine textLines_joinLines _ (.inl rfl) _ ?_ hl'
    rw [h1, partsBack_norm]
    exact partsBack_ne _ _ (hdec _ List.mem_cons_self).1
  have e2 := Creole.creole2html_noMac (cx := {}) o macros _ (partsDoc p.norm (ps.map Part.norm)) [] (by rw [hblog]; exact hok') hcx rfl hl2
    (partsFor_notMac _ _ h2)
  rw [hblog] at e1 e2
  refine ⟨_, _, _, e1, ?_, e2, ?_⟩
  · have : html = Cr.docBody {} false ((g, k) :: d) := congrArg Prod.fst (Except.ok.inj (h4.symm.trans e1))
    rw [← this]
    exact h5
  · rw [docBody_wiki hone, partsDoc, Cr.docBody, Cr.docBody, joinedBlock_html, joinedDoc_tail,
      ← parts_tail (joinedDoc d) ps (joinedBlock k) p hfor.1 hfor.2, ← parts_tail _ _ _ _ h2.1 h2.2]
    refine sameBlocks_parts ps p _ _ (partsLaidOut_parts (joinedDoc d) ps (joinedBlock k) hfor.2) (partsLaidOut_parts _ _ _ h2.2) ?_ ?_
    · exact partsLaidOut_gaps _ _ _
    · exact partsLaidOut_gaps _ _ _

/-- **C63** with wiki style line breaks: html2creole knows blog style line breaks only, so a line break is lost. -/
theorem C63_wiki_line_breaks :
    Creole.creole2html { blog := false } c!"a\\\\b" = .ok c!"<p>a<br />\nb</p>" ∧ Emit.html2creole c!"<p>a<br />\nb</p>" = .ok c!"a\nb" ∧
    Creole.creole2html { blog := false } c!"a\nb" = .ok c!"<p>a b</p>" := by decide +kernel

/-! ## Cases that meet the conditions -/

def exWikiParts : List Part := [
  .block (.para [(c!"a ").map .chr ++ [.face .strong ((c!"b").map .chr)]]), .block .hr,
  .block (.list .bullet [.mk [] ((c!"x").map .chr) .bullet [.mk c!"*" ((c!"y").map .chr) .number []]]), .block (.para [(c!"end").map .chr])]

example : Cr.docOk {} false (partsDoc (.block (.head 1 c!"T")) exWikiParts) = true ∧
    (∀ x ∈ Part.block (.head 1 c!"T") :: exWikiParts, x.decent = true ∧ x.stable = true ∧ x.oneLine = true) ∧
    (∀ l ∈ Cr.docLines (partsDoc (.block (.head 1 c!"T")) exWikiParts), ∀ c ∈ l, c ≠ '\r' ∧ c ≠ '\n') := by
  decide +kernel

/-- lines of a paragraph become one line -/
def exWikiDoc : Cr.Doc := [([], .para [(c!"a").map .chr, (c!"= b\\").map .chr, (c!"c").map .chr]), ([[]], .list ⟨[], .bullet, [.chr 'd']⟩ [])]

example : Cr.docOk {} false exWikiDoc = true ∧ Cr.docLines exWikiDoc = [c!"a", c!"= b\\", c!"c", c!"", c!"* d"] ∧
    partsBack (.block (.para [(c!"a = b\\c").map .chr])) [.block (.list .bullet [.mk [] [.chr 'd'] .bullet []])] = [c!"a = b\\c", c!"", c!"* d"] ∧
    PartsFor (joinedDoc exWikiDoc) [.block (.para [(c!"a = b\\c").map .chr]), .block (.list .bullet [.mk [] [.chr 'd'] .bullet []])] := by
  refine ⟨by decide +kernel, by decide +kernel, by decide +kernel, ⟨rfl, rfl⟩, ⟨rfl, rfl⟩, trivial⟩

/-- the same document meets the other conditions -/
example : (∀ x ∈ [Part.block (.para [(c!"a = b\\c").map .chr]), .block (.list .bullet [.mk [] [.chr 'd'] .bullet []])],
      x.decent = true ∧ x.norm.stable = true ∧ x.norm.oneLine = true) ∧
    Cr.docOk {} false (partsDoc (Part.block (.para [(c!"a = b\\c").map .chr])).norm
      [(Part.block (.list .bullet [.mk [] [.chr 'd'] .bullet []])).norm]) = true := by
  decide +kernel

end Verif.Props
