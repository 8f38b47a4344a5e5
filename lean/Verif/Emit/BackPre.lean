import Verif.Emit.PartsRead
import Verif.Emit.BackNorm
import Verif.Props.Deentity

/-!
# html2creole on documents with preformatted text
-/

namespace Verif.Emit

open Verif Py Html Spec Spec.Hd Spec.Rt Props

/-! ## Preformatted text -/

theorem textHtml_flatMap (ls : List Str) : '\n' :: ls.flatMap (fun l => Cr.textHtml l ++ c!"\n") =
    Cr.textHtml ('\n' :: ls.flatMap (fun l => l ++ c!"\n")) := by
  have h : ls.flatMap (fun l => Cr.textHtml l ++ c!"\n") = Cr.textHtml (ls.flatMap (fun l => l ++ c!"\n")) := by
    induction ls with
    | nil => rfl
    | cons l ls ih =>
      rw [List.flatMap_cons, List.flatMap_cons, ih]
      unfold Cr.textHtml
      rw [List.flatMap_append, List.flatMap_append]
      rfl
  rw [h]
  unfold Cr.textHtml
  rw [List.flatMap_cons]
  rfl

/-- the text of an area is decoded to what was encoded -/
theorem area_decoded (ls : List Str) : replaceAll ('\n' :: ls.flatMap (fun l => Cr.textHtml l ++ c!"\n")) =
    .ok ('\n' :: ls.flatMap (fun l => l ++ c!"\n")) := by
  rw [textHtml_flatMap, ← Creole.htmlEscape_spec]
  exact Props.C31_deentity_escape _

theorem joinLines_ends (ls : List Str) (z : Str) : joinLines c!"\n" (ls ++ [z]) = ls.flatMap (fun l => l ++ c!"\n") ++ z := by
  induction ls with
  | nil => rfl
  | cons l ls ih =>
    rw [List.cons_append, List.flatMap_cons]
    cases h : ls ++ [z] with
    | nil => simp at h
    | cons a r => rw [joinLines, ← h, ih]; simp

def partText (start : Bool) : Part → Str
  | .block b => blockText start b
  | .pre ls => joinLines c!"\n" (Part.pre ls).back ++ c!"\n"

def Part.isHead : Part → Bool
  | .block b => Emit.isHead b
  | .pre _ => false

theorem part_emit {cfg : Cfg} (hc : Plain .transparent cfg) {p : Part} (h : p.decent = true) {s : ESt} (hs : s.innerList = []) (anc : List Str) :
    ∃ s', emitNodes cfg anc (Part.nodes p) s = .ok (partText (startNewline s.last) p, s') ∧
      s'.innerList = [] ∧ startNewline s'.last = Part.isHead p := by
  cases p with
  | block b =>
    simp only [Part.decent, Bool.and_eq_true] at h
    obtain ⟨e, s', h1, h2, h3, h4⟩ := block_emit hc h.1 (.inl rfl) hs anc
    refine ⟨s', ?_, h3, h4⟩
    rw [Part.nodes, elsL, elsL, h1, nodesL, nodesL, List.append_nil]
    exact h2
  | pre ls =>
    have hlast : ∀ c : Str, startNewline (enter { kind := c!"blockdata_pre", content := some ('\n' :: ls.flatMap (fun l => Cr.textHtml l ++ c!"\n")) } s).last =
        false := by
      intro c
      have : ('\n' :: ls.flatMap (fun l => Cr.textHtml l ++ c!"\n")).getLast? = some '\n' := by
        rcases List.eq_nil_or_concat ls with rfl | ⟨l, a, rfl⟩
        · rfl
        · rw [List.concat_eq_append, List.flatMap_append, List.flatMap_cons, List.flatMap_nil, List.append_nil, ← List.append_assoc,
            ← List.cons_append, List.getLast?_concat]
      simp only [enter, startNewline, this]
      simp
    refine ⟨enter { kind := c!"blockdata_pre", content := some ('\n' :: ls.flatMap (fun l => Cr.textHtml l ++ c!"\n")) } s, ?_, ?_, hlast []⟩
    · rw [Part.nodes]
      refine emitNodes_one ?_
      rw [Area.node, Area.content, emitNode_creole hc (m := .blockPre) rfl]
      simp only [runMeth, blockPreEmit, hc.lang]
      rw [bind_run]
      simp only [deentityM, area_decoded]
      simp only [partText, Part.back]
      have := joinLines_ends (c!"{{{" :: ls) c!"}}}"
      rw [List.cons_append] at this
      rw [this]
      simp [ofExcept, pure_run]
    · exact hs

/-! ## Documents -/

/-- what is emitted for a document -/
def partsText (start : Bool) (p : Part) : List Part → Str
  | [] => partText start p
  | p' :: d => partText start p ++ partsText (Part.isHead p) p' d

theorem parts_emit {cfg : Cfg} (hc : Plain .transparent cfg) (anc : List Str) : ∀ (d : List (Str × Part)) (p : Part), p.decent = true →
    (∀ x ∈ d, x.2.decent = true) → ∀ {s : ESt}, s.innerList = [] →
    ∃ s', emitNodes cfg anc (partsNodes p d) s = .ok (partsText (startNewline s.last) p (d.map (·.2)), s')
  | [], p, hp, _, s, hs => by
    obtain ⟨s1, h2, h3, h4⟩ := part_emit hc hp hs anc
    exact ⟨s1, by simpa [partsNodes, partsText] using h2⟩
  | (w, p') :: d, p, hp, hd, s, hs => by
    obtain ⟨s1, h2, h3, h4⟩ := part_emit hc hp hs anc
    obtain ⟨s2, h5⟩ := parts_emit hc anc d p' (hd (w, p') List.mem_cons_self) (fun x hx => hd x (List.mem_cons_of_mem _ hx)) h3
    refine ⟨s2, ?_⟩
    rw [h4] at h5
    exact emitNodes_append h2 h5

theorem Part.back_ne {p : Part} (h : p.decent = true) : p.back ≠ [] := by
  cases p with
  | block b => simp only [Part.decent, Bool.and_eq_true] at h; exact Emit.back_ne h.1
  | pre ls => simp [Part.back]

theorem partsBack_ne : ∀ (d : List Part) (p : Part), p.decent = true → partsBack p d ≠ []
  | [], p, h => by rw [partsBack]; exact Part.back_ne h
  | p' :: d, p, h => by
    rw [partsBack]
    simp [Part.back_ne h]

theorem partsText_lines : ∀ (d : List Part) (p : Part) (start : Bool), p.decent = true → (∀ x ∈ d, x.decent = true) →
    ∃ w, partsText start p d = (match p with | .block (.list _ _) => if start then c!"\n\n" else [] | _ => []) ++
      joinLines c!"\n" (partsBack p d) ++ w ∧ ∀ c ∈ w, c = '\n'
  | [], p, start, hp, _ => by
    rw [partsText, partsBack]
    cases p with
    | pre ls => exact ⟨c!"\n", by simp [partText], by simp⟩
    | block b =>
      cases b with
      | table rows => exact ⟨c!"\n", by simp [partText, blockText, Part.back, Rt.back], by simp⟩
      | list k bs => exact ⟨c!"\n\n", by simp [partText, blockText, Part.back], by simp⟩
      | para ls => exact ⟨c!"\n\n", by simp [partText, blockText, Part.back], by simp⟩
      | head n t => exact ⟨c!"\n\n", by simp [partText, blockText, Part.back], by simp⟩
      | hr => exact ⟨c!"\n\n", by simp [partText, blockText, Part.back], by simp⟩
  | p' :: d, p, start, hp, hd => by
    have hp' := hd p' List.mem_cons_self
    obtain ⟨w, h1, h2⟩ := partsText_lines d p' (Part.isHead p) hp' fun x hx => hd x (List.mem_cons_of_mem _ hx)
    refine ⟨w, ?_, h2⟩
    rw [partsText, partsBack, h1]
    have hne := partsBack_ne d p' hp'
    have hnb := Part.back_ne hp
    have hj : ∀ g, joinLines c!"\n" (p.back ++ g ++ partsBack p' d) =
        joinLines c!"\n" p.back ++ c!"\n" ++ joinLines c!"\n" (g ++ partsBack p' d) := by
      intro g
      rw [List.append_assoc, joinLines_append _ _ hnb (by simp [hne])]
    rw [hj]
    have h1' : joinLines c!"\n" ([[]] ++ partsBack p' d) = c!"\n" ++ joinLines c!"\n" (partsBack p' d) := by
      rw [joinLines_append _ _ (by simp) hne]; simp [joinLines]
    have h3' : joinLines c!"\n" ([[], [], []] ++ partsBack p' d) = c!"\n\n\n" ++ joinLines c!"\n" (partsBack p' d) := by
      rw [joinLines_append _ _ (by simp) hne]; simp [joinLines]
    cases p with
    | pre ls =>
      cases p' with
      | pre ls' => simp [partText, Part.gap]
      | block b' => cases b' <;> simp [partText, Part.gap, Part.isHead]
    | block b =>
      cases p' with
      | pre ls' => cases b <;> simp only [partText, blockText, Part.gap, Part.back, h1', List.nil_append] <;> simp [Rt.back]
      | block b' =>
        cases b <;> cases b' <;>
          simp only [partText, blockText, Part.gap, Rt.gap, Part.isHead, isHead, Part.back, h1', h3', List.nil_append] <;> simp [Rt.back]

/-- html2creole on the HTML of a document with preformatted text -/
theorem html2creole_parts {p : Part} {d : List (Str × Part)} (hp : p.decent = true) (hd : ∀ x ∈ d, x.2.decent = true)
    (ha : allApart p d = true) (hlen : d.length < 10 ^ 4300) {w w' : Str} (hw : ∀ c ∈ w, isSpace c = true)
    (hw' : ∀ c ∈ w', isSpace c = true) :
    Emit.html2creole (w ++ partsHtml p d ++ w') = .ok (strip (joinLines c!"\n" (partsBack p (d.map (·.2))))) := by
  have hpl : Plain .transparent { lang := .creole, policy := .transparent, strict := false } := ⟨rfl, rfl, rfl⟩
  obtain ⟨s, hs⟩ := parts_emit hpl [c!"document"] d p hp hd (s := enter { kind := c!"document" } {}) rfl
  rw [Emit.html2creole, convert, parse_parts hp hd ha hlen hw hw']
  show emit _ _ = _
  rw [emit_document hs (fun h => by cases h), if_neg (by simp)]
  obtain ⟨u, h1, h2⟩ := partsText_lines (d.map (·.2)) p (startNewline (enter { kind := c!"document" } {}).last) hp
    (fun x hx => by obtain ⟨y, hy, rfl⟩ := List.mem_map.mp hx; exact hd y hy)
  rw [h1]
  congr 1
  refine strip_pad ?_ (fun c hc => by rw [h2 c hc]; rfl) _
  intro c hc
  split at hc
  · split at hc
    · simp at hc; subst hc; rfl
    · cases hc
  · cases hc

/-! ## From creole -/

theorem part_html {b : Cr.Block} {r : Part} (h : PartFor b r) : r.html = b.html {} true := by
  cases r with
  | block r =>
    have h' : StandsFor b r := by cases b <;> exact h
    rw [Part.html, written_block h']
  | pre ls' =>
    cases b <;> first | exact h.elim | skip
    rw [PartFor] at h
    subst h
    simp [Part.html, Cr.Block.html, List.flatMap_map]

/-- the parts of a document with the layout between them -/
def partsLaidOut (b : Cr.Block) : Cr.Doc → List Part → List (Str × Part)
  | (g, b') :: d, r :: rs => (Cr.gapHtml b g, r) :: partsLaidOut b' d rs
  | _, _ => []

theorem partsLaidOut_parts : ∀ (d : Cr.Doc) (rs : List Part) (b : Cr.Block), PartsFor d rs → (partsLaidOut b d rs).map (·.2) = rs
  | [], [], _, _ => rfl
  | [], _ :: _, _, h => h.elim
  | _ :: _, [], _, h => h.elim
  | (g, b') :: d, r :: rs, b, h => by
    rw [partsLaidOut, List.map_cons, partsLaidOut_parts d rs b' h.2]

theorem parts_tail : ∀ (d : Cr.Doc) (rs : List Part) (b : Cr.Block) (r : Part), PartFor b r → PartsFor d rs →
    partsHtml r (partsLaidOut b d rs) = b.html {} true ++ Cr.docTail {} true b d
  | [], [], b, r, h, _ => by
    show partsHtml r [] = _
    rw [partsHtml, part_html h, Cr.docTail, List.append_nil]
  | [], _ :: _, _, _, _, h => h.elim
  | _ :: _, [], _, _, _, h => h.elim
  | (g, b') :: d, r' :: rs, b, r, h, h' => by
    rw [partsLaidOut, partsHtml, part_html h, Cr.docTail, parts_tail d rs b' r' h'.1 h'.2]
    simp

theorem partFor_notMac {b : Cr.Block} {r : Part} (h : PartFor b r) : b.notMac = true := by
  cases r with
  | pre ls => cases b <;> first | exact h.elim | rfl
  | block r => cases b <;> first | rfl | exact (by cases r <;> exact h.elim)

theorem partsFor_notMac : ∀ (d : Cr.Doc) (rs : List Part), PartsFor d rs → ∀ x ∈ d, x.2.notMac = true
  | [], _, _, x, hx => by cases hx
  | _ :: _, [], h, _, _ => h.elim
  | y :: d, r :: rs, h, x, hx => by
    rcases List.mem_cons.mp hx with rfl | hx
    · exact partFor_notMac h.1
    · exact partsFor_notMac d rs h.2 x hx

/-- the layout that creole2html gives -/
theorem gapHtml_last {b : Cr.Block} {g : List Str} (h : Cr.gapHtml b g ≠ []) : (Cr.gapHtml b g).getLast? = some '\n' := by
  unfold Cr.gapHtml at h ⊢
  split <;> split <;> simp_all <;> split <;> rfl

theorem parts_apart : ∀ (d : Cr.Doc) (rs : List Part) (b : Cr.Block) (r : Part), PartFor b r → PartsFor d rs →
    listsEnd b d = true → (∀ b g, ∀ c ∈ Cr.gapHtml b g, c = '\n') → allApart r (partsLaidOut b d rs) = true
  | [], [], _, _, _, _, _, _ => rfl
  | [], _ :: _, _, _, _, h, _, _ => h.elim
  | _ :: _, [], _, _, _, h, _, _ => h.elim
  | (g, b') :: d, r' :: rs, b, r, h, h', hl, hg => by
    unfold listsEnd at hl
    rw [Bool.and_eq_true] at hl
    rw [partsLaidOut, allApart, parts_apart d rs b' r' h'.1 h'.2 hl.2 hg, Bool.and_true]
    have hsp : (Cr.gapHtml b g).all isSpace = true := by
      rw [List.all_eq_true]
      intro c hc
      rw [hg b g c hc]; rfl
    have hne : (∀ i l, b ≠ .list i l) ∨ g ≠ [] → Cr.gapHtml b g ≠ [] := by
      intro h0
      have hm := partFor_notMac h
      unfold Cr.gapHtml
      split
      · split <;> simp
      · rcases h0 with h0 | h0
        · exact absurd rfl (h0 _ _)
        · rw [if_neg h0]; split <;> simp
      · simp [Cr.Block.notMac] at hm
      · split
        · simp
        · split <;> simp
    cases r with
    | block x =>
      cases r' with
      | block y => simpa [apart] using hsp
      | pre ls =>
        simp only [apart, hsp, Bool.true_and, beq_iff_eq]
        refine gapHtml_last (hne ?_)
        have hb' : ∃ ls, b' = .pre ls := by
          have := h'.1
          cases b' <;> first | exact this.elim | exact ⟨_, rfl⟩
        obtain ⟨ls', rfl⟩ := hb'
        by_cases hbl : ∃ i l, b = .list i l
        · obtain ⟨i, l, rfl⟩ := hbl
          right
          intro h0
          have := hl.1
          rw [h0] at this
          simp at this
        · exact .inl fun i l e => hbl ⟨i, l, e⟩
    | pre ls =>
      have hb : ∃ ls, b = .pre ls := by
        cases b <;> first | exact h.elim | exact ⟨_, rfl⟩
      obtain ⟨ls', rfl⟩ := hb
      have h1 := gapHtml_last (hne (.inl fun i l e => by cases e))
      cases r' with
      | block y =>
        simp only [apart, hsp, Bool.true_and]
        simpa using List.mem_of_getLast? h1
      | pre ls => simp only [apart, hsp, Bool.true_and, beq_iff_eq]; exact h1

/-! ## Documents that come back as they were written -/

/-- the condition on blocks, without the one on the layout of the HTML -/
def Part.Fine (p : Part) : Prop := ∀ b, p = .block b → b.decent = true

theorem Part.decent_fine {p : Part} (h : p.decent = true) : Part.Fine p := by
  rintro b rfl
  simp only [Part.decent, Bool.and_eq_true] at h
  exact h.1

theorem Part.norm_fine {p : Part} (h : p.decent = true) : Part.Fine p.norm := by
  cases p with
  | block b =>
    rintro b' hb
    cases hb
    exact (block_norm b).2.2 (Part.decent_fine h b rfl)
  | pre ls => intro b hb; cases hb

theorem part_stable {p : Part} (h : Part.Fine p) (hs : p.stable = true) : p.written.lines = p.back ∧ PartFor p.written p := by
  cases p with
  | block b =>
    obtain ⟨h1, h2, _⟩ := block_stable (h b rfl) hs
    refine ⟨h1, ?_⟩
    show PartFor b.block (.block b)
    cases hb : b.block <;> (rw [hb] at h2; exact h2)
  | pre ls =>
    refine ⟨rfl, ?_⟩
    simp only [Part.stable, List.all_eq_true, beq_iff_eq] at hs
    show ls = ls.map Cr.preLine
    exact (Eq.trans (List.map_congr_left hs) (List.map_id ls)).symm

theorem restParts_stable : ∀ (d : List Part) (p : Part), (∀ x ∈ d, Part.Fine x ∧ x.stable = true) →
    p.back ++ Cr.docLines (restParts p d) = partsBack p d ∧ PartsFor (restParts p d) d
  | [], p, _ => ⟨by simp [restParts, Cr.docLines, partsBack], trivial⟩
  | p' :: d, p, h => by
    obtain ⟨h1, h2⟩ := restParts_stable d p' fun x hx => h x (List.mem_cons_of_mem _ hx)
    obtain ⟨g1, g2⟩ := part_stable (h p' List.mem_cons_self).1 (h p' List.mem_cons_self).2
    rw [restParts, partsBack, Cr.docLines, g1, ← h1]
    exact ⟨by simp, g2, h2⟩

theorem partsDoc_stable {p : Part} {d : List Part} (h : ∀ x ∈ p :: d, Part.Fine x ∧ x.stable = true) :
    Cr.docLines (partsDoc p d) = partsBack p d ∧ PartsFor (partsDoc p d) (p :: d) := by
  obtain ⟨h1, h2⟩ := restParts_stable d p fun x hx => h x (List.mem_cons_of_mem _ hx)
  obtain ⟨g1, g2⟩ := part_stable (h p List.mem_cons_self).1 (h p List.mem_cons_self).2
  rw [partsDoc, Cr.docLines, g1, List.nil_append, h1]
  exact ⟨rfl, g2, h2⟩

/-- html2creole writes no preformatted text directly below a list -/
theorem restParts_listsEnd : ∀ (d : List Part) (p : Part), listsEnd p.written (restParts p d) = true
  | [], _ => rfl
  | p' :: d, p => by
    rw [restParts]
    unfold listsEnd
    rw [restParts_listsEnd d p', Bool.and_true]
    split
    · rename_i h1 h2
      cases p with
      | pre ls => cases h1
      | block b =>
        cases p' with
        | block b' =>
          cases b' <;> first | cases h2 | skip
          all_goals (simp only [Part.written, Rt.block] at h2; split at h2 <;> cases h2)
        | pre ls => cases b <;> first | rfl | cases h1
    · rfl

theorem part_bare {p : Part} (h : Part.Fine p) (hs : p.stable = true) : Bare p.back := by
  cases p with
  | block b => exact back_bare (h b rfl) hs
  | pre ls =>
    refine ⟨⟨'{', c!"{{", ls ++ [c!"}}}"], rfl, by decide⟩, c!"}}", '}', ?_, by decide⟩
    show (c!"{{{" :: (ls ++ [c!"}}}"])).getLast? = _
    rw [← List.cons_append, List.getLast?_concat]
    rfl

theorem partsBack_bare : ∀ (d : List Part) (p : Part), (∀ x ∈ p :: d, Part.Fine x ∧ x.stable = true) → Bare (partsBack p d)
  | [], p, h => by rw [partsBack]; exact part_bare (h p List.mem_cons_self).1 (h p List.mem_cons_self).2
  | p' :: d, p, h => by
    obtain ⟨⟨c, t, m, h1, h2⟩, _⟩ := part_bare (h p List.mem_cons_self).1 (h p List.mem_cons_self).2
    obtain ⟨_, x, z, h3, h4⟩ := partsBack_bare d p' fun x hx => h x (List.mem_cons_of_mem _ hx)
    rw [partsBack]
    refine ⟨⟨c, t, m ++ Part.gap p p' ++ partsBack p' d, by rw [h1]; simp, h2⟩, x, z, ?_, h4⟩
    rw [List.getLast?_append, h3]
    rfl

/-! ## The meaning -/

theorem part_norm (p : Part) : p.norm.back = p.back ∧ p.norm.html = p.html := by
  cases p with
  | block b => exact ⟨(block_norm b).1, (block_norm b).2.1⟩
  | pre ls => exact ⟨rfl, rfl⟩

theorem partGap_norm (p p' : Part) : Part.gap p.norm p'.norm = Part.gap p p' := by
  cases p with
  | pre ls => rfl
  | block b =>
    cases p' with
    | block b' => exact gap_norm b b'
    | pre ls => cases b <;> rfl

theorem partsBack_norm : ∀ (d : List Part) (p : Part), partsBack p.norm (d.map Part.norm) = partsBack p d
  | [], p => by rw [List.map_nil, partsBack, partsBack, (part_norm p).1]
  | p' :: d, p => by rw [List.map_cons, partsBack, partsBack, (part_norm p).1, partGap_norm, partsBack_norm d p']

/-- two documents of the same parts -/
theorem sameBlocks_parts : ∀ (ps : List Part) (p : Part) (d d' : List (Str × Part)), d.map (·.2) = ps → d'.map (·.2) = ps.map Part.norm →
    (∀ x ∈ d, ∀ c ∈ x.1, c = '\n') → (∀ x ∈ d', ∀ c ∈ x.1, c = '\n') → SameBlocks (partsHtml p d) (partsHtml p.norm d')
  | ps, p, [], [], _, _, _, _ => by
    refine ⟨p.html, [], by simp, ?_, ?_⟩
    · rw [partsHtml]; simp
    · rw [partsHtml, (part_norm p).2]; simp
  | ps, p, [], y :: d', h, h', _, _ => by subst h; simp at h'
  | ps, p, x :: d, [], h, h', _, _ => by subst h; simp at h'
  | ps, p, (w, r) :: d, (w', r') :: d', h, h', hd, hd' => by
    subst h
    rw [List.map_cons, List.map_cons, List.map_cons, List.cons.injEq] at h'
    obtain ⟨h1, h2⟩ := h'
    obtain ⟨first, rest, h3, h4, h5⟩ := sameBlocks_parts (d.map (·.2)) r d d' rfl h2 (fun x hx => hd x (List.mem_cons_of_mem _ hx))
      fun x hx => hd' x (List.mem_cons_of_mem _ hx)
    refine ⟨p.html, (w, w', first) :: rest, ?_, ?_, ?_⟩
    · intro x hx
      rcases List.mem_cons.mp hx with rfl | hx
      · exact ⟨hd _ List.mem_cons_self, hd' _ List.mem_cons_self⟩
      · exact h3 x hx
    · rw [partsHtml, h4]; simp
    · dsimp only at h1
      rw [partsHtml, h1, h5, (part_norm p).2]; simp

end Verif.Emit
