import Verif.Html.FineRead
import Verif.Props.Shown
import Verif.Props.Kept

/-!
# Structured documents: their text

What a reader sees of the HTML of a structured document, of its elements and of the tree it is parsed to is the same, apart
from blanks.
-/

namespace Verif.Html

open Verif Py Spec Spec.Hd Spec.Gr Spec.Sh

/-- a text without its blanks -/
def solidText (s : Str) : Str := s.filter fun c => !isSpace c

theorem solidText_append (a b : Str) : solidText (a ++ b) = solidText a ++ solidText b := List.filter_append ..

theorem solidText_blank {s : Str} (h : s.all isSpace = true) : solidText s = [] := by
  rw [solidText, List.filter_eq_nil_iff]
  intro c hc
  rw [List.all_eq_true] at h
  simp [h c hc]

theorem solidText_idem (s : Str) : solidText (solidText s) = solidText s := by simp [solidText, List.filter_filter]

theorem seenL_append (a b : List Ht) : seenL (a ++ b) = seenL a ++ seenL b := by
  induction a with
  | nil => rfl
  | cons x a ih => simp [seenL, ih]

theorem seen_chars (s : Str) : seenL (s.map fun c => .text [c]) = s := by
  induction s with
  | nil => rfl
  | cons c s ih => rw [List.map_cons, seenL, ih, seen]; rfl

mutual
theorem seen_solid : ∀ (x : Ht), seenL x.solid = solidText (seen x)
  | .text s => by rw [Ht.solid, seen_chars]; rfl
  | .white s => rfl
  | .el tag attrs ch => by rw [Ht.solid, seenL, seenL, List.append_nil, seen, seen, seenL_solid ch]
  | .void tag attrs => rfl
  | .bare tag attrs => rfl
theorem seenL_solid : ∀ (l : List Ht), seenL (solidL l) = solidText (seenL l)
  | [] => rfl
  | x :: xs => by rw [solidL, seenL_append, seen_solid x, seenL_solid xs, seenL, solidText_append]
end

mutual
theorem seen_asRead : ∀ (x : Ht), x.fits = true → solidText (seen x.asRead) = solidText (seen x)
  | .text s, _ => rfl
  | .white s, h => by rw [Ht.fits] at h; rw [Ht.asRead, seen, seen, solidText_blank h]; rfl
  | .el tag attrs ch, h => by
    rw [Ht.fits, Bool.and_eq_true] at h
    rw [Ht.asRead, seen, seen, seenL_asRead ch h.2]
  | .void tag attrs, _ => rfl
  | .bare tag attrs, _ => rfl
theorem seenL_asRead : ∀ (l : List Ht), fitsL l = true → solidText (seenL (asReadL l)) = solidText (seenL l)
  | [], _ => rfl
  | x :: xs, h => by
    rw [fitsL, Bool.and_eq_true] at h
    rw [asReadL, seenL, seenL, solidText_append, solidText_append, seen_asRead x h.1, seenL_asRead xs h.2]
end

/-- the text of the nodes of pieces -/
theorem shown_same {first l : List Ht} (h : SameSolid first l) (hf : fitsL first = true) (d : Int) :
    solidText (shownL (nodesL d (elsL (asReadL first)))) = solidText (seenL l) := by
  rw [Props.shown_elsL, seenL_asRead first hf, ← seenL_solid, h, seenL_solid]

/-! ## Preformatted text -/

theorem unref_textHtml (s : Str) : unref (Cr.textHtml s) = s := by
  have := Props.C31_deentity_escape s
  rw [Creole.htmlEscape_spec] at this
  exact (Props.C32_replaces_references _ _ this).symm

theorem textHtml_cons (c : Char) (s : Str) : Cr.textHtml (c :: s) = Cr.textChar c ++ Cr.textHtml s := by
  unfold Cr.textHtml
  rw [List.flatMap_cons]

theorem textHtml_blank_prefix : ∀ (w s t : Str), (∀ c ∈ w, isSpace c = true) → Cr.textHtml s = w ++ t → ∃ s', s = w ++ s' ∧ t = Cr.textHtml s'
  | [], s, t, _, h => ⟨s, rfl, h.symm⟩
  | c :: w, s, t, hw, h => by
    cases s with
    | nil => cases h
    | cons d s =>
      rw [textHtml_cons] at h
      have hd : c = d ∧ Cr.textChar d = [d] := by
        have hc := hw c (by simp)
        unfold Cr.textChar at h ⊢
        split at h
        · exact absurd ((List.cons.inj h).1 ▸ hc) (by decide)
        · split at h
          · exact absurd ((List.cons.inj h).1 ▸ hc) (by decide)
          · split at h
            · exact absurd ((List.cons.inj h).1 ▸ hc) (by decide)
            · rename_i a1 a2 a3
              rw [if_neg a1, if_neg a2, if_neg a3]
              exact ⟨(List.cons.inj h).1.symm, rfl⟩
      obtain ⟨rfl, e⟩ := hd
      rw [e] at h
      obtain ⟨s', h1, h2⟩ := textHtml_blank_prefix w s t (fun x hx => hw x (by simp [hx])) (List.cons.inj h).2
      exact ⟨s', by rw [h1]; rfl, h2⟩

/-- the text of the node of an area -/
theorem shown_pre {text : Str} (h : text.head? = some '\n') (line : Bool) : solidText (shown (preNode line text)) = solidText text := by
  unfold preNode
  cases line with
  | false =>
    rw [if_neg (by decide), shown, shownL]
    show solidText (unref (Cr.textHtml text) ++ []) = _
    rw [List.append_nil, unref_textHtml]
  | true =>
    rw [if_pos rfl, shown, shownL]
    show solidText (unref (unlead (Cr.textHtml text)) ++ []) = _
    have hh : (Cr.textHtml text).head? = some '\n' := by
      cases text with
      | nil => cases h
      | cons c text =>
        cases h
        rw [textHtml_cons]; rfl
    obtain ⟨w, h1, h2, _, _⟩ := unlead_split _ hh
    obtain ⟨s', h3, h4⟩ := textHtml_blank_prefix w text _ h1 h2
    rw [List.append_nil, h4, unref_textHtml, h3, solidText_append, solidText_blank (List.all_eq_true.2 h1)]
    rfl

theorem shown_areas {line : Bool} {l : List Pre} {nodes : List HNode} (h : ReadAs line l nodes) (hl : ∀ a ∈ l, a.text.head? = some '\n') :
    solidText (shownL nodes) = solidText (l.flatMap fun a => a.text ++ seenL a.after) := by
  induction h with
  | nil => rw [shownL]; rfl
  | cons line a l after nodes h1 h2 h3 ih =>
    rw [shownL, Props.shownL_append, solidText_append, solidText_append, shown_pre (hl a (by simp)), shown_same h1 h2,
      ih fun a ha => hl a (by simp [ha]), List.flatMap_cons, solidText_append, solidText_append, List.append_assoc]

theorem seen_divide : ∀ (l : List Ht), seenL l = seenL (divide l).1 ++ (divide l).2.flatMap fun a => a.text ++ seenL a.after
  | [] => rfl
  | x :: xs => by
    rw [seenL, divide, seen_divide xs]
    cases h : preText x with
    | none => simp only [seenL, List.append_assoc]
    | some s =>
      rw [preText_some h]
      simp [seenL, seen]

/-- the text of the tree of a structured document -/
theorem shown_structured {l first : List Ht} {nodes : List HNode} (hp : preLines l = true) (h1 : SameSolid first (divide l).1)
    (h2 : fitsL first = true) (h3 : ReadAs (firstLine (written (divide l).1)) (divide l).2 nodes) :
    solidText (shown (.mk { kind := c!"document" } (nodesL 0 (elsL (asReadL first)) ++ nodes))) = solidText (seenL l) := by
  rw [shown, Props.shownL_append, show own { kind := c!"document" } = [] from rfl, List.nil_append, solidText_append, shown_same h1 h2,
    shown_areas h3 fun a ha => ((divide_notPre l hp).2 a ha).1.1, seen_divide l, solidText_append]

/-! ## The text of the HTML -/

mutual
/-- all text, with white space -/
def full : Ht → Str
  | .text s => s
  | .white s => s
  | .el _ _ ch => fullL ch
  | .void _ _ => []
  | .bare _ _ => []
def fullL : List Ht → Str
  | [] => []
  | x :: xs => full x ++ fullL xs
end

theorem textHtml_append (a b : Str) : Cr.textHtml (a ++ b) = Cr.textHtml a ++ Cr.textHtml b := by
  unfold Cr.textHtml
  rw [List.flatMap_append]

theorem visible_text (s rest : Str) : Kp.visible .text (Cr.textHtml s ++ rest) = Cr.textHtml s ++ Kp.visible .text rest := by
  have h := textHtml_lt s
  generalize Cr.textHtml s = t at h
  induction t with
  | nil => rfl
  | cons c t ih =>
    simp only [List.mem_cons, not_or] at h
    rw [List.cons_append, Kp.visible, if_neg (fun e => h.1 e.symm), ih h.2]
    rfl

theorem visible_tag (s rest : Str) (h : ∀ c ∈ s, c ≠ '>' ∧ c ≠ '"') : Kp.visible .tag (s ++ '>' :: rest) = Kp.visible .text rest := by
  induction s with
  | nil => rw [List.nil_append, Kp.visible, if_pos rfl]
  | cons c s ih =>
    rw [List.cons_append, Kp.visible, if_neg (h c (by simp)).1, if_neg (h c (by simp)).2]
    exact ih fun x hx => h x (by simp [hx])

theorem inside_chars {c c' : Gr.Ctx} {tag : Str} {names : List Str} (h : Inside c tag names c') : ∀ x ∈ tag, x ≠ '>' ∧ x ≠ '"' ∧ x ≠ '<' := by
  cases h with
  | heading _ h =>
    obtain ⟨d, ds, rfl, h1, h2, h3⟩ := heading_digit h
    have hd : ∀ x : Char, x.isDigit = true → x ≠ '>' ∧ x ≠ '"' ∧ x ≠ '<' := by
      intro x hx
      refine ⟨?_, ?_, ?_⟩ <;> (rintro rfl; revert hx; decide)
    intro x hx
    simp only [List.mem_cons] at hx
    rcases hx with rfl | rfl | hx
    · decide
    · exact hd _ h1
    · exact hd _ (h3 _ hx)
  | list _ _ _ h => rcases h with rfl | rfl <;> decide
  | cell _ h => rcases h with rfl | rfl <;> decide
  | face _ _ _ h =>
    simp only [faces, List.mem_cons, List.not_mem_nil, or_false] at h
    rcases h with rfl | rfl | rfl | rfl | rfl | rfl | rfl | rfl <;> decide
  | _ => decide

mutual
theorem visible_piece : ∀ (x : Ht) (c : Gr.Ctx), fine c x = true → mediaFree x = true → ∀ rest : Str,
    Kp.visible .text (x.print ++ rest) = Cr.textHtml (full x) ++ Kp.visible .text rest
  | .text s, _, _, _, rest => by rw [Ht.print, full, visible_text]
  | .white s, _, h, _, rest => by
    rw [fine] at h
    have := visible_text s rest
    rw [Html.white_text h] at this
    rw [Ht.print, full, Html.white_text h, this]
  | .el tag attrs ch, c, h, hm, rest => by
    obtain ⟨c', h1, h2, h3⟩ := fine_el_inv h
    rw [mediaFree, Bool.and_eq_true] at hm
    have ha : attrs = [] := by
      generalize hn : attrs.map (·.1) = names at h1
      cases h1 with
      | link => exact absurd hm.1 (by decide)
      | _ => simpa using hn
    subst ha
    have hc := inside_chars h1
    have e : (Ht.el tag [] ch).print ++ rest = '<' :: (tag ++ '>' :: (written ch ++ '<' :: ('/' :: tag ++ '>' :: rest))) := by
      simp [Ht.print, tagStart]
    rw [e, Kp.visible, if_pos rfl, visible_tag tag _ fun x hx => ⟨(hc x hx).1, (hc x hx).2.1⟩, visible_pieces ch c' h3 hm.2, full,
      Kp.visible, if_pos rfl, visible_tag ('/' :: tag) rest]
    intro x hx
    rcases List.mem_cons.1 hx with rfl | hx
    · decide
    · exact ⟨(hc x hx).1, (hc x hx).2.1⟩
  | .void tag attrs, c, h, hm, rest => by
    rw [fine, Bool.and_eq_true] at h
    rw [mediaFree] at hm
    rcases single_cases h.1 with ⟨rfl, hn⟩ | ⟨rfl, hn⟩ | ⟨rfl, _⟩
    · rw [List.map_eq_nil_iff] at hn
      subst hn
      exact visible_tag c!"hr /" rest (by decide)
    · rw [List.map_eq_nil_iff] at hn
      subst hn
      exact visible_tag c!"br /" rest (by decide)
    · exact absurd hm (by decide)
  | .bare tag attrs, c, h, _, rest => by rw [fine] at h; cases h
theorem visible_pieces : ∀ (l : List Ht) (c : Gr.Ctx), fineL c l = true → mediaFreeL l = true → ∀ rest : Str,
    Kp.visible .text (written l ++ rest) = Cr.textHtml (fullL l) ++ Kp.visible .text rest
  | [], _, _, _, rest => rfl
  | x :: xs, c, h, hm, rest => by
    rw [fineL, Bool.and_eq_true] at h
    rw [mediaFreeL, Bool.and_eq_true] at hm
    rw [written, List.append_assoc, visible_piece x c h.1 hm.1, visible_pieces xs c h.2 hm.2, fullL, textHtml_append, List.append_assoc]
end

theorem decode_text (s : Str) : Kp.decode 0 (Cr.textHtml s) = s := by
  induction s with
  | nil => rfl
  | cons c s ih =>
    rw [textHtml_cons]
    unfold Cr.textChar
    split
    · subst c
      show Kp.decode 0 ('&' :: (c!"amp;" ++ Cr.textHtml s)) = _
      rw [Kp.decode, if_pos rfl, if_pos (List.prefix_append _ _)]
      show '&' :: Kp.decode 0 (Cr.textHtml s) = _
      rw [ih]
    · split
      · subst c
        show Kp.decode 0 ('&' :: (c!"lt;" ++ Cr.textHtml s)) = _
        rw [Kp.decode, if_pos rfl, if_neg (by simp), if_pos (List.prefix_append _ _)]
        show '<' :: Kp.decode 0 (Cr.textHtml s) = _
        rw [ih]
      · split
        · subst c
          show Kp.decode 0 ('&' :: (c!"gt;" ++ Cr.textHtml s)) = _
          rw [Kp.decode, if_pos rfl, if_neg (by simp), if_neg (by simp), if_pos (List.prefix_append _ _)]
          show '>' :: Kp.decode 0 (Cr.textHtml s) = _
          rw [ih]
        · rename_i h1 _ _
          show Kp.decode 0 (c :: Cr.textHtml s) = _
          rw [Kp.decode, if_neg h1, ih]

theorem reading_flat {l : List Ht} (hf : fineL .doc l = true) (hm : mediaFreeL l = true) : Kp.reading (written l) = fullL l := by
  have := visible_pieces l .doc hf hm []
  rw [List.append_nil, show Kp.visible .text [] = [] from rfl, List.append_nil] at this
  rw [Kp.reading, this, decode_text]

mutual
theorem flat_seen : ∀ (x : Ht) (c : Gr.Ctx), fine c x = true → solidText (full x) = solidText (seen x)
  | .text s, _, _ => rfl
  | .white s, _, h => by rw [fine] at h; rw [full, seen, solidText_blank h]; rfl
  | .el tag attrs ch, c, h => by
    obtain ⟨c', h1, h2, h3⟩ := fine_el_inv h
    rw [full, seen, flat_seenL ch c' h3]
  | .void tag attrs, _, _ => rfl
  | .bare tag attrs, _, _ => rfl
theorem flat_seenL : ∀ (l : List Ht) (c : Gr.Ctx), fineL c l = true → solidText (fullL l) = solidText (seenL l)
  | [], _, _ => rfl
  | x :: xs, c, h => by
    rw [fineL, Bool.and_eq_true] at h
    rw [fullL, seenL, solidText_append, solidText_append, flat_seen x c h.1, flat_seenL xs c h.2]
end

/-! ## Documents without links and pictures -/

theorem infix_mid {t a x b : Str} (h : t <:+: x) : t <:+: a ++ x ++ b := h.trans (List.infix_append a x b)

mutual
theorem media_piece : ∀ (x : Ht) (c : Gr.Ctx), fine c x = true → ¬ c!"<a href=" <:+: x.print → ¬ c!"<img src=" <:+: x.print → mediaFree x = true
  | .text s, _, _, _, _ => rfl
  | .white s, _, _, _, _ => rfl
  | .el tag attrs ch, c, h, ha, hi => by
    obtain ⟨c', h1, h2, h3⟩ := fine_el_inv h
    have hs : ∀ t : Str, t <:+: written ch → t <:+: (Ht.el tag attrs ch).print := by
      intro t ht
      have e : (Ht.el tag attrs ch).print = (tagStart tag attrs ++ c!">") ++ written ch ++ (c!"</" ++ tag ++ c!">") := by
        simp [Ht.print]
      rw [e]
      exact infix_mid ht
    rw [mediaFree, media_pieces ch c' h3 (fun e => ha (hs _ e)) (fun e => hi (hs _ e)), Bool.and_true]
    simp only [bne_iff_ne]
    rintro rfl
    generalize hn : attrs.map (·.1) = names at h1
    have : names = [c!"href"] := by
      cases h1 with
      | heading _ h => exact absurd h (by decide)
      | list _ _ _ h => exact absurd h (by decide)
      | cell _ h => exact absurd h (by decide)
      | face _ _ _ h => exact absurd h (by decide)
      | link => rfl
    subst this
    match attrs, hn with
    | [(n, v)], hn =>
      simp only [List.map_cons, List.map_nil, List.cons.injEq, and_true] at hn
      subst hn
      refine ha ⟨[], c!"\"" ++ (Cr.attrHtml v ++ c!"\">" ++ written ch ++ c!"</a>"), ?_⟩
      simp [Ht.print, tagStart, attrPrint]
  | .void tag attrs, c, h, ha, hi => by
    rw [fine, Bool.and_eq_true] at h
    rw [mediaFree]
    rcases single_cases h.1 with ⟨rfl, hn⟩ | ⟨rfl, hn⟩ | ⟨rfl, hn⟩
    · decide
    · decide
    · exfalso
      have : ∃ v rest, attrs = (c!"src", v) :: rest := by
        cases attrs with
        | nil => rcases hn with hn | hn <;> cases hn
        | cons a rest =>
          refine ⟨a.2, rest, ?_⟩
          have : a.1 = c!"src" := by rcases hn with hn | hn <;> exact (List.cons.inj hn).1
          rw [← this]
      obtain ⟨v, rest, rfl⟩ := this
      refine hi ⟨[], c!"\"" ++ (Cr.attrHtml v ++ c!"\"" ++ rest.flatMap attrPrint ++ c!" />"), ?_⟩
      simp [Ht.print, tagStart, attrPrint]
  | .bare tag attrs, c, h, _, _ => by rw [fine] at h; cases h
theorem media_pieces : ∀ (l : List Ht) (c : Gr.Ctx), fineL c l = true → ¬ c!"<a href=" <:+: written l → ¬ c!"<img src=" <:+: written l →
    mediaFreeL l = true
  | [], _, _, _, _ => rfl
  | x :: xs, c, h, ha, hi => by
    rw [fineL, Bool.and_eq_true] at h
    rw [written] at ha hi
    rw [mediaFreeL, media_piece x c h.1 (fun e => ha (e.trans (List.prefix_append _ _).isInfix)) (fun e => hi (e.trans (List.prefix_append _ _).isInfix)),
      media_pieces xs c h.2 (fun e => ha (e.trans (List.suffix_append _ _).isInfix)) (fun e => hi (e.trans (List.suffix_append _ _).isInfix))]
    rfl
end

end Verif.Html
