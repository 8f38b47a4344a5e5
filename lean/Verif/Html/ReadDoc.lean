import Verif.Html.StripMatch
import Verif.Props.HtmlParser
import Verif.Props.PreAreas

/-!
# Reading written HTML
-/

namespace Verif.Html

open Verif Py Spec Spec.Cr Spec.Hd

/-! ## The tags of a document -/

theorem textChar_clean (c : Char) : '<' ∉ textChar c ∧ '>' ∉ textChar c ∧ (c ≠ '\n' → '\n' ∉ textChar c) := by
  unfold textChar
  split
  · simp
  · split
    · simp
    · split
      · simp
      · simp only [List.mem_singleton]
        rename_i h1 h2 h3
        exact ⟨fun h => h2 h.symm, fun h => h3 h.symm, fun h h' => h h'.symm⟩

theorem attrHtml_clean {v : Str} : '<' ∉ attrHtml v ∧ '>' ∉ attrHtml v ∧ ('\n' ∉ v → '\n' ∉ attrHtml v) := by
  unfold attrHtml
  simp only [List.mem_flatMap, not_exists, not_and]
  refine ⟨fun c _ => ?_, fun c _ => ?_, fun h c hc => ?_⟩
  · split
    · decide
    · exact (textChar_clean c).1
  · split
    · decide
    · exact (textChar_clean c).2.1
  · split
    · decide
    · exact (textChar_clean c).2.2 (by rintro rfl; exact h hc)

/-- the attributes of a tag -/
theorem attrs_clean {as : List (Str × Str)} (h : as.all attrOk = true) :
    (∀ c ∈ as.flatMap attrPrint, c ≠ '>' ∧ c ≠ '\n' ∧ c ≠ '<') ∧
      (as.flatMap attrPrint = [] ∨ (as.flatMap attrPrint).head? = some ' ') ∧ (as.flatMap attrPrint).getLast? ≠ some '/' := by
  refine ⟨?_, ?_, ?_⟩
  · intro c hc
    rw [List.mem_flatMap] at hc
    obtain ⟨a, ha, hc⟩ := hc
    have := List.all_eq_true.1 h a ha
    simp only [attrOk, Bool.and_eq_true, Bool.not_eq_true'] at this
    obtain ⟨⟨⟨_, h1⟩, _⟩, h2⟩ := this
    have h2' : '\n' ∉ a.2 := by simpa using h2
    unfold attrPrint at hc
    simp only [List.cons_append, List.append_assoc, List.mem_cons, List.mem_append, List.not_mem_nil, or_false, false_or] at hc
    have hv := attrHtml_clean (v := a.2)
    rcases hc with rfl | hc | rfl | rfl | hc | rfl
    · decide
    · have := letter_all (P := fun c => decide (c ≠ '>' ∧ c ≠ '\n' ∧ c ≠ '<')) (by decide) (List.all_eq_true.1 h1 c hc)
      simpa using this
    · decide
    · decide
    · refine ⟨?_, ?_, ?_⟩
      · rintro rfl; exact hv.2.1 hc
      · rintro rfl; exact hv.2.2 h2' hc
      · rintro rfl; exact hv.1 hc
    · decide
  · cases as with
    | nil => left; rfl
    | cons a as => right; rfl
  · rcases List.eq_nil_or_concat as with rfl | ⟨as', a, rfl⟩
    · simp
    · rw [List.concat_eq_append, List.flatMap_append]
      simp only [List.flatMap_cons, List.flatMap_nil, List.append_nil]
      rw [show attrPrint a = (' ' :: a.1 ++ c!"=\"" ++ attrHtml a.2) ++ ['"'] from rfl, ← List.append_assoc, List.getLast?_concat]
      decide

theorem tag_name {tag : Str} (h : tagOk tag = true) :
    tag ≠ [] ∧ (∀ c ∈ tag, c ≠ ' ' ∧ c ≠ '>' ∧ c ≠ '\n') ∧ tag.head? ≠ some '/' ∧ '<' ∉ tag ∧ tag ≠ c!"pre" := by
  obtain ⟨c, w, rfl, h1, h2⟩ := tagOk_cons h
  refine ⟨by simp, ?_, ?_, ?_, ?_⟩
  · intro d hd
    have := nameChar_all (P := fun c => decide (c ≠ ' ' ∧ c ≠ '>' ∧ c ≠ '\n')) (by decide) (h2 d hd)
    simpa using this
  · have := letter_all (P := fun c => decide (c ≠ '/')) (by decide) h1
    simp only [decide_eq_true_eq] at this
    simpa using this
  · intro hc
    have := nameChar_all (P := fun c => decide (c ≠ '<')) (by decide) (h2 '<' hc)
    simp at this
  · simp only [tagOk, Bool.and_eq_true, bne_iff_ne] at h
    exact h.2

theorem parts_start {tag : Str} {as : List (Str × Str)} (ht : tagOk tag = true) (ha : as.all attrOk = true) :
    Parts (tagStart tag as ++ c!">") [] tag (as.flatMap attrPrint) [] := by
  obtain ⟨h1, h2, h3, h4, h5⟩ := tag_name ht
  obtain ⟨k1, k2, k3⟩ := attrs_clean ha
  refine ⟨by simp [tagStart], .inl rfl, .inl rfl, h1, h2, h3, fun c hc => ⟨(k1 c hc).1, (k1 c hc).2.1⟩, ?_, k3, ?_, h5⟩
  · rcases k2 with h | h
    · exact .inl ⟨h, rfl⟩
    · exact .inr h
  · simp only [List.mem_append, not_or]
    exact ⟨h4, fun hc => (k1 _ hc).2.2 rfl⟩

theorem parts_end {tag : Str} (ht : tagOk tag = true) : Parts (c!"</" ++ tag ++ c!">") ['/'] tag [] [] := by
  obtain ⟨h1, h2, h3, h4, h5⟩ := tag_name ht
  exact ⟨by simp, .inr rfl, .inl rfl, h1, h2, h3, by simp, .inl ⟨rfl, rfl⟩, by simp, by simpa using h4, h5⟩

theorem parts_void {tag : Str} {as : List (Str × Str)} (ht : tagOk tag = true) (ha : as.all attrOk = true) :
    Parts (tagStart tag as ++ c!" />") [] tag (as.flatMap attrPrint ++ [' ']) ['/'] := by
  obtain ⟨h1, h2, h3, h4, h5⟩ := tag_name ht
  obtain ⟨k1, k2, k3⟩ := attrs_clean ha
  refine ⟨by simp [tagStart], .inl rfl, .inr rfl, h1, h2, h3, ?_, ?_, ?_, ?_, h5⟩
  · intro c hc
    rcases List.mem_append.1 hc with hc | hc
    · exact ⟨(k1 c hc).1, (k1 c hc).2.1⟩
    · simp only [List.mem_singleton] at hc; subst hc; decide
  · rcases k2 with h | h
    · right; rw [h]; rfl
    · right; rw [List.head?_append, h]; rfl
  · rw [List.getLast?_concat]; decide
  · simp only [List.mem_append, List.mem_singleton, not_or]
    exact ⟨h4, fun hc => (k1 _ hc).2.2 rfl, by decide⟩

theorem bare_tag {tag : Str} (h : (tag == c!"br" || tag == c!"img") = true) : tagOk tag = true := by
  simp only [Bool.or_eq_true, beq_iff_eq] at h
  rcases h with rfl | rfl <;> decide

mutual
theorem bits_ok : ∀ (x : Ht), x.ok = true → ∀ b ∈ x.bits, bitOk b
  | .text s, _, b, hb => by
    simp only [Ht.bits, List.mem_map] at hb
    obtain ⟨c, _, rfl⟩ := hb
    trivial
  | .white s, h, b, hb => by
    simp only [Ht.bits, List.mem_singleton] at hb
    subst hb
    exact List.all_eq_true.1 (by simpa [Ht.ok] using h)
  | .el tag as ch, h, b, hb => by
    simp only [Ht.ok, Bool.and_eq_true] at h
    simp only [Ht.bits, List.mem_cons, List.mem_append, List.not_mem_nil, or_false] at hb
    rcases hb with rfl | hb | rfl
    · by_cases hbl : isBlock tag = true
      · rw [if_pos hbl]; exact .block (parts_start h.1.1 h.1.2) hbl
      · rw [if_neg hbl]; exact .opening (parts_start h.1.1 h.1.2) (by simpa using hbl)
    · exact bitsL_ok ch h.2 b hb
    · by_cases hbl : isBlock tag = true
      · rw [if_pos hbl]; exact .block (parts_end h.1.1) hbl
      · rw [if_neg hbl]; exact .closing (parts_end h.1.1) (by simpa using hbl)
  | .void tag as, h, b, hb => by
    simp only [Ht.ok, Bool.and_eq_true] at h
    simp only [Ht.bits, List.mem_singleton] at hb
    subst hb
    by_cases hbl : isBlock tag = true
    · rw [if_pos hbl]; exact .block (parts_void h.1 h.2) hbl
    · rw [if_neg hbl]; exact .single (parts_void h.1 h.2) (by simpa using hbl)
  | .bare tag as, h, b, hb => by
    simp only [Ht.ok, Bool.and_eq_true] at h
    simp only [Ht.bits, List.mem_singleton] at hb
    subst hb
    by_cases hbl : isBlock tag = true
    · rw [if_pos hbl]; exact .block (parts_start (bare_tag h.1) h.2) hbl
    · rw [if_neg hbl]; exact .opening (parts_start (bare_tag h.1) h.2) (by simpa using hbl)
theorem bitsL_ok : ∀ (l : List Ht), okL l = true → ∀ b ∈ bitsL l, bitOk b
  | [], _, b, hb => by simp [bitsL] at hb
  | x :: xs, h, b, hb => by
    simp only [okL, Bool.and_eq_true] at h
    simp only [bitsL, List.mem_append] at hb
    rcases hb with hb | hb
    · exact bits_ok x h.1 b hb
    · exact bitsL_ok xs h.2 b hb
end

mutual
theorem bits_text : ∀ (x : Ht), bitsText x.bits = x.print
  | .text s => by simp [bitsText, Ht.bits, Ht.print, textHtml, List.flatMap_map]; rfl
  | .white s => by simp [bitsText, Ht.bits, Ht.print, Bit.text]
  | .el tag as ch => by
    have := bitsL_text ch
    simp only [bitsText] at this
    simp [bitsText, Ht.bits, Ht.print, Bit.text, List.flatMap_append] at this ⊢
    rw [← this]
  | .void tag as => by simp [bitsText, Ht.bits, Ht.print, Bit.text]
  | .bare tag as => by simp [bitsText, Ht.bits, Ht.print, Bit.text]
theorem bitsL_text : ∀ (l : List Ht), bitsText (bitsL l) = written l
  | [] => rfl
  | x :: xs => by
    have h1 := bits_text x
    have h2 := bitsL_text xs
    simp only [bitsText] at h1 h2
    simp only [bitsText, bitsL, written, List.flatMap_append, h1, h2]
end

/-! ## The tokens of a document -/

/-- the start tags `<br>` and `<img>` do the same as `<br />` and `<img />` -/
def canon : Event → Event
  | .start tag as => if tag = c!"br" ∨ tag = c!"img" then .startend tag as else .start tag as
  | e => e

/-- the tokens of a text, with a slash in each `<br>` and `<img>` -/
def readEvs (s : Str) : List Event × Option PyErr := ((tokens s).1.map canon, (tokens s).2)

theorem readEvs_after {a b : Str} {es : List Event} (h : tokens a = after es (tokens b)) :
    readEvs a = after (es.map canon) (readEvs b) := by
  rw [readEvs, h, after, readEvs, after, List.map_append]

theorem handle_canon (bd : List Str) (s : PSt) (e : Event) : handle bd s (canon e) = handle bd s e := by
  cases e with
  | start tag as =>
    rw [canon]
    split
    · rename_i h
      rcases h with rfl | rfl <;> rfl
    · rfl
  | _ => rfl

theorem runEvents_canon (bd : List Str) (evs : List Event) (err : Option PyErr) :
    runEvents bd (evs.map canon) err = runEvents bd evs err := by
  have : ∀ (evs : List Event) (s : PSt), (evs.map canon).foldlM (handle bd) s = evs.foldlM (handle bd) s := by
    intro evs
    induction evs with
    | nil => intro s; rfl
    | cons e evs ih =>
      intro s
      rw [List.map_cons, List.foldlM_cons, List.foldlM_cons, handle_canon]
      simp only [ih]
  rw [runEvents, runEvents, this]

/-- what is read from the rest of a text, of which the elements `l` come first -/
def Reads (rest : Str) (l : List El) (k : List Event × Option PyErr) : Prop :=
  readEvs rest = after ((eventsL l).map canon) k ∧
    match l with
    | .text d :: l => ∃ r, rest = d ++ r ∧ d ≠ [] ∧ (∀ c ∈ d, c ≠ '<' ∧ c ≠ '&') ∧ atMarkup r = true ∧
        readEvs r = after ((eventsL l).map canon) k
    | _ => atMarkup rest = true

theorem Reads.chr {rest : Str} {l : List El} {k : List Event × Option PyErr} (h : Reads rest l k) (c : Char) :
    Reads (textChar c ++ rest) (addChar c l) k := by
  have ent : ∀ name : Str, name ≠ [] → (∀ c ∈ name, letter c = true) →
      Reads ('&' :: name ++ ';' :: rest) (.entity name :: l) k := by
    intro name h1 h2
    refine ⟨?_, rfl⟩
    rw [readEvs_after (tokens_entity h1 h2), h.1, after_after]
    rfl
  unfold textChar addChar entityOf
  by_cases h1 : c = '&'
  · simp only [h1, if_true]
    exact ent c!"amp" (by decide) (by decide)
  by_cases h2 : c = '<'
  · subst h2
    exact ent c!"lt" (by decide) (by decide)
  by_cases h3 : c = '>'
  · subst h3
    exact ent c!"gt" (by decide) (by decide)
  simp only [h1, h2, h3, if_false]
  -- an ordinary character
  have plain : atMarkup rest = true → Reads ([c] ++ rest) (.text [c] :: l) k := by
    intro hm
    refine ⟨?_, rest, rfl, by simp, ?_, hm, h.1⟩
    · rw [readEvs_after (tokens_data (by simp) (by simp [h1, h2]) hm), h.1, after_after]; rfl
    · simp [h1, h2]
  cases l with
  | nil => exact plain h.2
  | cons e l =>
    cases e with
    | text d =>
      obtain ⟨r, k1, k2, k3, k4, k5⟩ := h.2
      have hm : ∀ x ∈ c :: d, x ≠ '<' ∧ x ≠ '&' := by
        intro x hx
        simp only [List.mem_cons] at hx
        rcases hx with rfl | hx
        · exact ⟨h2, h1⟩
        · exact k3 x hx
      refine ⟨?_, r, by rw [k1]; rfl, by simp, hm, k4, k5⟩
      rw [k1, show [c] ++ (d ++ r) = (c :: d) ++ r from rfl, readEvs_after (tokens_data (by simp) hm k4), k5, after_after]
      rfl
    | charref n => exact plain h.2
    | entity n => exact plain h.2
    | void t a => exact plain h.2
    | elem t a ch => exact plain h.2
    | tbody ch => exact plain h.2

theorem Reads.nil {rest : Str} (h : atMarkup rest = true) : Reads rest [] (readEvs rest) := ⟨by simp [eventsL, after_nil], h⟩

mutual
/-- how a piece is written without white space -/
def solidPrint : Ht → Str
  | .text s => textHtml s
  | .white _ => []
  | .el tag attrs ch => tagStart tag attrs ++ c!">" ++ solidPrints ch ++ c!"</" ++ tag ++ c!">"
  | .void tag attrs => tagStart tag attrs ++ c!" />"
  | .bare tag attrs => tagStart tag attrs ++ c!">"
def solidPrints : List Ht → Str
  | [] => []
  | x :: xs => solidPrint x ++ solidPrints xs
end

theorem eventsL_cons (e : El) (l : List El) : eventsL (e :: l) = e.events ++ eventsL l := by simp [eventsL]

mutual
theorem reads_piece : ∀ (x : Ht), x.ok = true → ∀ {rest : Str} {l : List El} {k : List Event × Option PyErr}, Reads rest l k →
    Reads (solidPrint x ++ rest) (x.els l) k
  | .text s, _, rest, l, k, h => by
    simp only [solidPrint, Ht.els, textHtml]
    induction s with
    | nil => exact h
    | cons c s ih =>
      rw [List.flatMap_cons, List.append_assoc]
      exact (ih rfl).chr c
  | .white s, _, rest, l, k, h => by simpa [solidPrint, Ht.els] using h
  | .el tag as ch, hok, rest, l, k, h => by
    simp only [Ht.ok, Bool.and_eq_true] at hok
    have h1 : Reads (c!"</" ++ tag ++ '>' :: rest) [] (readEvs (c!"</" ++ tag ++ '>' :: rest)) := Reads.nil rfl
    have h2 := reads_pieces ch hok.2 h1
    have e : solidPrint (.el tag as ch) ++ rest =
        tagStart tag as ++ '>' :: (solidPrints ch ++ (c!"</" ++ tag ++ '>' :: rest)) := by simp [solidPrint]
    rw [e]
    have hm : atMarkup (tagStart tag as ++ '>' :: (solidPrints ch ++ (c!"</" ++ tag ++ '>' :: rest))) = true := rfl
    have ht : readEvs (tagStart tag as ++ '>' :: (solidPrints ch ++ (c!"</" ++ tag ++ '>' :: rest))) =
        after (([Event.start tag (evAttrs as)] ++ (eventsL (elsL ch) ++ ([Event.end_ tag] ++ eventsL l))).map canon) k := by
      rw [readEvs_after (tokens_start hok.1.1 hok.1.2), h2.1, readEvs_after (tokens_end hok.1.1), h.1]
      simp only [after_after, List.map_append]
    simp only [Ht.els]
    by_cases htb : tag = c!"tbody" ∧ as = []
    · simp only [htb, and_self, if_true]
      obtain ⟨rfl, rfl⟩ := htb
      refine ⟨?_, hm⟩
      rw [ht, eventsL_cons]
      simp [El.events, evAttrs]
    · simp only [htb, if_false]
      refine ⟨?_, hm⟩
      rw [ht, eventsL_cons]
      simp [El.events, evAttrs]
  | .void tag as, hok, rest, l, k, h => by
    simp only [Ht.ok, Bool.and_eq_true] at hok
    simp only [solidPrint, Ht.els]
    refine ⟨?_, rfl⟩
    rw [readEvs_after (tokens_void hok.1 hok.2), h.1, after_after, eventsL_cons]
    rfl
  | .bare tag as, hok, rest, l, k, h => by
    simp only [Ht.ok, Bool.and_eq_true] at hok
    simp only [solidPrint, Ht.els, List.append_assoc, List.singleton_append]
    refine ⟨?_, rfl⟩
    rw [readEvs_after (tokens_start (bare_tag hok.1) hok.2), h.1, after_after, eventsL_cons]
    have : canon (.start tag (evAttrs as)) = .startend tag (evAttrs as) := by
      rw [canon, if_pos]
      simpa using hok.1
    rw [List.map_singleton, this]
    rfl
theorem reads_pieces : ∀ (l : List Ht), okL l = true → ∀ {rest : Str} {k : List Event × Option PyErr}, Reads rest [] k →
    Reads (solidPrints l ++ rest) (elsL l) k
  | [], _, rest, k, h => by simpa [solidPrints, elsL] using h
  | x :: xs, hok, rest, k, h => by
    simp only [okL, Bool.and_eq_true] at hok
    simp only [solidPrints, elsL, List.append_assoc]
    exact reads_piece x hok.1 (reads_pieces xs hok.2 h)
end

/-- the tokens of a document -/
theorem tokens_doc {l : List Ht} (h : okL l = true) : readEvs (solidPrints l) = ((eventsL (elsL l)).map canon, none) := by
  have h0 : readEvs [] = ([], none) := by decide
  have := (reads_pieces l h (Reads.nil (rest := []) rfl)).1
  rw [h0] at this
  simpa [after] using this

/-- what the parser does with the tokens of a document -/
theorem run_doc (bd : List Str) {l : List Ht} (h : okL l = true) :
    runEvents bd (tokens (solidPrints l)).1 (tokens (solidPrints l)).2 = runEvents bd (eventsL (elsL l)) none := by
  have := tokens_doc h
  rw [readEvs, Prod.mk.injEq] at this
  rw [← runEvents_canon, this.1, this.2, runEvents_canon]

theorem clean_append (a b : List Bit) : clean (a ++ b) = clean a ++ clean b := by simp [clean]

mutual
theorem clean_bits : ∀ (x : Ht), bitsText (clean x.bits) = solidPrint x
  | .text s => by
    have : clean (s.map Bit.chr) = s.map Bit.chr := by
      unfold clean
      rw [List.filter_eq_self]
      intro b hb
      simp only [List.mem_map] at hb
      obtain ⟨c, _, rfl⟩ := hb
      rfl
    rw [Ht.bits, this]
    exact bits_text (.text s)
  | .white s => rfl
  | .el tag as ch => by
    have := clean_bitsL ch
    simp only [Ht.bits, solidPrint]
    rw [show ∀ (b : Bit) (l : List Bit), b :: l = [b] ++ l from fun _ _ => rfl, clean_append, clean_append]
    have h1 : ∀ k T, clean [Bit.tag k T] = [Bit.tag k T] := fun _ _ => rfl
    rw [h1, h1]
    simp only [bitsText, List.flatMap_append] at this ⊢
    rw [this]
    simp [Bit.text]
  | .void tag as => by simp [Ht.bits, clean, Bit.isWhite, bitsText, Bit.text, solidPrint]
  | .bare tag as => by simp [Ht.bits, clean, Bit.isWhite, bitsText, Bit.text, solidPrint]
theorem clean_bitsL : ∀ (l : List Ht), bitsText (clean (bitsL l)) = solidPrints l
  | [] => rfl
  | x :: xs => by
    have h1 := clean_bits x
    have h2 := clean_bitsL xs
    simp only [bitsText] at h1 h2
    simp only [bitsL, clean_append, bitsText, List.flatMap_append, h1, h2, solidPrints]
end

/-! ## No preformatted areas -/

theorem cutSegs_none {r : Re PG} (hr : r.nullable = false) : ∀ (s : Str) (p : Option Char) (bd : List Str),
    (∀ u t p, s = u ++ t → r.matchAt false p t = none) → cutSegs (r.scanAux p s 0) bd = (s, bd) := by
  intro s
  induction s with
  | nil => intro p bd _; rw [Re.scanAux_nil hr]; rfl
  | cons c s ih =>
    intro p bd h
    rw [Re.scanAux_skip (h [] _ p rfl), cutSegs, ih (some c) bd (fun u t p e => h (c :: u) t p (by rw [e]; rfl))]

/-- no `<pre>` in a text -/
def NoPre (s : Str) : Prop := ∀ u t, s ≠ u ++ (c!"<pre>" ++ t)

theorem NoPre.append {a b : Str} (ha : '<' ∉ a) (hb : NoPre b) : NoPre (a ++ b) := by
  induction a with
  | nil => exact hb
  | cons c a ih =>
    simp only [List.mem_cons, not_or] at ha
    intro u t h
    cases u with
    | nil =>
      simp only [List.nil_append, List.cons_append, List.cons.injEq] at h
      exact ha.1 h.1.symm
    | cons d u =>
      simp only [List.cons_append, List.cons.injEq] at h
      exact ih ha.2 u t h.2

/-- no tag of a document begins like `<pre>` -/
theorem tag_ne_pre {T e name m se : Str} (h : Parts T e name m se) (b t : Str) : T ++ b ≠ c!"<pre>" ++ t := by
  intro hu
  rw [h.text] at hu
  simp only [List.cons_append, List.nil_append, List.cons.injEq, true_and] at hu
  -- the name is followed by a blank or by `>`
  rcases h.he with rfl | rfl
  · have key : ∃ x r, m ++ se ++ ['>'] ++ b = x :: r ∧ (x = ' ' ∨ x = '>') := by
      rcases h.mhead with ⟨rfl, rfl⟩ | hm
      · exact ⟨'>', b, rfl, .inr rfl⟩
      · cases m with
        | nil => simp at hm
        | cons x m => simp at hm; subst hm; exact ⟨' ', _, rfl, .inl rfl⟩
    obtain ⟨x, r, hx, hx'⟩ := key
    have hu' : name ++ x :: r = c!"pre>" ++ t := by
      rw [← hx]; simpa using hu
    have hn := h.hname
    rcases name with _ | ⟨c1, _ | ⟨c2, _ | ⟨c3, _ | ⟨c4, n⟩⟩⟩⟩
    · exact h.name_ne rfl
    · simp only [List.cons_append, List.nil_append, List.cons.injEq] at hu'
      rcases hx' with rfl | rfl <;> simp at hu'
    · simp only [List.cons_append, List.nil_append, List.cons.injEq] at hu'
      rcases hx' with rfl | rfl <;> simp at hu'
    · simp only [List.cons_append, List.nil_append, List.cons.injEq] at hu'
      exact h.pre (by rw [hu'.1, hu'.2.1, hu'.2.2.1])
    · simp only [List.cons_append, List.nil_append, List.cons.injEq] at hu'
      exact (hn c4 (by simp)).2.1 hu'.2.2.2.1
  · simp at hu

/-- after the first character of a tag there is no other `<` -/
theorem tag_body {T e name m se : Str} (h : Parts T e name m se) : ∃ body, T = '<' :: body ∧ '<' ∉ body := by
  refine ⟨e ++ name ++ m ++ se ++ ['>'], by rw [h.text], ?_⟩
  have h1 : '<' ∉ e := by rcases h.he with rfl | rfl <;> decide
  have h2 : '<' ∉ se := by rcases h.hse with rfl | rfl <;> decide
  have h3 := h.nolt
  simp only [List.mem_append, not_or] at h3 ⊢
  exact ⟨⟨⟨⟨h1, h3.1⟩, h3.2⟩, h2⟩, by decide⟩

theorem NoPre.tag {T e name m se b : Str} (h : Parts T e name m se) (hb : NoPre b) : NoPre (T ++ b) := by
  obtain ⟨body, hT, hbody⟩ := tag_body h
  intro u t hu
  cases u with
  | cons d u =>
    rw [hT] at hu
    simp only [List.cons_append, List.cons.injEq] at hu
    exact NoPre.append hbody hb u t hu.2
  | nil => exact tag_ne_pre h b t hu

theorem noPre_bits : ∀ (l : List Bit), (∀ b ∈ l, bitOk b) → NoPre (bitsText l)
  | [], _ => by intro u t h; simp [bitsText] at h
  | x :: l, h => by
    have ih := noPre_bits l (fun b hb => h b (by simp [hb]))
    have e : bitsText (x :: l) = x.text ++ bitsText l := by simp [bitsText]
    rw [e]
    cases x with
    | chr c => exact NoPre.append (textChar_clean c).1 ih
    | white s =>
      refine NoPre.append ?_ ih
      intro hc
      have := (h (.white s) (by simp) : ∀ c ∈ s, isSpace c = true) '<' hc
      simp [isSpace] at this
    | tag k T =>
      obtain ⟨e, name, m, se, hp⟩ := TagOf.parts (h (.tag k T) (by simp))
      exact NoPre.tag hp ih
    | ref s => exact NoPre.append (fun hc => ((h (.ref s) (by simp) : s ≠ [] ∧ ∀ d ∈ s, isSpace d = false ∧ d ≠ '<').2 _ hc).2 rfl) ih

theorem blockRe_none {p : Option Char} {t : Str} (h : ∀ r, t ≠ c!"<pre>" ++ r) : blockRe.matchAt false p t = none := by
  cases hm : blockRe.matchAt false p t with
  | none => rfl
  | some st =>
    exfalso
    obtain ⟨w, content, ha, _⟩ := Props.block_some hm
    rw [Props.blockArea_iff] at ha
    obtain ⟨_, _, _, _, v, _, rfl⟩ := ha
    exact h (w ++ content ++ v) (by simp)

theorem inlineRe_none {p : Option Char} {t : Str} (h : ∀ r, t ≠ c!"<pre>" ++ r) : inlineRe.matchAt false p t = none := by
  cases hm : inlineRe.matchAt false p t with
  | none => rfl
  | some st =>
    exfalso
    obtain ⟨content, ha, _, _⟩ := Props.inline_some hm
    unfold InlineArea at ha
    exact h (content ++ c!"</pre>" ++ st.rest) (by rw [ha]; simp)

/-- The preprocessing of a document removes the white space that lays it out, and nothing else. -/
theorem preprocess_doc {l : List Ht} (h : neat l = true) : preprocess (written l) = (solidPrints l, []) := by
  simp only [neat, Bool.and_eq_true] at h
  have hok := bitsL_ok l h.1.1
  have hs := stripHtml_bits hok h.1.2 h.2
  have hst := strip_bits hok h.1.2 h.2
  have hn := noPre_bits _ hok
  rw [bitsL_text] at hs hst hn
  rw [clean_bitsL] at hs
  unfold preprocess Re.scan
  rw [hst]
  have hb : cutSegs (blockRe.scanAux none (written l) 0) [] = (written l, []) := by
    refine cutSegs_none (by decide) _ _ _ ?_
    intro u t p e
    exact blockRe_none (fun r hr => hn u r (by rw [e, hr]))
  have hi : cutSegs (inlineRe.scanAux none (written l) 0) [] = (written l, []) := by
    refine cutSegs_none (by decide) _ _ _ ?_
    intro u t p e
    exact inlineRe_none (fun r hr => hn u r (by rw [e, hr]))
  simp only [hb, hi, hs]

end Verif.Html
