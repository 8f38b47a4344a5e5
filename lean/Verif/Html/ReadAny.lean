import Verif.Html.StripAny
import Verif.Html.AttrQuote
import Verif.Html.ReadDoc

/-!
# Reading any written HTML
-/

namespace Verif.Html

open Verif Py Spec Spec.Cr Spec.Hd

/-! ## Tags with quotes in their attributes -/

theorem values_held : ∀ (as : List (Str × Str)), as.all attrLine = true →
    Values (as.map fun a => (a.1, attrHtml a.2)) (heldAttrs as) ∧ ∀ a ∈ as.map (fun a => (a.1, attrHtml a.2)), rawOk a = true
  | [], _ => ⟨.nil, by simp⟩
  | a :: as, h => by
    simp only [List.all_cons, Bool.and_eq_true] at h
    obtain ⟨h1, h2⟩ := values_held as h.2
    refine ⟨.cons ⟨rfl, unescape_held _⟩ h1, ?_⟩
    intro x hx
    simp only [List.map_cons, List.mem_cons] at hx
    rcases hx with rfl | hx
    · have := h.1
      simp only [attrLine, rawOk, Bool.and_eq_true, Bool.not_eq_true'] at this ⊢
      refine ⟨this.1, ?_⟩
      cases hh : (attrHtml a.2).contains '"' with
      | false => rfl
      | true =>
        exfalso
        have : '"' ∈ attrHtml a.2 := by simpa using hh
        simp only [attrHtml, List.mem_flatMap] at this
        obtain ⟨d, hd, hc⟩ := this
        split at hc
        · simp at hc
        · rename_i hq
          unfold textChar at hc
          split at hc
          · simp at hc
          · split at hc
            · simp at hc
            · split at hc
              · simp at hc
              · simp at hc; exact hq hc.symm
    · exact h2 x hx

theorem tokens_start' {tag rest : Str} {as : List (Str × Str)} (ht : tagOk tag = true) (has : as.all attrLine = true) :
    tokens (tagStart tag as ++ '>' :: rest) = after [.start tag (evAttrs (heldAttrs as))] (tokens rest) := by
  obtain ⟨h1, h2⟩ := values_held as has
  have := tokens_tag (void := false) (rest := rest) ht h2 h1
  rw [← tagStart_raw] at this
  simpa [closer, evAttrs] using this

theorem tokens_void' {tag rest : Str} {as : List (Str × Str)} (ht : tagOk tag = true) (has : as.all attrLine = true) :
    tokens (tagStart tag as ++ c!" />" ++ rest) = after [.startend tag (evAttrs (heldAttrs as))] (tokens rest) := by
  obtain ⟨h1, h2⟩ := values_held as has
  have := tokens_tag (void := true) (rest := rest) ht h2 h1
  rw [← tagStart_raw] at this
  simpa [closer, evAttrs] using this

theorem attrs_clean' {as : List (Str × Str)} (h : as.all attrLine = true) :
    (∀ c ∈ as.flatMap attrPrint, c ≠ '>' ∧ c ≠ '\n' ∧ c ≠ '<') ∧
      (as.flatMap attrPrint = [] ∨ (as.flatMap attrPrint).head? = some ' ') ∧ (as.flatMap attrPrint).getLast? ≠ some '/' := by
  refine ⟨?_, ?_, ?_⟩
  · intro c hc
    rw [List.mem_flatMap] at hc
    obtain ⟨a, ha, hc⟩ := hc
    have := List.all_eq_true.1 h a ha
    simp only [attrLine, Bool.and_eq_true, Bool.not_eq_true'] at this
    obtain ⟨⟨_, h1⟩, h2⟩ := this
    have h2' : '\n' ∉ a.2 := by simpa using h2
    unfold attrPrint at hc
    simp only [List.cons_append, List.append_assoc, List.mem_cons, List.mem_append, List.not_mem_nil, or_false, false_or] at hc
    have hv := attrHtml_clean (v := a.2)
    rcases hc with rfl | hc | rfl | rfl | hc | rfl
    · decide
    · have := letter_all (P := fun c => decide (c ≠ '>' ∧ c ≠ '\n' ∧ c ≠ '<')) (by decide) (List.all_eq_true.1 h1 c hc)
      simpa using this
    · decide
    · decide
    · refine ⟨?_, ?_, ?_⟩
      · rintro rfl; exact hv.2.1 hc
      · rintro rfl; exact hv.2.2 h2' hc
      · rintro rfl; exact hv.1 hc
    · decide
  · cases as with
    | nil => left; rfl
    | cons a as => right; rfl
  · rcases List.eq_nil_or_concat as with rfl | ⟨as', a, rfl⟩
    · simp
    · rw [List.concat_eq_append, List.flatMap_append]
      simp only [List.flatMap_cons, List.flatMap_nil, List.append_nil]
      rw [show attrPrint a = (' ' :: a.1 ++ c!"=\"" ++ attrHtml a.2) ++ ['"'] from rfl, ← List.append_assoc, List.getLast?_concat]
      decide

theorem parts_start' {tag : Str} {as : List (Str × Str)} (ht : tagOk tag = true) (ha : as.all attrLine = true) :
    Parts (tagStart tag as ++ c!">") [] tag (as.flatMap attrPrint) [] := by
  obtain ⟨h1, h2, h3, h4, h5⟩ := tag_name ht
  obtain ⟨k1, k2, k3⟩ := attrs_clean' ha
  refine ⟨by simp [tagStart], .inl rfl, .inl rfl, h1, h2, h3, fun c hc => ⟨(k1 c hc).1, (k1 c hc).2.1⟩, ?_, k3, ?_, h5⟩
  · rcases k2 with h | h
    · exact .inl ⟨h, rfl⟩
    · exact .inr h
  · simp only [List.mem_append, not_or]
    exact ⟨h4, fun hc => (k1 _ hc).2.2 rfl⟩

theorem parts_void' {tag : Str} {as : List (Str × Str)} (ht : tagOk tag = true) (ha : as.all attrLine = true) :
    Parts (tagStart tag as ++ c!" />") [] tag (as.flatMap attrPrint ++ [' ']) ['/'] := by
  obtain ⟨h1, h2, h3, h4, h5⟩ := tag_name ht
  obtain ⟨k1, k2, k3⟩ := attrs_clean' ha
  refine ⟨by simp [tagStart], .inl rfl, .inr rfl, h1, h2, h3, ?_, ?_, ?_, ?_, h5⟩
  · intro c hc
    rcases List.mem_append.1 hc with hc | hc
    · exact ⟨(k1 c hc).1, (k1 c hc).2.1⟩
    · simp only [List.mem_singleton] at hc; subst hc; decide
  · rcases k2 with h | h
    · right; rw [h]; rfl
    · right; rw [List.head?_append, h]; rfl
  · rw [List.getLast?_concat]; decide
  · simp only [List.mem_append, List.mem_singleton, not_or]
    exact ⟨h4, fun hc => (k1 _ hc).2.2 rfl, by decide⟩

/-! ## The sequence of a document -/

mutual
/-- a document as a sequence of characters and tags -/
def Ht.plainBits : Ht → List Bit
  | .text s => s.map .chr
  | .white s => s.map .chr
  | .el tag attrs ch =>
    .tag (if isBlock tag then .block else .opening) (tagStart tag attrs ++ c!">") ::
      (plainBitsL ch ++ [.tag (if isBlock tag then .block else .closing) (c!"</" ++ tag ++ c!">")])
  | .void tag attrs => [.tag (if isBlock tag then .block else .single) (tagStart tag attrs ++ c!" />")]
  | .bare tag attrs => [.tag (if isBlock tag then .block else .opening) (tagStart tag attrs ++ c!">")]
def plainBitsL : List Ht → List Bit
  | [] => []
  | x :: xs => Ht.plainBits x ++ plainBitsL xs
end

theorem plainBitsL_append (a b : List Ht) : plainBitsL (a ++ b) = plainBitsL a ++ plainBitsL b := by
  induction a with
  | nil => rfl
  | cons x a ih => simp [plainBitsL, ih]

theorem solidL_append (a b : List Ht) : solidL (a ++ b) = solidL a ++ solidL b := by
  induction a with
  | nil => rfl
  | cons x a ih => simp [solidL, ih]

theorem fitsL_append (a b : List Ht) : fitsL (a ++ b) = (fitsL a && fitsL b) := by
  induction a with
  | nil => rfl
  | cons x a ih => simp [fitsL, ih, Bool.and_assoc]

theorem written_append (a b : List Ht) : written (a ++ b) = written a ++ written b := by
  induction a with
  | nil => rfl
  | cons x a ih => simp [written, ih]

mutual
theorem plain_bits : ∀ (x : Ht), x.fits = true → ∀ b ∈ Ht.plainBits x, plainBit b
  | .text s, _, b, hb => by
    simp only [Ht.plainBits, List.mem_map] at hb
    obtain ⟨c, _, rfl⟩ := hb
    trivial
  | .white s, h, b, hb => by
    simp only [Ht.plainBits, List.mem_map] at hb
    obtain ⟨c, _, rfl⟩ := hb
    trivial
  | .el tag as ch, h, b, hb => by
    simp only [Ht.fits, Bool.and_eq_true] at h
    simp only [Ht.plainBits, List.mem_cons, List.mem_append, List.not_mem_nil, or_false] at hb
    rcases hb with rfl | hb | rfl
    · by_cases hbl : isBlock tag = true
      · rw [if_pos hbl]; exact .block (parts_start' h.1.1 h.1.2) hbl
      · rw [if_neg hbl]; exact .opening (parts_start' h.1.1 h.1.2) (by simpa using hbl)
    · exact plainBitsL_ok ch h.2 b hb
    · by_cases hbl : isBlock tag = true
      · rw [if_pos hbl]; exact .block (parts_end h.1.1) hbl
      · rw [if_neg hbl]; exact .closing (parts_end h.1.1) (by simpa using hbl)
  | .void tag as, h, b, hb => by
    simp only [Ht.fits, Bool.and_eq_true] at h
    simp only [Ht.plainBits, List.mem_singleton] at hb
    subst hb
    by_cases hbl : isBlock tag = true
    · rw [if_pos hbl]; exact .block (parts_void' h.1 h.2) hbl
    · rw [if_neg hbl]; exact .single (parts_void' h.1 h.2) (by simpa using hbl)
  | .bare tag as, h, b, hb => by
    simp only [Ht.fits, Bool.and_eq_true] at h
    simp only [Ht.plainBits, List.mem_singleton] at hb
    subst hb
    by_cases hbl : isBlock tag = true
    · rw [if_pos hbl]; exact .block (parts_start' (bare_tag h.1) h.2) hbl
    · rw [if_neg hbl]; exact .opening (parts_start' (bare_tag h.1) h.2) (by simpa using hbl)
theorem plainBitsL_ok : ∀ (l : List Ht), fitsL l = true → ∀ b ∈ plainBitsL l, plainBit b
  | [], _, b, hb => by simp [plainBitsL] at hb
  | x :: xs, h, b, hb => by
    simp only [fitsL, Bool.and_eq_true] at h
    simp only [plainBitsL, List.mem_append] at hb
    rcases hb with hb | hb
    · exact plain_bits x h.1 b hb
    · exact plainBitsL_ok xs h.2 b hb
end

mutual
theorem plain_text : ∀ (x : Ht), x.fits = true → bitsText (Ht.plainBits x) = x.print
  | .text s, _ => by simp [bitsText, Ht.plainBits, Ht.print, textHtml, List.flatMap_map]; rfl
  | .white s, h => by
    rw [Ht.plainBits, Ht.print]
    exact bitsText_space (List.all_eq_true.1 (by simpa [Ht.fits] using h))
  | .el tag as ch, h => by
    simp only [Ht.fits, Bool.and_eq_true] at h
    have := plainBitsL_text ch h.2
    simp only [bitsText] at this
    simp [bitsText, Ht.plainBits, Ht.print, Bit.text, List.flatMap_append] at this ⊢
    rw [← this]
  | .void tag as, _ => by simp [bitsText, Ht.plainBits, Ht.print, Bit.text]
  | .bare tag as, _ => by simp [bitsText, Ht.plainBits, Ht.print, Bit.text]
theorem plainBitsL_text : ∀ (l : List Ht), fitsL l = true → bitsText (plainBitsL l) = written l
  | [], _ => rfl
  | x :: xs, h => by
    simp only [fitsL, Bool.and_eq_true] at h
    rw [plainBitsL, bitsText_append, plain_text x h.1, plainBitsL_text xs h.2, written]
end

/-! ## From the sequence back to the document -/

theorem Alike.split {a b c : List Bit} (h : Alike (a ++ b) c) : ∃ a' b', c = a' ++ b' ∧ Alike a a' ∧ Alike b b' := by
  generalize hz : a ++ b = z at h
  induction h generalizing a with
  | nil =>
    obtain ⟨rfl, rfl⟩ := List.append_eq_nil_iff.1 hz
    exact ⟨[], [], rfl, .nil, .nil⟩
  | same x h ih =>
    cases a with
    | nil =>
      rw [List.nil_append] at hz; subst hz
      exact ⟨[], _, rfl, .nil, .same x h⟩
    | cons y a =>
      simp only [List.cons_append, List.cons.injEq] at hz
      obtain ⟨rfl, hz⟩ := hz
      obtain ⟨a', b', rfl, h1, h2⟩ := ih hz
      exact ⟨y :: a', b', rfl, .same y h1, h2⟩
  | drop hc h ih =>
    cases a with
    | nil =>
      rw [List.nil_append] at hz; subst hz
      exact ⟨[], _, rfl, .nil, .drop hc h⟩
    | cons y a =>
      simp only [List.cons_append, List.cons.injEq] at hz
      obtain ⟨rfl, hz⟩ := hz
      obtain ⟨a', b', rfl, h1, h2⟩ := ih hz
      exact ⟨a', b', rfl, .drop hc h1, h2⟩
  | add hc h ih =>
    obtain ⟨a', b', rfl, h1, h2⟩ := ih hz
    exact ⟨_ :: a', b', rfl, .add hc h1, h2⟩

/-- characters stay characters -/
theorem Alike.chars {s : Str} {b : List Bit} (h : Alike (s.map .chr) b) :
    ∃ t : Str, b = t.map .chr ∧ t.filter (fun c => !isSpace c) = s.filter fun c => !isSpace c := by
  generalize hz : s.map Bit.chr = z at h
  induction h generalizing s with
  | nil =>
    cases s with
    | nil => exact ⟨[], rfl, rfl⟩
    | cons c s => simp at hz
  | same x h ih =>
    cases s with
    | nil => simp at hz
    | cons c s =>
      simp only [List.map_cons, List.cons.injEq] at hz
      obtain ⟨rfl, hz⟩ := hz
      obtain ⟨t, rfl, ht⟩ := ih hz
      exact ⟨c :: t, rfl, by simp only [List.filter_cons, ht]⟩
  | drop hc h ih =>
    cases s with
    | nil => simp at hz
    | cons c s =>
      simp only [List.map_cons, List.cons.injEq, Bit.chr.injEq] at hz
      obtain ⟨rfl, hz⟩ := hz
      obtain ⟨t, rfl, ht⟩ := ih hz
      exact ⟨t, rfl, by rw [List.filter_cons, hc]; exact ht⟩
  | add hc h ih =>
    obtain ⟨t, rfl, ht⟩ := ih hz
    exact ⟨_ :: t, rfl, by rw [List.filter_cons, hc]; exact ht⟩

theorem Alike.empty {b : List Bit} (h : Alike [] b) : ∃ w : Str, b = w.map .chr ∧ w.filter (fun c => !isSpace c) = [] := by
  obtain ⟨t, h1, h2⟩ := Alike.chars (s := []) h
  exact ⟨t, h1, h2⟩

/-- a tag stays, perhaps with blanks around it -/
theorem Alike.tag {k : TagKind} {T : Str} {b : List Bit} (h : Alike [.tag k T] b) :
    ∃ v w : Str, b = v.map .chr ++ .tag k T :: w.map .chr ∧ v.filter (fun c => !isSpace c) = [] ∧
      w.filter (fun c => !isSpace c) = [] := by
  generalize hz : [Bit.tag k T] = z at h
  induction h with
  | nil => cases hz
  | same x h ih =>
    cases hz
    obtain ⟨w, rfl, hw⟩ := h.empty
    exact ⟨[], w, rfl, rfl, hw⟩
  | drop hc h ih => cases hz
  | add hc h ih =>
    obtain ⟨v, w, rfl, h1, h2⟩ := ih hz
    exact ⟨_ :: v, w, rfl, by rw [List.filter_cons, hc]; exact h1, h2⟩

/-- no white space that only lays out the document -/
def noWhite : Ht → Bool
  | .white _ => false
  | _ => true

theorem solid_blank {w : Str} (h : w.filter (fun c => !isSpace c) = []) : (Ht.text w).solid = [] := by rw [Ht.solid, h]; rfl

mutual
/-- a piece in which only white space was changed -/
theorem lift_piece : ∀ (x : Ht), x.fits = true → ∀ {b : List Bit}, Alike (Ht.plainBits x) b →
    ∃ l, plainBitsL l = b ∧ solidL l = x.solid ∧ fitsL l = true
  | .text s, _, b, h => by
    obtain ⟨t, rfl, ht⟩ := h.chars
    exact ⟨[.text t], by simp [plainBitsL, Ht.plainBits], by simp [solidL, Ht.solid, ht], rfl⟩
  | .white s, hf, b, h => by
    obtain ⟨t, rfl, ht⟩ := h.chars
    refine ⟨[.text t], by simp [plainBitsL, Ht.plainBits], ?_, rfl⟩
    have : s.filter (fun c => !isSpace c) = [] := by
      rw [List.filter_eq_nil_iff]
      intro c hc
      have := List.all_eq_true.1 (by simpa [Ht.fits] using hf) c hc
      simp [this]
    rw [this] at ht
    simp [solidL, Ht.solid, ht]
  | .el tag as ch, hf, b, h => by
    have hf' := hf
    simp only [Ht.fits, Bool.and_eq_true] at hf'
    rw [Ht.plainBits, ← List.singleton_append] at h
    obtain ⟨b1, b2, rfl, h1, h2⟩ := h.split
    obtain ⟨b3, b4, rfl, h3, h4⟩ := h2.split
    obtain ⟨v, w, rfl, hv, hw⟩ := h1.tag
    obtain ⟨v', w', rfl, hv', hw'⟩ := h4.tag
    obtain ⟨l, rfl, hl, hlf⟩ := lift_pieces ch hf'.2 h3
    refine ⟨[.text v, .el tag as (.text w :: l ++ [.text v']), .text w'], ?_, ?_, ?_⟩
    · simp [plainBitsL, Ht.plainBits, plainBitsL_append]
    · have e1 := solid_blank hv
      have e2 := solid_blank hw
      have e3 := solid_blank hv'
      have e4 := solid_blank hw'
      simp [solidL, e1, e4]
      simp [Ht.solid]
      rw [← List.cons_append, solidL_append]
      simp [solidL, e2, e3, hl]
    · simp only [fitsL, Ht.fits, hf'.1.1, hf'.1.2, List.cons_append, fitsL_append, hlf, Bool.and_self]
  | .void tag as, hf, b, h => by
    rw [Ht.plainBits] at h
    obtain ⟨v, w, rfl, hv, hw⟩ := h.tag
    refine ⟨[.text v, .void tag as, .text w], ?_, ?_, ?_⟩
    · simp [plainBitsL, Ht.plainBits]
    · simp [solidL, solid_blank hv, solid_blank hw]
    · simp only [Ht.fits] at hf
      simp [fitsL, Ht.fits, hf]
  | .bare tag as, hf, b, h => by
    rw [Ht.plainBits] at h
    obtain ⟨v, w, rfl, hv, hw⟩ := h.tag
    refine ⟨[.text v, .bare tag as, .text w], ?_, ?_, ?_⟩
    · simp [plainBitsL, Ht.plainBits]
    · simp [solidL, solid_blank hv, solid_blank hw]
    · simp only [Ht.fits] at hf
      simp [fitsL, Ht.fits, hf]
theorem lift_pieces : ∀ (l : List Ht), fitsL l = true → ∀ {b : List Bit}, Alike (plainBitsL l) b →
    ∃ l', plainBitsL l' = b ∧ solidL l' = solidL l ∧ fitsL l' = true
  | [], _, b, h => by
    obtain ⟨w, rfl, hw⟩ := h.empty
    exact ⟨[.text w], by simp [plainBitsL, Ht.plainBits], by simp [solidL, solid_blank hw], rfl⟩
  | x :: xs, hf, b, h => by
    simp only [fitsL, Bool.and_eq_true] at hf
    obtain ⟨b1, b2, rfl, h1, h2⟩ := h.split
    obtain ⟨l1, rfl, e1, f1⟩ := lift_piece x hf.1 h1
    obtain ⟨l2, rfl, e2, f2⟩ := lift_pieces xs hf.2 h2
    exact ⟨l1 ++ l2, plainBitsL_append l1 l2, by rw [solidL_append, e1, e2, solidL], by rw [fitsL_append, f1, f2]; rfl⟩
end

/-- `strip_html` on any written document -/
theorem stripHtml_written {l : List Ht} (h : fitsL l = true) :
    ∃ l', stripHtml (written l) = written l' ∧ solidL l' = solidL l ∧ fitsL l' = true := by
  obtain ⟨b, h1, h2⟩ := stripHtml_any (plainBitsL l) (plainBitsL_ok l h)
  obtain ⟨l', rfl, h3, h4⟩ := lift_pieces l h h1
  refine ⟨l', ?_, h3, h4⟩
  rw [← plainBitsL_text l h, h2, plainBitsL_text l' h4]

/-! ## Tokens -/

theorem evAttrs_nil {as : List (Str × Str)} : heldAttrs as = [] ↔ as = [] := by
  unfold heldAttrs
  exact List.map_eq_nil_iff

theorem reads_text (s : Str) {rest : Str} {l : List El} {k : List Event × Option PyErr} (h : Reads rest l k) :
    Reads (textHtml s ++ rest) (s.foldr addChar l) k := by
  unfold textHtml
  induction s with
  | nil => exact h
  | cons c s ih =>
    rw [List.flatMap_cons, List.append_assoc]
    exact ih.chr c

theorem white_text {s : Str} (h : s.all isSpace = true) : textHtml s = s := by
  have := bitsText_space (w := s) (List.all_eq_true.1 h)
  simpa [textHtml, bitsText, List.flatMap_map, Bit.text] using this

mutual
theorem reads_piece' : ∀ (x : Ht), x.fits = true → ∀ {rest : Str} {l : List El} {k : List Event × Option PyErr}, Reads rest l k →
    Reads (x.print ++ rest) ((x.asRead).els l) k
  | .text s, _, rest, l, k, h => by
    simp only [Ht.print, Ht.asRead, Ht.els]
    exact reads_text s h
  | .white s, hf, rest, l, k, h => by
    simp only [Ht.print, Ht.asRead, Ht.els]
    have := reads_text s h
    rwa [white_text (s := s) (by simpa [Ht.fits] using hf)] at this
  | .el tag as ch, hok, rest, l, k, h => by
    simp only [Ht.fits, Bool.and_eq_true] at hok
    have h1 : Reads (c!"</" ++ tag ++ '>' :: rest) [] (readEvs (c!"</" ++ tag ++ '>' :: rest)) := Reads.nil rfl
    have h2 := reads_pieces' ch hok.2 h1
    have e : (Ht.el tag as ch).print ++ rest =
        tagStart tag as ++ '>' :: (written ch ++ (c!"</" ++ tag ++ '>' :: rest)) := by simp [Ht.print]
    rw [e]
    have hm : atMarkup (tagStart tag as ++ '>' :: (written ch ++ (c!"</" ++ tag ++ '>' :: rest))) = true := rfl
    have ht : readEvs (tagStart tag as ++ '>' :: (written ch ++ (c!"</" ++ tag ++ '>' :: rest))) =
        after (([Event.start tag (evAttrs (heldAttrs as))] ++ (eventsL (elsL (asReadL ch)) ++ ([Event.end_ tag] ++ eventsL l))).map canon) k := by
      rw [readEvs_after (tokens_start' hok.1.1 hok.1.2), h2.1, readEvs_after (tokens_end hok.1.1), h.1]
      simp only [after_after, List.map_append]
    simp only [Ht.asRead, Ht.els]
    by_cases htb : tag = c!"tbody" ∧ as = []
    · obtain ⟨rfl, rfl⟩ := htb
      rw [if_pos ⟨rfl, rfl⟩]
      refine ⟨?_, hm⟩
      rw [ht, eventsL_cons]
      simp [El.events, evAttrs, heldAttrs]
    · rw [if_neg (by rw [evAttrs_nil]; exact htb)]
      refine ⟨?_, hm⟩
      rw [ht, eventsL_cons]
      simp [El.events, evAttrs]
  | .void tag as, hok, rest, l, k, h => by
    simp only [Ht.fits, Bool.and_eq_true] at hok
    simp only [Ht.print, Ht.asRead, Ht.els]
    refine ⟨?_, rfl⟩
    rw [readEvs_after (tokens_void' hok.1 hok.2), h.1, after_after, eventsL_cons]
    rfl
  | .bare tag as, hok, rest, l, k, h => by
    simp only [Ht.fits, Bool.and_eq_true] at hok
    simp only [Ht.print, Ht.asRead, Ht.els, List.append_assoc, List.singleton_append]
    refine ⟨?_, rfl⟩
    rw [readEvs_after (tokens_start' (bare_tag hok.1) hok.2), h.1, after_after, eventsL_cons]
    have : canon (.start tag (evAttrs (heldAttrs as))) = .startend tag (evAttrs (heldAttrs as)) := by
      rw [canon, if_pos]
      simpa using hok.1
    rw [List.map_singleton, this]
    rfl
theorem reads_pieces' : ∀ (l : List Ht), fitsL l = true → ∀ {rest : Str} {k : List Event × Option PyErr}, Reads rest [] k →
    Reads (written l ++ rest) (elsL (asReadL l)) k
  | [], _, rest, k, h => by simpa [written, asReadL, elsL] using h
  | x :: xs, hok, rest, k, h => by
    simp only [fitsL, Bool.and_eq_true] at hok
    simp only [written, asReadL, elsL, List.append_assoc]
    exact reads_piece' x hok.1 (reads_pieces' xs hok.2 h)
end

/-- what the parser does with the tokens of a document -/
theorem run_written (bd : List Str) {l : List Ht} (h : fitsL l = true) :
    runEvents bd (tokens (written l)).1 (tokens (written l)).2 = runEvents bd (eventsL (elsL (asReadL l))) none := by
  have h0 : readEvs [] = ([], none) := by decide
  have this := (reads_pieces' l h (Reads.nil (rest := []) rfl)).1
  rw [h0] at this
  have this : readEvs (written l) = ((eventsL (elsL (asReadL l))).map canon, none) := by simpa [after] using this
  rw [readEvs, Prod.mk.injEq] at this
  rw [← runEvents_canon, this.1, this.2, runEvents_canon]

/-! ## Nesting -/

mutual
/-- block elements are only used inside block elements -/
def Ht.nest (inBlock : Bool) : Ht → Bool
  | .text _ => true
  | .white _ => true
  | .el tag attrs ch =>
    if tag = c!"tbody" ∧ attrs = [] then nestL inBlock ch
    else tag ≠ c!"img" && tag ≠ c!"br" && tag ≠ c!"tbody" && (inBlock || !blockNames.contains tag) && nestL (stops (kindOf tag)) ch
  | .void tag _ => tag ≠ c!"blockdata" && tag ≠ c!"inlinedata"
  | .bare tag _ => tag ≠ c!"blockdata" && tag ≠ c!"inlinedata"
def nestL (inBlock : Bool) : List Ht → Bool
  | [] => true
  | x :: xs => Ht.nest inBlock x && nestL inBlock xs
end

theorem nestL_append (b : Bool) (l l' : List Ht) : nestL b (l ++ l') = (nestL b l && nestL b l') := by
  induction l with
  | nil => rfl
  | cons x l ih => simp [nestL, ih, Bool.and_assoc]

theorem wfL_addChar (b : Bool) (c : Char) (l : List El) : wfL b (addChar c l) = wfL b l := by
  unfold addChar
  split
  · simp [wfL, El.wf]
  · split <;> simp [wfL, El.wf]

theorem wfL_chars (b : Bool) (s : Str) (l : List El) : wfL b (s.foldr addChar l) = wfL b l := by
  induction s with
  | nil => rfl
  | cons c s ih => rw [List.foldr_cons, wfL_addChar, ih]

mutual
theorem wf_nest (b : Bool) : ∀ (x : Ht) (l : List El), wfL b (x.els l) = (Ht.nest b x && wfL b l)
  | .text s, l => by rw [Ht.els, wfL_chars, Ht.nest]; rfl
  | .white s, l => by rw [Ht.els, Ht.nest]; rfl
  | .el tag as ch, l => by
    rw [Ht.els, Ht.nest, wfL]
    by_cases h : tag = c!"tbody" ∧ as = []
    · rw [if_pos h, if_pos h, El.wf, wf_nestL]
    · rw [if_neg h, if_neg h, El.wf, wf_nestL]
  | .void tag as, l => by rw [Ht.els, Ht.nest, wfL, El.wf]
  | .bare tag as, l => by rw [Ht.els, Ht.nest, wfL, El.wf]
theorem wf_nestL (b : Bool) : ∀ (l : List Ht), wfL b (elsL l) = nestL b l
  | [] => rfl
  | x :: xs => by rw [elsL, wf_nest, wf_nestL, nestL]
end

theorem nestL_chars (b : Bool) (s : Str) : nestL b (s.map fun c => .text [c]) = true := by
  induction s with
  | nil => rfl
  | cons c s ih => rw [List.map_cons, nestL, ih]; rfl

mutual
theorem nest_solid (b : Bool) : ∀ (x : Ht), nestL b x.solid = Ht.nest b x
  | .text s => by rw [Ht.solid, nestL_chars]; rfl
  | .white s => rfl
  | .el tag as ch => by simp only [Ht.solid, nestL, Ht.nest, Bool.and_true, nestL_solid]
  | .void tag as => by simp [Ht.solid, nestL]
  | .bare tag as => by simp [Ht.solid, nestL]
theorem nestL_solid (b : Bool) : ∀ (l : List Ht), nestL b (solidL l) = nestL b l
  | [] => rfl
  | x :: xs => by rw [solidL, nestL_append, nest_solid, nestL_solid, nestL]
end

mutual
theorem nest_asRead (b : Bool) : ∀ (x : Ht), Ht.nest b x.asRead = Ht.nest b x
  | .text s => rfl
  | .white s => rfl
  | .el tag as ch => by simp only [Ht.asRead, Ht.nest, evAttrs_nil, nestL_asRead]
  | .void tag as => rfl
  | .bare tag as => rfl
theorem nestL_asRead (b : Bool) : ∀ (l : List Ht), nestL b (asReadL l) = nestL b l
  | [] => rfl
  | x :: xs => by rw [asReadL, nestL, nest_asRead, nestL_asRead, nestL]
end

/-! ## The whole preprocessing -/

theorem plain_bitOk {b : Bit} (h : plainBit b) : bitOk b := by
  cases b with
  | chr c => trivial
  | white s => exact absurd h id
  | ref s => exact absurd h id
  | tag k T => exact h

theorem noPre_written {l : List Ht} (h : fitsL l = true) : NoPre (written l) := by
  rw [← plainBitsL_text l h]
  exact noPre_bits _ fun b hb => plain_bitOk (plainBitsL_ok l h b hb)

theorem strip_written {l : List Ht} (h : fitsL l = true) :
    ∃ l', strip (written l) = written l' ∧ solidL l' = solidL l ∧ fitsL l' = true := by
  obtain ⟨b, h1, _, h2⟩ := strip_any (plainBitsL l) (plainBitsL_ok l h)
  obtain ⟨l', rfl, h3, h4⟩ := lift_pieces l h h1
  refine ⟨l', ?_, h3, h4⟩
  rw [← plainBitsL_text l h, h2, plainBitsL_text l' h4]

/-- The preprocessing of a document without preformatted text changes white space only. -/
theorem preprocess_any {l : List Ht} (h : fitsL l = true) :
    ∃ l', preprocess (written l) = (written l', []) ∧ solidL l' = solidL l ∧ fitsL l' = true := by
  obtain ⟨l1, e1, s1, f1⟩ := strip_written h
  obtain ⟨l2, e2, s2, f2⟩ := stripHtml_written f1
  have hn := noPre_written f1
  refine ⟨l2, ?_, s2.trans s1, f2⟩
  unfold preprocess Re.scan
  rw [e1]
  have hb : cutSegs (blockRe.scanAux none (written l1) 0) [] = (written l1, []) := by
    refine cutSegs_none (by decide) _ _ _ ?_
    intro u t p e
    exact blockRe_none (fun r hr => hn u r (by rw [e, hr]))
  have hi : cutSegs (inlineRe.scanAux none (written l1) 0) [] = (written l1, []) := by
    refine cutSegs_none (by decide) _ _ _ ?_
    intro u t p e
    exact inlineRe_none (fun r hr => hn u r (by rw [e, hr]))
  simp only [hb, hi, e2]

end Verif.Html
