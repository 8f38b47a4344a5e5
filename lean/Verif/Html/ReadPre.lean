import Verif.Html.ReadDoc
import Verif.Spec.HtmlPre

/-!
# Reading written HTML with preformatted text
-/

namespace Verif.Html

open Verif Py Spec Spec.Cr Spec.Hd

/-! ## Where no area begins -/

/-- no `<pre>` begins in `x`, if `rest` follows -/
def Skips (x rest : Str) : Prop := ∀ u t r, x = u ++ t → t ≠ [] → t ++ rest ≠ c!"<pre>" ++ r

theorem Skips.nil (rest : Str) : Skips [] rest := by
  intro u t r h ht
  simp only [List.nil_eq, List.append_eq_nil_iff] at h
  exact absurd h.2 ht

theorem Skips.append {a b rest : Str} (ha : '<' ∉ a) (hb : Skips b rest) : Skips (a ++ b) rest := by
  induction a with
  | nil => exact hb
  | cons c a ih =>
    simp only [List.mem_cons, not_or] at ha
    intro u t r h ht
    cases u with
    | nil =>
      simp only [List.nil_append] at h
      rw [← h]
      simp only [List.cons_append, ne_eq, List.cons.injEq, not_and]
      intro e
      exact absurd e.symm ha.1
    | cons d u =>
      simp only [List.cons_append, List.cons.injEq] at h
      exact ih ha.2 u t r h.2 ht

theorem Skips.tag {T e name m se b rest : Str} (h : Parts T e name m se) (hb : Skips b rest) : Skips (T ++ b) rest := by
  obtain ⟨body, hT, hbody⟩ := tag_body h
  intro u t r hu ht
  cases u with
  | cons d u =>
    rw [hT] at hu
    simp only [List.cons_append, List.cons.injEq] at hu
    exact Skips.append hbody hb u t r hu.2 ht
  | nil =>
    simp only [List.nil_append] at hu
    rw [← hu, List.append_assoc]
    exact tag_ne_pre h _ r

theorem skips_bits : ∀ (l : List Bit) (rest : Str), (∀ b ∈ l, bitOk b) → Skips (bitsText l) rest
  | [], rest, _ => Skips.nil rest
  | x :: l, rest, h => by
    have ih := skips_bits l rest (fun b hb => h b (by simp [hb]))
    have e : bitsText (x :: l) = x.text ++ bitsText l := by simp [bitsText]
    rw [e]
    cases x with
    | chr c => exact Skips.append (textChar_clean c).1 ih
    | white s =>
      refine Skips.append ?_ ih
      intro hc
      have := (h (.white s) (by simp) : ∀ c ∈ s, isSpace c = true) '<' hc
      simp [isSpace] at this
    | tag k T =>
      obtain ⟨e, name, m, se, hp⟩ := TagOf.parts (h (.tag k T) (by simp))
      exact Skips.tag hp ih
    | ref s => exact Skips.append (fun hc => ((h (.ref s) (by simp) : s ≠ [] ∧ ∀ d ∈ s, isSpace d = false ∧ d ≠ '<').2 _ hc).2 rfl) ih

theorem skips_written {l : List Ht} (h : okL l = true) (rest : Str) : Skips (written l) rest := by
  rw [← bitsL_text]
  exact skips_bits _ rest (bitsL_ok l h)

theorem lastChar_cons (p : Option Char) (c : Char) (x : Str) : lastChar p (c :: x) = lastChar (some c) x := by
  cases x with
  | nil => rfl
  | cons d x =>
    unfold lastChar
    rw [List.getLast?_cons_cons]
    cases h : (d :: x).getLast? with
    | none => simp at h
    | some y => rfl

theorem cut_skip : ∀ (x rest : Str) (p : Option Char) (bd : List Str), Skips x rest →
    cutSegs (blockRe.scanAux p (x ++ rest) 0) bd =
      (x ++ (cutSegs (blockRe.scanAux (lastChar p x) rest 0) bd).1, (cutSegs (blockRe.scanAux (lastChar p x) rest 0) bd).2)
  | [], rest, p, bd, _ => rfl
  | c :: x, rest, p, bd, h => by
    have hm : blockRe.matchAt false p (c :: (x ++ rest)) = none :=
      blockRe_none (fun r => h [] (c :: x) r rfl (by simp))
    have ih := cut_skip x rest (some c) bd (fun u t r e => h (c :: u) t r (by rw [e]; rfl))
    rw [List.cons_append, Re.scanAux_skip hm, cutSegs, ih, lastChar_cons]
    rfl

/-! ## An area -/

theorem mem_firstLine {w x : Str} {c : Char} (h : c ∈ (w ++ '\n' :: x).takeWhile (· != '\n')) : c ∈ w := by
  induction w with
  | nil => simp at h
  | cons d w ih =>
    by_cases hd : d = '\n'
    · subst hd; simp at h
    · rw [List.cons_append, List.takeWhile_cons_of_pos (by simpa using hd)] at h
      simp only [List.mem_cons] at h ⊢
      rcases h with h | h
      · exact .inl h
      · exact .inr (ih h)

/-- two ways of splitting a text at the end of its blanks -/
theorem blank_split {w w' r r' : Str} (hw : Blank w) (hw' : Blank w') (hr : ∀ c, r.head? = some c → isSpace c = false)
    (hr' : ∀ c, r'.head? = some c → isSpace c = false) (h : w ++ r = w' ++ r') : r = r' := by
  induction w generalizing w' with
  | nil =>
    cases w' with
    | nil => exact h
    | cons c w' =>
      exfalso
      simp only [List.nil_append] at h
      have h1 := hr c (by rw [h]; rfl)
      rw [hw' c (by simp)] at h1
      simp at h1
  | cons c w ih =>
    cases w' with
    | nil =>
      exfalso
      simp only [List.nil_append] at h
      have h1 := hr' c (by rw [← h]; rfl)
      rw [hw c (by simp)] at h1
      simp at h1
    | cons d w' =>
      simp only [List.cons_append, List.cons.injEq] at h
      exact ih (fun x hx => hw x (by simp [hx])) (fun x hx => hw' x (by simp [hx])) h.2

/-- a text without `<` before the end tag of an area, compared to another text before an end tag -/
theorem pre_split {a b x y : Str} (ha : '<' ∉ a) (h : a ++ (c!"</pre>" ++ x) = b ++ (c!"</pre>" ++ y)) :
    a = b ∨ ∃ t, b = a ++ '<' :: t := by
  induction a generalizing b with
  | nil =>
    cases b with
    | nil => exact .inl rfl
    | cons c b =>
      simp only [List.nil_append, List.cons_append, List.cons.injEq] at h
      right
      exact ⟨b, by rw [← h.1]; rfl⟩
  | cons c a ih =>
    simp only [List.mem_cons, not_or] at ha
    cases b with
    | nil =>
      simp only [List.nil_append, List.cons_append, List.cons.injEq] at h
      exact absurd h.1.symm ha.1
    | cons d b =>
      simp only [List.cons_append, List.cons.injEq] at h
      rcases ih ha.2 h.2 with h1 | ⟨t, h1⟩
      · left; rw [h.1, h1]
      · right; exact ⟨t, by rw [h.1, h1]; rfl⟩

/-- a blank text in front of another one -/
theorem blank_prefix {w x a : Str} {t : Str} (hw : Blank w) (h : w ++ x = a ++ '<' :: t) : ∃ a', a = w ++ a' := by
  induction w generalizing a with
  | nil => exact ⟨a, rfl⟩
  | cons c w ih =>
    cases a with
    | nil =>
      exfalso
      simp only [List.cons_append, List.nil_append, List.cons.injEq] at h
      have := hw c (by simp)
      rw [h.1] at this
      simp [isSpace] at this
    | cons d a =>
      simp only [List.cons_append, List.cons.injEq] at h
      obtain ⟨a', rfl⟩ := ih (fun x hx => hw x (by simp [hx])) h.2
      exact ⟨a', by rw [h.1]; rfl⟩

/-- An area is found where it is written. -/
theorem match_area {p : Option Char} {C w R : Str} (hp : p = none ∨ p = some '\n') (hlt : '<' ∉ C) (hh : C.head? = some '\n')
    (hl : C.getLast? = some '\n') (hn : ∃ c ∈ (C.drop 1).takeWhile (· != '\n'), isSpace c = false)
    (hw : Blank w) (hnl : R = [] ∨ '\n' ∈ w) (hR : ∀ c, R.head? = some c → isSpace c = false) :
    ∃ st, blockRe.matchAt false p (c!"<pre>" ++ C ++ c!"</pre>" ++ w ++ R) = some st ∧ st.rest = R ∧
      st.caps = [(.pre_block, C)] := by
  obtain ⟨c0, hc0, hc0'⟩ := hn
  have hC : C = '\n' :: C.drop 1 := by
    cases C with
    | nil => simp at hh
    | cons c C => simp at hh; rw [hh]; rfl
  have hnb : ¬ Blank C := by
    intro hb
    have h1 := hb c0 (by rw [hC]; exact List.mem_cons_of_mem _ ((List.takeWhile_subset _) hc0))
    rw [hc0'] at h1
    simp at h1
  have hba : BlockArea p (c!"<pre>" ++ C ++ c!"</pre>" ++ w ++ R) [] C R :=
    ⟨hp, by intro c hc; simp at hc, hh, hl, w, hw, hnl, hR, by simp⟩
  cases hm : blockRe.matchAt false p (c!"<pre>" ++ C ++ c!"</pre>" ++ w ++ R) with
  | none => exact absurd hba (Props.block_none hm _ _ _)
  | some st =>
    refine ⟨st, rfl, ?_⟩
    obtain ⟨w1, C1, ⟨_, hw1, hh1, hl1, w1', hw1', hnl1, hR1, hs⟩, hcaps, _, hmin⟩ := Props.block_some hm
    have hs' : C ++ (c!"</pre>" ++ (w ++ R)) = (w1 ++ C1) ++ (c!"</pre>" ++ (w1' ++ st.rest)) := by
      have : c!"<pre>" ++ (C ++ (c!"</pre>" ++ (w ++ R))) = c!"<pre>" ++ ((w1 ++ C1) ++ (c!"</pre>" ++ (w1' ++ st.rest))) := by
        simpa using hs
      exact List.append_cancel_left this
    have hCC : C = w1 ++ C1 := by
      rcases pre_split hlt hs' with h | ⟨t, h⟩
      · exact h
      · exfalso
        obtain ⟨C', hC'⟩ := blank_prefix hw1 h
        have h1 : C1 = C' ++ '<' :: t := by
          rw [hC', List.append_assoc] at h
          exact List.append_cancel_left h
        have hne : C' ≠ [] := by
          rintro rfl
          rw [List.append_nil] at hC'
          exact hnb (hC' ▸ hw1)
        have := hmin C' R ⟨hp, hw1, (by
          rw [h1] at hh1
          cases C' with
          | nil => exact absurd rfl hne
          | cons c C' => exact hh1), (by
          rw [hC', List.getLast?_append] at hl
          cases hg : C'.getLast? with
          | none => simp at hg; exact absurd hg hne
          | some x => rw [hg] at hl; exact hl), w, hw, hnl, hR, by rw [hC']; simp⟩
        rw [h1] at this
        simp at this
        omega
    have hw0 : w1 = [] := by
      cases w1 with
      | nil => rfl
      | cons c w1 =>
        exfalso
        rw [hCC] at hc0
        simp only [List.cons_append, List.drop_succ_cons, List.drop_zero] at hc0
        have hC1 : C1 = '\n' :: C1.drop 1 := by
          cases C1 with
          | nil => simp at hh1
          | cons c C1 => simp at hh1; rw [hh1]; rfl
        rw [hC1] at hc0
        have := hw1 c0 (List.mem_cons_of_mem _ (mem_firstLine hc0))
        rw [hc0'] at this
        simp at this
    subst hw0
    simp only [List.nil_append] at hCC
    subst hCC
    refine ⟨?_, hcaps⟩
    simp only [List.nil_append] at hs'
    have h2 := List.append_cancel_left (List.append_cancel_left hs')
    exact (blank_split hw hw1' hR hR1 h2).symm

theorem cut_area {p : Option Char} {C w R : Str} (bd : List Str) (hp : p = none ∨ p = some '\n') (hlt : '<' ∉ C)
    (hh : C.head? = some '\n') (hl : C.getLast? = some '\n')
    (hn : ∃ c ∈ (C.drop 1).takeWhile (· != '\n'), isSpace c = false) (hw : Blank w) (hnl : R = [] ∨ '\n' ∈ w)
    (hR : ∀ c, R.head? = some c → isSpace c = false) :
    cutSegs (blockRe.scanAux p (c!"<pre>" ++ C ++ c!"</pre>" ++ w ++ R) 0) bd =
      (Props.placeholderTag blockPlaceholder bd.length ++
          (cutSegs (blockRe.scanAux ((c!"<pre>" ++ C ++ c!"</pre>" ++ w).getLast?) R 0) (bd ++ [C])).1,
        (cutSegs (blockRe.scanAux ((c!"<pre>" ++ C ++ c!"</pre>" ++ w).getLast?) R 0) (bd ++ [C])).2) := by
  obtain ⟨st, hm, hr, hc⟩ := match_area hp hlt hh hl hn hw hnl hR
  have hne : c!"<pre>" ++ C ++ c!"</pre>" ++ w ≠ [] := by simp
  generalize c!"<pre>" ++ C ++ c!"</pre>" ++ w = a at hm hne
  rw [← hr] at hm
  rw [← hr, Re.scanAux_take hne hm, cutSegs]
  have hcut : preCutOut bd ⟨a, st.caps⟩ = (Props.placeholderTag blockPlaceholder bd.length, bd ++ [C]) := by
    unfold preCutOut
    have e1 : (⟨a, st.caps⟩ : Match PG).get .pre_inline = none := by unfold Match.get; rw [hc]; rfl
    have e2 : (⟨a, st.caps⟩ : Match PG).get .pre_block = some C := by unfold Match.get; rw [hc]; rfl
    rw [e1, e2]
    exact Props.preCut_eq bd C blockPlaceholder
  rw [hcut]

/-! ## The areas of a document -/

/-- the tag that takes the place of an area -/
def place (n : Nat) : Ht := .void c!"blockdata" [(c!"type", c!"pre"), (c!"id", decimal n)]

/-- the document with places for its areas -/
def places (n : Nat) : List Area → List Ht
  | [] => []
  | a :: l => place n :: (a.after ++ places (n + 1) l)

theorem print_append (a b : List Ht) : written (a ++ b) = written a ++ written b := by
  induction a with
  | nil => rfl
  | cons x a ih => simp [written, ih]

theorem bits_append (a b : List Ht) : bitsL (a ++ b) = bitsL a ++ bitsL b := by
  induction a with
  | nil => rfl
  | cons x a ih => simp [bitsL, ih]

theorem ok_append (a b : List Ht) : okL (a ++ b) = (okL a && okL b) := by
  induction a with
  | nil => simp [okL]
  | cons x a ih => simp [okL, ih, Bool.and_assoc]

theorem digits_clean (n : Nat) : ∀ c ∈ decimal n, c.isDigit = true := natDigits_all n

theorem attrHtml_digits {s : Str} (h : ∀ c ∈ s, c.isDigit = true) : attrHtml s = s := by
  unfold attrHtml
  induction s with
  | nil => rfl
  | cons c s ih =>
    rw [List.flatMap_cons, ih (fun d hd => h d (by simp [hd]))]
    have hc := h c (by simp)
    have h1 : c ≠ '"' := by rintro rfl; simp at hc
    have h2 : c ≠ '&' := by rintro rfl; simp at hc
    have h3 : c ≠ '<' := by rintro rfl; simp at hc
    have h4 : c ≠ '>' := by rintro rfl; simp at hc
    simp [textChar, h1, h2, h3, h4]

theorem place_print (n : Nat) : (place n).print = Props.placeholderTag blockPlaceholder n := by
  have h : attrHtml (decimal n) = natDigits n := attrHtml_digits (digits_clean n)
  simp [place, Ht.print, tagStart, attrPrint, h, Props.placeholderTag, blockPlaceholder]
  rfl

theorem place_ok (n : Nat) : (place n).ok = true := by
  have h1 : (decimal n).contains '"' = false := by
    rw [Bool.eq_false_iff]
    intro h
    have := digits_clean n '"' (by simpa using h)
    simp at this
  have h2 : (decimal n).contains '\n' = false := by
    rw [Bool.eq_false_iff]
    intro h
    have := digits_clean n '\n' (by simpa using h)
    simp at this
  simp only [place, Ht.ok, List.all_cons, List.all_nil, attrOk, h1, h2]
  decide

theorem textHtml_clean (s : Str) : '<' ∉ textHtml s ∧ ('\n' ∉ s → '\n' ∉ textHtml s) := by
  unfold textHtml
  simp only [List.mem_flatMap, not_exists, not_and]
  exact ⟨fun c _ => (textChar_clean c).1, fun h c hc => (textChar_clean c).2.2 (by rintro rfl; exact h hc)⟩

theorem textChar_bare {c : Char} (h : isSpace c = false) : ∃ d ∈ textChar c, isSpace d = false := by
  unfold textChar
  split
  · exact ⟨'&', by simp, by decide⟩
  · split
    · exact ⟨'&', by simp, by decide⟩
    · split
      · exact ⟨'&', by simp, by decide⟩
      · exact ⟨c, by simp, h⟩

theorem takeWhile_line {x : Str} (h : '\n' ∉ x) (y : Str) : (x ++ '\n' :: y).takeWhile (· != '\n') = x := by
  induction x with
  | nil => simp
  | cons c x ih =>
    simp only [List.mem_cons, not_or] at h
    rw [List.cons_append, List.takeWhile_cons_of_pos (by simpa using fun e : c = '\n' => h.1 e.symm), ih h.2]

/-- the content of an area -/
theorem area_content {a : Area} (h : a.linesOk = true) : '<' ∉ a.content ∧ a.content.head? = some '\n' ∧
    a.content.getLast? = some '\n' ∧ ∃ c ∈ (a.content.drop 1).takeWhile (· != '\n'), isSpace c = false := by
  simp only [Area.linesOk, Bool.and_eq_true] at h
  obtain ⟨h1, h2⟩ := h
  refine ⟨?_, rfl, ?_, ?_⟩
  · simp only [Area.content, List.mem_cons, List.mem_flatMap, List.mem_append, not_or, not_exists, not_and]
    exact ⟨by decide, fun l _ => ⟨(textHtml_clean l).1, by decide⟩⟩
  · unfold Area.content
    rcases List.eq_nil_or_concat a.lines with he | ⟨ls, l, he⟩
    · rw [he]; rfl
    · rw [he, List.concat_eq_append, List.flatMap_append]
      simp only [List.flatMap_cons, List.flatMap_nil, List.append_nil]
      rw [← List.append_assoc, ← List.cons_append, List.getLast?_concat]
  · cases hl : a.lines with
    | nil => rw [hl] at h1; simp at h1
    | cons l ls =>
      rw [hl] at h1 h2
      simp only [List.head?_cons, Option.any_some, Bool.not_eq_true', List.all_eq_false] at h1
      obtain ⟨c, hc, hcs⟩ := h1
      have hnl : '\n' ∉ l := by simpa using (List.all_eq_true.1 h2 l (by simp))
      obtain ⟨d, hd, hds⟩ := textChar_bare (by simpa using hcs)
      refine ⟨d, ?_, hds⟩
      unfold Area.content
      rw [hl]
      simp only [List.drop_succ_cons, List.drop_zero, List.flatMap_cons]
      rw [List.append_assoc, show c!"\n" ++ _ = '\n' :: _ from rfl, takeWhile_line ((textHtml_clean l).2 hnl)]
      unfold textHtml
      exact List.mem_flatMap.2 ⟨c, hc, hd⟩

theorem bareHead_iff {s : Str} (h : bareHead s = true) : ∀ c, s.head? = some c → isSpace c = false := by
  intro c hc
  rw [bareHead, hc] at h
  simpa using h

theorem lineBreak_iff {s : Str} (h : lineBreak s = true) : Blank s ∧ '\n' ∈ s := by
  simp only [lineBreak, Bool.and_eq_true] at h
  exact ⟨List.all_eq_true.1 h.1, by simpa using h.2⟩

theorem places_cons (n : Nat) (a : Area) (l : List Area) :
    written (places n (a :: l)) = Props.placeholderTag blockPlaceholder n ++ (written a.after ++ written (places (n + 1) l)) := by
  rw [places, written, print_append, place_print]

theorem cut_areas : ∀ (l : List Area) (p : Option Char) (bd : List Str), (l = [] ∨ p = none ∨ p = some '\n') → areasOk l = true →
    (∀ a ∈ l, okL a.after = true) →
    cutSegs (blockRe.scanAux p (areasWritten l) 0) bd = (written (places bd.length l), bd ++ l.map Area.content)
  | [], p, bd, _, _, _ => by
    rw [areasWritten, Re.scanAux_nil (by decide)]
    simp [cutSegs, places, written]
  | [a], p, bd, hp, ho, hk => by
    simp only [areasOk, Bool.and_eq_true] at ho
    obtain ⟨h1, h2, h3, h4⟩ := area_content ho.1
    have hok : okL a.after = true := hk a (by simp)
    have hwR : Blank a.white ∧ (written a.after = [] ∨ '\n' ∈ a.white) ∧
        ∀ c, (written a.after).head? = some c → isSpace c = false := by
      have ho2 := ho.2
      by_cases he : written a.after = []
      · rw [he] at ho2 ⊢
        simp only [List.isEmpty_nil, if_true, List.isEmpty_iff] at ho2
        rw [ho2]
        exact ⟨by intro c hc; simp at hc, .inl rfl, by simp⟩
      · rw [if_neg (by simpa using he), Bool.and_eq_true] at ho2
        exact ⟨(lineBreak_iff ho2.1).1, .inr (lineBreak_iff ho2.1).2, bareHead_iff ho2.2⟩
    have e : areasWritten [a] = c!"<pre>" ++ a.content ++ c!"</pre>" ++ a.white ++ written a.after := by
      simp [areasWritten, Area.print]
    have hp' : p = none ∨ p = some '\n' := hp.resolve_left (by simp)
    rw [e, cut_area bd hp' h1 h2 h3 h4 hwR.1 hwR.2.1 hwR.2.2]
    have hsk := cut_skip (written a.after) [] ((c!"<pre>" ++ a.content ++ c!"</pre>" ++ a.white).getLast?) (bd ++ [a.content])
      (skips_written hok [])
    rw [List.append_nil, Re.scanAux_nil (by decide)] at hsk
    rw [hsk, places_cons]
    simp [cutSegs, places, written]
  | a :: b :: l, p, bd, hp, ho, hk => by
    simp only [areasOk, Bool.and_eq_true] at ho
    obtain ⟨⟨⟨⟨ho1, ho2⟩, ho3⟩, ho4⟩, ho5⟩ := ho
    obtain ⟨h1, h2, h3, h4⟩ := area_content ho1
    have hok : okL a.after = true := hk a (by simp)
    obtain ⟨hw, hnl⟩ := lineBreak_iff ho2
    have hb : ∃ r, areasWritten (b :: l) = '<' :: r := ⟨_, rfl⟩
    obtain ⟨r, hr⟩ := hb
    have hR : ∀ c, (written a.after ++ areasWritten (b :: l)).head? = some c → isSpace c = false := by
      intro c hc
      rw [List.head?_append] at hc
      cases hh : (written a.after).head? with
      | some d => rw [hh] at hc; exact bareHead_iff ho3 c (by rw [hh]; exact hc)
      | none => rw [hh, hr] at hc; simp at hc; subst hc; rfl
    have e : areasWritten (a :: b :: l) =
        c!"<pre>" ++ a.content ++ c!"</pre>" ++ a.white ++ (written a.after ++ areasWritten (b :: l)) := by
      rw [areasWritten]; simp [Area.print]
    have hp' : p = none ∨ p = some '\n' := hp.resolve_left (by simp)
    have hlast : lastChar ((c!"<pre>" ++ a.content ++ c!"</pre>" ++ a.white).getLast?) (written a.after) = some '\n' := by
      have hne : a.white ≠ [] := by intro h0; rw [h0] at hnl; simp at hnl
      have hl : (a.white ++ written a.after).getLast? = some '\n' := by
        simp only [lineEnd, Bool.or_eq_true, List.isEmpty_iff, beq_iff_eq] at ho4
        rcases ho4 with h | h
        · simp only [List.append_eq_nil_iff] at h; exact absurd h.1 hne
        · exact h
      unfold lastChar
      rw [List.getLast?_append] at hl ⊢
      cases hg : (written a.after).getLast? with
      | some x => rw [hg] at hl; exact hl
      | none => rw [hg] at hl; simp only [Option.none_or] at hl; rw [hl]; rfl
    have ih := cut_areas (b :: l) (some '\n') (bd ++ [a.content]) (.inr (.inr rfl)) ho5 (fun x hx => hk x (by simp [hx]))
    rw [e, cut_area bd hp' h1 h2 h3 h4 hw (.inr hnl) hR, cut_skip _ _ _ _ (skips_written hok _), hlast, ih, places_cons bd.length a]
    simp

/-! ## The whole preprocessing -/

/-- a tag without its text -/
def anon : Bit → Bit
  | .tag k _ => .tag k []
  | b => b

theorem spaced_anon : ∀ (l : List Bit) (b : Before), spaced b (l.map anon) = spaced b l := by
  have ha : ∀ l : List Bit, atBlock (l.map anon) = atBlock l := by
    intro l
    induction l with
    | nil => rfl
    | cons x l ih =>
      cases x with
      | chr c => rfl
      | white s => simpa [atBlock, anon] using ih
      | ref s => rfl
      | tag k T => cases k <;> rfl
  have hb : ∀ l : List Bit, afterBlank (l.map anon) = afterBlank l := by
    intro l
    cases l with
    | nil => rfl
    | cons x l =>
      cases x with
      | chr c => rfl
      | white s => rfl
      | ref s => rfl
      | tag k T => cases k <;> rfl
  intro l
  induction l with
  | nil => intro b; rfl
  | cons x l ih =>
    intro b
    cases x with
    | chr c => simp only [List.map_cons, anon, spaced, ih, hb]
    | white s => simp only [List.map_cons, anon, spaced, ih, ha]
    | tag k T => cases k <;> simp only [List.map_cons, anon, spaced, ih]
    | ref s => simp only [List.map_cons, anon, spaced, ih]

theorem bareEdges_anon (l : List Bit) : bareEdges (l.map anon) = bareEdges l := by
  have h : ∀ o : Option Bit, (o.map anon).any Bit.isWhite = o.any Bit.isWhite := by
    intro o
    cases o with
    | none => rfl
    | some x => cases x <;> rfl
  simp only [bareEdges, List.head?_map, List.getLast?_map, h]

theorem areas_anon (l : List Area) : ∀ n, (areasBits l).map anon = (bitsL (places n l)).map anon := by
  induction l with
  | nil => intro n; rfl
  | cons a l ih =>
    intro n
    simp only [areasBits, places, bitsL, bits_append, List.map_cons, List.map_append, ← ih (n + 1)]
    rfl

theorem places_neat {first : List Ht} {l : List Area} (h : preNeat first l = true) : neat (first ++ places 0 l) = true := by
  simp only [preNeat, Bool.and_eq_true] at h
  obtain ⟨⟨⟨⟨⟨h1, h2⟩, h3⟩, h4⟩, h5⟩, h6⟩ := h
  have he : (bitsL first ++ areasBits l).map anon = (bitsL (first ++ places 0 l)).map anon := by
    rw [bits_append, List.map_append, List.map_append, areas_anon l 0]
  have hok : ∀ (l : List Area) (n : Nat), l.all (fun a => okL a.after) = true → okL (places n l) = true := by
    intro l
    induction l with
    | nil => intro n _; rfl
    | cons a l ih =>
      intro n h
      simp only [List.all_cons, Bool.and_eq_true] at h
      simp only [places, okL, ok_append, place_ok, h.1, ih (n + 1) h.2, Bool.and_self]
  simp only [neat, Bool.and_eq_true]
  refine ⟨⟨?_, ?_⟩, ?_⟩
  · rw [ok_append, h1, hok l 0 h2]; rfl
  · rw [← spaced_anon, ← he, spaced_anon]; exact h5
  · rw [← bareEdges_anon, ← he, bareEdges_anon]; exact h6

theorem head_same (x a b : Str) (h : a.head? = b.head?) : (x ++ a).head? = (x ++ b).head? := by
  rw [List.head?_append, List.head?_append, h]

theorem last_same (x y a b : Str) (hx : x.getLast? = y.getLast?) (h : a.getLast? = b.getLast?) :
    (x ++ a).getLast? = (y ++ b).getLast? := by
  rw [List.getLast?_append, List.getLast?_append, h, hx]

theorem last_areas : ∀ (l : List Area) (n : Nat), areasOk l = true →
    (areasWritten l).getLast? = (written (places n l)).getLast?
  | [], n, _ => rfl
  | [a], n, h => by
    have hg : ∀ n, (Props.placeholderTag blockPlaceholder n).getLast? = some '>' := by
      intro n
      rw [show Props.placeholderTag blockPlaceholder n =
        (c!"<" ++ blockPlaceholder ++ c!" type=\"pre\" id=\"" ++ natDigits n ++ c!"\" /") ++ ['>'] from by simp [Props.placeholderTag],
        List.getLast?_concat]
    have hg' : a.print.getLast? = some '>' := by
      rw [show a.print = (c!"<pre>" ++ a.content ++ c!"</pre") ++ ['>'] from by simp [Area.print], List.getLast?_concat]
    simp only [areasOk, Bool.and_eq_true] at h
    rw [places_cons, areasWritten, areasWritten, places, written, List.append_nil, List.append_nil]
    by_cases he : written a.after = []
    · have h2 := h.2
      rw [he] at h2 ⊢
      simp only [List.isEmpty_nil, if_true, List.isEmpty_iff] at h2
      rw [h2, List.append_nil, List.append_nil, List.append_nil, hg, hg']
    · simp only [List.getLast?_append]
      cases hl : (written a.after).getLast? with
      | none => simp at hl; exact absurd hl he
      | some x => rfl
  | a :: b :: l, n, h => by
    simp only [areasOk, Bool.and_eq_true] at h
    have ih := last_areas (b :: l) (n + 1) h.2
    rw [places_cons, areasWritten]
    simp only [List.getLast?_append, ih]
    cases hl : (written (places (n + 1) (b :: l))).getLast? with
    | some x => rfl
    | none =>
      rw [← ih, List.getLast?_eq_none_iff] at hl
      simp [areasWritten, Area.print] at hl

/-- The preprocessing puts numbered places for the areas, and removes the white space that lays out the document. -/
theorem preprocess_pre {first : List Ht} {l : List Area} (h : preNeat first l = true) :
    preprocess (preWritten first l) = (solidPrints (first ++ places 0 l), l.map Area.content) := by
  have hn := places_neat h
  have hd := preprocess_doc hn
  simp only [preNeat, Bool.and_eq_true] at h
  obtain ⟨⟨⟨⟨⟨h1, h2⟩, h3⟩, h4⟩, _⟩, _⟩ := h
  simp only [neat, Bool.and_eq_true] at hn
  have hok := bitsL_ok _ hn.1.1
  have hst := strip_bits hok hn.1.2 hn.2
  have hnp := noPre_bits _ hok
  rw [bitsL_text] at hst hnp
  have hT : strip (preWritten first l) = preWritten first l := by
    have hhead : (preWritten first l).head? = (written (first ++ places 0 l)).head? := by
      unfold preWritten
      rw [print_append]
      refine head_same _ _ _ ?_
      cases l with
      | nil => rfl
      | cons a l => rw [places_cons]; rfl
    have hlast : (preWritten first l).getLast? = (written (first ++ places 0 l)).getLast? := by
      unfold preWritten
      rw [print_append]
      exact last_same _ _ _ _ rfl (last_areas l 0 h3)
    refine strip_id ?_ ?_
    · intro c hc
      rw [hhead, ← hst] at hc
      exact stripP_head _ c hc
    · intro c hc
      rw [hlast, ← hst] at hc
      exact stripP_last _ c hc
  have hb : cutSegs (blockRe.scanAux none (preWritten first l) 0) [] = (written (first ++ places 0 l), l.map Area.content) := by
    unfold preWritten
    rw [cut_skip _ _ _ _ (skips_written h1 _), cut_areas l _ [] ?_ h3 (fun a ha => List.all_eq_true.1 h2 a ha), print_append]
    · rfl
    · simp only [lineEnd, Bool.or_eq_true, List.isEmpty_iff, beq_iff_eq] at h4
      rcases h4 with h4 | h4 | h4
      · exact .inl h4
      · right; left; rw [h4]; rfl
      · right; right; rw [lastChar, h4]
  have hi : ∀ bd, cutSegs (inlineRe.scanAux none (written (first ++ places 0 l)) 0) bd = (written (first ++ places 0 l), bd) := by
    intro bd
    refine cutSegs_none (by decide) _ _ _ ?_
    intro u t p e
    exact inlineRe_none (fun r hr => hnp u r (by rw [e, hr]))
  have hd1 : stripHtml (written (first ++ places 0 l)) = solidPrints (first ++ places 0 l) := by
    have hs := stripHtml_bits hok hn.1.2 hn.2
    rw [bitsL_text, clean_bitsL] at hs
    exact hs
  unfold preprocess Re.scan
  rw [hT]
  simp only [hb, hi, hd1]

/-! ## The tree -/

/-- an element that is no text -/
def notText : El → Prop
  | .text _ => False
  | _ => True

theorem addChar_append (c : Char) (l : List El) {e : El} (h : notText e) (es : List El) :
    addChar c (l ++ e :: es) = addChar c l ++ e :: es := by
  unfold addChar
  cases entityOf c with
  | some n => rfl
  | none =>
    cases l with
    | nil => cases e <;> first | exact absurd h id | rfl
    | cons x l => cases x <;> rfl

theorem els_append (x : Ht) (l : List El) {e : El} (h : notText e) (es : List El) :
    x.els (l ++ e :: es) = x.els l ++ e :: es := by
  cases x with
  | text s =>
    simp only [Ht.els]
    induction s with
    | nil => rfl
    | cons c s ih => rw [List.foldr_cons, ih, addChar_append _ _ h]; rfl
  | white s => rfl
  | el t a ch => simp [Ht.els]
  | void t a => simp [Ht.els]
  | bare t a => simp [Ht.els]

theorem elsL_void (a : List Ht) (t : Str) (as : List (Str × Str)) (b : List Ht) :
    elsL (a ++ .void t as :: b) = elsL a ++ elsL (.void t as :: b) := by
  have e : elsL (.void t as :: b) = .void t (as.map fun a => (a.1, some a.2)) :: elsL b := by simp [elsL, Ht.els]
  induction a with
  | nil => rfl
  | cons x a ih => rw [List.cons_append, elsL, ih, e, els_append _ _ (by trivial), elsL]

theorem elsL_places (a : List Ht) (n : Nat) (l : List Area) : elsL (a ++ places n l) = elsL a ++ elsL (places n l) := by
  cases l with
  | nil => simp [places, elsL]
  | cons x l => exact elsL_void _ _ _ _

theorem eventsL_append (a b : List El) : eventsL (a ++ b) = eventsL a ++ eventsL b := by
  induction a with
  | nil => rfl
  | cons e a ih => simp [eventsL, ih]

theorem run_places (bd : List Str) : ∀ (l : List Area) (n : Nat) (s : PSt), bd.drop n = l.map Area.content →
    bd.length ≤ 10 ^ maxIntDigits → s.lost = false → s.listLevel = 0 → s.top.info.kind = c!"document" →
    (∀ a ∈ l, wfL true (elsL a.after) = true) →
    (eventsL (elsL (places n l))).foldlM (handle bd) s =
      .ok (Props.addDone s (l.flatMap fun a => a.node :: nodesL 0 (elsL a.after)))
  | [], n, s, _, _, _, _, _, _ => by
    simp [places, elsL, eventsL, Props.addDone_nil, pure, Except.pure]
  | a :: l, n, s, hbd, hlen, hl, hlv, hk, hw => by
    have hn : n < bd.length := by
      by_cases h : n < bd.length
      · exact h
      · rw [List.drop_of_length_le (by omega)] at hbd; simp at hbd
    have hget : bd[n] = a.content := by
      rw [List.drop_eq_getElem_cons hn] at hbd
      simp only [List.map_cons, List.cons.injEq] at hbd
      exact hbd.1
    have hrest : bd.drop (n + 1) = l.map Area.content := by
      rw [List.drop_eq_getElem_cons hn] at hbd
      simp only [List.map_cons, List.cons.injEq] at hbd
      exact hbd.2
    have e : eventsL (elsL (places n (a :: l))) =
        .startend c!"blockdata" [(c!"type", some c!"pre"), (c!"id", some (natDigits n))] ::
          (eventsL (elsL a.after) ++ eventsL (elsL (places (n + 1) l))) := by
      rw [places, elsL, elsL_places]
      simp only [place, Ht.els, eventsL_cons, El.events, eventsL_append]
      rfl
    have h0 : handle bd s (.startend c!"blockdata" [(c!"type", some c!"pre"), (c!"id", some (natDigits n))]) =
        .ok (Props.addDone s [a.node]) := by
      have := Props.C33_placeholder_resolves bd s n hn (by omega) c!"blockdata" (.inl rfl)
      rw [hget] at this
      rw [show handle bd s _ = handleStartEnd bd s _ _ from rfl, this]
      simp only [PSt.addLeaf, PSt.leaf, hl, Props.addDone]
      rfl
    have h1 := Props.run_els bd (elsL a.after) (Props.addDone s [a.node]) hl (by
      rw [show (Props.addDone s [a.node]).top.info = s.top.info from rfl, hk]
      exact hw a (by simp))
    rw [show (Props.addDone s [a.node]).listLevel = s.listLevel from rfl, hlv, Props.addDone_append] at h1
    have h2 := run_places bd l (n + 1) (Props.addDone s ([a.node] ++ nodesL 0 (elsL a.after))) hrest hlen hl hlv hk
      (fun x hx => hw x (by simp [hx]))
    rw [e, List.foldlM_cons]
    simp only [List.foldlM_append, bind, Except.bind, h0, h1, h2, Props.addDone_append]
    simp

end Verif.Html
