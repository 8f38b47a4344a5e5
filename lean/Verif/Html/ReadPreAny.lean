import Verif.Html.ReadAny
import Verif.Html.ReadPre
import Verif.Spec.HeldPre

/-!
# Reading HTML with preformatted text and arbitrary blanks
-/

namespace Verif.Html

open Verif Py Spec Spec.Cr Spec.Hd

/-! ## Blanks at the edges -/

theorem lstrip_written {l : List Ht} (h : fitsL l = true) :
    ∃ l', lstrip (written l) = written l' ∧ solidL l' = solidL l ∧ fitsL l' = true := by
  obtain ⟨b, h1, _, h2⟩ := lstrip_any (plainBitsL l) (plainBitsL_ok l h)
  obtain ⟨l', rfl, h3, h4⟩ := lift_pieces l h h1
  exact ⟨l', by rw [← plainBitsL_text l h, h2, plainBitsL_text l' h4], h3, h4⟩

theorem rstrip_written {l : List Ht} (h : fitsL l = true) :
    ∃ l', dropEndWhile isSpace (written l) = written l' ∧ solidL l' = solidL l ∧ fitsL l' = true := by
  obtain ⟨b, h1, _, h2⟩ := rstrip_any (plainBitsL l) (plainBitsL_ok l h)
  obtain ⟨l', rfl, h3, h4⟩ := lift_pieces l h h1
  exact ⟨l', by rw [← plainBitsL_text l h, h2, plainBitsL_text l' h4], h3, h4⟩

theorem lstrip_front {c : Char} (hc : isSpace c = false) (x r : Str) : lstrip (x ++ c :: r) = lstrip x ++ c :: r := by
  induction x with
  | nil => simp [lstrip, hc]
  | cons d x ih =>
    unfold lstrip at *
    rw [List.cons_append, List.dropWhile_cons, List.dropWhile_cons]
    split
    · exact ih
    · rfl

theorem lstrip_split (x : Str) : x = x.takeWhile isSpace ++ lstrip x := (List.takeWhile_append_dropWhile).symm

theorem blank_takeWhile (x : Str) : Blank (x.takeWhile isSpace) := by
  intro c hc
  exact List.all_eq_true.1 (List.all_takeWhile) c hc

theorem lstrip_head (x : Str) : ∀ c, (lstrip x).head? = some c → isSpace c = false := by
  intro c hc
  unfold lstrip at hc
  have := List.head?_dropWhile_not isSpace x
  rw [hc] at this
  simpa using this

theorem skips_written' {l : List Ht} (h : fitsL l = true) (rest : Str) : Skips (written l) rest := by
  rw [← plainBitsL_text l h]
  exact skips_bits _ rest fun b hb => plain_bitOk (plainBitsL_ok l h b hb)

/-! ## Leading blank lines -/

theorem breaksFirst_blank {w s : Str} (hw : Blank w) (hn : '\n' ∈ w) : breaksFirst (w ++ s) = true := by
  unfold breaksFirst
  induction w with
  | nil => simp at hn
  | cons c w ih =>
    rw [List.cons_append, List.takeWhile_cons_of_pos (hw c (by simp)), List.contains_cons]
    simp only [List.mem_cons] at hn
    rcases hn with h | h
    · rw [← h]; rfl
    · rw [ih (fun d hd => hw d (by simp [hd])) h, Bool.or_true]

theorem breaksFirst_iff {s : Str} (h : breaksFirst s = true) : '\n' ∈ s.takeWhile isSpace := by
  simpa [breaksFirst] using h

/-- what is dropped are blanks -/
theorem unlead_split : ∀ (s : Str), s.head? = some '\n' → ∃ w, Blank w ∧ s = w ++ unlead s ∧ (unlead s).head? = some '\n' ∧
    ∀ w' t, Blank w' → s = w' ++ t → t.head? = some '\n' → w'.length ≤ w.length := by
  have key : ∀ (n : Nat) (s : Str), s.length ≤ n → (s.head? = some '\n' ∨ breaksFirst s = true) →
      ∃ w, Blank w ∧ s = w ++ unlead s ∧ (unlead s).head? = some '\n' ∧
        ∀ w' t, Blank w' → s = w' ++ t → t.head? = some '\n' → w'.length ≤ w.length := by
    intro n
    induction n with
    | zero =>
      intro s hs h
      cases s with
      | nil => rcases h with h | h <;> simp [breaksFirst] at h
      | cons => simp at hs
    | succ n ih =>
      intro s hs h
      cases s with
      | nil => rcases h with h | h <;> simp [breaksFirst] at h
      | cons c s =>
        rw [unlead]
        by_cases hb : breaksFirst s = true
        · rw [if_pos hb]
          obtain ⟨w, h1, h2, h3, h4⟩ := ih s (by simpa using hs) (.inr hb)
          have hc : isSpace c = true := by
            rcases h with h | h
            · simp at h; rw [h]; decide
            · by_cases hc : isSpace c = true
              · exact hc
              · simp [breaksFirst, hc] at h
          refine ⟨c :: w, ?_, by rw [List.cons_append, ← h2], h3, ?_⟩
          · intro d hd
            simp only [List.mem_cons] at hd
            rcases hd with rfl | hd
            · exact hc
            · exact h1 d hd
          · intro w' t hw' e ht
            cases w' with
            | nil => simp
            | cons d w' =>
              simp only [List.cons_append, List.cons.injEq] at e
              have := h4 w' t (fun x hx => hw' x (by simp [hx])) e.2 ht
              simp
              omega
        · rw [if_neg hb]
          have hc : c = '\n' := by
            rcases h with h | h
            · simpa using h
            · by_cases hc : c = '\n'
              · exact hc
              · exfalso
                unfold breaksFirst at h hb
                rw [List.takeWhile_cons] at h
                split at h
                · rw [List.contains_cons] at h
                  have : ('\n' == c) = false := by simpa using fun e : '\n' = c => hc e.symm
                  rw [this, Bool.false_or] at h
                  exact hb h
                · simp at h
          subst hc
          refine ⟨[], by intro c hc; simp at hc, rfl, rfl, ?_⟩
          intro w' t hw' e ht
          cases w' with
          | nil => simp
          | cons d w' =>
            exfalso
            simp only [List.cons_append, List.cons.injEq] at e
            cases t with
            | nil => simp at ht
            | cons x t =>
              simp at ht
              subst ht
              apply hb
              rw [e.2, show w' ++ '\n' :: t = (w' ++ ['\n']) ++ t from by simp]
              refine breaksFirst_blank ?_ (by simp)
              intro y hy
              simp only [List.mem_append, List.mem_singleton] at hy
              rcases hy with hy | rfl
              · exact hw' y (by simp [hy])
              · decide
  exact fun s h => key s.length s (Nat.le_refl _) (.inl h)

/-! ## An area -/

/-- An area at the beginning of a line is found where it is written. -/
theorem match_area' {p : Option Char} {C w R : Str} (hp : p = none ∨ p = some '\n') (hlt : '<' ∉ C) (hh : C.head? = some '\n')
    (hl : C.getLast? = some '\n') (hw : Blank w) (hnl : R = [] ∨ '\n' ∈ w) (hR : ∀ c, R.head? = some c → isSpace c = false) :
    ∃ st, blockRe.matchAt false p (c!"<pre>" ++ C ++ c!"</pre>" ++ w ++ R) = some st ∧ st.rest = R ∧
      st.caps = [(.pre_block, unlead C)] := by
  obtain ⟨w0, hw0, hC, hh0, hmax⟩ := unlead_split C hh
  have hne : unlead C ≠ [] := by intro h; rw [h] at hh0; simp at hh0
  have hl0 : (unlead C).getLast? = some '\n' := by
    rw [hC, List.getLast?_append] at hl
    cases hg : (unlead C).getLast? with
    | none => simp at hg; exact absurd hg hne
    | some x => rw [hg] at hl; exact hl
  generalize unlead C = C0 at *
  subst hC
  have hba : BlockArea p (c!"<pre>" ++ (w0 ++ C0) ++ c!"</pre>" ++ w ++ R) w0 C0 R :=
    ⟨hp, hw0, hh0, hl0, w, hw, hnl, hR, by simp⟩
  cases hm : blockRe.matchAt false p (c!"<pre>" ++ (w0 ++ C0) ++ c!"</pre>" ++ w ++ R) with
  | none => exact absurd hba (Props.block_none hm _ _ _)
  | some st =>
    refine ⟨st, rfl, ?_⟩
    obtain ⟨w1, C1, ⟨_, hw1, hh1, hl1, w1', hw1', hnl1, hR1, hs⟩, hcaps, hlong, hmin⟩ := Props.block_some hm
    have hs' : (w0 ++ C0) ++ (c!"</pre>" ++ (w ++ R)) = (w1 ++ C1) ++ (c!"</pre>" ++ (w1' ++ st.rest)) := by
      have : c!"<pre>" ++ ((w0 ++ C0) ++ (c!"</pre>" ++ (w ++ R))) =
          c!"<pre>" ++ ((w1 ++ C1) ++ (c!"</pre>" ++ (w1' ++ st.rest))) := by simpa using hs
      exact List.append_cancel_left this
    have hle : w0.length ≤ w1.length := hlong w0 C0 R hba
    -- the blanks are the same
    have hww : w1 = w0 := by
      have h1 : ∃ t, w1 = w0 ++ t := by
        have : w0 <+: w1 ++ (C1 ++ (c!"</pre>" ++ (w1' ++ st.rest))) :=
          ⟨C0 ++ (c!"</pre>" ++ (w ++ R)), by rw [← List.append_assoc, hs']; simp⟩
        obtain ⟨t, ht⟩ := List.prefix_of_prefix_length_le this (List.prefix_append _ _) hle
        exact ⟨t, ht.symm⟩
      obtain ⟨t, rfl⟩ := h1
      rw [List.append_assoc, List.append_assoc, List.append_assoc] at hs'
      have hs2 := List.append_cancel_left hs'
      have ht : Blank t := fun c hc => hw1 c (by simp [hc])
      -- if the blanks reached beyond the content, it would contain `<`
      have h2 : ∃ x, C0 = t ++ x := by
        have := blank_prefix (t := c!"/pre>" ++ (w ++ R)) (a := C0) ht hs2.symm
        exact this
      obtain ⟨x, rfl⟩ := h2
      cases t with
      | nil => simp
      | cons c t =>
        exfalso
        have hx : x.head? = some '\n' ∨ x = [] := by
          cases x with
          | nil => exact .inr rfl
          | cons d x =>
            left
            rw [List.append_assoc] at hs2
            have hs3 := List.append_cancel_left hs2
            cases C1 with
            | nil => simp at hh1
            | cons e C1 =>
              simp at hh1 hs3
              rw [hs3.1, hh1]; rfl
        rcases hx with hx | rfl
        · have := hmax (w0 ++ c :: t) x hw1 (by simp) hx
          simp at this
          omega
        · rw [List.append_nil] at hs2
          have hs3 := List.append_cancel_left hs2
          cases C1 with
          | nil => simp at hh1
          | cons e C1 =>
            simp at hh1 hs3
            rw [hh1] at hs3
            exact absurd hs3.1 (by decide)
    subst hww
    rw [List.append_assoc, List.append_assoc] at hs'
    have hs2 := List.append_cancel_left hs'
    have hCC : C0 = C1 := by
      rcases pre_split (fun h => hlt (by simp [h])) hs2 with h | ⟨t, h⟩
      · exact h
      · exfalso
        have := hmin C0 R hba
        rw [h] at this
        simp at this
        omega
    subst hCC
    refine ⟨?_, hcaps⟩
    have h2 := List.append_cancel_left (List.append_cancel_left hs2)
    exact (blank_split hw hw1' hR hR1 h2).symm

theorem cut_area' {p : Option Char} {C w R : Str} (bd : List Str) (hp : p = none ∨ p = some '\n') (hlt : '<' ∉ C)
    (hh : C.head? = some '\n') (hl : C.getLast? = some '\n') (hw : Blank w) (hnl : R = [] ∨ '\n' ∈ w)
    (hR : ∀ c, R.head? = some c → isSpace c = false) :
    cutSegs (blockRe.scanAux p (c!"<pre>" ++ C ++ c!"</pre>" ++ w ++ R) 0) bd =
      (Props.placeholderTag blockPlaceholder bd.length ++
          (cutSegs (blockRe.scanAux (lastChar (some '>') w) R 0) (bd ++ [unlead C])).1,
        (cutSegs (blockRe.scanAux (lastChar (some '>') w) R 0) (bd ++ [unlead C])).2) := by
  obtain ⟨st, hm, hr, hc⟩ := match_area' hp hlt hh hl hw hnl hR
  have hlast : (c!"<pre>" ++ C ++ c!"</pre>" ++ w).getLast? = lastChar (some '>') w := by
    unfold lastChar
    rw [List.getLast?_append, show c!"<pre>" ++ C ++ c!"</pre>" = (c!"<pre>" ++ C ++ c!"</pre") ++ ['>'] from by simp,
      List.getLast?_concat]
    cases w.getLast? <;> rfl
  have hne : c!"<pre>" ++ C ++ c!"</pre>" ++ w ≠ [] := by simp
  rw [← hlast]
  generalize c!"<pre>" ++ C ++ c!"</pre>" ++ w = a at hm hne
  rw [← hr] at hm
  rw [← hr, Re.scanAux_take hne hm, cutSegs]
  have hcut : preCutOut bd ⟨a, st.caps⟩ = (Props.placeholderTag blockPlaceholder bd.length, bd ++ [unlead C]) := by
    unfold preCutOut
    have e1 : (⟨a, st.caps⟩ : Match PG).get .pre_inline = none := by unfold Match.get; rw [hc]; rfl
    have e2 : (⟨a, st.caps⟩ : Match PG).get .pre_block = some (unlead C) := by unfold Match.get; rw [hc]; rfl
    rw [e1, e2]
    exact Props.preCut_eq bd (unlead C) blockPlaceholder
  rw [hcut]

/-- An area that does not begin a line is no block. -/
theorem skip_area {p : Option Char} {C : Str} (bd : List Str) (hp : ¬ (p = none ∨ p = some '\n')) (hlt : '<' ∉ C) (R : Str) :
    cutSegs (blockRe.scanAux p (c!"<pre>" ++ C ++ c!"</pre>" ++ R) 0) bd =
      (c!"<pre>" ++ C ++ c!"</pre>" ++ (cutSegs (blockRe.scanAux (some '>') R 0) bd).1,
        (cutSegs (blockRe.scanAux (some '>') R 0) bd).2) := by
  have hm : blockRe.matchAt false p (c!"<pre>" ++ C ++ c!"</pre>" ++ R) = none := by
    cases hm : blockRe.matchAt false p (c!"<pre>" ++ C ++ c!"</pre>" ++ R) with
    | none => rfl
    | some st =>
      obtain ⟨w, c, ha, _⟩ := Props.block_some hm
      exact absurd ha.1 hp
  have hsk : Skips (c!"pre>" ++ C ++ c!"</pre>") R := by
    rw [List.append_assoc]
    refine Skips.append (by decide) (Skips.append hlt ?_)
    intro u t r h ht e
    cases u with
    | nil =>
      simp only [List.nil_append] at h
      rw [← h] at e
      simp at e
    | cons c u =>
      simp only [List.cons_append, List.cons.injEq] at h
      have : Skips c!"/pre>" R := by
        have := Skips.append (a := c!"/pre>") (b := []) (rest := R) (by decide) (Skips.nil R)
        simpa using this
      exact this u t r h.2 ht e
  have e : c!"<pre>" ++ C ++ c!"</pre>" ++ R = '<' :: ((c!"pre>" ++ C ++ c!"</pre>") ++ R) := by simp
  have hlast : lastChar (some '<') (c!"pre>" ++ C ++ c!"</pre>") = some '>' := by
    unfold lastChar
    rw [show c!"pre>" ++ C ++ c!"</pre>" = (c!"pre>" ++ C ++ c!"</pre") ++ ['>'] from by simp, List.getLast?_concat]
  rw [e] at hm ⊢
  rw [Re.scanAux_skip hm, cutSegs, cut_skip _ _ _ _ hsk, hlast]
  simp

/-- An area that is no block is found where it is written. -/
theorem cut_inner {p : Option Char} {C : Str} (bd : List Str) (hlt : '<' ∉ C) (R : Str) :
    cutSegs (inlineRe.scanAux p (c!"<pre>" ++ C ++ c!"</pre>" ++ R) 0) bd =
      (Props.placeholderTag inlinePlaceholder bd.length ++ (cutSegs (inlineRe.scanAux (some '>') R 0) (bd ++ [C])).1,
        (cutSegs (inlineRe.scanAux (some '>') R 0) (bd ++ [C])).2) := by
  cases hm : inlineRe.matchAt false p (c!"<pre>" ++ C ++ c!"</pre>" ++ R) with
  | none => exact absurd (by rw [InlineArea]) (Props.inline_none hm C R)
  | some st =>
    obtain ⟨C1, ha, hc, hmin⟩ := Props.inline_some hm
    have hs : C ++ (c!"</pre>" ++ R) = C1 ++ (c!"</pre>" ++ st.rest) := by
      have : c!"<pre>" ++ (C ++ (c!"</pre>" ++ R)) = c!"<pre>" ++ (C1 ++ (c!"</pre>" ++ st.rest)) := by
        rw [InlineArea] at ha
        simpa using ha
      exact List.append_cancel_left this
    have hCC : C = C1 := by
      rcases pre_split hlt hs with h | ⟨t, h⟩
      · exact h
      · exfalso
        have := hmin C R rfl
        rw [h] at this
        simp at this
        omega
    subst hCC
    have hr : st.rest = R := (List.append_cancel_left (List.append_cancel_left hs)).symm
    have hlast : (c!"<pre>" ++ C ++ c!"</pre>").getLast? = some '>' := by
      rw [show c!"<pre>" ++ C ++ c!"</pre>" = (c!"<pre>" ++ C ++ c!"</pre") ++ ['>'] from by simp, List.getLast?_concat]
    have hne : c!"<pre>" ++ C ++ c!"</pre>" ≠ [] := by simp
    rw [← hlast]
    generalize c!"<pre>" ++ C ++ c!"</pre>" = a at hm hne
    rw [← hr] at hm
    rw [← hr, Re.scanAux_take hne hm, cutSegs]
    have hcut : preCutOut bd ⟨a, st.caps⟩ = (Props.placeholderTag inlinePlaceholder bd.length, bd ++ [C]) := by
      unfold preCutOut
      have e1 : (⟨a, st.caps⟩ : Match PG).get .pre_inline = some C := by unfold Match.get; rw [hc]; rfl
      rw [e1]
      exact Props.preCut_eq bd C inlinePlaceholder
    rw [hcut]

theorem cut_skip_inner : ∀ (x rest : Str) (p : Option Char) (bd : List Str), Skips x rest →
    cutSegs (inlineRe.scanAux p (x ++ rest) 0) bd =
      (x ++ (cutSegs (inlineRe.scanAux (lastChar p x) rest 0) bd).1, (cutSegs (inlineRe.scanAux (lastChar p x) rest 0) bd).2)
  | [], rest, p, bd, _ => rfl
  | c :: x, rest, p, bd, h => by
    have hm : inlineRe.matchAt false p (c :: (x ++ rest)) = none :=
      inlineRe_none (fun r => h [] (c :: x) r rfl (by simp))
    have ih := cut_skip_inner x rest (some c) bd (fun u t r e => h (c :: u) t r (by rw [e]; rfl))
    rw [List.cons_append, Re.scanAux_skip hm, cutSegs, ih, lastChar_cons]
    rfl

/-! ## The areas of a document -/

/-- an area, or the place of an area -/
inductive Slot where
  | raw (text : Str)
  | blk (n : Nat)
  | inl (n : Nat)

/-- the tag that takes the place of an area -/
def slotTag (tag : Str) (n : Nat) : Ht := .void tag [(c!"type", c!"pre"), (c!"id", decimal n)]

def Slot.text : Slot → Str
  | .raw C => c!"<pre>" ++ C ++ c!"</pre>"
  | .blk n => (slotTag c!"blockdata" n).print
  | .inl n => (slotTag c!"inlinedata" n).print

def slotsText : List (Slot × List Ht) → Str
  | [] => []
  | (s, x) :: m => s.text ++ written x ++ slotsText m

theorem slot_print (tag : Str) (n : Nat) : (slotTag tag n).print = Props.placeholderTag tag n := by
  have h : attrHtml (decimal n) = natDigits n := attrHtml_digits (digits_clean n)
  simp [slotTag, Ht.print, tagStart, attrPrint, h, Props.placeholderTag]
  rfl

/-- what the first step makes of the areas: `p` is the character before them, `n` the number of the first place -/
inductive Cut : Option Char → Nat → List Pre → List (Slot × List Ht) → List Str → Prop
  | nil (p : Option Char) (n : Nat) : Cut p n [] [] []
  | line {p : Option Char} {n : Nat} {a : Pre} {l : List Pre} {m : List (Slot × List Ht)} {bs : List Str} (x : List Ht) :
      (p = none ∨ p = some '\n') → solidL x = solidL a.after → fitsL x = true →
      Cut (lastChar (some '>') (written a.after)) (n + 1) l m bs →
      Cut p n (a :: l) ((.blk n, x) :: m) (unlead (textHtml a.text) :: bs)
  | inner {p : Option Char} {n : Nat} {a : Pre} {l : List Pre} {m : List (Slot × List Ht)} {bs : List Str} :
      ¬ (p = none ∨ p = some '\n') → fitsL a.after = true →
      Cut (lastChar (some '>') (written a.after)) n l m bs →
      Cut p n (a :: l) ((.raw (textHtml a.text), a.after) :: m) bs

theorem text_edges {s : Str} (hh : s.head? = some '\n') (hl : s.getLast? = some '\n') :
    '<' ∉ textHtml s ∧ (textHtml s).head? = some '\n' ∧ (textHtml s).getLast? = some '\n' := by
  refine ⟨(textHtml_clean s).1, ?_, ?_⟩
  · cases s with
    | nil => simp at hh
    | cons c s =>
      simp at hh
      subst hh
      rfl
  · rcases List.eq_nil_or_concat s with rfl | ⟨s, c, rfl⟩
    · simp at hl
    · rw [List.concat_eq_append, List.getLast?_concat] at hl
      cases hl
      rw [List.concat_eq_append, textHtml, List.flatMap_append]
      simp only [List.flatMap_cons, List.flatMap_nil, List.append_nil]
      rw [show textChar '\n' = ['\n'] from rfl, List.getLast?_concat]

/-- the areas, of which all but the last one are followed by a line break; behind the last one there may be nothing -/
def presCut : List Pre → Prop
  | [] => True
  | a :: l => a.ok = true ∧ (breaksFirst (written a.after) = true ∨ written a.after = [] ∧ l = []) ∧ presCut l

theorem lastChar_append (p : Option Char) (a b : Str) : lastChar p (a ++ b) = lastChar (lastChar p a) b := by
  unfold lastChar
  rw [List.getLast?_append]
  cases b.getLast? with
  | some c => rfl
  | none => rfl

theorem cut_blocks : ∀ (l : List Pre) (p : Option Char) (bd : List Str), presCut l →
    ∃ m bs, cutSegs (blockRe.scanAux p (presWritten l) 0) bd = (slotsText m, bd ++ bs) ∧ Cut p bd.length l m bs
  | [], p, bd, _ => ⟨[], [], by rw [presWritten, Re.scanAux_nil (by decide)]; simp [cutSegs, slotsText], .nil _ _⟩
  | a :: l, p, bd, h => by
    obtain ⟨hok, hbr, hl⟩ := h
    simp only [Pre.ok, Bool.and_eq_true, beq_iff_eq] at hok
    obtain ⟨h1, h2, h3⟩ := text_edges hok.1.1 hok.1.2
    have hf := hok.2
    by_cases hp : p = none ∨ p = some '\n'
    · obtain ⟨x, hx, hxs, hxf⟩ := lstrip_written hf
      have hsplit : written a.after = (written a.after).takeWhile isSpace ++ written x := by rw [← hx]; exact lstrip_split _
      have hR : ∀ c, (written x ++ presWritten l).head? = some c → isSpace c = false := by
        intro c hc
        rw [List.head?_append] at hc
        cases hh : (written x).head? with
        | some d =>
          rw [hh] at hc
          cases hc
          exact lstrip_head (written a.after) _ (by rw [hx, hh])
        | none =>
          rw [hh] at hc
          cases l with
          | nil => simp [presWritten] at hc
          | cons b l => simp [presWritten] at hc; rw [← hc]; decide
      have hnl : written x ++ presWritten l = [] ∨ '\n' ∈ (written a.after).takeWhile isSpace := by
        rcases hbr with hb | ⟨he, rfl⟩
        · exact .inr (breaksFirst_iff hb)
        · left
          rw [he] at hsplit
          have := (List.append_eq_nil_iff.1 hsplit.symm).2
          rw [this]; rfl
      have e : presWritten (a :: l) = c!"<pre>" ++ textHtml a.text ++ c!"</pre>" ++ (written a.after).takeWhile isSpace ++
          (written x ++ presWritten l) := by
        rw [presWritten]
        conv => lhs; rw [hsplit]
        simp
      have hlast : lastChar (lastChar (some '>') ((written a.after).takeWhile isSpace)) (written x) =
          lastChar (some '>') (written a.after) := by
        rw [← lastChar_append, ← hsplit]
      obtain ⟨m, bs, hm, hcut⟩ := cut_blocks l (lastChar (some '>') (written a.after)) (bd ++ [unlead (textHtml a.text)]) hl
      refine ⟨(.blk bd.length, x) :: m, unlead (textHtml a.text) :: bs, ?_, .line x hp hxs hxf ?_⟩
      · rw [e, cut_area' bd hp h1 h2 h3 (blank_takeWhile _) hnl hR, cut_skip _ _ _ _ (skips_written' hxf _), hlast, hm, slotsText,
          Slot.text, slot_print]
        simp [blockPlaceholder]
      · simpa using hcut
    · obtain ⟨m, bs, hm, hcut⟩ := cut_blocks l (lastChar (some '>') (written a.after)) bd hl
      refine ⟨(.raw (textHtml a.text), a.after) :: m, bs, ?_, .inner hp hf hcut⟩
      have e : presWritten (a :: l) = c!"<pre>" ++ textHtml a.text ++ c!"</pre>" ++ (written a.after ++ presWritten l) := by
        rw [presWritten]; simp
      rw [e, skip_area bd hp h1, cut_skip _ _ _ _ (skips_written' hf _), hm, slotsText, Slot.text]
      simp

/-- the remaining areas are numbered -/
def number : Nat → List (Slot × List Ht) → List (Slot × List Ht)
  | _, [] => []
  | n, (.raw _, x) :: m => (.inl n, x) :: number (n + 1) m
  | n, (.blk k, x) :: m => (.blk k, x) :: number n m
  | n, (.inl k, x) :: m => (.inl k, x) :: number n m

/-- the contents of the remaining areas -/
def raws : List (Slot × List Ht) → List Str
  | [] => []
  | (.raw C, _) :: m => C :: raws m
  | (.blk _, _) :: m => raws m
  | (.inl _, _) :: m => raws m

theorem slot_fits {tag : Str} (ht : tagOk tag = true) (n : Nat) : (slotTag tag n).fits = true := by
  have h2 : (decimal n).contains '\n' = false := by
    rw [Bool.eq_false_iff]
    intro h
    have := digits_clean n '\n' (by simpa using h)
    simp at this
  simp only [slotTag, Ht.fits, List.all_cons, List.all_nil, attrLine, h2, ht]
  decide

theorem skips_slot {tag : Str} (ht : tagOk tag = true) (n : Nat) (rest : Str) : Skips (slotTag tag n).print rest := by
  have := skips_written' (l := [slotTag tag n]) (by simp [fitsL, slot_fits ht n]) rest
  simpa [written] using this

theorem cut_inners : ∀ (m : List (Slot × List Ht)) (p : Option Char) (bd : List Str),
    (∀ s ∈ m, fitsL s.2 = true ∧ ∀ C, s.1 = .raw C → '<' ∉ C) →
    cutSegs (inlineRe.scanAux p (slotsText m) 0) bd = (slotsText (number bd.length m), bd ++ raws m)
  | [], p, bd, _ => by rw [slotsText, Re.scanAux_nil (by decide)]; simp [cutSegs, slotsText, number, raws]
  | (.raw C, x) :: m, p, bd, h => by
    have ih := fun q => cut_inners m q (bd ++ [C]) (fun s hs => h s (by simp [hs]))
    have hx := h _ List.mem_cons_self
    rw [slotsText, Slot.text, List.append_assoc, cut_inner bd (hx.2 C rfl), cut_skip_inner _ _ _ _ (skips_written' hx.1 _), ih, number, raws,
      slotsText, Slot.text, slot_print]
    simp [inlinePlaceholder]
  | (.blk k, x) :: m, p, bd, h => by
    have ih := fun q => cut_inners m q bd (fun s hs => h s (by simp [hs]))
    have hx := h _ List.mem_cons_self
    rw [slotsText, Slot.text, List.append_assoc, cut_skip_inner _ _ _ _ (skips_slot (by decide) k _),
      cut_skip_inner _ _ _ _ (skips_written' hx.1 _), ih, number, raws, slotsText, Slot.text]
    simp
  | (.inl k, x) :: m, p, bd, h => by
    have ih := fun q => cut_inners m q bd (fun s hs => h s (by simp [hs]))
    have hx := h _ List.mem_cons_self
    rw [slotsText, Slot.text, List.append_assoc, cut_skip_inner _ _ _ _ (skips_slot (by decide) k _),
      cut_skip_inner _ _ _ _ (skips_written' hx.1 _), ih, number, raws, slotsText, Slot.text]
    simp

/-! ## The document with its places -/

/-- the place of an area -/
def Slot.ht : Slot → Ht
  | .raw C => .text C
  | .blk n => slotTag c!"blockdata" n
  | .inl n => slotTag c!"inlinedata" n

def flat : List (Slot × List Ht) → List Ht
  | [] => []
  | (s, x) :: m => s.ht :: (x ++ flat m)

/-- no area is left -/
def placed : Slot → Prop
  | .raw _ => False
  | _ => True

theorem number_placed : ∀ (m : List (Slot × List Ht)) (n : Nat), (∀ s ∈ m, fitsL s.2 = true) →
    ∀ s ∈ number n m, placed s.1 ∧ fitsL s.2 = true
  | [], n, _, s, hs => by simp [number] at hs
  | (.raw C, x) :: m, n, h, s, hs => by
    simp only [number, List.mem_cons] at hs
    rcases hs with rfl | hs
    · exact ⟨trivial, h (.raw C, x) List.mem_cons_self⟩
    · exact number_placed m _ (fun s hs => h s (by simp [hs])) s hs
  | (.blk k, x) :: m, n, h, s, hs => by
    simp only [number, List.mem_cons] at hs
    rcases hs with rfl | hs
    · exact ⟨trivial, h _ List.mem_cons_self⟩
    · exact number_placed m _ (fun s hs => h s (by simp [hs])) s hs
  | (.inl k, x) :: m, n, h, s, hs => by
    simp only [number, List.mem_cons] at hs
    rcases hs with rfl | hs
    · exact ⟨trivial, h _ List.mem_cons_self⟩
    · exact number_placed m _ (fun s hs => h s (by simp [hs])) s hs

theorem slot_ht {s : Slot} (h : placed s) : s.ht.print = s.text ∧ s.ht.fits = true ∧ s.ht.solid = [s.ht] := by
  cases s with
  | raw C => exact absurd h id
  | blk n => exact ⟨rfl, slot_fits (by decide) n, rfl⟩
  | inl n => exact ⟨rfl, slot_fits (by decide) n, rfl⟩

theorem flat_written : ∀ (m : List (Slot × List Ht)), (∀ s ∈ m, placed s.1 ∧ fitsL s.2 = true) →
    slotsText m = written (flat m) ∧ fitsL (flat m) = true
  | [], _ => ⟨rfl, rfl⟩
  | (s, x) :: m, h => by
    obtain ⟨h1, h2⟩ := flat_written m fun s hs => h s (by simp [hs])
    have hs := h _ List.mem_cons_self
    obtain ⟨k1, k2, _⟩ := slot_ht hs.1
    constructor
    · rw [slotsText, flat, written, Html.written_append, k1, h1, List.append_assoc]
    · rw [flat, fitsL, fitsL_append, k2, h2]
      simp [hs.2]

/-- a tag of a document without white space is a tag of the document -/
theorem solid_split : ∀ (l : List Ht) (a b : List Ht) (tag : Str) (as : List (Str × Str)), solidL l = a ++ .void tag as :: b →
    ∃ x y, l = x ++ .void tag as :: y ∧ solidL x = a ∧ solidL y = b
  | [], a, b, tag, as, h => by simp [solidL] at h
  | z :: l, a, b, tag, as, h => by
    rw [solidL] at h
    rcases List.append_eq_append_iff.1 h with ⟨a', h1, h2⟩ | ⟨c', h1, h2⟩
    · obtain ⟨x, y, rfl, h3, h4⟩ := solid_split l a' b tag as h2
      exact ⟨z :: x, y, rfl, by rw [solidL, h3, h1], h4⟩
    · cases c' with
      | nil =>
        obtain ⟨x, y, rfl, h3, h4⟩ := solid_split l [] b tag as h2.symm
        exact ⟨z :: x, y, rfl, by rw [solidL, h3, h1, List.append_nil, List.append_nil], h4⟩
      | cons w c' =>
        simp only [List.cons_append, List.cons.injEq] at h2
        obtain ⟨rfl, h2⟩ := h2
        have hz : z = .void tag as ∧ a = [] ∧ c' = [] := by
          cases z with
          | text s =>
            exfalso
            rw [Ht.solid] at h1
            have : Ht.void tag as ∈ (s.filter fun c => !isSpace c).map fun c => Ht.text [c] := by rw [h1]; simp
            simp at this
          | white s => simp [Ht.solid] at h1
          | el t at' ch =>
            exfalso
            rw [Ht.solid] at h1
            have : Ht.void tag as ∈ [Ht.el t at' (solidL ch)] := by rw [h1]; simp
            simp at this
          | bare t at' =>
            exfalso
            rw [Ht.solid] at h1
            have : Ht.void tag as ∈ [Ht.bare t at'] := by rw [h1]; simp
            simp at this
          | void t at' =>
            rw [Ht.solid] at h1
            cases a with
            | nil =>
              simp only [List.nil_append, List.cons.injEq] at h1
              exact ⟨h1.1, rfl, h1.2.symm⟩
            | cons u a =>
              exfalso
              simp at h1
        obtain ⟨rfl, rfl, rfl⟩ := hz
        exact ⟨[], l, rfl, rfl, by rw [h2]; rfl⟩

/-- the same places, and documents that differ in white space only -/
inductive Alike2 : List (Slot × List Ht) → List (Slot × List Ht) → Prop
  | nil : Alike2 [] []
  | cons {s : Slot} {x y : List Ht} {m m' : List (Slot × List Ht)} : solidL y = solidL x → fitsL y = true → Alike2 m m' →
      Alike2 ((s, x) :: m) ((s, y) :: m')

theorem flat_split : ∀ (m : List (Slot × List Ht)) (first l : List Ht), (∀ s ∈ m, placed s.1) →
    solidL l = solidL (first ++ flat m) → fitsL l = true →
    ∃ first' m', l = first' ++ flat m' ∧ solidL first' = solidL first ∧ fitsL first' = true ∧ Alike2 m m'
  | [], first, l, _, hl, hf => ⟨l, [], by simp [flat], by simpa [flat] using hl, hf, .nil⟩
  | (s, x) :: m, first, l, h, hl, hf => by
    have hs := h _ List.mem_cons_self
    have hs1 := (slot_ht hs).2.2
    rw [flat, solidL_append, solidL, hs1] at hl
    have : ∃ tag as, s.ht = .void tag as := by
      cases s with
      | raw C => exact absurd hs id
      | blk n => exact ⟨_, _, rfl⟩
      | inl n => exact ⟨_, _, rfl⟩
    obtain ⟨tag, as, he⟩ := this
    rw [he] at hl
    obtain ⟨u, v, rfl, h1, h2⟩ := solid_split l _ _ tag as hl
    rw [fitsL_append, fitsL, Bool.and_eq_true, Bool.and_eq_true] at hf
    obtain ⟨x', m', rfl, h3, h4, h5⟩ := flat_split m x v (fun s hs => h s (by simp [hs])) h2 hf.2.2
    exact ⟨u, (s, x') :: m', by rw [flat, he], h1, hf.1, .cons h3 h4 h5⟩

/-! ## The tree -/

/-- the node of a place -/
def Slot.node (bd : List Str) : Slot → HNode
  | .raw C => .mk { kind := c!"data", content := some C } []
  | .blk n => .mk { kind := c!"blockdata_pre", content := bd[n]? } []
  | .inl n => .mk { kind := c!"inlinedata_pre", content := bd[n]? } []

def Slot.within (n : Nat) : Slot → Prop
  | .raw _ => False
  | .blk k => k < n
  | .inl k => k < n

theorem held_digits {s : Str} (h : ∀ c ∈ s, c.isDigit = true) : held s = s := by
  induction s with
  | nil => rfl
  | cons c s ih =>
    rw [held, ih fun d hd => h d (by simp [hd])]
    rintro t rfl rfl
    exact absurd (h '"' (by simp)) (by decide)

theorem slot_read (tag : Str) (n : Nat) : (slotTag tag n).asRead = slotTag tag n := by
  have e : heldAttrs [(c!"type", c!"pre"), (c!"id", decimal n)] = [(c!"type", c!"pre"), (c!"id", decimal n)] := by
    simp only [heldAttrs, List.map_cons, List.map_nil, held_digits (digits_clean n)]
    rfl
  rw [slotTag, Ht.asRead, e]

theorem asReadL_append (a b : List Ht) : asReadL (a ++ b) = asReadL a ++ asReadL b := by
  induction a with
  | nil => rfl
  | cons x a ih => simp [asReadL, ih]

theorem run_slot (bd : List Str) {s : Slot} (st : PSt) (hw : s.within bd.length) (hlen : bd.length ≤ 10 ^ maxIntDigits)
    (hl : st.lost = false) (x : List Ht) :
    eventsL (elsL (s.ht.asRead :: x)) = (eventsL (elsL [s.ht])) ++ eventsL (elsL x) ∧
    (eventsL (elsL [s.ht])).foldlM (handle bd) st = .ok (Props.addDone st [s.node bd]) := by
  cases s with
  | raw C => exact absurd hw id
  | blk n =>
    have hn : n < bd.length := hw
    refine ⟨by rw [Slot.ht, slot_read]; simp [elsL, slotTag, Ht.els, eventsL], ?_⟩
    have e : eventsL (elsL [Slot.ht (.blk n)]) = [.startend c!"blockdata" [(c!"type", some c!"pre"), (c!"id", some (natDigits n))]] := rfl
    rw [e, List.foldlM_cons, show handle bd st _ = handleStartEnd bd st _ _ from rfl,
      Props.C33_placeholder_resolves bd st n hn (by omega) c!"blockdata" (.inl rfl)]
    simp only [PSt.addLeaf, PSt.leaf, hl, Props.addDone, Slot.node, List.getElem?_eq_getElem hn]
    rfl
  | inl n =>
    have hn : n < bd.length := hw
    refine ⟨by rw [Slot.ht, slot_read]; simp [elsL, slotTag, Ht.els, eventsL], ?_⟩
    have e : eventsL (elsL [Slot.ht (.inl n)]) = [.startend c!"inlinedata" [(c!"type", some c!"pre"), (c!"id", some (natDigits n))]] := rfl
    rw [e, List.foldlM_cons, show handle bd st _ = handleStartEnd bd st _ _ from rfl,
      Props.C33_placeholder_resolves bd st n hn (by omega) c!"inlinedata" (.inr rfl)]
    simp only [PSt.addLeaf, PSt.leaf, hl, Props.addDone, Slot.node, List.getElem?_eq_getElem hn]
    rfl

/-- the nodes of a document with places -/
def slotNodes (bd : List Str) : List (Slot × List Ht) → List HNode
  | [] => []
  | (s, x) :: m => s.node bd :: (nodesL 0 (elsL (asReadL x)) ++ slotNodes bd m)

theorem elsL_flat (bd : List Str) (x : List Ht) (m : List (Slot × List Ht)) (h : ∀ s ∈ m, s.1.within bd.length) :
    elsL (asReadL (x ++ flat m)) = elsL (asReadL x) ++ elsL (asReadL (flat m)) := by
  rw [asReadL_append]
  cases m with
  | nil => simp [flat, asReadL, elsL]
  | cons s m =>
    obtain ⟨s, y⟩ := s
    rw [flat, asReadL]
    have := h _ List.mem_cons_self
    cases s with
    | raw C => exact absurd this id
    | blk n => rw [Slot.ht, slot_read]; exact elsL_void _ _ _ _
    | inl n => rw [Slot.ht, slot_read]; exact elsL_void _ _ _ _

theorem run_slots (bd : List Str) (hlen : bd.length ≤ 10 ^ maxIntDigits) : ∀ (m : List (Slot × List Ht)) (st : PSt),
    (∀ s ∈ m, s.1.within bd.length ∧ wfL true (elsL (asReadL s.2)) = true) → st.lost = false → st.listLevel = 0 →
    st.top.info.kind = c!"document" →
    (eventsL (elsL (asReadL (flat m)))).foldlM (handle bd) st = .ok (Props.addDone st (slotNodes bd m))
  | [], st, _, _, _, _ => by simp [flat, asReadL, elsL, eventsL, slotNodes, Props.addDone_nil, pure, Except.pure]
  | (s, x) :: m, st, h, hl, hlv, hk => by
    have hs := h _ List.mem_cons_self
    obtain ⟨e1, h0⟩ := run_slot bd st hs.1 hlen hl (asReadL (x ++ flat m))
    have h1 := Props.run_els bd (elsL (asReadL x)) (Props.addDone st [s.node bd]) hl (by
      rw [show (Props.addDone st [s.node bd]).top.info = st.top.info from rfl, hk]
      exact hs.2)
    rw [show (Props.addDone st [s.node bd]).listLevel = st.listLevel from rfl, hlv, Props.addDone_append] at h1
    have h2 := run_slots bd hlen m (Props.addDone st ([s.node bd] ++ nodesL 0 (elsL (asReadL x))))
      (fun s hs => h s (by simp [hs])) hl hlv hk
    rw [flat, asReadL, e1, elsL_flat bd x m (fun s hs => (h s (by simp [hs])).1), eventsL_append]
    simp only [List.foldlM_append, bind, Except.bind, h0, h1, h2, Props.addDone_append]
    simp [slotNodes]

/-! ## The white space around the document -/

theorem rstrip_back {c : Char} (hc : isSpace c = false) (x r : Str) :
    dropEndWhile isSpace (x ++ c :: r) = x ++ c :: dropEndWhile isSpace r := by
  have h0 : dropEndWhile isSpace (c :: r) = c :: dropEndWhile isSpace r := by
    rw [dropEndWhile]
    cases h : dropEndWhile isSpace r with
    | nil => simp [hc]
    | cons d t => rfl
  induction x with
  | nil => exact h0
  | cons d x ih =>
    rw [List.cons_append, dropEndWhile, ih]
    cases h : x ++ c :: dropEndWhile isSpace r with
    | nil => simp at h
    | cons e t => rw [List.cons_append, h]

theorem takeWhile_front {y v : Str} (h : ∃ c ∈ y, isSpace c = false) : (y ++ v).takeWhile isSpace = y.takeWhile isSpace := by
  induction y with
  | nil => obtain ⟨c, hc, _⟩ := h; simp at hc
  | cons d y ih =>
    rw [List.cons_append, List.takeWhile_cons, List.takeWhile_cons]
    split
    · next hd =>
      rw [ih]
      obtain ⟨c, hc, hs⟩ := h
      simp only [List.mem_cons] at hc
      rcases hc with rfl | hc
      · rw [hd] at hs; cases hs
      · exact ⟨c, hc, hs⟩
    · rfl

theorem breaks_rstrip (s : Str) : dropEndWhile isSpace s = [] ∨ breaksFirst (dropEndWhile isSpace s) = breaksFirst s := by
  obtain ⟨v, h1, h2⟩ := dropEndWhile_tail (p := isSpace) s
  have hl := dropEndWhile_getLast (p := isSpace) s
  generalize dropEndWhile isSpace s = y at *
  rcases List.eq_nil_or_concat y with rfl | ⟨y, c, rfl⟩
  · exact .inl rfl
  · right
    rw [h1, breaksFirst, breaksFirst, takeWhile_front ⟨c, by simp, hl c (by simp)⟩]

theorem presCut_of : ∀ (l : List Pre), l ≠ [] → presOk l = true →
    ∃ l', dropEndWhile isSpace (presWritten l) = presWritten l' ∧ presCut l' ∧ l'.map (·.text) = l.map (·.text) ∧
      (∀ line nodes, ReadAs line l' nodes → ReadAs line l nodes) ∧
      (∀ b, (∀ a ∈ l, nestL b a.after = true) → ∀ a ∈ l', nestL b a.after = true)
  | [], h, _ => absurd rfl h
  | [a], _, h => by
    simp only [presOk, Bool.and_eq_true] at h
    have hok := h.1
    simp only [Pre.ok, Bool.and_eq_true] at hok
    obtain ⟨x, hx, hxs, hxf⟩ := rstrip_written hok.2
    refine ⟨[⟨a.text, x⟩], ?_, ⟨?_, ?_, trivial⟩, rfl, ?_, ?_⟩
    · have e : presWritten [a] = (c!"<pre>" ++ textHtml a.text ++ c!"</pre") ++ '>' :: written a.after := by simp [presWritten]
      have e' : presWritten [⟨a.text, x⟩] = (c!"<pre>" ++ textHtml a.text ++ c!"</pre") ++ '>' :: written x := by simp [presWritten]
      rw [e, e', ← hx]
      exact rstrip_back (by decide) _ _
    · simp only [Pre.ok, hok.1.1, hok.1.2, hxf, Bool.and_self]
    · rcases breaks_rstrip (written a.after) with h0 | h0
      · exact .inr ⟨by rw [← hx]; exact h0, rfl⟩
      · rw [hx] at h0
        have h2 := h.2
        simp only [Bool.or_eq_true] at h2
        rcases h2 with h2 | h2
        · exact .inl (h0.trans h2)
        · exact .inr ⟨by rw [← hx]; exact dropEndWhile_all (List.all_eq_true.1 h2), rfl⟩
    · intro line nodes hr
      cases hr with
      | cons _ _ _ y ns h1 h2 h3 =>
        cases h3
        exact .cons line a [] y [] (h1.trans hxs) h2 (.nil _)
    · intro b hb y hy
      simp only [List.mem_singleton] at hy
      subst hy
      have := hb a (by simp)
      rw [← nestL_solid] at this ⊢
      rw [hxs, this]
  | a :: b :: l, _, h => by
    simp only [presOk, Bool.and_eq_true] at h
    obtain ⟨l', h1, h2, h3, h4, h5⟩ := presCut_of (b :: l) (by simp) h.2
    refine ⟨a :: l', ?_, ⟨h.1.1, .inl h.1.2, h2⟩, by simp [h3], ?_, ?_⟩
    · have e : presWritten (a :: b :: l) =
          (c!"<pre>" ++ textHtml a.text ++ c!"</pre>" ++ written a.after) ++ presWritten (b :: l) := by rw [presWritten]
      have hb : ∃ r, presWritten (b :: l) = '<' :: r := ⟨_, rfl⟩
      obtain ⟨r, hr⟩ := hb
      have e' : presWritten (a :: l') =
          (c!"<pre>" ++ textHtml a.text ++ c!"</pre>" ++ written a.after) ++ presWritten l' := by rw [presWritten]
      rw [e, e', ← h1, hr, rstrip_back (by decide)]
      have := rstrip_back (c := '<') (by decide) [] r
      rw [List.nil_append, List.nil_append] at this
      rw [this]
    · intro line nodes hr
      cases hr with
      | cons _ _ _ y ns k1 k2 k3 => exact .cons line a _ y ns k1 k2 (h4 _ _ k3)
    · intro v hv y hy
      simp only [List.mem_cons] at hy
      rcases hy with rfl | hy
      · exact hv _ (by simp)
      · exact h5 v (fun z hz => hv z (List.mem_cons_of_mem _ hz)) y hy

/-! ## The whole -/

theorem Cut.slots {p : Option Char} {n : Nat} {l : List Pre} {m : List (Slot × List Ht)} {bs : List Str} (h : Cut p n l m bs) :
    (∀ s ∈ m, fitsL s.2 = true ∧ ∀ C, s.1 = .raw C → '<' ∉ C) ∧ bs.length + (raws m).length = l.length ∧
      ∀ b, (∀ a ∈ l, nestL b a.after = true) → ∀ s ∈ m, nestL b s.2 = true := by
  induction h with
  | nil p n => exact ⟨by simp, rfl, by simp⟩
  | line x hp hs hf _ ih =>
    obtain ⟨ih1, ih2, ih3⟩ := ih
    refine ⟨?_, by simp [raws]; omega, ?_⟩
    · intro s hs
      simp only [List.mem_cons] at hs
      rcases hs with rfl | hs
      · exact ⟨hf, by simp⟩
      · exact ih1 s hs
    · intro b hb s hs'
      simp only [List.mem_cons] at hs'
      rcases hs' with rfl | hs'
      · have := hb _ List.mem_cons_self
        rw [← nestL_solid] at this ⊢
        rw [hs, this]
      · exact ih3 b (fun a ha => hb a (List.mem_cons_of_mem _ ha)) s hs'
  | inner hp hf _ ih =>
    obtain ⟨ih1, ih2, ih3⟩ := ih
    refine ⟨?_, by simp [raws]; omega, ?_⟩
    · intro s hs
      simp only [List.mem_cons] at hs
      rcases hs with rfl | hs
      · refine ⟨hf, ?_⟩
        intro C hC
        cases hC
        exact (textHtml_clean _).1
      · exact ih1 s hs
    · intro b hb s hs'
      simp only [List.mem_cons] at hs'
      rcases hs' with rfl | hs'
      · exact hb _ List.mem_cons_self
      · exact ih3 b (fun a ha => hb a (List.mem_cons_of_mem _ ha)) s hs'

theorem line_iff (s : Str) :
    beginsLine s = true ↔ lastChar (some '>') s = none ∨ lastChar (some '>') s = some '\n' := by
  unfold beginsLine lastChar
  cases s.getLast? with
  | none => simp
  | some c => simp

theorem number_nest (b : Bool) : ∀ (m : List (Slot × List Ht)) (n : Nat), (∀ s ∈ m, nestL b s.2 = true) →
    ∀ s ∈ number n m, nestL b s.2 = true
  | [], n, _, s, hs => by simp [number] at hs
  | (t, x) :: m, n, h, s, hs => by
    have ih := fun n => number_nest b m n (fun s hs => h s (by simp [hs]))
    have hx := h _ List.mem_cons_self
    cases t <;>
    · simp only [number, List.mem_cons] at hs
      rcases hs with rfl | hs
      · exact hx
      · exact ih _ s hs

/-- the areas of the text become the nodes of their places -/
theorem cut_reads {p : Option Char} {n : Nat} {l : List Pre} {m : List (Slot × List Ht)} {bs : List Str} (h : Cut p n l m bs) :
    ∀ (bd : List Str) (k : Nat) (m' : List (Slot × List Ht)) (line : Bool), (line = true ↔ p = none ∨ p = some '\n') →
      (∀ i, i < bs.length → bd[n + i]? = bs[i]?) → (∀ i, i < (raws m).length → bd[k + i]? = (raws m)[i]?) →
      Alike2 (number k m) m' → ReadAs line l (slotNodes bd m') ∧ ∀ s ∈ m', s.1.within bd.length := by
  induction h with
  | nil p n =>
    intro bd k m' line _ _ _ hm
    cases hm
    exact ⟨.nil _, by simp⟩
  | @line p n a l m bs x hp hs hf _ ih =>
    intro bd k m' ln hln hb hr hm
    rw [number] at hm
    cases hm with
    | @cons _ _ y _ m' h1 h2 h3 =>
      obtain ⟨g1, g2⟩ := ih bd k m' (beginsLine (written a.after)) (line_iff _)
        (fun i hi => by
          have := hb (i + 1) (by simp; omega)
          rw [show n + 1 + i = n + (i + 1) from by omega, this]
          rfl) (fun i hi => hr i hi) h3
      have h0 := hb 0 (by simp)
      simp only [Nat.add_zero, List.getElem?_cons_zero] at h0
      refine ⟨?_, ?_⟩
      · rw [slotNodes]
        have e : Slot.node bd (.blk n) = preNode ln a.text := by
          rw [hln.2 hp, Slot.node, h0]
          rfl
        rw [e]
        exact .cons ln a l y _ (h1.trans hs) h2 g1
      · intro s hs
        simp only [List.mem_cons] at hs
        rcases hs with rfl | hs
        · exact (List.getElem?_eq_some_iff.1 h0).1
        · exact g2 s hs
  | @inner p n a l m bs hp hf _ ih =>
    intro bd k m' ln hln hb hr hm
    rw [number] at hm
    cases hm with
    | @cons _ _ y _ m' h1 h2 h3 =>
      obtain ⟨g1, g2⟩ := ih bd (k + 1) m' (beginsLine (written a.after)) (line_iff _) hb
        (fun i hi => by
          have := hr (i + 1) (by simp [raws]; omega)
          rw [show k + 1 + i = k + (i + 1) from by omega, this]
          rfl) h3
      have h0 := hr 0 (by simp [raws])
      simp only [Nat.add_zero, raws, List.getElem?_cons_zero] at h0
      refine ⟨?_, ?_⟩
      · rw [slotNodes]
        have e : Slot.node bd (.inl k) = preNode ln a.text := by
          have : ln = false := by
            cases ln with
            | false => rfl
            | true => exact absurd (hln.1 rfl) hp
          rw [this, Slot.node, h0]
          rfl
        rw [e]
        exact .cons ln a l y _ h1 h2 g1
      · intro s hs
        simp only [List.mem_cons] at hs
        rcases hs with rfl | hs
        · exact (List.getElem?_eq_some_iff.1 h0).1
        · exact g2 s hs

theorem Alike2.nest {m m' : List (Slot × List Ht)} (h : Alike2 m m') (b : Bool) (hm : ∀ s ∈ m, nestL b s.2 = true) :
    ∀ s ∈ m', nestL b s.2 = true := by
  induction h with
  | nil => simp
  | cons h1 _ _ ih =>
    intro s hs
    simp only [List.mem_cons] at hs
    rcases hs with rfl | hs
    · have := hm _ List.mem_cons_self
      rw [← nestL_solid] at this ⊢
      rw [h1, this]
    · exact ih (fun s hs => hm s (List.mem_cons_of_mem _ hs)) s hs

theorem dropWhile_blank {x : Str} (h : ∀ c ∈ x, isSpace c = true) : lstrip x = [] := by
  unfold lstrip
  induction x with
  | nil => rfl
  | cons c x ih => rw [List.dropWhile_cons, if_pos (h c (by simp)), ih fun d hd => h d (by simp [hd])]

theorem firstLine_iff (x : Str) : firstLine x = true ↔ lastChar none (lstrip x) = none ∨ lastChar none (lstrip x) = some '\n' := by
  unfold firstLine beginsLine
  have hs := lstrip_split x
  by_cases ha : x.all isSpace = true
  · have : lstrip x = [] := by
      exact dropWhile_blank (List.all_eq_true.1 ha)
    simp [ha, this, lastChar]
  · have hne : lstrip x ≠ [] := by
      intro h
      rw [h, List.append_nil] at hs
      rw [hs] at ha
      exact ha (List.all_eq_true.2 (blank_takeWhile x))
    have hl : x.getLast? = (lstrip x).getLast? := by
      conv => lhs; rw [hs]
      rw [List.getLast?_append]
      cases h : (lstrip x).getLast? with
      | none => simp at h; exact absurd h hne
      | some c => rfl
    rw [hl]
    unfold lastChar
    cases h : (lstrip x).getLast? with
    | none => simp at h; exact absurd h hne
    | some c => simp [ha]

/-- The tree of a document with preformatted text. -/
theorem parse_pres (first : List Ht) (l : List Pre) (hne : l ≠ []) (hf : fitsL first = true) (hl : presOk l = true)
    (hlen : l.length ≤ 10 ^ maxIntDigits) (hw : nestL true first = true) (hlw : ∀ a ∈ l, nestL true a.after = true) :
    ∃ first' nodes, SameSolid first' first ∧ fitsL first' = true ∧ ReadAs (firstLine (written first)) l nodes ∧
      parseHtml (written first ++ presWritten l) =
        .ok (.mk { kind := c!"document" } (nodesL 0 (elsL (asReadL first')) ++ nodes)) := by
  obtain ⟨l1, h1, h2, h3, h4, h5⟩ := presCut_of l hne hl
  obtain ⟨f1, g1, g2, g3⟩ := lstrip_written hf
  have hl1 : ∃ r, presWritten l = '<' :: r := by
    cases l with
    | nil => exact absurd rfl hne
    | cons a l => exact ⟨_, rfl⟩
  obtain ⟨r, hr⟩ := hl1
  have hst : strip (written first ++ presWritten l) = written f1 ++ presWritten l1 := by
    unfold strip rstrip
    rw [hr, lstrip_front (by decide), g1, rstrip_back (by decide), ← h1, hr]
    have := rstrip_back (c := '<') (by decide) [] r
    rw [List.nil_append, List.nil_append] at this
    rw [this]
  obtain ⟨m, bs, k1, k2⟩ := cut_blocks l1 (lastChar none (written f1)) [] h2
  obtain ⟨c1, c2, c3⟩ := k2.slots
  have hb : cutSegs (blockRe.scanAux none (written f1 ++ presWritten l1) 0) [] = (written f1 ++ slotsText m, bs) := by
    rw [cut_skip _ _ _ _ (skips_written' g3 _), k1]
    simp
  have hi : cutSegs (inlineRe.scanAux none (written f1 ++ slotsText m) 0) bs =
      (written f1 ++ slotsText (number bs.length m), bs ++ raws m) := by
    rw [cut_skip_inner _ _ _ _ (skips_written' g3 _), cut_inners m _ bs c1]
  have hpl := number_placed m bs.length fun s hs => (c1 s hs).1
  obtain ⟨e1, e2⟩ := flat_written _ hpl
  have hfit : fitsL (f1 ++ flat (number bs.length m)) = true := by rw [fitsL_append, g3, e2]; rfl
  obtain ⟨l3, d1, d2, d3⟩ := stripHtml_written hfit
  obtain ⟨first', m', rfl, b2, b3, b4⟩ := flat_split _ _ _ (fun s hs => (hpl s hs).1) d2 d3
  have hln : firstLine (written first) = true ↔ lastChar none (written f1) = none ∨ lastChar none (written f1) = some '\n' := by
    rw [← g1]; exact firstLine_iff _
  have hnum : (bs ++ raws m).length ≤ 10 ^ maxIntDigits := by
    have : l1.length = l.length := by simpa using congrArg List.length h3
    rw [List.length_append]
    omega
  obtain ⟨r1, r2⟩ := cut_reads k2 (bs ++ raws m) bs.length m' _ hln
    (fun i hi => by simp only [List.length_nil, Nat.zero_add]; rw [List.getElem?_append_left hi])
    (fun i hi => by rw [List.getElem?_append_right (by omega)]; congr 1; omega) b4
  have hnest := b4.nest true (number_nest true m _ (c3 true (h5 true hlw)))
  refine ⟨first', slotNodes (bs ++ raws m) m', b2.trans g2, b3, h4 _ _ r1, ?_⟩
  have hpre : preprocess (written first ++ presWritten l) = (written (first' ++ flat m'), bs ++ raws m) := by
    unfold preprocess Re.scan
    rw [hst]
    simp only [hb, hi]
    rw [e1, ← Html.written_append, d1]
  unfold parseHtml
  rw [hpre]
  simp only [run_written _ d3]
  have hwf : ∀ x : List Ht, nestL true x = true → wfL true (elsL (asReadL x)) = true := by
    intro x hx
    rw [wf_nestL, nestL_asRead, hx]
  have hfirst : nestL true first' = true := by
    rw [← nestL_solid] at hw ⊢
    rw [b2, g2, hw]
  have q1 := Props.run_els (bs ++ raws m) (elsL (asReadL first')) {} rfl (hwf _ hfirst)
  have q2 := run_slots (bs ++ raws m) hnum m' (Props.addDone {} (nodesL 0 (elsL (asReadL first'))))
    (fun s hs => ⟨r2 s hs, hwf _ (hnest s hs)⟩) rfl rfl rfl
  unfold runEvents
  rw [elsL_flat (bs ++ raws m) first' m' r2, eventsL_append, List.foldlM_append]
  simp only [bind, Except.bind] at q1 ⊢
  rw [q1]
  simp only [q2]
  simp [pure, Except.pure, PSt.root, closeAll, Props.addDone, Frame.node]

end Verif.Html
