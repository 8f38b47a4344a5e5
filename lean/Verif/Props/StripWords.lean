import Verif.Html.StripWords

/-!
# `strip_html` keeps the words (C30)
-/

namespace Verif.Props

open Verif Py Html Spec.Hd Spec.Wd

/-- pieces that do not begin or end with white space -/
theorem words_core {ps : List Piece} (hok : ∀ p ∈ ps, p.ok = true) (hg : gapsOk ps = true)
    (hh : (ps.head?).all (fun p => !p.isWhite) = true) (hl : (ps.getLast?).all (fun p => !p.isWhite) = true) :
    ∃ ps', stripHtml (write ps) = write ps' ∧ (∀ p ∈ ps', p.ok = true) ∧ solids ps' = solids ps ∧ words (look ps') = words (look ps) := by
  have hs : strip (write ps) = write ps := by
    cases ps with
    | nil => rfl
    | cons p ps =>
      refine strip_id ?_ ?_
      · intro c hc
        obtain ⟨c', _, x, _, e1, _, k, _⟩ := solid_piece (hok p List.mem_cons_self) (by simpa using hh)
        rw [write_cons, e1] at hc
        simp only [List.cons_append, List.head?_cons, Option.some.injEq] at hc
        rwa [← hc]
      · intro c hc
        obtain ⟨ini, q, e⟩ : ∃ ini q, p :: ps = ini ++ [q] := ⟨_, _, (List.dropLast_concat_getLast (by simp)).symm⟩
        rw [e] at hok hl hc
        obtain ⟨_, d, _, y, _, e2, _, k, _⟩ := solid_piece (hok q (by simp)) (by simpa using hl)
        rw [write_append, write_cons, e2] at hc
        simp [write] at hc
        rwa [← hc]
  have hj := join_pieces ps [] hok hg (fun _ => hh) hl (by simp) (by simp) (by simp)
  rw [List.nil_append, List.nil_append] at hj
  obtain ⟨ps', i1, i2, i3, i4⟩ := keeps_pieces _ (ps.map Piece.joined) (Nat.le_refl _)
    (by
      intro p hp
      obtain ⟨q, hq, rfl⟩ := List.mem_map.mp hp
      exact joined_ok (hok q hq))
    (by
      intro w hw
      obtain ⟨q, hq, e⟩ := List.mem_map.mp hw
      cases q with
      | white v =>
        injection e with e
        rw [← e]
        exact (joinGap_ok (hok _ hq)).2.1
      | chr c => cases e
      | tag a b c => cases e)
    (joined_gaps ps hok hg)
    (by
      rw [List.getLast?_map]
      cases hx : ps.getLast? with
      | none => rfl
      | some p =>
        rw [hx] at hl
        cases p with
        | white w => cases hl
        | chr c => rfl
        | tag a b c => rfl)
  refine ⟨ps', ?_, i2, i3.trans ?_, ?_⟩
  · unfold stripHtml
    rw [hs, hj]
    have := i1 none
    rw [← this]
    unfold Re.sub Re.scan
    congr
    funext x
    cases x <;> rfl
  · clear i1 i2 i3 i4 hs hj hl hh hg hok
    induction ps with
    | nil => rfl
    | cons p ps ih =>
      simp only [solids, List.map_cons] at ih ⊢
      rw [List.filter_cons, List.filter_cons, ih]
      cases p <;> rfl
  · have h := i4 []
    rw [List.nil_append, List.nil_append] at h
    rw [h]
    suffices ∀ a, words (a ++ look (ps.map Piece.joined)) = words (a ++ look ps) by simpa using this []
    clear i1 i2 i3 i4 h hs hj hl hh hg
    induction ps with
    | nil => intro a; rfl
    | cons p ps ih =>
      intro a
      have ih := ih fun q hq => hok q (List.mem_cons_of_mem _ hq)
      rw [List.map_cons, look_cons, look_cons]
      cases p with
      | white w =>
        have h1 := white_ok (hok _ List.mem_cons_self)
        have h2 := white_ok (joinGap_ok (hok _ List.mem_cons_self)).1
        have h3 := ih []
        rw [List.nil_append, List.nil_append] at h3
        show words (a ++ (joinGap w ++ _)) = words (a ++ (w ++ _))
        rw [words_gap h1.1 h1.2, words_gap h2.1 h2.2, h3]
      | chr c => rw [← List.append_assoc, ← List.append_assoc]; exact ih _
      | tag x y z => rw [← List.append_assoc, ← List.append_assoc]; exact ih _

theorem words_front {ps : List Piece} (hok : ∀ p ∈ ps, p.ok = true) (hg : gapsOk ps = true)
    (hl : (ps.getLast?).all (fun p => !p.isWhite) = true) :
    ∃ ps', stripHtml (write ps) = write ps' ∧ (∀ p ∈ ps', p.ok = true) ∧ solids ps' = solids ps ∧ words (look ps') = words (look ps) := by
  by_cases hh : (ps.head?).all (fun p => !p.isWhite) = true
  · exact words_core hok hg hh hl
  · cases ps with
    | nil => simp at hh
    | cons p ps =>
      cases p with
      | chr c => simp [Piece.isWhite] at hh
      | tag a b c => simp [Piece.isWhite] at hh
      | white w =>
        have hw := white_ok (hok _ List.mem_cons_self)
        have hh' : (ps.head?).all (fun p => !p.isWhite) = true := by
          cases ps with
          | nil => rfl
          | cons q ps =>
            rw [gapsOk, Bool.and_eq_true] at hg
            cases q with
            | white v => simp [gapOk] at hg
            | chr c => rfl
            | tag a b c => rfl
        obtain ⟨ps', h1, h2, h3, h4⟩ := words_core (fun q hq => hok q (List.mem_cons_of_mem _ hq)) (gapsOk_tail hg) hh' (last_tail hl)
        refine ⟨ps', ?_, h2, h3.trans ?_, h4.trans (words_white hw.2 _).symm⟩
        · rw [← h1]
          unfold stripHtml
          have := strip_pad hw.2 (w' := []) (by simp) (write ps)
          rw [List.append_nil] at this
          rw [write_cons, Piece.write, this]
        · simp only [solids]
          rw [List.filter_cons]
          rfl

/-- **C30**: `strip_html` changes white space only and never puts two words together or takes one apart: the result is a text of the same
characters and tags, and has the same words, if white space next to inline tags contains a line end, or begins and ends with a blank. -/
theorem C30_words (ps : List Piece) (hok : ∀ p ∈ ps, p.ok = true) (hg : gapsOk ps = true) :
    ∃ ps', stripHtml (write ps) = write ps' ∧ (∀ p ∈ ps', p.ok = true) ∧ solids ps' = solids ps ∧ words (look ps') = words (look ps) := by
  by_cases hl : (ps.getLast?).all (fun p => !p.isWhite) = true
  · exact words_front hok hg hl
  · cases hx : ps.getLast? with
    | none => rw [hx] at hl; simp at hl
    | some p =>
      obtain ⟨ini, rfl⟩ := List.getLast?_eq_some_iff.mp hx
      rw [hx] at hl
      cases p with
      | chr c => exact absurd rfl hl
      | tag a b c => exact absurd rfl hl
      | white w =>
        have hw := white_ok (hok (.white w) (by simp))
        have hg' : gapsOk ini = true ∧ (ini.getLast?).all (fun p => !p.isWhite) = true := by
          clear hok hl hx
          induction ini with
          | nil => exact ⟨rfl, rfl⟩
          | cons q ini ih =>
            have := ih (gapsOk_tail hg)
            cases ini with
            | nil =>
              rw [List.cons_append, List.nil_append, gapsOk, Bool.and_eq_true] at hg
              refine ⟨rfl, ?_⟩
              cases q with
              | white v => simp [gapOk] at hg
              | chr c => rfl
              | tag a b c => rfl
            | cons r ini =>
              rw [List.cons_append, List.cons_append, gapsOk, Bool.and_eq_true] at hg
              refine ⟨?_, ?_⟩
              · rw [gapsOk, hg.1, this.1]; rfl
              · rw [List.getLast?_cons_cons]; exact this.2
        obtain ⟨ps', h1, h2, h3, h4⟩ := words_front (fun q hq => hok q (by simp [hq])) hg'.1 hg'.2
        refine ⟨ps', ?_, h2, h3.trans ?_, h4.trans ?_⟩
        · rw [← h1]
          unfold stripHtml
          rw [write_append, write_cons]
          have := strip_blankEnd (write ini) hw.2
          rw [show Piece.write (.white w) ++ write [] = w from List.append_nil _, this]
        · simp only [solids]
          rw [List.filter_append]
          exact (List.append_nil _).symm
        · rw [look_append]
          exact (words_end (by simpa [look, Piece.look] using hw.2) _).symm

/-- the pieces of a word -/
private def word (s : Str) : List Piece := s.map .chr

/-- `<p> one\n  <b>two</b>x <i> three </i></p><p>four </p>` -/
private def sample : List Piece :=
  [.tag false c!"p" [], .white c!" "] ++ word c!"one" ++ [.white c!"\n  ", .tag false c!"b" []] ++ word c!"two" ++
  [.tag true c!"b" []] ++ word c!"x" ++ [.white c!" ", .tag false c!"i" [], .white c!" "] ++ word c!"three" ++
  [.white c!" ", .tag true c!"i" [], .tag true c!"p" [], .tag false c!"p" []] ++ word c!"four" ++ [.white c!" ", .tag true c!"p" []]

example : write sample = c!"<p> one\n  <b>two</b>x <i> three </i></p><p>four </p>" := by decide +kernel
example : ∀ p ∈ sample, p.ok = true := by decide +kernel
example : gapsOk sample = true := by decide +kernel
example : words (look sample) = [c!"one", c!"twox", c!"three", c!"four"] := by decide +kernel

/-- **C30**: The condition is necessary: a tabulator before an inline tag vanishes, and puts two words together. -/
theorem C30_tab_glues : stripHtml c!"one\t<b>two</b>" = c!"one<b>two</b>" := by decide +kernel

end Verif.Props
