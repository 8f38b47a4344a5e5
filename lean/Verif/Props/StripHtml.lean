import Verif.Html.Strip
import Verif.Py.ReHead

/-!
# `strip_html` (C30)
-/

namespace Verif.Props

open Verif Py Html

/-- the characters of a string that are no white space -/
def solid (s : Str) : Str := s.filter fun c => !isSpace c

theorem solid_append (a b : Str) : solid (a ++ b) = solid a ++ solid b := by simp [solid]

theorem solid_cons (c : Char) (s : Str) : solid (c :: s) = (if isSpace c then [] else [c]) ++ solid s := by
  unfold solid
  cases h : isSpace c <;> simp [h]

theorem solid_flatMap {α : Type} (f : α → Str) (l : List α) : solid (l.flatMap f) = l.flatMap fun x => solid (f x) := by
  induction l with
  | nil => rfl
  | cons x l ih => simp only [List.flatMap_cons, solid_append, ih]

theorem solid_lstrip (s : Str) : solid (lstrip s) = solid s := by
  unfold lstrip
  induction s with
  | nil => rfl
  | cons c s ih =>
    rw [List.dropWhile_cons]
    split
    · rename_i h; rw [ih, solid_cons, if_pos h]; rfl
    · rfl

theorem solid_rstrip (s : Str) : solid (rstrip s) = solid s := by
  unfold rstrip
  induction s with
  | nil => rfl
  | cons c s ih =>
    unfold dropEndWhile
    rw [solid_cons, ← ih]
    split
    · rename_i h
      split
      · rename_i hc; rw [h]; simp [solid]
      · rename_i hc; rw [h]; simp [hc, solid]
    · rename_i d ds h
      rw [solid_cons, h]

theorem solid_strip (s : Str) : solid (strip s) = solid s := by rw [strip, solid_rstrip, solid_lstrip]

theorem solid_join (l : List Str) : solid (join c!" " l) = l.flatMap solid := by
  induction l with
  | nil => rfl
  | cons a l ih =>
    cases l with
    | nil => simp [join]
    | cons b l =>
      simp only [join, solid_append, ih, List.flatMap_cons]
      rw [show solid c!" " = [] from rfl]
      simp

theorem solid_splitChar (s : Str) : (splitChar '\n' s).flatMap solid = solid s := by
  induction s with
  | nil => rfl
  | cons c s ih =>
    unfold splitChar
    split
    · rename_i h
      simp at h
      subst h
      rw [List.flatMap_cons, ih, solid_cons, if_pos (by decide)]; rfl
    · cases hs : splitChar '\n' s with
      | nil => rw [hs] at ih; rw [solid_cons c s, ← ih, List.flatMap_cons, solid_cons, List.append_assoc]; rfl
      | cons l ls =>
        rw [hs] at ih
        rw [List.flatMap_cons] at ih ⊢
        rw [solid_cons, solid_cons, ← ih, List.append_assoc]

theorem solid_joinStripped (s : Str) : solid (joinStripped s) = solid s := by
  unfold joinStripped
  rw [solid_join, List.flatMap_map, ← solid_splitChar s]
  simp only [solid_strip]

theorem solid_stripTag (m : Match SG) : solid (stripTag m) = solid m.text := by
  have h1 : ∀ s : Str, solid (s ++ c!" ") = solid s := fun s => by
    rw [solid_append, show solid c!" " = [] from rfl, List.append_nil]
  have h2 : ∀ s : Str, solid (' ' :: s) = solid s := fun s => by rw [solid_cons, if_pos (by decide)]; rfl
  unfold stripTag
  dsimp only
  repeat' split
  all_goals simp only [h1, h2, solid_strip]

/-- **C30**: `strip_html` keeps exactly the characters that are no white space, in their order. -/
theorem C30_strip_html_solid (s : Str) : solid (stripHtml s) = solid s := by
  unfold stripHtml
  unfold Re.sub
  rw [solid_flatMap]
  refine Eq.trans (b := (stripRe.scan (joinStripped (strip s))).flatMap fun x => solid (Seg.text x)) ?_ ?_
  · congr 1
    funext x
    cases x with
    | skip c => rfl
    | hit m => exact solid_stripTag m
  · rw [← solid_flatMap, Re.scan_text, solid_joinStripped, solid_strip]

example : stripHtml c!" <p>  one  \n two  </p>" = c!"<p>one two</p>" ∧
    solid c!" <p>  one  \n two  </p>" = c!"<p>onetwo</p>" := by decide +kernel

/-! ## No line breaks -/

theorem notMem_dropWhile {p : Char → Bool} {c : Char} {s : Str} (h : c ∉ s) : c ∉ s.dropWhile p :=
  fun hm => h ((List.dropWhile_sublist p).mem hm)

theorem dropEndWhile_sublist (p : Char → Bool) (s : Str) : (dropEndWhile p s).Sublist s := by
  induction s with
  | nil => exact .slnil
  | cons c s ih =>
    unfold dropEndWhile
    split
    · split
      · exact List.nil_sublist _
      · exact List.cons_sublist_cons.2 (List.nil_sublist _)
    · rename_i d ds h
      rw [h] at ih
      exact List.cons_sublist_cons.2 ih

theorem strip_sublist (s : Str) : (strip s).Sublist s :=
  (dropEndWhile_sublist _ _).trans (List.dropWhile_sublist _)

theorem splitChar_not_mem (c : Char) (s : Str) : ∀ l ∈ splitChar c s, c ∉ l := by
  induction s with
  | nil => simp [splitChar]
  | cons d s ih =>
    unfold splitChar
    split
    · intro l hl
      simp only [List.mem_cons] at hl
      rcases hl with rfl | hl
      · simp
      · exact ih l hl
    · rename_i hd
      simp only [beq_iff_eq] at hd
      cases hs : splitChar c s with
      | nil => intro l hl; simp only [List.mem_singleton] at hl; subst hl; simpa using Ne.symm hd
      | cons a as =>
        rw [hs] at ih
        intro l hl
        simp only [List.mem_cons] at hl
        rcases hl with rfl | hl
        · have := ih a (by simp)
          simp only [List.mem_cons, not_or]
          exact ⟨Ne.symm hd, this⟩
        · exact ih l (by simp [hl])

theorem join_not_mem {c : Char} {sep : Str} (hs : c ∉ sep) : ∀ {l : List Str}, (∀ a ∈ l, c ∉ a) → c ∉ join sep l
  | [], _ => by simp [join]
  | [a], h => by simpa [join] using h
  | a :: b :: l, h => by
    simp only [join, List.mem_append, not_or]
    exact ⟨⟨h a (by simp), hs⟩, join_not_mem hs fun x hx => h x (by simp at hx ⊢; exact .inr hx)⟩

theorem stripTag_not_newline {m : Match SG} (h : '\n' ∉ m.text) : '\n' ∉ stripTag m := by
  have hs : '\n' ∉ strip m.text := fun hm => h ((strip_sublist _).mem hm)
  unfold stripTag
  dsimp only
  repeat' split
  all_goals simp [hs]

/-- **C30**: the result of `strip_html` is a single line. -/
theorem C30_strip_html_one_line (s : Str) : '\n' ∉ stripHtml s := by
  have h0 : '\n' ∉ joinStripped (strip s) := by
    unfold joinStripped
    refine join_not_mem (by decide) ?_
    intro a ha
    simp only [List.mem_map] at ha
    obtain ⟨l, hl, rfl⟩ := ha
    exact fun hm => splitChar_not_mem '\n' _ l hl ((strip_sublist l).mem hm)
  have h1 : ∀ x ∈ stripRe.scan (joinStripped (strip s)), '\n' ∉ Seg.text x := by
    intro x hx hm
    apply h0
    rw [← Re.scan_text stripRe (joinStripped (strip s))]
    exact List.mem_flatMap.2 ⟨x, hx, hm⟩
  unfold stripHtml Re.sub
  intro hm
  obtain ⟨x, hx, hm⟩ := List.mem_flatMap.1 hm
  have := h1 x hx
  cases x with
  | skip c => exact this hm
  | hit m => exact stripTag_not_newline this hm

example : stripHtml c!"a\nb\n\nc" = c!"a b  c" := by decide +kernel

end Verif.Props
