import Verif.Creole.Emitter
import Verif.Py.StrLemmas
import Verif.Spec.Lines

/-!
# C04: line endings do not matter
-/

namespace Verif.Props

open Verif Py Creole Spec

theorem textLines_ne (s : Str) : textLines s ≠ [] := by
  fun_cases textLines s <;> simp

theorem textLines_cr {s : Str} (h : ∀ t, s ≠ '\n' :: t) : textLines ('\r' :: s) = [] :: textLines s := by
  rw [textLines]
  exact h

theorem crlf_cr {s : Str} (h : ∀ t, s ≠ '\n' :: t) : crlf ('\r' :: s) = '\n' :: crlf s := by
  rw [crlf]
  · simp
  · exact h

theorem crlf_textLines (s : Str) : crlf s = joinLines c!"\n" (textLines s) := by
  have cons : ∀ (l : List Str), l ≠ [] → joinLines c!"\n" ([] :: l) = '\n' :: joinLines c!"\n" l := by
    intro l hl
    cases l with
    | nil => exact absurd rfl hl
    | cons a l => simp [joinLines]
  fun_induction textLines s with
  | case1 => rfl
  | case2 s ih => rw [cons _ (textLines_ne s), ← ih]; simp [crlf]
  | case3 s hs ih =>
    rw [cons _ (textLines_ne s), ← ih]
    exact crlf_cr hs
  | case4 s ih => rw [cons _ (textLines_ne s), ← ih, crlf.eq_def]; simp
  | case5 c s h1 h2 h3 hl ih => exact absurd hl (textLines_ne s)
  | case6 c s h1 h2 h3 l ls hl ih =>
    have hc : c ≠ '\r' := fun e => h2 e
    rw [crlf.eq_def]
    simp only [hc, if_false, ih, hl]
    cases ls <;> simp [joinLines]

/-- **C04.** Two texts with the same lines, whatever mixture of CR LF, CR and LF terminates them, are converted to
the same HTML (or raise the same exception), with any options and any macros. -/
theorem C04_line_endings (o : Opts) (macros : Macros) (a b : Str) (h : textLines a = textLines b) :
    creole2htmlM o macros a = creole2htmlM o macros b := by
  unfold creole2htmlM parse
  rw [normNewlines, crlf_eq, crlf_textLines, h, ← crlf_textLines, ← crlf_eq]; rfl

theorem textLines_append (l s : Str) (hl : ∀ c ∈ l, c ≠ '\r' ∧ c ≠ '\n') :
    textLines (l ++ s) = match textLines s with | [] => [l] | m :: ms => (l ++ m) :: ms := by
  induction l with
  | nil =>
    cases h : textLines s with
    | nil => exact absurd h (textLines_ne s)
    | cons m ms => simp [h]
  | cons c l ih =>
    have hc := hl c (by simp)
    rw [List.cons_append, textLines.eq_def]
    split
    · simp_all
    · simp_all
    · simp_all
    · simp_all
    · rename_i c' s' _ _ _ he
      simp only [List.cons.injEq] at he
      obtain ⟨rfl, rfl⟩ := he
      rw [ih (fun d hd => hl d (by simp [hd]))]
      cases textLines s <;> rfl

theorem textLines_joinLines (t : Str) (ht : t = c!"\n" ∨ t = c!"\r\n" ∨ t = c!"\r") (ls : List Str) (hne : ls ≠ [])
    (hl : ∀ l ∈ ls, ∀ c ∈ l, c ≠ '\r' ∧ c ≠ '\n') : textLines (joinLines t ls) = ls := by
  induction ls with
  | nil => exact absurd rfl hne
  | cons l ls ih =>
    cases ls with
    | nil => simp only [joinLines]; rw [← List.append_nil l, textLines_append _ _ (hl l (by simp))]; rfl
    | cons m ls =>
      have ih := ih (by simp) (fun x hx => hl x (by simp [hx]))
      simp only [joinLines, List.append_assoc]
      rw [textLines_append _ _ (hl l (by simp))]
      rcases ht with rfl | rfl | rfl
      · simp [textLines, ih]
      · simp [textLines, ih]
      · have : textLines ('\r' :: joinLines c!"\r" (m :: ls)) = [] :: textLines (joinLines c!"\r" (m :: ls)) := by
          refine textLines_cr fun s h => ?_
          have hm := hl m (by simp)
          cases m with
          | nil => cases ls <;> simp [joinLines] at h
          | cons c m =>
            have := (hm c (by simp)).2
            cases ls <;> simp [joinLines] at h <;> exact this h.1
        simp only [List.cons_append, List.nil_append, this, ih, List.append_nil]

/-- **C04.** In particular a document stored with LF, CR LF or CR line ends is converted to the same HTML. -/
theorem C04_same_for_all_terminators (o : Opts) (macros : Macros) (ls : List Str) (hne : ls ≠ [])
    (hl : ∀ l ∈ ls, ∀ c ∈ l, c ≠ '\r' ∧ c ≠ '\n') :
    creole2htmlM o macros (joinLines c!"\r\n" ls) = creole2htmlM o macros (joinLines c!"\n" ls) ∧
    creole2htmlM o macros (joinLines c!"\r" ls) = creole2htmlM o macros (joinLines c!"\n" ls) := by
  have h := fun t ht => textLines_joinLines t ht ls hne hl
  exact ⟨C04_line_endings o macros _ _ (by rw [h _ (by simp), h _ (by simp)]),
    C04_line_endings o macros _ _ (by rw [h _ (by simp), h _ (by simp)])⟩

example : textLines c!"= a\r\n* b\r\rc" = textLines c!"= a\n* b\r\n\nc" := by decide

end Verif.Props
