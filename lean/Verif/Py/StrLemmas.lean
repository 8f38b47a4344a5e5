import Verif.Py.Str

/-!
# Lemmas about Python strings
-/

namespace Verif.Py

open Verif

/-- replacing a single character works character by character -/
theorem replace_single (c : Char) (new s : Str) :
    replace [c] new s = s.flatMap fun d => if d = c then new else [d] := by
  unfold replace
  induction s with
  | nil => rfl
  | cons d s ih =>
    simp only [replaceAux, List.isPrefixOf, List.length_singleton, Nat.sub_self, List.flatMap_cons, ih,
      Bool.and_true, beq_iff_eq]
    by_cases h : d = c
    · subst h; simp
    · rw [if_neg (fun e => h e.symm), if_neg h]; rfl

/-- `s.replace('\r\n', '\n').replace('\r', '\n')`, read from left to right -/
def crlf : Str → Str
  | [] => []
  | c :: s =>
    if c = '\r' then
      match s with
      | '\n' :: s => '\n' :: crlf s
      | s => '\n' :: crlf s
    else c :: crlf s

theorem replace_crlf_crlf (s : Str) : replace c!"\r\n" c!"\n" ('\r' :: '\n' :: s) = '\n' :: replace c!"\r\n" c!"\n" s := by
  simp [replace, replaceAux, List.isPrefixOf]

theorem replace_crlf_other (c : Char) (s : Str) (h : ∀ t, c = '\r' → s ≠ '\n' :: t) :
    replace c!"\r\n" c!"\n" (c :: s) = c :: replace c!"\r\n" c!"\n" s := by
  unfold replace
  rw [replaceAux]
  rw [if_neg]
  intro hp
  rw [List.isPrefixOf_iff_prefix] at hp
  obtain ⟨t, ht⟩ := hp
  simp at ht
  exact h t ht.1.symm ht.2.symm

theorem crlf_eq (s : Str) : replace c!"\r" c!"\n" (replace c!"\r\n" c!"\n" s) = crlf s := by
  fun_induction crlf s with
  | case1 => rfl
  | case2 s ih => rw [replace_crlf_crlf, replace_single, List.flatMap_cons, ← replace_single, ih]; rfl
  | case3 s h ih =>
    rw [replace_crlf_other _ _ (fun t _ he => h t he), replace_single, List.flatMap_cons, ← replace_single, ih]; rfl
  | case4 c s hc ih =>
    rw [replace_crlf_other _ _ (fun t he => absurd he hc), replace_single, List.flatMap_cons, ← replace_single, ih,
      if_neg hc]; rfl

theorem crlf_no_cr (s : Str) : '\r' ∉ crlf s := by
  fun_induction crlf s with
  | case1 => simp
  | case2 s ih => simp [ih]
  | case3 s h ih => simp [ih]
  | case4 c s hc ih => simp [ih]; exact fun h => hc h.symm

theorem crlf_of_no_cr (s : Str) (h : '\r' ∉ s) : crlf s = s := by
  induction s with
  | nil => rfl
  | cons c s ih =>
    simp at h
    unfold crlf
    rw [if_neg (fun e => h.1 e.symm), ih h.2]

theorem prefix_of_crlf : ∀ (s w : Str), '\n' ∉ w → w <+: crlf s → w <+: s := by
  intro s
  fun_induction crlf s with
  | case1 => intro w _ h; exact h
  | case2 s ih =>
    intro w hw h
    cases w with
    | nil => exact List.nil_prefix
    | cons c w => rw [List.cons_prefix_cons] at h; simp [h.1] at hw
  | case3 s hs ih =>
    intro w hw h
    cases w with
    | nil => exact List.nil_prefix
    | cons c w => rw [List.cons_prefix_cons] at h; simp [h.1] at hw
  | case4 c s hc ih =>
    intro w hw h
    cases w with
    | nil => exact List.nil_prefix
    | cons d w =>
      rw [List.cons_prefix_cons] at h ⊢
      simp at hw
      exact ⟨h.1, ih w hw.2 h.2⟩

theorem suffix_of_crlf : ∀ (s t : Str), t <:+ crlf s → ∃ s', s' <:+ s ∧ t = crlf s' := by
  intro s
  fun_induction crlf s with
  | case1 => intro t h; exact ⟨[], List.suffix_refl _, by simpa [crlf] using h⟩
  | case2 s ih =>
    intro t h
    rw [List.suffix_cons_iff] at h
    rcases h with rfl | h
    · exact ⟨'\r' :: '\n' :: s, List.suffix_refl _, by simp [crlf]⟩
    · obtain ⟨s', h1, h2⟩ := ih t h
      exact ⟨s', (h1.trans (List.suffix_cons _ _)).trans (List.suffix_cons _ _), h2⟩
  | case3 s hs ih =>
    intro t h
    rw [List.suffix_cons_iff] at h
    rcases h with rfl | h
    · refine ⟨'\r' :: s, List.suffix_refl _, ?_⟩
      rw [crlf]
      · simp
      · exact hs
    · obtain ⟨s', h1, h2⟩ := ih t h
      exact ⟨s', h1.trans (List.suffix_cons _ _), h2⟩
  | case4 c s hc ih =>
    intro t h
    rw [List.suffix_cons_iff] at h
    rcases h with rfl | h
    · exact ⟨c :: s, List.suffix_refl _, by rw [crlf.eq_def (c :: s)]; simp [hc]⟩
    · obtain ⟨s', h1, h2⟩ := ih t h
      exact ⟨s', h1.trans (List.suffix_cons _ _), h2⟩

/-- a text without line feeds that occurs after the conversion occurs before it -/
theorem infix_of_infix_crlf {w s : Str} (hw : '\n' ∉ w) (h : w <:+: crlf s) : w <:+: s := by
  rcases List.infix_iff_prefix_suffix.mp h with ⟨t, h1, h2⟩
  obtain ⟨s', h3, rfl⟩ := suffix_of_crlf s t h2
  exact (prefix_of_crlf s' w hw h1).isInfix.trans h3.isInfix

theorem hasSub_iff {w : Str} (s : Str) : hasSub w s = true ↔ w <:+: s := by
  induction s with
  | nil => simp [hasSub]
  | cons c s ih => simp [hasSub, List.infix_cons_iff, ih]

end Verif.Py
