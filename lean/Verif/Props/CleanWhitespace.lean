import Verif.Tools.Text

/-!
# `clean_whitespace` (C53)

The statements speak about a text `lead ++ core ++ trail` where `lead` and `trail` are white space and `core` neither
starts nor ends with white space; every text is of this form (`white_split`).
-/

namespace Verif.Props

open Verif Py Tools

/-- `core` neither starts nor ends with white space (true of the empty text) -/
def Tight (core : Str) : Prop :=
  (∀ c, core.head? = some c → isSpace c = false) ∧ (∀ c, core.getLast? = some c → isSpace c = false)

/-- `w` consists of white space -/
def White (w : Str) : Prop := ∀ c ∈ w, isSpace c = true

theorem mem_takeWhile {p : Char → Bool} {s : Str} : ∀ c ∈ s.takeWhile p, p c = true := by
  induction s with
  | nil => simp
  | cons d s ih =>
    intro c hc
    rw [List.takeWhile_cons] at hc
    split at hc
    · rcases List.mem_cons.mp hc with rfl | hc
      · assumption
      · exact ih c hc
    · simp at hc

theorem dropEnd_split (s : Str) : ∃ w, White w ∧ s = rstrip s ++ w := by
  induction s with
  | nil => exact ⟨[], by simp [White], rfl⟩
  | cons c s ih =>
    obtain ⟨w, hw, hs⟩ := ih
    unfold rstrip at hs ⊢
    unfold dropEndWhile
    cases h : dropEndWhile isSpace s with
    | nil =>
      rw [h] at hs
      simp only
      split
      · rename_i hc
        refine ⟨c :: w, ?_, by simpa using hs⟩
        intro d hd
        rcases List.mem_cons.mp hd with rfl | hd
        · exact hc
        · exact hw d hd
      · exact ⟨w, hw, by simpa using hs⟩
    | cons d ds => rw [h] at hs; exact ⟨w, hw, by simpa using hs⟩

/-- Every text splits into white space, a core and white space; the last part is empty if there is no core. -/
theorem white_split (t : Str) : ∃ lead trail, White lead ∧ White trail ∧ Tight (strip t) ∧ (strip t = [] → trail = []) ∧
    t = lead ++ strip t ++ trail := by
  have ht : Tight (strip t) := ⟨stripP_head t, stripP_last t⟩
  obtain ⟨w, hw, hs⟩ := dropEnd_split (lstrip t)
  by_cases he : strip t = []
  · refine ⟨t, [], ?_, by simp [White], ht, fun _ => rfl, by simp [he]⟩
    have h0 : lstrip t = w := by
      have : rstrip (lstrip t) = [] := he
      rw [this] at hs
      simpa using hs
    have hws : ∀ c ∈ w, isSpace c = true := hw
    have : w = [] := by
      cases w with
      | nil => rfl
      | cons c w =>
        have := dropWhile_head_false t c (by rw [show t.dropWhile isSpace = lstrip t from rfl, h0]; rfl)
        rw [hws c (by simp)] at this
        simp at this
    rw [this] at h0
    exact dropWhile_nil_iff.mp h0
  · refine ⟨t.takeWhile isSpace, w, fun c hc => mem_takeWhile c hc, hw, ht, fun h => absurd h he, ?_⟩
    rw [List.append_assoc, show strip t = rstrip (lstrip t) from rfl, ← hs]
    exact (List.takeWhile_append_dropWhile).symm

/-- C53: what `clean_whitespace` does to a text with a core: white space in front becomes one blank if it contains a
blank and disappears otherwise; white space behind becomes a newline if it contains one, else a blank if it contains
one, and is kept otherwise; the core does not change. -/
theorem C53_shape {lead core trail : Str} (h1 : White lead) (h2 : White trail) (hc : Tight core) (hn : core ≠ []) :
    cleanWhitespace (lead ++ core ++ trail) = (if ' ' ∈ lead then c!" " else c!"") ++ core ++
      (if '\n' ∈ trail then c!"\n" else if ' ' ∈ trail then c!" " else trail) := by
  rw [cleanWhitespace_eq h1 h2 hc.1 hc.2 (fun h => absurd h hn)]
  simp

/-- C53, without a core: a text of white space becomes a blank if it contains one, and the empty text otherwise -/
theorem C53_white {w : Str} (h : White w) : cleanWhitespace w = if ' ' ∈ w then c!" " else c!"" := by
  have := cleanWhitespace_eq (lead := w) (core := []) (trail := []) h (by simp) (by simp) (by simp) (by simp)
  simpa using this

example : White c!" \t" ∧ White c!"\t\n\n" ∧ Tight c!"foo  bar" ∧
    cleanWhitespace c!" \tfoo  bar\t\n\n" = c!" foo  bar\n" := by
  refine ⟨?_, ?_, ⟨?_, ?_⟩, ?_⟩ <;> first
    | decide
    | (intro c h; revert h; simp; rintro rfl; decide)
    | (intro c h; revert h; simp; rintro (rfl | rfl) <;> decide)

/-- C53: the text without surrounding white space is unchanged. -/
theorem C53_core (t : Str) : strip (cleanWhitespace t) = strip t := by
  obtain ⟨lead, trail, h1, h2, hc, he, ht⟩ := white_split t
  have hclean := cleanWhitespace_eq h1 h2 hc.1 hc.2 he
  rw [← ht] at hclean
  rw [hclean, strip_pad, strip_strip]
  · intro c hc
    split at hc
    · simp at hc; subst hc; decide
    · simp at hc
  · intro c hc
    split at hc
    · simp at hc; subst hc; decide
    · split at hc
      · simp at hc; subst hc; decide
      · exact h2 c hc

/-- C53: cleaning twice is cleaning once. -/
theorem C53_idempotent (t : Str) : cleanWhitespace (cleanWhitespace t) = cleanWhitespace t := by
  obtain ⟨lead, trail, h1, h2, hc, he, ht⟩ := white_split t
  have hclean := cleanWhitespace_eq h1 h2 hc.1 hc.2 he
  rw [← ht] at hclean
  rw [hclean, cleanWhitespace_eq _ _ hc.1 hc.2]
  · congr 1
    · congr 1
      by_cases h : lead.contains ' ' = true
      · rw [if_pos h, if_pos (by decide)]
      · rw [if_neg h, if_neg (by decide)]
    · by_cases h : trail.contains '\n' = true
      · rw [if_pos h, if_pos (by decide)]
      · rw [if_neg h]
        by_cases h' : trail.contains ' ' = true
        · rw [if_pos h', if_neg (by decide), if_pos (by decide)]
        · rw [if_neg h', if_neg h, if_neg h']
  · intro h
    rw [he h]
    simp
  · intro c hc
    split at hc
    · simp at hc; subst hc; decide
    · simp at hc
  · intro c hc
    split at hc
    · simp at hc; subst hc; decide
    · split at hc
      · simp at hc; subst hc; decide
      · exact h2 c hc

end Verif.Props
