import Verif.Py.DictLemmas

/-!
# Lemmas about stripping, splitting and joining
-/

namespace Verif.Py

open Verif

theorem dropWhile_all {p : Char → Bool} {w : Str} (h : ∀ c ∈ w, p c = true) (s : Str) :
    (w ++ s).dropWhile p = s.dropWhile p := by
  induction w with
  | nil => rfl
  | cons c w ih =>
    rw [List.cons_append, List.dropWhile_cons, if_pos (h c List.mem_cons_self)]
    exact ih fun x hx => h x (List.mem_cons_of_mem _ hx)

theorem dropWhile_nil_iff {p : Char → Bool} {s : Str} : s.dropWhile p = [] ↔ ∀ c ∈ s, p c = true := by
  induction s with
  | nil => simp
  | cons c s ih =>
    rw [List.dropWhile_cons]
    split
    · next h => simp [h, ih]
    · next h => simp [h]

theorem dropEndWhile_all {p : Char → Bool} {w : Str} (h : ∀ c ∈ w, p c = true) : dropEndWhile p w = [] := by
  induction w with
  | nil => rfl
  | cons c w ih =>
    rw [dropEndWhile, ih fun x hx => h x (List.mem_cons_of_mem _ hx)]
    simp [h c List.mem_cons_self]

theorem dropEndWhile_append {p : Char → Bool} {w : Str} (h : ∀ c ∈ w, p c = true) (s : Str) :
    dropEndWhile p (s ++ w) = dropEndWhile p s := by
  induction s with
  | nil => rw [List.nil_append, dropEndWhile_all h]; rfl
  | cons c s ih => rw [List.cons_append, dropEndWhile, dropEndWhile, ih]

theorem dropEndWhile_append_last {p : Char → Bool} (s : Str) {c : Char} (h : p c = false) :
    dropEndWhile p (s ++ [c]) = s ++ [c] := by
  refine dropEndWhile_last ?_
  intro d hd
  simp only [List.getLast?_concat, Option.some.injEq] at hd
  rw [← hd]
  exact h

/-- what is left after dropping from the end has no such character at its end -/
theorem dropEndWhile_getLast {p : Char → Bool} (s : Str) : ∀ c, (dropEndWhile p s).getLast? = some c → p c = false := by
  induction s with
  | nil => intro c h; cases h
  | cons d s ih =>
    intro c h
    rw [dropEndWhile] at h
    split at h
    · next h0 =>
      split at h
      · cases h
      · next hd =>
        simp only [List.getLast?_singleton, Option.some.injEq] at h
        rw [← h]
        simpa using hd
    · next e es h0 =>
      rw [List.getLast?_cons_cons, ← h0] at h
      exact ih c h

theorem dropWhile_head_false {p : Char → Bool} (s : Str) : ∀ c, (s.dropWhile p).head? = some c → p c = false := by
  induction s with
  | nil => intro c h; cases h
  | cons d s ih =>
    intro c h
    rw [List.dropWhile_cons] at h
    split at h
    · exact ih c h
    · next hd =>
      simp only [List.head?_cons, Option.some.injEq] at h
      rw [← h]
      simpa using hd

theorem dropEndWhile_head {p : Char → Bool} (s : Str) (c : Char) (h : (dropEndWhile p s).head? = some c) :
    s.head? = some c := by
  cases s with
  | nil => exact h
  | cons d s =>
    rw [dropEndWhile] at h
    split at h
    · split at h
      · cases h
      · exact h
    · exact h

theorem stripP_head {p : Char → Bool} (s : Str) (c : Char) (h : (stripP p s).head? = some c) : p c = false :=
  dropWhile_head_false s c (dropEndWhile_head _ c h)

theorem stripP_last {p : Char → Bool} (s : Str) (c : Char) (h : (stripP p s).getLast? = some c) : p c = false :=
  dropEndWhile_getLast _ c h

theorem strip_eq_stripP (s : Str) : strip s = stripP isSpace s := rfl

theorem stripP_stripP {p : Char → Bool} (s : Str) : stripP p (stripP p s) = stripP p s :=
  stripP_id (stripP_head s) (stripP_last s)

theorem strip_strip (s : Str) : strip (strip s) = strip s := stripP_stripP s

/-- blanks around a text do not matter -/
theorem stripP_pad {p : Char → Bool} {w w' : Str} (h : ∀ c ∈ w, p c = true) (h' : ∀ c ∈ w', p c = true) (s : Str) :
    stripP p (w ++ s ++ w') = stripP p s := by
  rw [stripP, stripP, List.append_assoc, dropWhile_all h]
  by_cases hs : s.dropWhile p = []
  · rw [dropEndWhile_all, hs]
    · rfl
    · intro c hc
      have hs' := dropWhile_nil_iff.mp hs
      have : c ∈ s ++ w' := (List.dropWhile_suffix p).subset hc
      rcases List.mem_append.mp this with hc | hc
      · exact hs' c hc
      · exact h' c hc
  · have : (s ++ w').dropWhile p = s.dropWhile p ++ w' := by
      clear h h' w
      induction s with
      | nil => exact absurd rfl hs
      | cons c s ih =>
        rw [List.cons_append, List.dropWhile_cons, List.dropWhile_cons]
        rw [List.dropWhile_cons] at hs
        split
        · next hc =>
          rw [if_pos hc] at hs
          exact ih hs
        · rfl
    rw [this, dropEndWhile_append h']

theorem strip_pad {w w' : Str} (h : ∀ c ∈ w, isSpace c = true) (h' : ∀ c ∈ w', isSpace c = true) (s : Str) :
    strip (w ++ s ++ w') = strip s := stripP_pad h h' s

theorem strip_id {s : Str} (h1 : ∀ c, s.head? = some c → isSpace c = false)
    (h2 : ∀ c, s.getLast? = some c → isSpace c = false) : strip s = s := stripP_id h1 h2

/-! ## Joining -/

theorem join_cons_cons (sep a b : Str) (l : List Str) : join sep (a :: b :: l) = a ++ sep ++ join sep (b :: l) := rfl

theorem join_cons {sep : Str} (a : Str) {l : List Str} (h : l ≠ []) : join sep (a :: l) = a ++ sep ++ join sep l := by
  cases l with
  | nil => exact absurd rfl h
  | cons b l => rfl

theorem join_append {sep : Str} : ∀ {a b : List Str}, a ≠ [] → b ≠ [] →
    join sep (a ++ b) = join sep a ++ sep ++ join sep b
  | [], _, h, _ => absurd rfl h
  | [x], b, _, h => by rw [List.singleton_append, join_cons x h]; rfl
  | x :: y :: a, b, _, h => by
    rw [List.cons_append, List.cons_append, join_cons_cons, ← List.cons_append, join_append (by simp) h, join_cons_cons]
    simp only [List.append_assoc]

/-- the length of a joined list depends on the lengths of the parts only -/
theorem join_length (sep : Str) : ∀ {a b : List Str}, a.map List.length = b.map List.length →
    (join sep a).length = (join sep b).length
  | [], [], _ => rfl
  | [], _ :: _, h => by simp at h
  | _ :: _, [], h => by simp at h
  | [x], [y], h => by simpa [join] using h
  | [x], y :: z :: b, h => by simp at h
  | x :: y :: a, [z], h => by simp at h
  | x :: y :: a, x' :: y' :: b, h => by
    rw [List.map_cons, List.map_cons (l := y' :: b), List.cons.injEq] at h
    rw [join_cons_cons, join_cons_cons, List.length_append, List.length_append, List.length_append, List.length_append,
      h.1, join_length sep h.2]

/-! ## Splitting -/

theorem splitChar_ne_nil (c : Char) (s : Str) : splitChar c s ≠ [] := by
  cases s with
  | nil => simp [splitChar]
  | cons d s =>
    rw [splitChar]
    split
    · simp
    · split <;> simp

theorem splitChar_of_not_mem {c : Char} {s : Str} (h : c ∉ s) : splitChar c s = [s] := by
  induction s with
  | nil => rfl
  | cons d s ih =>
    rw [List.mem_cons, not_or] at h
    rw [splitChar, ih h.2, if_neg (by simpa using Ne.symm h.1)]

theorem splitChar_append {c : Char} {a : Str} (h : c ∉ a) (b : Str) :
    splitChar c (a ++ c :: b) = a :: splitChar c b := by
  induction a with
  | nil => simp [splitChar]
  | cons d a ih =>
    rw [List.mem_cons, not_or] at h
    rw [List.cons_append, splitChar, ih h.2, if_neg (by simpa using Ne.symm h.1)]

/-- splitting undoes joining -/
theorem splitChar_join {c : Char} : ∀ {l : List Str}, l ≠ [] → (∀ a ∈ l, c ∉ a) → splitChar c (join [c] l) = l
  | [], h, _ => absurd rfl h
  | [a], _, h => splitChar_of_not_mem (h a List.mem_cons_self)
  | a :: b :: l, _, h => by
    rw [join_cons_cons, List.append_assoc, List.singleton_append, splitChar_append (h a List.mem_cons_self),
      splitChar_join (by simp) fun x hx => h x (List.mem_cons_of_mem _ hx)]

/-- joining undoes splitting -/
theorem join_splitChar (c : Char) (s : Str) : join [c] (splitChar c s) = s := by
  induction s with
  | nil => rfl
  | cons d s ih =>
    rw [splitChar]
    split
    · next h =>
      rw [join_cons _ (splitChar_ne_nil c s), ih]
      simp only [beq_iff_eq] at h
      rw [h]; rfl
    · split
      · next h => exact absurd h (splitChar_ne_nil c s)
      · next l ls h =>
        rw [h] at ih
        cases ls with
        | nil => simp only [join] at ih ⊢; rw [ih]
        | cons m ls => rw [join_cons_cons] at ih ⊢; rw [List.cons_append, List.cons_append, ih]

end Verif.Py
