import Verif.Spec.Arguments
import Verif.Py.DictLemmas

/-!
# `shlex.split` reads the words that are written
-/

namespace Verif.Py

open Verif Spec.Ar

theorem blank_iff {c : Char} : isLexBlank c = true ↔ Blank c := by simp [isLexBlank, Blank, or_assoc]
theorem not_blank_iff {c : Char} : isLexBlank c = false ↔ ¬ Blank c := by
  rw [← blank_iff]; simp

theorem lexQuote_iff {c : Char} : isLexQuote c = true ↔ c = '\'' ∨ c = '"' := by simp [isLexQuote]

/-! ## Written words are read -/

theorem lex_single (s : Str) (h : '\'' ∉ s) (tok : Str) (q : Bool) (r : Str) :
    lexAux (.quote '\'') tok q (s ++ '\'' :: r) = lexAux .word (tok ++ s) true r := by
  induction s generalizing tok q with
  | nil => rw [List.nil_append, lexAux, if_pos rfl, List.append_nil]
  | cons c s ih =>
    have hc : c ≠ '\'' := fun e => h (by simp [e])
    rw [List.cons_append, lexAux, if_neg hc, if_neg (by simp), ih (fun e => h (by simp [e]))]
    simp

theorem lex_double (cs : List (Bool × Char)) (h : ∀ x ∈ cs, x.1 = false → x.2 ≠ '"' ∧ x.2 ≠ '\\') (tok : Str) (q : Bool) (r : Str) :
    lexAux (.quote '"') tok q (cs.flatMap inQuotes ++ '"' :: r) = lexAux .word (tok ++ cs.flatMap unquoted) true r := by
  induction cs generalizing tok q with
  | nil => rw [List.flatMap_nil, List.nil_append, lexAux, if_pos rfl, List.flatMap_nil, List.append_nil]
  | cons x cs ih =>
    obtain ⟨b, c⟩ := x
    have ih := fun tok q => ih (fun x hx => h x (by simp [hx])) tok q
    cases b with
    | false =>
      obtain ⟨h1, h2⟩ := h (false, c) (by simp) rfl
      rw [List.flatMap_cons, inQuotes, List.flatMap_cons, unquoted, List.append_assoc, List.cons_append, List.nil_append, lexAux,
        if_neg h1, if_neg (by simp [h2]), ih]
      simp
    | true =>
      rw [List.flatMap_cons, inQuotes, List.flatMap_cons, List.append_assoc, List.cons_append, List.cons_append, List.nil_append, lexAux,
        if_neg (by decide), if_pos (by decide), lexAux, ih]
      unfold unquoted
      congr 1
      rw [List.append_assoc]
      congr 2
      by_cases h1 : c = '"'
      · subst h1; rfl
      · by_cases h2 : c = '\\'
        · subst h2; rfl
        · simp [h1, h2]

/-- a part of a word, in a word -/
theorem lex_piece {p : Piece} (hp : p.Ok) (tok : Str) (q : Bool) (r : Str) :
    ∃ q', lexAux .word tok q (p.text ++ r) = lexAux .word (tok ++ p.chars) q' r ∧ (tok ++ p.chars ≠ [] ∨ q' = true) := by
  cases p with
  | char c =>
    obtain ⟨h1, h2, h3, h4⟩ := hp
    refine ⟨q, ?_, .inl (by simp [Piece.chars])⟩
    rw [Piece.text, List.cons_append, List.nil_append, lexAux, if_neg (by rw [blank_iff]; exact h1),
      if_neg (by rw [lexQuote_iff]; rintro (h | h); exact h2 h; exact h3 h), if_neg h4]
    rfl
  | escaped c =>
    refine ⟨q, ?_, .inl (by simp [Piece.chars])⟩
    rw [Piece.text, List.cons_append, List.cons_append, List.nil_append, lexAux, if_neg (by decide), if_neg (by decide), if_pos rfl, lexAux]
    rfl
  | single s =>
    refine ⟨true, ?_, .inr rfl⟩
    rw [Piece.text, List.cons_append, List.cons_append, List.append_assoc, lexAux, if_neg (by decide), if_pos (by decide)]
    exact lex_single s hp tok q r
  | double cs =>
    refine ⟨true, ?_, .inr rfl⟩
    rw [Piece.text, List.cons_append, List.cons_append, List.append_assoc, lexAux, if_neg (by decide), if_pos (by decide)]
    exact lex_double cs hp tok q r

/-- the first part of a word -/
theorem lex_first {p : Piece} (hp : p.Ok) (r : Str) :
    ∃ q', lexAux .blank [] false (p.text ++ r) = lexAux .word p.chars q' r ∧ (p.chars ≠ [] ∨ q' = true) := by
  cases p with
  | char c =>
    obtain ⟨h1, h2, h3, h4⟩ := hp
    refine ⟨false, ?_, .inl (by simp [Piece.chars])⟩
    rw [Piece.text, List.cons_append, List.nil_append, lexAux, if_neg (by rw [blank_iff]; exact h1), if_neg h4,
      if_neg (by rw [lexQuote_iff]; rintro (h | h); exact h2 h; exact h3 h)]
    rfl
  | escaped c =>
    refine ⟨false, ?_, .inl (by simp [Piece.chars])⟩
    rw [Piece.text, List.cons_append, List.cons_append, List.nil_append, lexAux, if_neg (by decide), if_pos rfl, lexAux]
    rfl
  | single s =>
    refine ⟨true, ?_, .inr rfl⟩
    rw [Piece.text, List.cons_append, List.cons_append, List.append_assoc, lexAux, if_neg (by decide), if_neg (by decide), if_pos (by decide)]
    exact lex_single s hp [] false r
  | double cs =>
    refine ⟨true, ?_, .inr rfl⟩
    rw [Piece.text, List.cons_append, List.cons_append, List.append_assoc, lexAux, if_neg (by decide), if_neg (by decide), if_pos (by decide)]
    exact lex_double cs hp [] false r

theorem lex_pieces {ps : List Piece} (hp : ∀ p ∈ ps, p.Ok) (tok : Str) (q : Bool) (hq : tok ≠ [] ∨ q = true) (r : Str) :
    ∃ q', lexAux .word tok q (ps.flatMap Piece.text ++ r) = lexAux .word (tok ++ ps.flatMap Piece.chars) q' r ∧
      (tok ++ ps.flatMap Piece.chars ≠ [] ∨ q' = true) := by
  induction ps generalizing tok q with
  | nil => exact ⟨q, by simp, by simpa using hq⟩
  | cons p ps ih =>
    obtain ⟨q1, h1, h2⟩ := lex_piece (hp p (by simp)) tok q (ps.flatMap Piece.text ++ r)
    obtain ⟨q2, h3, h4⟩ := ih (fun p h => hp p (by simp [h])) (tok ++ p.chars) q1 h2
    refine ⟨q2, ?_, ?_⟩
    · rw [List.flatMap_cons, List.append_assoc, h1, h3, List.flatMap_cons, List.append_assoc]
    · rw [List.flatMap_cons, ← List.append_assoc]; exact h4

theorem lex_wordText {ps : List Piece} (hne : ps ≠ []) (hp : ∀ p ∈ ps, p.Ok) (r : Str) :
    ∃ q', lexAux .blank [] false (ps.flatMap Piece.text ++ r) = lexAux .word (ps.flatMap Piece.chars) q' r ∧
      (ps.flatMap Piece.chars ≠ [] ∨ q' = true) := by
  cases ps with
  | nil => exact absurd rfl hne
  | cons p ps =>
    obtain ⟨q1, h1, h2⟩ := lex_first (hp p (by simp)) (ps.flatMap Piece.text ++ r)
    obtain ⟨q2, h3, h4⟩ := lex_pieces (ps := ps) (fun p h => hp p (by simp [h])) p.chars q1 h2 r
    refine ⟨q2, ?_, ?_⟩
    · rw [List.flatMap_cons, List.append_assoc, h1, h3, List.flatMap_cons]
    · rw [List.flatMap_cons]; exact h4

theorem lex_written {s : Str} {ws : List Str} (h : Written s ws) : shlexSplit s = .ok ws := by
  unfold shlexSplit
  induction h with
  | nil => rfl
  | blank hc _ ih =>
    rw [lexAux, if_pos (blank_iff.mpr hc), if_neg (by simp)]
    exact ih
  | @last ps hne hp =>
    obtain ⟨q, h1, h2⟩ := lex_wordText hne hp []
    rw [List.append_nil] at h1
    rw [h1, lexAux, if_pos (by simpa using h2)]
  | @word ps c s ws hne hp hc _ ih =>
    obtain ⟨q, h1, h2⟩ := lex_wordText hne hp (c :: s)
    rw [h1, lexAux, if_pos (blank_iff.mpr hc), if_pos (by simpa using h2), ih]
    rfl

/-! ## Words that are read are written -/

/-- the rest of a word that begins with `tok`, and the words after it -/
def WordTail (tok s : Str) (ws : List Str) : Prop :=
  ∃ ps : List Piece, (∀ p ∈ ps, p.Ok) ∧ ((s = ps.flatMap Piece.text ∧ ws = [tok ++ ps.flatMap Piece.chars]) ∨
    ∃ c s' ws', Blank c ∧ s = ps.flatMap Piece.text ++ c :: s' ∧ ws = (tok ++ ps.flatMap Piece.chars) :: ws' ∧ Written s' ws')

theorem WordTail.piece {p : Piece} (hp : p.Ok) {tok s : Str} {ws : List Str} (h : WordTail (tok ++ p.chars) s ws) : WordTail tok (p.text ++ s) ws := by
  obtain ⟨ps, h1, h2⟩ := h
  refine ⟨p :: ps, ?_, ?_⟩
  · intro p' hp'
    rcases List.mem_cons.mp hp' with rfl | h
    · exact hp
    · exact h1 p' h
  · rcases h2 with ⟨rfl, rfl⟩ | ⟨c, s', ws', h3, rfl, rfl, h4⟩
    · exact .inl ⟨by simp, by simp⟩
    · exact .inr ⟨c, s', ws', h3, by simp, by simp, h4⟩

theorem WordTail.written {p : Piece} (hp : p.Ok) {s : Str} {ws : List Str} (h : WordTail p.chars s ws) : Written (p.text ++ s) ws := by
  obtain ⟨ps, h1, h2⟩ := h
  have h1' : ∀ p' ∈ p :: ps, p'.Ok := by
    intro p' hp'
    rcases List.mem_cons.mp hp' with rfl | h
    · exact hp
    · exact h1 p' h
  rcases h2 with ⟨rfl, rfl⟩ | ⟨c, s', ws', h3, rfl, rfl, h4⟩
  · exact Written.last (ps := p :: ps) (by simp) h1'
  · rw [← List.append_assoc]
    exact Written.word (ps := p :: ps) (by simp) h1' h3 h4

/-- what is read in each state -/
def LexRead : LexSt → Str → Bool → Str → List Str → Prop
  | .blank, tok, q, s, ws => tok = [] → q = false → Written s ws
  | .word, tok, q, s, ws => (tok ≠ [] ∨ q = true) → WordTail tok s ws
  | .quote c, tok, _, s, ws =>
    (c = '\'' → ∃ b s', s = b ++ '\'' :: s' ∧ '\'' ∉ b ∧ WordTail (tok ++ b) s' ws) ∧
    (c = '"' → ∃ (cs : List (Bool × Char)) (s' : Str), s = cs.flatMap inQuotes ++ '"' :: s' ∧ (∀ x ∈ cs, x.1 = false → x.2 ≠ '"' ∧ x.2 ≠ '\\') ∧
      WordTail (tok ++ cs.flatMap unquoted) s' ws)
  | .esc none, tok, _, s, ws => ∃ c s', s = c :: s' ∧ WordTail (tok ++ [c]) s' ws
  | .esc (some d), tok, _, s, ws => d = '"' → ∃ (c : Char) (cs : List (Bool × Char)) (s' : Str), s = c :: cs.flatMap inQuotes ++ '"' :: s' ∧
      (∀ x ∈ cs, x.1 = false → x.2 ≠ '"' ∧ x.2 ≠ '\\') ∧ WordTail (tok ++ unquoted (true, c) ++ cs.flatMap unquoted) s' ws

theorem map_ok' {α β : Type} {x : Except PyErr α} {f : α → β} {b : β} (h : x.map f = .ok b) : ∃ a, x = .ok a ∧ b = f a := by
  cases x with
  | error e => cases h
  | ok a => cases h; exact ⟨a, rfl, rfl⟩

theorem lex_read : ∀ (s : Str) (st : LexSt) (tok : Str) (q : Bool) (ws : List Str), lexAux st tok q s = .ok ws → LexRead st tok q s ws
  | [], .blank, tok, q, ws, h => by
    intro h1 h2
    subst h1 h2
    cases h
    exact .nil
  | [], .word, tok, q, ws, h => by
    intro h1
    rw [lexAux, if_pos (by simpa using h1)] at h
    cases h
    exact ⟨[], by simp, .inl ⟨rfl, by simp⟩⟩
  | [], .quote _, tok, q, ws, h => by cases h
  | [], .esc _, tok, q, ws, h => by cases h
  | c :: s, .blank, tok, q, ws, h => by
    intro h1 h2
    subst h1 h2
    rw [lexAux] at h
    split at h
    · next hb =>
      rw [if_neg (by simp)] at h
      exact .blank (blank_iff.mp hb) (lex_read s _ _ _ _ h rfl rfl)
    · next hb =>
      split at h
      · next he =>
        subst he
        obtain ⟨c, s', rfl, h5⟩ := lex_read s _ _ _ _ h
        exact WordTail.written (p := .escaped c) trivial h5
      · next he =>
        split at h
        · next hq =>
          rcases lexQuote_iff.mp hq with rfl | rfl
          · obtain ⟨b, s', rfl, h5, h6⟩ := (lex_read s _ _ _ _ h).1 rfl
            have := WordTail.written (p := .single b) h5 h6
            simpa [Piece.text] using this
          · obtain ⟨cs, s', rfl, h5, h6⟩ := (lex_read s _ _ _ _ h).2 rfl
            have := WordTail.written (p := .double cs) h5 h6
            simpa [Piece.text] using this
        · next hq =>
          have h5 := lex_read s _ _ _ _ h (.inl (by simp))
          exact WordTail.written (p := .char c) ⟨by rw [← blank_iff]; exact hb, fun e => hq (lexQuote_iff.mpr (.inl e)),
            fun e => hq (lexQuote_iff.mpr (.inr e)), he⟩ h5
  | c :: s, .word, tok, q, ws, h => by
    intro h1
    rw [lexAux] at h
    split at h
    · next hb =>
      rw [if_pos (by simpa using h1)] at h
      obtain ⟨ws', h2, rfl⟩ := map_ok' h
      exact ⟨[], by simp, .inr ⟨c, s, ws', blank_iff.mp hb, rfl, by simp, lex_read s _ _ _ _ h2 rfl rfl⟩⟩
    · next hb =>
      split at h
      · next hq =>
        rcases lexQuote_iff.mp hq with rfl | rfl
        · obtain ⟨b, s', rfl, h5, h6⟩ := (lex_read s _ _ _ _ h).1 rfl
          have := WordTail.piece (p := .single b) h5 h6
          simpa [Piece.text] using this
        · obtain ⟨cs, s', rfl, h5, h6⟩ := (lex_read s _ _ _ _ h).2 rfl
          have := WordTail.piece (p := .double cs) h5 h6
          simpa [Piece.text] using this
      · next hq =>
        split at h
        · next he =>
          subst he
          obtain ⟨c, s', rfl, h5⟩ := lex_read s _ _ _ _ h
          exact WordTail.piece (p := .escaped c) trivial h5
        · next he =>
          have h5 := lex_read s _ _ _ _ h (.inl (by simp))
          exact WordTail.piece (p := .char c) ⟨by rw [← blank_iff]; exact hb, fun e => hq (lexQuote_iff.mpr (.inl e)),
            fun e => hq (lexQuote_iff.mpr (.inr e)), he⟩ h5
  | c :: s, .quote d, tok, q, ws, h => by
    rw [lexAux] at h
    split at h
    · next hc =>
      subst hc
      have h5 := lex_read s _ _ _ _ h (.inr rfl)
      constructor
      · rintro rfl
        exact ⟨[], s, rfl, by simp, by simpa using h5⟩
      · rintro rfl
        exact ⟨[], s, rfl, by simp, by simpa using h5⟩
    · next hc =>
      split at h
      · next he =>
        simp only [Bool.and_eq_true, decide_eq_true_eq] at he
        obtain ⟨rfl, rfl⟩ := he
        refine ⟨fun e => absurd e (by decide), fun _ => ?_⟩
        obtain ⟨c, cs, s', rfl, h5, h6⟩ := lex_read s _ _ _ _ h rfl
        refine ⟨(true, c) :: cs, s', by simp [inQuotes], ?_, by simpa using h6⟩
        intro x hx
        rcases List.mem_cons.mp hx with rfl | hx
        · intro e; cases e
        · exact h5 x hx
      · next he =>
        obtain ⟨h5, h6⟩ := lex_read s _ _ _ _ h
        constructor
        · rintro rfl
          obtain ⟨b, s', rfl, h7, h8⟩ := h5 rfl
          exact ⟨c :: b, s', rfl, by simp [Ne.symm hc, h7], by simpa using h8⟩
        · rintro rfl
          obtain ⟨cs, s', rfl, h7, h8⟩ := h6 rfl
          refine ⟨(false, c) :: cs, s', by simp [inQuotes], ?_, by simpa [unquoted] using h8⟩
          intro x hx
          rcases List.mem_cons.mp hx with rfl | hx
          · intro _; exact ⟨hc, by simpa using he⟩
          · exact h7 x hx
  | c :: s, .esc none, tok, q, ws, h => by
    rw [lexAux] at h
    exact ⟨c, s, rfl, lex_read s _ _ _ _ h (.inl (by simp))⟩
  | c :: s, .esc (some d), tok, q, ws, h => by
    rw [lexAux] at h
    rintro rfl
    obtain ⟨cs, s', rfl, h5, h6⟩ := (lex_read s _ _ _ _ h).2 rfl
    refine ⟨c, cs, s', rfl, h5, ?_⟩
    have e : (if (decide (c ≠ '\\') && decide (c ≠ '"')) = true then ['\\', c] else [c]) = unquoted (true, c) := by
      unfold unquoted
      by_cases h1 : c = '"'
      · subst h1; rfl
      · by_cases h2 : c = '\\'
        · subst h2; rfl
        · simp [h1, h2]
    rw [e] at h6
    exact h6

theorem shlex_iff (s : Str) (ws : List Str) : shlexSplit s = .ok ws ↔ Written s ws :=
  ⟨fun h => lex_read s _ _ _ _ h rfl rfl, lex_written⟩

end Verif.Py
