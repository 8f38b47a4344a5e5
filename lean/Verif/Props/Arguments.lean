import Verif.Py.Shlex
import Verif.Py.StripLemmas
import Verif.Props.Deentity
import Verif.Props.Args

/-!
# C100: what the arguments of a macro mean

The specification is in `Verif.Spec.Arguments`.
-/

namespace Verif.Props

open Verif Py Creole Spec.Ar

/-! ## Numbers -/

theorem no_decimal {c : Char} {d : Nat} {P : Prop} (h : decimal? c = none) (h' : decimal? c = some d) : P := by
  rw [h] at h'; cases h'

theorem moreDigits_iff (cs : Str) : ∀ (acc cnt n k : Nat), intDigits acc cnt false cs = some (n, k) ↔
    ∃ ds, MoreDigits cs ds ∧ n = ds.foldl (fun a d => 10 * a + d) acc ∧ k = cnt + ds.length := by
  induction h : cs.length using Nat.strongRecOn generalizing cs with
  | _ len ih =>
    subst h
    intro acc cnt n k
    match cs, ih with
    | [], _ =>
      simp only [intDigits, Bool.false_eq_true, if_false, Option.some.injEq, Prod.mk.injEq]
      constructor
      · rintro ⟨rfl, rfl⟩; exact ⟨[], .nil, rfl, rfl⟩
      · rintro ⟨ds, h1, rfl, rfl⟩; cases h1; exact ⟨rfl, rfl⟩
    | c :: cs, ih =>
      by_cases hc : c = '_'
      · subst hc
        rw [intDigits, if_pos rfl, if_neg (by simp)]
        cases cs with
        | nil =>
          constructor
          · intro h; cases h
          · rintro ⟨ds, h1, _⟩; cases h1 with | digit h _ => exact no_decimal (by decide) h
        | cons c cs =>
          by_cases hc : c = '_'
          · subst hc
            rw [intDigits, if_pos rfl, if_pos rfl]
            constructor
            · intro h; cases h
            · rintro ⟨ds, h1, _⟩
              cases h1 with
              | digit h _ => exact no_decimal (by decide) h
              | under h _ => exact no_decimal (by decide) h
          · rw [intDigits, if_neg hc]
            cases hd : decimal? c with
            | none =>
              constructor
              · intro h; cases h
              · rintro ⟨ds, h1, _⟩
                cases h1 with
                | digit h _ => exact no_decimal (by decide) h
                | under h _ => rw [hd] at h; cases h
            | some d =>
              dsimp only
              rw [ih cs.length (by simp only [List.length_cons]; omega) cs rfl]
              constructor
              · rintro ⟨ds, h1, rfl, rfl⟩
                exact ⟨d :: ds, .under hd h1, rfl, by simp only [List.length_cons]; omega⟩
              · rintro ⟨ds, h1, rfl, rfl⟩
                cases h1 with
                | digit h _ => exact no_decimal (by decide) h
                | under h h2 =>
                  rw [hd] at h
                  cases h
                  exact ⟨_, h2, rfl, by simp only [List.length_cons]; omega⟩
      · rw [intDigits, if_neg hc]
        cases hd : decimal? c with
        | none =>
          constructor
          · intro h; cases h
          · rintro ⟨ds, h1, _⟩
            cases h1 with
            | digit h _ => rw [hd] at h; cases h
            | under h _ => exact absurd rfl hc
        | some d =>
          dsimp only
          rw [ih cs.length (by simp only [List.length_cons]; omega) cs rfl]
          constructor
          · rintro ⟨ds, h1, rfl, rfl⟩
            exact ⟨d :: ds, .digit hd h1, rfl, by simp only [List.length_cons]; omega⟩
          · rintro ⟨ds, h1, rfl, rfl⟩
            cases h1 with
            | digit h h2 =>
              rw [hd] at h
              cases h
              exact ⟨_, h2, rfl, by simp only [List.length_cons]; omega⟩
            | under h _ => exact absurd rfl hc

theorem natOf_iff (t : Str) (n : Nat) : natOf t = some n ↔ Decimal t n := by
  constructor
  · intro h
    unfold natOf at h
    split at h
    · cases h
    · next c cs =>
      split at h
      · cases h
      · next d hd =>
        split at h
        · next n' cnt hi =>
          split at h
          · next hle =>
            cases h
            obtain ⟨ds, h1, h2, h3⟩ := (moreDigits_iff cs d 1 _ cnt).mp hi
            unfold maxIntDigits at hle
            exact ⟨c, cs, d, ds, rfl, hd, h1, by omega, by rw [h2]; simp⟩
          · cases h
        · cases h
  · rintro ⟨c, t', d, ds, rfl, hd, h1, h2, rfl⟩
    have := (moreDigits_iff t' d 1 _ _).mpr ⟨ds, h1, rfl, rfl⟩
    unfold natOf
    dsimp only
    rw [hd]
    dsimp only
    rw [this]
    dsimp only
    rw [if_pos (by unfold maxIntDigits; omega)]
    simp

theorem numberSpace_iff (c : Char) : isIntSpace c = true ↔ NumberSpace c := by
  unfold isIntSpace NumberSpace isSpace
  dsimp only
  split
  · simp only [Bool.or_eq_true, Bool.and_eq_true, decide_eq_true_eq, beq_iff_eq]; omega
  · simp only [Bool.or_eq_true, Bool.and_eq_true, decide_eq_true_eq, beq_iff_eq]; omega

/-- what is around a stripped text -/
theorem argStripEnd {p : Char → Bool} (s : Str) : ∃ b, s = dropEndWhile p s ++ b ∧ ∀ c ∈ b, p c = true := by
  induction s with
  | nil => exact ⟨[], rfl, by simp⟩
  | cons d s ih =>
    obtain ⟨b, h1, h2⟩ := ih
    rw [dropEndWhile]
    split
    · next h0 =>
      rw [h0, List.nil_append] at h1
      split
      · next hd =>
        refine ⟨d :: b, by rw [h1]; rfl, ?_⟩
        intro c hc
        rcases List.mem_cons.mp hc with rfl | hc
        · exact hd
        · exact h2 c hc
      · exact ⟨b, by rw [h1]; rfl, h2⟩
    · next e es h0 =>
      refine ⟨b, ?_, h2⟩
      rw [h0] at h1
      rw [List.cons_append, ← h1]

theorem stripP_split {p : Char → Bool} (s : Str) :
    ∃ a b, s = a ++ stripP p s ++ b ∧ (∀ c ∈ a, p c = true) ∧ ∀ c ∈ b, p c = true := by
  obtain ⟨b, h1, h2⟩ := argStripEnd (p := p) (s.dropWhile p)
  refine ⟨s.takeWhile p, b, ?_, ?_, h2⟩
  · rw [List.append_assoc, stripP, ← h1, List.takeWhile_append_dropWhile]
  · intro c hc
    have : ∀ (s : Str), ∀ c ∈ s.takeWhile p, p c = true := by
      intro s
      induction s with
      | nil => simp
      | cons d s ih =>
        intro c hc
        rw [List.takeWhile_cons] at hc
        split at hc
        · next hd =>
          rcases List.mem_cons.mp hc with rfl | hc
          · exact hd
          · exact ih c hc
        · cases hc
    exact this s c hc

theorem moreDigits_char {t : Str} {ds : List Nat} (h : MoreDigits t ds) : ∀ c ∈ t, c = '_' ∨ ∃ d, decimal? c = some d := by
  induction h with
  | nil => simp
  | digit h _ ih =>
    intro c hc
    rcases List.mem_cons.mp hc with rfl | hc
    · exact .inr ⟨_, h⟩
    · exact ih c hc
  | under h _ ih =>
    intro c hc
    rcases List.mem_cons.mp hc with rfl | hc
    · exact .inl rfl
    · rcases List.mem_cons.mp hc with rfl | hc
      · exact .inr ⟨_, h⟩
      · exact ih c hc

theorem decimal_char {t : Str} {n : Nat} (h : Decimal t n) : ∀ c ∈ t, c = '_' ∨ ∃ d, decimal? c = some d := by
  obtain ⟨c, t', d, ds, rfl, hd, h1, _⟩ := h
  intro x hx
  rcases List.mem_cons.mp hx with rfl | hx
  · exact .inr ⟨d, hd⟩
  · exact moreDigits_char h1 x hx

theorem decimal_notSpace {c : Char} (h : c = '_' ∨ ∃ d, decimal? c = some d) : isIntSpace c = false := by
  rcases h with rfl | ⟨d, h⟩
  · decide
  · cases hs : isIntSpace c with
    | false => rfl
    | true => rw [isSpace_not_decimal hs] at h; cases h

theorem decimal_notQuote {c : Char} (h : c = '_' ∨ ∃ d, decimal? c = some d) : isLexQuote c = false := by
  rcases h with rfl | ⟨d, h⟩
  · decide
  · cases hs : isLexQuote c with
    | false => rfl
    | true =>
      rcases lexQuote_iff.mp hs with rfl | rfl
      · exact no_decimal (by decide) h
      · exact no_decimal (by decide) h

theorem pyInt_iff (x : Str) (n : Int) : pyInt x = some n ↔
    ∃ (w1 sign t w2 : Str) (m : Nat), x = w1 ++ (sign ++ t) ++ w2 ∧ (∀ c ∈ w1, NumberSpace c) ∧ (∀ c ∈ w2, NumberSpace c) ∧ Decimal t m ∧
      (sign = [] ∧ n = (m : Int) ∨ sign = c!"+" ∧ n = (m : Int) ∨ sign = c!"-" ∧ n = -(m : Int)) := by
  constructor
  · intro h
    obtain ⟨a, b, h1, h2, h3⟩ := stripP_split (p := isIntSpace) x
    have h2 : ∀ c ∈ a, NumberSpace c := fun c hc => (numberSpace_iff c).mp (h2 c hc)
    have h3 : ∀ c ∈ b, NumberSpace c := fun c hc => (numberSpace_iff c).mp (h3 c hc)
    unfold pyInt at h
    split at h
    · next r hr =>
      cases hm : natOf r with
      | none => rw [hm] at h; cases h
      | some m =>
      rw [hm] at h
      cases h
      exact ⟨a, c!"-", r, b, m, by rw [h1, hr]; rfl, h2, h3, (natOf_iff r m).mp hm, .inr (.inr ⟨rfl, rfl⟩)⟩
    · next r hr =>
      cases hm : natOf r with
      | none => rw [hm] at h; cases h
      | some m =>
      rw [hm] at h
      cases h
      exact ⟨a, c!"+", r, b, m, by rw [h1, hr]; rfl, h2, h3, (natOf_iff r m).mp hm, .inr (.inl ⟨rfl, rfl⟩)⟩
    · cases hm : natOf (stripP isIntSpace x) with
      | none => rw [hm] at h; cases h
      | some m =>
      rw [hm] at h
      cases h
      exact ⟨a, [], _, b, m, by rw [List.nil_append]; exact h1, h2, h3, (natOf_iff _ m).mp hm, .inl ⟨rfl, rfl⟩⟩
  · rintro ⟨w1, sign, t, w2, m, rfl, h1, h2, h3, h4⟩
    have hch := decimal_char h3
    have hstrip : stripP isIntSpace (w1 ++ (sign ++ t) ++ w2) = sign ++ t := by
      rw [stripP_pad (fun c hc => (numberSpace_iff c).mpr (h1 c hc)) (fun c hc => (numberSpace_iff c).mpr (h2 c hc))]
      have hall : ∀ c ∈ sign ++ t, isIntSpace c = false := by
        intro c hc
        rcases List.mem_append.mp hc with hc | hc
        · rcases h4 with ⟨rfl, _⟩ | ⟨rfl, _⟩ | ⟨rfl, _⟩
          · cases hc
          · cases List.mem_singleton.mp hc; decide
          · cases List.mem_singleton.mp hc; decide
        · exact decimal_notSpace (hch c hc)
      exact stripP_id (fun c hc => hall c (List.mem_of_head? hc)) (fun c hc => hall c (List.mem_of_getLast? hc))
    have hn := (natOf_iff t m).mpr h3
    unfold pyInt
    rw [hstrip]
    rcases h4 with ⟨rfl, rfl⟩ | ⟨rfl, rfl⟩ | ⟨rfl, rfl⟩
    · rw [List.nil_append]
      obtain ⟨c, t', d, ds, rfl, hd, _⟩ := h3
      split
      · next h => cases h; exact no_decimal (by decide) hd
      · next h => cases h; exact no_decimal (by decide) hd
      · rw [hn]; rfl
    · show (natOf t).map (fun n => (n : Int)) = _
      rw [hn]; rfl
    · show (natOf t).map (fun n => -(n : Int)) = _
      rw [hn]; rfl

theorem number_iff (v : Str) (n : Int) : pyInt (stripP isLexQuote v) = some n ↔ Number v n := by
  constructor
  · intro h
    obtain ⟨a, b, h1, h2, h3⟩ := stripP_split (p := isLexQuote) v
    obtain ⟨w1, sign, t, w2, m, h4, h5, h6, h7, h8⟩ := (pyInt_iff _ n).mp h
    exact ⟨a, w1, sign, t, w2, b, m, by rw [← h4]; exact h1, fun c hc => lexQuote_iff.mp (h2 c hc), fun c hc => lexQuote_iff.mp (h3 c hc), h5, h6, h7, h8⟩
  · rintro ⟨a, w1, sign, t, w2, b, m, rfl, h2, h3, h5, h6, h7, h8⟩
    rw [stripP_pad (fun c hc => lexQuote_iff.mpr (h2 c hc)) (fun c hc => lexQuote_iff.mpr (h3 c hc))]
    have hsp : ∀ c, NumberSpace c → isLexQuote c = false := by
      intro c hc
      cases hs : isLexQuote c with
      | false => rfl
      | true =>
        have := (numberSpace_iff c).mpr hc
        rcases lexQuote_iff.mp hs with rfl | rfl
        · exact absurd this (by decide)
        · exact absurd this (by decide)
    have hall : ∀ c ∈ w1 ++ (sign ++ t) ++ w2, isLexQuote c = false := by
      intro c hc
      rcases List.mem_append.mp hc with hc | hc
      · rcases List.mem_append.mp hc with hc | hc
        · exact hsp c (h5 c hc)
        · rcases List.mem_append.mp hc with hc | hc
          · rcases h8 with ⟨rfl, _⟩ | ⟨rfl, _⟩ | ⟨rfl, _⟩
            · cases hc
            · cases List.mem_singleton.mp hc; decide
            · cases List.mem_singleton.mp hc; decide
          · exact decimal_notQuote (decimal_char h7 c hc)
      · exact hsp c (h6 c hc)
    rw [stripP_id (fun c hc => hall c (List.mem_of_head? hc)) (fun c hc => hall c (List.mem_of_getLast? hc))]
    exact (pyInt_iff _ n).mpr ⟨w1, sign, t, w2, m, rfl, h5, h6, h7, h8⟩

/-- **C100** (values). The value of an argument: `True`, `False` and `None` are those constants; a decimal number, with a
sign and with spaces and quotes around it, is that number; everything else is text. -/
theorem C100_value (v : Str) (p : PVal) : argVal v = p ↔ Means v p := by
  have hkey : ∀ k : Str, pyInt (stripP isLexQuote k) = none → ∀ n, ¬ Number k n := by
    intro k hk n hn
    rw [(number_iff k n).mpr hn] at hk
    cases hk
  constructor
  · rintro rfl
    unfold argVal
    split
    · next h => subst h; exact .true
    · next h1 =>
      split
      · next h => subst h; exact .false
      · next h2 =>
        split
        · next h => subst h; exact .none
        · next h3 =>
          split
          · next n hn => exact .number ((number_iff v n).mp hn)
          · next hn => exact .text h1 h2 h3 (hkey v hn)
  · intro h
    cases h with
    | true => rfl
    | false => rfl
    | none => rfl
    | number h =>
      unfold argVal
      rw [if_neg, if_neg, if_neg, (number_iff _ _).mpr h]
      · rintro rfl; exact hkey _ (by decide +kernel) _ h
      · rintro rfl; exact hkey _ (by decide +kernel) _ h
      · rintro rfl; exact hkey _ (by decide +kernel) _ h
    | text h1 h2 h3 h4 =>
      unfold argVal
      rw [if_neg h1, if_neg h2, if_neg h3]
      split
      · next n hn => exact absurd ((number_iff v n).mp hn) (h4 n)
      · rfl

example : argVal c!"True" = .bool true ∧ argVal c!"true" = .str c!"true" ∧ argVal c!" -1_000 " = .int (-1000) ∧ argVal c!"'7\"" = .int 7 ∧
    argVal c!"1__0" = .str c!"1__0" ∧ argVal c!"" = .str [] := by decide +kernel

/-! ## Words -/

/-- **C100** (words). A text is split into words exactly as it is written; a text that is not written so (an open quote, a
backslash at the end) is rejected. -/
theorem C100_words (s : Str) (ws : List Str) : shlexSplit s = .ok ws ↔ Written s ws := shlex_iff s ws

example : shlexSplit c!" a=\"x y\\\"\" b='\\'c\\ d " = .ok [c!"a=x y\"", c!"b=\\c d"] := by decide +kernel

/-! ## The arguments -/

theorem argSplit_some {sep : Char} {s k v : Str} (h : splitOnce sep s = some (k, v)) : s = k ++ sep :: v ∧ sep ∉ k := by
  induction s generalizing k with
  | nil => cases h
  | cons c s ih =>
    rw [splitOnce] at h
    split at h
    · next hc => cases h; simp [eq_of_beq hc]
    · next hc =>
      obtain ⟨⟨a, b⟩, h1, h2⟩ := Option.map_eq_some_iff.mp h
      cases h2
      obtain ⟨h3, h4⟩ := ih h1
      refine ⟨by rw [h3]; rfl, ?_⟩
      simp only [List.mem_cons, not_or]
      exact ⟨fun e => hc (by simp [e]), h4⟩

theorem argSplit_none {sep : Char} {s : Str} (h : splitOnce sep s = none) : sep ∉ s := by
  induction s with
  | nil => simp
  | cons c s ih =>
    rw [splitOnce] at h
    split at h
    · cases h
    · next hc =>
      simp only [List.mem_cons, not_or]
      exact ⟨fun e => hc (by simp [e]), ih (Option.map_eq_none_iff.mp h)⟩

theorem dictGet_dictSet' {α : Type} (k k' : Str) (v : α) (d : Dict α) : dictGet k' (dictSet k v d) = if k' = k then some v else dictGet k' d := by
  unfold dictGet
  induction d with
  | nil =>
    rw [dictSet, List.lookup_cons]
    by_cases h : k' = k
    · simp [h]
    · have : (k' == k) = false := by simpa using h
      simp [h, this]
  | cons x d ih =>
    obtain ⟨k2, v2⟩ := x
    rw [dictSet]
    split
    · next h =>
      subst h
      rw [List.lookup_cons, List.lookup_cons]
      by_cases h : k' = k2
      · simp [h]
      · have : (k' == k2) = false := by simpa using h
        simp [h, this]
    · next h =>
      rw [List.lookup_cons, List.lookup_cons, ih]
      by_cases h1 : k' = k2
      · subst h1
        simp [h]
      · have : (k' == k2) = false := by simpa using h1
        simp [this]

theorem partsDict_spec (ws : List Str) : ∀ (d0 d : Dict PVal), partsDict ws d0 = .ok d → (d0.map (·.1)).Nodup →
    (∀ w ∈ ws, '=' ∈ w) ∧ (d.map (·.1)).Nodup ∧
    ∀ k p, dictGet k d = some p ↔ LastArgument ws k p ∨ (dictGet k d0 = some p ∧ ('=' ∉ k → ∀ w ∈ ws, ∀ v, w ≠ k ++ '=' :: v)) := by
  induction ws with
  | nil =>
    intro d0 d h hn
    cases h
    refine ⟨by simp, hn, ?_⟩
    intro k p
    constructor
    · intro h; exact .inr ⟨h, by simp⟩
    · rintro (⟨b, v, a, h, _⟩ | ⟨h, _⟩)
      · simp at h
      · exact h
  | cons w ws ih =>
    intro d0 d h hn
    rw [partsDict] at h
    split at h
    · cases h
    · next k0 v0 hs =>
      obtain ⟨rfl, hk0⟩ := argSplit_some hs
      obtain ⟨h1, h2, h3⟩ := ih _ _ h (dictSet_keys k0 (argVal v0) d0 hn)
      refine ⟨?_, h2, ?_⟩
      · intro w hw
        rcases List.mem_cons.mp hw with rfl | hw
        · simp
        · exact h1 w hw
      · intro k p
        rw [h3 k p, dictGet_dictSet']
        constructor
        · rintro (⟨b, v, a, rfl, h4, h5, h6⟩ | ⟨h4, h5⟩)
          · exact .inl ⟨(k0 ++ '=' :: v0) :: b, v, a, rfl, h4, h5, h6⟩
          · split at h4
            · next hk =>
              subst hk
              cases h4
              exact .inl ⟨[], v0, ws, rfl, hk0, h5 hk0, (C100_value _ _).mp rfl⟩
            · next hk =>
              refine .inr ⟨h4, fun hk' w hw v => ?_⟩
              rcases List.mem_cons.mp hw with rfl | hw
              · intro e
                have e1 := splitOnce_append k0 v0 hk0
                rw [e, splitOnce_append k v hk'] at e1
                cases e1
                exact hk rfl
              · exact h5 hk' w hw v
        · rintro (⟨b, v, a, h4, h5, h6, h7⟩ | ⟨h4, h5⟩)
          · cases b with
            | nil =>
              rw [List.nil_append, List.cons.injEq] at h4
              obtain ⟨h8, rfl⟩ := h4
              have e1 := splitOnce_append k0 v0 hk0
              rw [h8, splitOnce_append k v h5] at e1
              cases e1
              rw [if_pos rfl]
              exact .inr ⟨by rw [(C100_value _ _).mpr h7], fun _ => h6⟩
            | cons x b =>
              rw [List.cons_append, List.cons.injEq] at h4
              obtain ⟨_, rfl⟩ := h4
              exact .inl ⟨b, v, a, rfl, h5, h6, h7⟩
          · by_cases hk : k = k0
            · subst hk
              exact absurd rfl (h5 hk0 _ (by simp) v0)
            · rw [if_neg hk]
              exact .inr ⟨h4, fun hk' w hw v => h5 hk' w (by simp [hw]) v⟩

/-- **C100** (arguments). If the arguments are accepted, they are written as words with a `=`, no key is in the dictionary twice,
and a key has the value that its last word gives to it, and no other key has a value. -/
theorem C100_arguments (s : Str) (d : Dict PVal) (h : string2dict s = .ok d) :
    ∃ ws, Written s ws ∧ (∀ w ∈ ws, '=' ∈ w) ∧ (d.map (·.1)).Nodup ∧ ∀ k p, dictGet k d = some p ↔ LastArgument ws k p := by
  unfold string2dict at h
  obtain ⟨ws, h1, h2⟩ : ∃ ws, shlexSplit s = .ok ws ∧ partsDict ws [] = .ok d := by
    cases hs : shlexSplit s with
    | error e => rw [hs] at h; cases h
    | ok ws => rw [hs] at h; exact ⟨ws, rfl, h⟩
  obtain ⟨h3, h4, h5⟩ := partsDict_spec ws [] d h2 (by simp)
  refine ⟨ws, (shlex_iff s ws).mp h1, h3, h4, fun k p => ?_⟩
  rw [h5 k p]
  constructor
  · rintro (h | ⟨h, _⟩)
    · exact h
    · cases h
  · exact .inl

/-- **C100** (accepted texts). Arguments that are written as words with a `=` are accepted. -/
theorem C100_accepted (s : Str) (ws : List Str) (h : Written s ws) (he : ∀ w ∈ ws, '=' ∈ w) : ∃ d, string2dict s = .ok d := by
  have : ∀ (ws : List Str) (d : Dict PVal), (∀ w ∈ ws, '=' ∈ w) → ∃ d', partsDict ws d = .ok d' := by
    intro ws
    induction ws with
    | nil => intro d _; exact ⟨d, rfl⟩
    | cons w ws ih =>
      intro d hw
      rw [partsDict]
      split
      · next hs => exact absurd (hw w (by simp)) (argSplit_none hs)
      · exact ih _ fun w h => hw w (by simp [h])
  obtain ⟨d, hd⟩ := this ws [] he
  refine ⟨d, ?_⟩
  unfold string2dict
  rw [(shlex_iff s ws).mpr h]
  exact hd

/-- the hypotheses can be met: a text with a quoted value, a key that is given twice and an escaped blank -/
example : string2dict c!"a=1 b='x y' a=False  c=p\\ q=r" = .ok [(c!"a", .bool false), (c!"b", .str c!"x y"), (c!"c", .str c!"p q=r")] := by
  decide +kernel

example : Written c!"a='x y' b\\ " [c!"a=x y", c!"b "] :=
  Written.word (ps := [.char 'a', .char '=', .single c!"x y"]) (by simp) (by simp [Piece.Ok, Blank]) (.inl rfl)
    (Written.last (ps := [.char 'b', .escaped ' ']) (by simp) (by simp [Piece.Ok, Blank]))

end Verif.Props
