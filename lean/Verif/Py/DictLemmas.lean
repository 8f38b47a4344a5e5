import Verif.Creole.EmitterLemmas

/-!
# Lemmas about `int`, `shlex.split`, `string2dict`, `dict2string`
-/

namespace Verif.Py

open Verif

/-! ## `int(str(n)) == n` -/

theorem isDigit_iff {c : Char} : c.isDigit = true ↔ 48 ≤ c.toNat ∧ c.toNat ≤ 57 := by
  simp only [Char.isDigit, Bool.and_eq_true, decide_eq_true_eq, ge_iff_le, UInt32.le_iff_toNat_le]
  exact Iff.rfl

theorem decimal_digit {c : Char} (h : c.isDigit = true) : decimal? c = some (c.toNat - 48) := by
  rw [isDigit_iff] at h
  unfold decimal?
  simp only [show c.toNat < 128 by omega, if_true, h.1, h.2, decide_true, Bool.and_self]

theorem intDigits_digits {ds : Str} (h : ∀ c ∈ ds, c.isDigit = true) (acc cnt : Nat) :
    intDigits acc cnt false ds = some (Nat.ofDigitChars 10 ds acc, cnt + ds.length) := by
  induction ds generalizing acc cnt with
  | nil => simp [intDigits]
  | cons c ds ih =>
    have hc := h c (by simp)
    have hu : c ≠ '_' := by rintro rfl; exact absurd hc (by decide)
    simp only [intDigits, hu, if_false, decimal_digit hc]
    rw [ih (fun d hd => h d (by simp [hd])), Nat.ofDigitChars_cons]
    simp
    omega

theorem natDigits_all (n : Nat) : ∀ c ∈ natDigits n, c.isDigit = true :=
  fun _ hc => Nat.isDigit_of_mem_toDigits (by omega) (by omega) hc

theorem natOf_natDigits {n : Nat} (h : n < 10 ^ maxIntDigits) : natOf (natDigits n) = some n := by
  have hlen : (natDigits n).length ≤ maxIntDigits := (Nat.length_toDigits_le_iff (by omega) (by decide)).2 h
  have hall := natDigits_all n
  have hval : Nat.ofDigitChars 10 (natDigits n) 0 = n := Nat.ofDigitChars_toDigits (by omega) (by omega)
  cases hd : natDigits n with
  | nil => exact absurd hd Nat.toDigits_ne_nil
  | cons c ds =>
    rw [hd] at hall hval hlen
    unfold natOf
    have hds : ∀ d ∈ ds, d.isDigit = true := fun d h => hall d (by simp [h])
    simp only [decimal_digit (hall c (by simp)), intDigits_digits hds]
    rw [Nat.ofDigitChars_cons] at hval
    simp only [Nat.mul_zero, Nat.zero_add] at hval
    rw [show c.toNat - 48 = c.toNat - '0'.toNat from rfl, hval]
    simp only [List.length_cons] at hlen
    rw [if_pos (by omega)]

theorem dropWhile_head {p : Char → Bool} {s : Str} (h : ∀ c, s.head? = some c → p c = false) : s.dropWhile p = s := by
  cases s with
  | nil => rfl
  | cons c s => rw [List.dropWhile_cons, if_neg]; rw [h c rfl]; simp

theorem dropEndWhile_last {p : Char → Bool} {s : Str} (h : ∀ c, s.getLast? = some c → p c = false) :
    dropEndWhile p s = s := by
  induction s with
  | nil => rfl
  | cons c s ih =>
    unfold dropEndWhile
    cases s with
    | nil => simp [dropEndWhile, h c rfl]
    | cons d s => rw [ih (fun e he => h e (by simpa using he))]

/-- stripping does nothing if the first and the last character stay -/
theorem stripP_id {p : Char → Bool} {s : Str} (h1 : ∀ c, s.head? = some c → p c = false)
    (h2 : ∀ c, s.getLast? = some c → p c = false) : stripP p s = s := by
  unfold stripP
  rw [dropWhile_head h1, dropEndWhile_last h2]

theorem intStr_mem {n : Int} {c : Char} (h : c ∈ intStr n) : c = '-' ∨ c.isDigit = true := by
  cases n with
  | ofNat n => exact .inr (natDigits_all n c h)
  | negSucc n =>
    simp only [intStr, List.mem_cons] at h
    rcases h with h | h
    · exact .inl h
    · exact .inr (natDigits_all _ c h)

theorem stripP_intStr {p : Char → Bool} (n : Int) (hm : p '-' = false) (hd : ∀ c, c.isDigit = true → p c = false) :
    stripP p (intStr n) = intStr n := by
  have : ∀ c ∈ intStr n, p c = false := by
    intro c hc
    rcases intStr_mem hc with rfl | h
    · exact hm
    · exact hd c h
  refine stripP_id (fun c hc => this c ?_) (fun c hc => this c ?_)
  · cases hs : intStr n <;> simp_all
  · exact List.mem_of_getLast? hc

theorem digit_notIntSpace (c : Char) (h : c.isDigit = true) : isIntSpace c = false := by
  rw [isDigit_iff] at h
  unfold isIntSpace
  simp only [show c.toNat < 128 by omega, if_true]
  simp only [Bool.or_eq_false_iff, Bool.and_eq_false_iff, decide_eq_false_iff_not, beq_eq_false_iff_ne]
  omega

/-- `int(str(n)) == n` -/
theorem pyInt_intStr {n : Int} (h : n.natAbs < 10 ^ maxIntDigits) : pyInt (intStr n) = some n := by
  unfold pyInt
  rw [stripP_intStr n (by decide) digit_notIntSpace]
  cases n with
  | ofNat n =>
    simp only [intStr]
    have hn : natOf (natDigits n) = some n := natOf_natDigits h
    have hall := natDigits_all n
    split
    · rename_i r hr
      exact absurd (hall '-' (by rw [hr]; simp)) (by decide)
    · rename_i r hr
      exact absurd (hall '+' (by rw [hr]; simp)) (by decide)
    · rw [hn]; rfl
  | negSucc n =>
    simp only [intStr]
    rw [natOf_natDigits (n := n + 1) h]; rfl

/-! ## `shlex.split` -/

/-- a character without a special meaning for `shlex` -/
def isPlain (c : Char) : Bool := !(isLexBlank c || isLexQuote c || c = '\\')

theorem isPlain_iff {c : Char} : isPlain c = true ↔ isLexBlank c = false ∧ isLexQuote c = false ∧ c ≠ '\\' := by
  simp [isPlain, and_assoc]

theorem lex_word (w : Str) (hw : ∀ c ∈ w, isPlain c = true) (tok : Str) (q : Bool) (r : Str) :
    lexAux .word tok q (w ++ r) = lexAux .word (tok ++ w) q r := by
  induction w generalizing tok with
  | nil => simp
  | cons c w ih =>
    obtain ⟨h1, h2, h3⟩ := isPlain_iff.1 (hw c (by simp))
    rw [List.cons_append, lexAux, h1, h2]
    simp only [Bool.false_eq_true, if_false, h3]
    rw [ih (fun d hd => hw d (by simp [hd]))]
    simp

theorem lex_start (w : Str) (hne : w ≠ []) (hw : ∀ c ∈ w, isPlain c = true) (r : Str) :
    lexAux .blank [] false (w ++ r) = lexAux .word w false r := by
  cases w with
  | nil => exact absurd rfl hne
  | cons c w =>
    obtain ⟨h1, h2, h3⟩ := isPlain_iff.1 (hw c (by simp))
    rw [List.cons_append, lexAux, h1, h2]
    simp only [Bool.false_eq_true, if_false, h3]
    rw [lex_word w (fun d hd => hw d (by simp [hd]))]
    simp

/-- a printable ASCII character -/
def isPrintable (c : Char) : Bool := 32 ≤ c.toNat && c.toNat ≤ 126

theorem jsonChar_quote : jsonChar '"' = ['\\', '"'] := by decide

theorem jsonChar_backslash : jsonChar '\\' = ['\\', '\\'] := by decide

theorem jsonChar_printable {c : Char} (hc : isPrintable c = true) (h1 : c ≠ '"') (h2 : c ≠ '\\') : jsonChar c = [c] := by
  simp only [isPrintable, Bool.and_eq_true, decide_eq_true_eq] at hc
  have hn : ∀ d : Char, d.toNat < 32 → c ≠ d := by rintro d hd rfl; omega
  unfold jsonChar
  simp only [h1, h2, if_false, hn '\n' (by decide), hn '\r' (by decide), hn '\t' (by decide),
    hn (Char.ofNat 12) (by decide), hn (Char.ofNat 8) (by decide), hc.1, hc.2, decide_true, Bool.and_self, if_true]

theorem lex_json (s : Str) (hs : ∀ c ∈ s, isPrintable c = true) (tok : Str) (q : Bool) (r : Str) :
    lexAux (.quote '"') tok q (s.flatMap jsonChar ++ '"' :: r) = lexAux .word (tok ++ s) true r := by
  induction s generalizing tok q with
  | nil => simp [lexAux]
  | cons c s ih =>
    have hc := hs c (by simp)
    have ih := fun t q => ih (fun d hd => hs d (by simp [hd])) t q
    rw [List.flatMap_cons, List.append_assoc]
    by_cases h1 : c = '"'
    · subst h1
      rw [jsonChar_quote]
      simp only [List.cons_append, List.nil_append]
      rw [lexAux]
      simp only [show ('\\' : Char) ≠ '"' by decide, if_false, decide_true, Bool.and_self, if_true]
      rw [lexAux]
      simp [ih]
    by_cases h2 : c = '\\'
    · subst h2
      rw [jsonChar_backslash]
      simp only [List.cons_append, List.nil_append]
      rw [lexAux]
      simp only [show ('\\' : Char) ≠ '"' by decide, if_false, decide_true, Bool.and_self, if_true]
      rw [lexAux]
      simp [ih]
    · rw [jsonChar_printable hc h1 h2]
      simp only [List.cons_append, List.nil_append]
      rw [lexAux]
      simp only [h1, if_false, h2, decide_false, Bool.false_and, Bool.false_eq_true]
      rw [ih]; simp

theorem digit_plain {c : Char} (h : c.isDigit = true) : isPlain c = true := by
  rw [isPlain_iff]
  have : ∀ d : Char, d.isDigit = false → c ≠ d := by rintro d hd rfl; rw [h] at hd; exact absurd hd (by simp)
  unfold isLexBlank isLexQuote
  simp [this ' ' (by decide), this '\t' (by decide), this '\r' (by decide), this '\n' (by decide),
    this '\'' (by decide), this '"' (by decide), this '\\' (by decide)]

theorem intStr_plain (n : Int) : ∀ c ∈ intStr n, isPlain c = true := by
  intro c hc
  rcases intStr_mem hc with rfl | h
  · decide
  · exact digit_plain h

/-- If `shlex.split` succeeds, appending a blank and further text appends the words of that text. -/
theorem lex_append_blank (w : Str) : ∀ (s : Str) (st : LexSt) (tok : Str) (q : Bool) (l : List Str),
    lexAux st tok q s = .ok l → lexAux st tok q (s ++ ' ' :: w) = (lexAux .blank [] false w).map (l ++ ·) := by
  have mapmap : ∀ (tok : Str) (l : List Str) (x : Except PyErr (List Str)),
      ((x.map (l ++ ·)).map (tok :: ·)) = x.map ((tok :: l) ++ ·) := by
    intro tok l x; cases x <;> rfl
  intro s
  induction s with
  | nil =>
    intro st tok q l h
    have hb : isLexBlank ' ' = true := by decide
    cases st with
    | blank | word =>
      simp only [lexAux, Except.ok.injEq] at h
      subst h
      simp only [List.nil_append]
      rw [lexAux]
      simp only [hb, if_true]
      by_cases hc : (decide (tok ≠ []) || q) = true
      · simp only [hc, if_true]; rfl
      · have hc' := hc
        simp only [ne_eq, decide_not, Bool.or_eq_true, Bool.not_eq_true', decide_eq_false_iff_not, not_or,
          Classical.not_not, Bool.not_eq_true] at hc
        obtain ⟨rfl, rfl⟩ := hc
        simp only [ne_eq, not_true_eq_false, decide_false, Bool.or_self, Bool.false_eq_true, if_false]
        cases lexAux .blank [] false w <;> rfl
    | quote c => simp [lexAux] at h
    | esc b => simp [lexAux] at h
  | cons c s ih =>
    have ihm : ∀ (st : LexSt) (t : Str) (q : Bool) (tok : Str) (l : List Str),
        (lexAux st t q s).map (tok :: ·) = .ok l →
        (lexAux st t q (s ++ ' ' :: w)).map (tok :: ·) = (lexAux .blank [] false w).map (l ++ ·) := by
      intro st t q tok l h
      cases hr : lexAux st t q s with
      | error e => rw [hr] at h; simp [Except.map] at h
      | ok l' =>
        rw [hr] at h
        simp only [Except.map, Except.ok.injEq] at h
        subst h
        rw [ih _ _ _ _ hr, mapmap]
    intro st tok q l h
    rw [List.cons_append]
    cases st with
    | esc back => cases back <;> exact ih _ _ _ _ h
    | _ =>
      simp only [lexAux] at h ⊢
      repeat' split at h
      all_goals simp only [*, if_true, if_false, Bool.false_eq_true]
      all_goals first
        | exact ih _ _ _ _ h
        | exact ihm _ _ _ _ _ h

/-! ## dicts -/

theorem dictSet_keys {α : Type} (k : Str) (v : α) (d : Dict α) (h : (d.map (·.1)).Nodup) :
    ((dictSet k v d).map (·.1)).Nodup := by
  have mem : ∀ (d : Dict α) x, x ∈ (dictSet k v d).map (·.1) → x = k ∨ x ∈ d.map (·.1) := by
    intro d
    induction d with
    | nil => intro x hx; simp [dictSet] at hx; exact .inl hx
    | cons y d ih =>
      intro x hx
      obtain ⟨k', v'⟩ := y
      simp only [dictSet] at hx
      split at hx
      · simp only [List.map_cons, List.mem_cons] at hx ⊢
        rcases hx with rfl | hx
        · exact .inl rfl
        · exact .inr (.inr hx)
      · simp only [List.map_cons, List.mem_cons] at hx ⊢
        rcases hx with rfl | hx
        · exact .inr (.inl rfl)
        · rcases ih x hx with h | h
          · exact .inl h
          · exact .inr (.inr h)
  induction d with
  | nil => simp [dictSet]
  | cons y d ih =>
    obtain ⟨k', v'⟩ := y
    simp only [List.map_cons, List.nodup_cons] at h
    simp only [dictSet]
    split
    · rename_i he; subst he; simpa using h
    · rename_i hne
      simp only [List.map_cons, List.nodup_cons]
      refine ⟨fun hm => ?_, ih h.2⟩
      rcases mem d k' hm with h' | h'
      · exact hne h'
      · exact h.1 h'

theorem dictSet_new {α : Type} (k : Str) (v : α) (d : Dict α) (h : k ∉ d.map (·.1)) : dictSet k v d = d ++ [(k, v)] := by
  induction d with
  | nil => rfl
  | cons y d ih =>
    obtain ⟨k', v'⟩ := y
    simp only [List.map_cons, List.mem_cons, not_or] at h
    simp only [dictSet, if_neg (fun e : k' = k => h.1 e.symm), ih h.2, List.cons_append]

theorem splitOnce_append {c : Char} (k v : Str) (h : c ∉ k) : splitOnce c (k ++ c :: v) = some (k, v) := by
  induction k with
  | nil => simp [splitOnce]
  | cons d k ih =>
    simp only [List.mem_cons, not_or] at h
    have : (d == c) = false := by simp; exact fun e => h.1 e.symm
    simp [splitOnce, this, ih h.2]

theorem partsDict_append (a b : List Str) (d : Dict PVal) :
    partsDict (a ++ b) d = (partsDict a d).bind fun d => partsDict b d := by
  induction a generalizing d with
  | nil => rfl
  | cons x a ih =>
    simp only [List.cons_append, partsDict]
    split
    · rfl
    · exact ih _

/-! ## sorting -/

theorem insertKey_perm {α : Type} (x : Str × α) (d : Dict α) : (insertKey x d).Perm (x :: d) := by
  induction d with
  | nil => exact .refl _
  | cons y d ih =>
    simp only [insertKey]
    split
    · exact .refl _
    · exact (ih.cons y).trans (.swap x y d)

theorem sortKeys_perm {α : Type} (d : Dict α) : (sortKeys d).Perm d := by
  induction d with
  | nil => exact .refl _
  | cons x d ih => exact (insertKey_perm x _).trans (ih.cons x)

theorem dictGet_perm {α : Type} {d e : Dict α} (h : d.Perm e) (hn : (d.map (·.1)).Nodup) (k : Str) :
    dictGet k d = dictGet k e := by
  induction h with
  | nil => rfl
  | cons x h ih =>
    simp only [List.map_cons, List.nodup_cons] at hn
    have := ih hn.2
    unfold dictGet at this ⊢
    obtain ⟨k', v⟩ := x
    simp only [List.lookup_cons, this]
  | swap x y l =>
    obtain ⟨kx, vx⟩ := x
    obtain ⟨ky, vy⟩ := y
    simp only [List.map_cons, List.nodup_cons, List.mem_cons, not_or] at hn
    unfold dictGet
    simp only [List.lookup_cons]
    by_cases hx : k = kx
    · subst hx
      have : (k == ky) = false := by simp; exact fun e => hn.1.1 e.symm
      simp [this]
    · have : (k == kx) = false := by simp [hx]
      simp [this]
  | trans h1 h2 ih1 ih2 =>
    rw [ih1 hn, ih2 ((h1.map _).nodup_iff.1 hn)]

end Verif.Py
