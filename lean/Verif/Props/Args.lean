import Verif.Py.DictLemmas

/-!
# C25, C26: macro arguments
-/

namespace Verif.Props

open Verif Py Creole

/-! ## C25 -/

/-- A plain word: not empty, without blanks, quotes, backslashes and `=`. -/
def PlainKey (k : Str) : Prop :=
  k ≠ [] ∧ ∀ c ∈ k, c ≠ ' ' ∧ c ≠ '\t' ∧ c ≠ '\r' ∧ c ≠ '\n' ∧ c ≠ '\'' ∧ c ≠ '"' ∧ c ≠ '\\' ∧ c ≠ '='

/-- The values that survive: integers (below Python's limit for converting strings to numbers), and strings of
printable ASCII characters that are no keyword and, without the quotes around them, no number. -/
def RoundTrips : PVal → Prop
  | .int n => n.natAbs < 10 ^ 4300
  | .str s => (∀ c ∈ s, 32 ≤ c.toNat ∧ c.toNat ≤ 126) ∧ s ≠ c!"True" ∧ s ≠ c!"False" ∧ s ≠ c!"None"
    ∧ pyInt (stripP isLexQuote s) = none
  | _ => False

theorem PlainKey.plain {k : Str} (h : PlainKey k) : ∀ c ∈ k, isPlain c = true := by
  intro c hc
  have := h.2 c hc
  simp [isPlain, isLexBlank, isLexQuote, this]

theorem PlainKey.noEq {k : Str} (h : PlainKey k) : '=' ∉ k := fun hm => (h.2 _ hm).2.2.2.2.2.2.2 rfl

/-- what `shlex` leaves of a value -/
def bare : PVal → Str
  | .str s => s
  | .int n => intStr n
  | _ => []

theorem argVal_bare {v : PVal} (h : RoundTrips v) : argVal (bare v) = v := by
  cases v with
  | str s =>
    obtain ⟨_, h1, h2, h3, h4⟩ := h
    simp [argVal, bare, h1, h2, h3, h4]
  | int n =>
    have hk : ∀ w : Str, (∃ c ∈ w, c ≠ '-' ∧ c.isDigit = false) → intStr n ≠ w := by
      rintro w ⟨c, hc, hm, hd⟩ rfl
      rcases intStr_mem hc with h | h
      · exact hm h
      · rw [h] at hd; exact absurd hd (by simp)
    show argVal (intStr n) = _
    unfold argVal
    rw [if_neg (hk c!"True" ⟨'T', by decide⟩), if_neg (hk c!"False" ⟨'F', by decide⟩), if_neg (hk c!"None" ⟨'N', by decide⟩)]
    rw [stripP_intStr n (by decide) ?_, pyInt_intStr h]
    intro c hc
    have := digit_plain hc
    exact (isPlain_iff.1 this).2.1
  | bool b => exact absurd h id
  | none => exact absurd h id

/-- one `key=value` -/
theorem lex_part {k : Str} {v : PVal} (hk : PlainKey k) (hv : RoundTrips v) (r : Str) :
    ∃ q, lexAux .blank [] false ((k ++ '=' :: jsonVal v) ++ r) = lexAux .word (k ++ '=' :: bare v) q r := by
  have hk' : ∀ c ∈ k ++ ['='], isPlain c = true := by
    intro c hc
    simp only [List.mem_append, List.mem_singleton] at hc
    rcases hc with hc | rfl
    · exact hk.plain c hc
    · decide
  rw [show (k ++ '=' :: jsonVal v) ++ r = (k ++ ['=']) ++ (jsonVal v ++ r) by simp, lex_start _ (by simp) hk']
  cases v with
  | str s =>
    refine ⟨true, ?_⟩
    simp only [jsonVal, jsonStr, List.cons_append, List.append_assoc, List.nil_append]
    rw [lexAux]
    simp only [show isLexBlank '"' = false by decide, show isLexQuote '"' = true by decide, Bool.false_eq_true, if_false,
      if_true]
    rw [lex_json s (fun c hc => by have := hv.1 c hc; simp [isPrintable, this])]
    simp [bare]
  | int n =>
    refine ⟨false, ?_⟩
    rw [jsonVal, lex_word _ (intStr_plain n)]
    simp [bare]
  | bool b => exact absurd hv id
  | none => exact absurd hv id

theorem lex_parts (d : Dict PVal) (hd : ∀ kv ∈ d, PlainKey kv.1 ∧ RoundTrips kv.2) :
    shlexSplit (join c!" " (d.map fun (k, v) => k ++ '=' :: jsonVal v))
      = .ok (d.map fun (k, v) => k ++ '=' :: bare v) := by
  unfold shlexSplit
  induction d with
  | nil => rfl
  | cons x d ih =>
    obtain ⟨k, v⟩ := x
    obtain ⟨hk, hv⟩ := hd (k, v) (by simp)
    have ih := ih (fun kv h => hd kv (by simp [h]))
    cases d with
    | nil =>
      obtain ⟨q, hq⟩ := lex_part hk hv []
      simp only [List.map_cons, List.map_nil, join, List.append_nil] at hq ⊢
      rw [hq, lexAux]
      simp
    | cons y d =>
      simp only [List.map_cons, join] at ih ⊢
      obtain ⟨q, hq⟩ := lex_part hk hv (c!" " ++ join c!" " ((y.1 ++ '=' :: jsonVal y.2) :: d.map fun (k, v) => k ++ '=' :: jsonVal v))
      rw [List.append_assoc, hq, List.cons_append, List.nil_append, lexAux]
      simp only [show isLexBlank ' ' = true by decide, if_true]
      rw [ih]
      simp [Except.map]

theorem parts_ok (d : Dict PVal) (hd : ∀ kv ∈ d, PlainKey kv.1 ∧ RoundTrips kv.2) (acc : Dict PVal)
    (hn : ((acc ++ d).map (·.1)).Nodup) : partsDict (d.map fun (k, v) => k ++ '=' :: bare v) acc = .ok (acc ++ d) := by
  induction d generalizing acc with
  | nil => simp [partsDict]
  | cons x d ih =>
    obtain ⟨k, v⟩ := x
    obtain ⟨hk, hv⟩ := hd (k, v) (by simp)
    simp only [List.map_cons, partsDict, splitOnce_append k (bare v) hk.noEq, argVal_bare hv]
    have hnew : k ∉ acc.map (·.1) := by
      simp only [List.map_append, List.map_cons, List.nodup_append] at hn
      intro h
      exact hn.2.2 k h k (by simp) rfl
    rw [dictSet_new k v acc hnew, ih (fun kv h => hd kv (by simp [h])) _ (by simpa using hn)]
    simp

/-- **C25.** `string2dict(dict2string(d)) == d`: the same keys with the same values. -/
theorem C25_args_round_trip (d : Dict PVal) (hn : (d.map (·.1)).Nodup)
    (hd : ∀ kv ∈ d, PlainKey kv.1 ∧ RoundTrips kv.2) :
    ∃ d', string2dict (dict2string d) = .ok d' ∧ (d'.map (·.1)).Nodup ∧ d'.Perm d
      ∧ ∀ k, dictGet k d' = dictGet k d := by
  have hp := sortKeys_perm d
  have hd' : ∀ kv ∈ sortKeys d, PlainKey kv.1 ∧ RoundTrips kv.2 := fun kv h => hd kv (hp.mem_iff.1 h)
  have hn' : ((sortKeys d).map (·.1)).Nodup := (hp.map _).nodup_iff.2 hn
  refine ⟨sortKeys d, ?_, hn', hp, fun k => dictGet_perm hp hn' k⟩
  unfold string2dict dict2string
  rw [lex_parts _ hd', ok_bind, parts_ok _ hd' [] (by simpa using hn')]
  rfl

/-- the hypotheses hold for a dict with blanks, quotes, backslashes and `=` in its values -/
example : let d : Dict PVal := [(c!"title", .str c!"say \"hi\" = \\o/"), (c!"width", .int (-42)), (c!"a", .str [])]
    ((d.map (·.1)).Nodup ∧ ∀ kv ∈ d, PlainKey kv.1 ∧ RoundTrips kv.2)
    ∧ dict2string d = c!"a=\"\" title=\"say \\\"hi\\\" = \\\\o/\" width=-42" := by
  refine ⟨⟨by decide, ?_⟩, by decide +kernel⟩
  have hs : ∀ s : Str, (∀ c ∈ s, 32 ≤ c.toNat ∧ c.toNat ≤ 126) → s ≠ c!"True" → s ≠ c!"False" → s ≠ c!"None" →
    pyInt (stripP isLexQuote s) = none → RoundTrips (.str s) := fun s a b c d e => ⟨a, b, c, d, e⟩
  have hi : RoundTrips (.int (-42)) := show (42 : Nat) < 10 ^ 4300 from Nat.lt_of_lt_of_le (show 42 < 10 ^ 2 by decide)
    (Nat.pow_le_pow_right (by decide) (by decide))
  have hk : ∀ k : Str, k ≠ [] → (∀ c ∈ k, c ≠ ' ' ∧ c ≠ '\t' ∧ c ≠ '\r' ∧ c ≠ '\n' ∧ c ≠ '\'' ∧ c ≠ '"' ∧ c ≠ '\\' ∧ c ≠ '=')
    → PlainKey k := fun k a b => ⟨a, b⟩
  intro kv h
  simp only [List.mem_cons, List.not_mem_nil, or_false] at h
  rcases h with rfl | rfl | rfl
  · exact ⟨hk _ (by decide) (by decide), hs _ (by decide +kernel) (by decide) (by decide) (by decide) (by decide +kernel)⟩
  · exact ⟨hk _ (by decide) (by decide), hi⟩
  · exact ⟨hk _ (by decide) (by decide), hs _ (by decide) (by decide) (by decide) (by decide) (by decide +kernel)⟩

/-- **C25, the limits of the round trip.** Booleans, `None`, strings that read like a number and non-ASCII or control characters
do not come back. -/
theorem C25_round_trip_limits :
    string2dict (dict2string [(c!"a", .bool true)]) = .ok [(c!"a", .str c!"true")]
    ∧ string2dict (dict2string [(c!"a", .none)]) = .ok [(c!"a", .str c!"null")]
    ∧ string2dict (dict2string [(c!"a", .str c!"12")]) = .ok [(c!"a", .int 12)]
    ∧ string2dict (dict2string [(c!"a", .str c!"None")]) = .ok [(c!"a", .none)]
    ∧ string2dict (dict2string [(c!"a", .str c!"é")]) = .ok [(c!"a", .str c!"\\u00e9")]
    ∧ string2dict (dict2string [(c!"a", .str c!"x\ny")]) = .ok [(c!"a", .str c!"x\\ny")] := by
  refine ⟨?_, ?_, ?_, ?_, ?_, ?_⟩ <;> decide +kernel

/-! ## C26 -/

theorem partsDict_nodup (l : List Str) (d : Dict PVal) (h : (d.map (·.1)).Nodup) {d' : Dict PVal}
    (hr : partsDict l d = .ok d') : (d'.map (·.1)).Nodup := by
  induction l generalizing d with
  | nil => simp only [partsDict, Except.ok.injEq] at hr; exact hr ▸ h
  | cons x l ih =>
    simp only [partsDict] at hr
    split at hr
    · exact absurd hr (by simp)
    · exact ih _ (dictSet_keys _ _ _ h) hr

/-- **C26.** Every string gives a dict with unique keys, or `ValueError`. -/
theorem C26_dict_or_valueError (s : Str) :
    string2dict s = .error .valueError ∨ ∃ d, string2dict s = .ok d ∧ (d.map (·.1)).Nodup := by
  cases h : string2dict s with
  | error e => rw [string2dict_err h]; exact .inl rfl
  | ok d =>
    refine .inr ⟨d, rfl, ?_⟩
    unfold string2dict at h
    cases hs : shlexSplit s with
    | error e => rw [hs] at h; simp [bind, Except.bind] at h
    | ok parts =>
      rw [hs, ok_bind] at h
      exact partsDict_nodup _ _ (by simp) h

/-- **C26, the last value wins.** Whatever the arguments before (`s`), adding ` key=value` to them sets `key`
(whether or not `s` has set it already) to `value` as it would be alone, and changes no other key. -/
theorem C26_last_wins (s : Str) (d : Dict PVal) (k v : Str) (hs : string2dict s = .ok d) (hk : PlainKey k)
    (hv : ∀ c ∈ v, c ≠ ' ' ∧ c ≠ '\t' ∧ c ≠ '\r' ∧ c ≠ '\n' ∧ c ≠ '\'' ∧ c ≠ '"' ∧ c ≠ '\\') :
    ∃ d' x, string2dict (s ++ ' ' :: k ++ '=' :: v) = .ok d'
      ∧ string2dict (k ++ '=' :: v) = .ok [(k, x)]
      ∧ dictGet k d' = some x ∧ ∀ k', k' ≠ k → dictGet k' d' = dictGet k' d := by
  have hw : ∀ c ∈ k ++ '=' :: v, isPlain c = true := by
    intro c hc
    simp only [List.mem_append, List.mem_cons] at hc
    rcases hc with hc | rfl | hc
    · exact hk.plain c hc
    · decide
    · have := hv c hc
      simp [isPlain, isLexBlank, isLexQuote, this]
  have hlex : lexAux .blank [] false (k ++ '=' :: v) = .ok [k ++ '=' :: v] := by
    have := lex_start (k ++ '=' :: v) (by simp) hw []
    rw [List.append_nil] at this
    rw [this, lexAux]; simp
  refine ⟨dictSet k (argVal v) d, argVal v, ?_, ?_, dictGet_dictSet_self _ _ _, fun k' hne => dictGet_dictSet_ne hne _ _⟩
  · unfold string2dict at hs ⊢
    cases hp : shlexSplit s with
    | error e => rw [hp] at hs; simp [bind, Except.bind] at hs
    | ok parts =>
      rw [hp, ok_bind] at hs
      unfold shlexSplit at hp
      have := lex_append_blank (k ++ '=' :: v) s _ _ _ _ hp
      unfold shlexSplit
      rw [show s ++ ' ' :: k ++ '=' :: v = s ++ ' ' :: (k ++ '=' :: v) by simp, this, hlex]
      simp only [Except.map]
      rw [ok_bind, partsDict_append, hs]
      simp [Except.bind, partsDict, splitOnce_append k v hk.noEq]
  · unfold string2dict shlexSplit
    rw [hlex, ok_bind]
    simp [partsDict, splitOnce_append k v hk.noEq, dictSet]

/-- the hypotheses hold with a repeated key -/
example : string2dict c!"a='b c' d=1" = .ok [(c!"a", .str c!"b c"), (c!"d", .int 1)]
    ∧ string2dict c!"a='b c' d=1 a=5" = .ok [(c!"a", .int 5), (c!"d", .int 1)] := by
  constructor <;> decide +kernel

/-- and unbalanced quotes or words without `=` do raise -/
example : string2dict c!"a='b" = .error .valueError ∧ string2dict c!"a" = .error .valueError := by
  constructor <;> decide +kernel

end Verif.Props
